import Verif.Spec.Dist
/-!
# Specification vocabulary: sorting
-/
namespace Heat.Spec

/-- `lt` is a strict ordering by value in which "neither is smaller" is transitive (e.g. `<` or `>` on integers). -/
structure WeakOrder {κ : Type} (lt : κ → κ → Bool) : Prop where
  irrefl : ∀ a, lt a a = false
  trans : ∀ a b c, lt a b = true → lt b c = true → lt a c = true
  ntrans : ∀ a b c, lt a b = false → lt b c = false → lt a c = false

/-- No later entry of the list is smaller than an earlier one. -/
def SortedBy {κ : Type} (lt : κ → κ → Bool) (l : List κ) : Prop := l.Pairwise fun a b => lt b a = false

/-- The values of a list together with their positions: `[(v0, 0), (v1, 1), ...]`. -/
def withPositions {κ : Type} (l : List κ) : List (κ × Nat) := l.zipIdx

end Heat.Spec
