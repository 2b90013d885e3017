import Verif.Spec.Dist
/-!
# What `outer` has to return
-/
namespace Heat.Spec

/-- `lines` (along the travelling axis) is the part of the outer product of `X` and `Y` that belongs to the elements `start … start + k - 1` of `X`:
line `j` at position `i` is `f X[start + i] Y[j]`. -/
def IsOuterPart {α β γ : Type} (f : α → β → γ) (X : List α) (start k : Nat) (Y : List β) (lines : List (List γ)) : Prop :=
  lines.length = Y.length ∧
    ∀ j, (hj : j < Y.length) → ∃ l, lines[j]? = some l ∧ l.length = k ∧
      ∀ i, (hi : i < k) → ∃ x, X[start + i]? = some x ∧ l[i]? = some (f x Y[j])

end Heat.Spec
