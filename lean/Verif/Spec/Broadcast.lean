/-!
# Specification: NumPy broadcasting of shapes
Dimensions are counted from the right; a missing dimension counts as 1.
-/
namespace Heat.Spec

/-- `dimR s i` is the `i`-th dimension from the right, 1 if the shape has no such dimension. -/
def dimR (s : List Nat) (i : Nat) : Nat := (s.reverse[i]?).getD 1

/-- Two shapes can be broadcast together: right-aligned dimensions agree or one of them is 1. -/
def Compatible (a b : List Nat) : Prop :=
  ∀ i, dimR a i = dimR b i ∨ dimR a i = 1 ∨ dimR b i = 1

/-- `c` is the NumPy broadcast shape of all the shapes in `ss`: as many dimensions as the longest one; in
each position, every operand has either `c`'s dimension or 1, and a `c` dimension other than 1 is some
operand's. -/
def IsBroadcast (ss : List (List Nat)) (c : List Nat) : Prop :=
  (∀ s ∈ ss, s.length ≤ c.length) ∧ (c = [] ∨ ∃ s ∈ ss, s.length = c.length) ∧
  ∀ i, (∀ s ∈ ss, dimR s i = 1 ∨ dimR s i = dimR c i) ∧ (dimR c i = 1 ∨ ∃ s ∈ ss, dimR s i = dimR c i)

end Heat.Spec
