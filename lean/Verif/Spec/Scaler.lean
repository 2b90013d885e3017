import Verif.Spec.Moments
import Verif.Spec.Percentile
import Mathlib.Algebra.BigOperators.Group.Finset.Basic
import Mathlib.Algebra.Order.Field.Rat
import Mathlib.Algebra.Order.Group.Unbundled.Abs
import Mathlib.Data.Fintype.Basic
/-!
# Specification of features and norms
-/
namespace Heat.Spec
variable {n : Nat}

/-- Feature `j` of a table of data points. -/
def feature (rows : List (Fin n → Rat)) (j : Fin n) : List Rat := rows.map fun x => x j

/-- `m` is the smallest element. -/
def IsMin (l : List Rat) (m : Rat) : Prop := m ∈ l ∧ ∀ x ∈ l, m ≤ x

/-- `m` is the largest element. -/
def IsMax (l : List Rat) (m : Rat) : Prop := m ∈ l ∧ ∀ x ∈ l, x ≤ m

/-- `s` is the non-negative square root of `v`. -/
def IsSqrt (v s : Rat) : Prop := 0 ≤ s ∧ s * s = v

/-- The norms of data points. -/
inductive NormKind
  | l1 | l2 | linf
  deriving DecidableEq

/-- `v` is the norm of `x`. -/
def IsNorm (k : NormKind) (x : Fin n → Rat) (v : Rat) : Prop :=
  match k with
  | .l1 => v = ∑ j, |x j|
  | .l2 => IsSqrt (∑ j, x j * x j) v
  | .linf => (∃ j, v = |x j|) ∧ ∀ j, |x j| ≤ v

end Heat.Spec
