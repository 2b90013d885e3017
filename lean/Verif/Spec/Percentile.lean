import Mathlib.Data.Rat.Floor
import Mathlib.Data.List.Count
/-!
# Order statistics and percentiles
-/
namespace Heat.Spec

/-- `x` is the `k`-th smallest element (counted from 0) of the list: at most `k` elements are smaller and more than `k` elements are at most `x`. -/
def IsOrderStat (l : List Rat) (k : Nat) (x : Rat) : Prop := x ∈ l ∧ l.countP (· < x) ≤ k ∧ k < l.countP (· ≤ x)

/-- The five ways to choose between two neighbours. -/
inductive Interp
  | linear | lower | higher | midpoint | nearest
  deriving DecidableEq

/-- `y` is the `q`-th percentile: the position `q/100 * (n - 1)` lies between two order statistics `a` and `b`. -/
def IsPercentile (i : Interp) (l : List Rat) (q y : Rat) : Prop :=
  let t : Rat := q / 100 * ((l.length : Rat) - 1)
  ∃ a b, IsOrderStat l ⌊t⌋.toNat a ∧ IsOrderStat l ⌈t⌉.toNat b ∧
    match i with
    | .linear => y = a + (b - a) * (t - ⌊t⌋)
    | .lower => y = a
    | .higher => y = b
    | .midpoint => y = (a + b) / 2
    | .nearest => (t - ⌊t⌋ < 1 / 2 → y = a) ∧ (1 / 2 < t - ⌊t⌋ → y = b) ∧ (t - ⌊t⌋ = 1 / 2 → y = if ⌊t⌋ % 2 = 0 then a else b)

end Heat.Spec
