/-!
# Discrete differences
-/
namespace Heat.Spec

/-- Differences of neighbouring elements: `out[i] = a[i + 1] - a[i]`. -/
def diff1 {α : Type} [Sub α] : List α → List α
  | a :: b :: t => (b - a) :: diff1 (b :: t)
  | _ => []

/-- The `n`-th difference. -/
def nthDiff {α : Type} [Sub α] : Nat → List α → List α
  | 0, l => l
  | n + 1, l => diff1 (nthDiff n l)

end Heat.Spec
