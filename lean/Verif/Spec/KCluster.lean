import Mathlib.Algebra.BigOperators.Group.Finset.Basic
import Mathlib.Algebra.Order.Ring.Defs
import Mathlib.Algebra.Field.Basic
import Mathlib.Data.Fintype.Basic
import Mathlib.Algebra.Order.Group.Unbundled.Abs
/-!
# Specification vocabulary: clustering of points with `m` coordinates
-/
namespace Heat.Spec
variable {𝕜 : Type} [Field 𝕜] {m : Nat}

/-- Squared Euclidean distance. -/
def sqDist (x y : Fin m → 𝕜) : 𝕜 := ∑ j, (x j - y j) ^ 2

/-- Manhattan distance. -/
def l1Dist [LinearOrder 𝕜] (x y : Fin m → 𝕜) : 𝕜 := ∑ j, |x j - y j|

/-- The clustering objective: sum over the samples of the squared distance to the closest centre. -/
def sse [LinearOrder 𝕜] (samples centers : List (Fin m → 𝕜)) : 𝕜 := (samples.map fun x => ((centers.map (sqDist x)).min?.getD 0)).sum

/-- Mean of a list of points. -/
def meanPoint (l : List (Fin m → 𝕜)) : Fin m → 𝕜 := fun j => (l.map fun x => x j).sum / (l.length : 𝕜)

end Heat.Spec
