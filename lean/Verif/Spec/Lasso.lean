import Mathlib.Algebra.BigOperators.Group.Finset.Basic
import Mathlib.Algebra.Order.Ring.Defs
import Mathlib.Algebra.Field.Basic
import Mathlib.Algebra.Order.Group.Unbundled.Abs
import Mathlib.Data.Fintype.Basic
import Mathlib.Data.Fin.Basic
/-!
# Specification of the LASSO objective
-/
namespace Heat.Spec
variable {𝕜 : Type} [Field 𝕜] [LinearOrder 𝕜] {n : Nat}

/-- `x · w`. -/
def innerProd (x w : Fin n → 𝕜) : 𝕜 := ∑ j, x j * w j

/-- The documented objective `E(w) = 1/(2m) ‖y - X w‖² + λ ‖(w₁, w₂, ...)‖₁`: the first coefficient is not penalised.  A sample is a pair of a row of `X` and an entry of `y`. -/
def lassoObjective (lam : 𝕜) (samples : List ((Fin n → 𝕜) × 𝕜)) (w : Fin n → 𝕜) : 𝕜 :=
  (samples.map fun s => (s.2 - innerProd s.1 w) ^ 2).sum / (2 * (samples.length : 𝕜)) + lam * ∑ j : Fin n, if j.val = 0 then 0 else |w j|

end Heat.Spec
