import Verif.Model.Dist
import Verif.Spec.Dist
import Verif.Spec.Lasso
/-!
# `Lasso.fit` (heat/regression/lasso.py:120-176)

Samples distributed over `P` processes: `d r` are the rows of rank `r` with their targets.  Exact arithmetic in an ordered field.
-/
namespace Heat
open Spec
variable {𝕜 : Type} [Field 𝕜] [LinearOrder 𝕜] {n : Nat}

/-- `soft_threshold` (lasso.py:90-106). -/
def softThreshold (lam rho : 𝕜) : 𝕜 := if rho < -lam then rho + lam else if rho > lam then rho - lam else 0

/-- `rho` for coordinate `j` (lasso.py:156-161): local sums over the ranks, divided by the number of rows. -/
def lassoRho (P : Nat) (d : Nat → List ((Fin n → 𝕜) × 𝕜)) (theta : Fin n → 𝕜) (j : Fin n) : 𝕜 :=
  ((List.range P).map fun r => ((d r).map fun s => s.1 j * (s.2 - innerProd s.1 theta + theta j * s.1 j)).sum).sum / (((List.range P).map fun r => (d r).length).sum : 𝕜)

/-- The update of coordinate `j` (lasso.py:155-167). -/
def lassoCoord (lam : 𝕜) (P : Nat) (d : Nat → List ((Fin n → 𝕜) × 𝕜)) (theta : Fin n → 𝕜) (j : Fin n) : Fin n → 𝕜 := fun i =>
  if i = j then (if j.val = 0 then lassoRho P d theta j else softThreshold lam (lassoRho P d theta j)) else theta i

/-- One sweep over the coordinates (lasso.py:155-167). -/
def lassoSweep (lam : 𝕜) (P : Nat) (d : Nat → List ((Fin n → 𝕜) × 𝕜)) (theta : Fin n → 𝕜) : Fin n → 𝕜 := (List.finRange n).foldl (lassoCoord lam P d) theta

/-- The loop over the iterations (lasso.py:151-174); `small old new` is the convergence test `rmse(theta, theta_old) < tol` (a square root of a mean; false if `tol` is None). Returns `theta` and the number of iterations. -/
def lassoLoop (lam : 𝕜) (small : (Fin n → 𝕜) → (Fin n → 𝕜) → Bool) (P : Nat) (d : Nat → List ((Fin n → 𝕜) × 𝕜)) : Nat → (Fin n → 𝕜) → Nat → (Fin n → 𝕜) × Nat
  | 0, theta, i => (theta, i)
  | k + 1, theta, i =>
    let new := lassoSweep lam P d theta
    if small new theta then (new, i + 1) else lassoLoop lam small P d k new (i + 1)

/-- `Lasso.fit`: starts with zero coefficients (lasso.py:148-176). -/
def lassoFit (lam : 𝕜) (small : (Fin n → 𝕜) → (Fin n → 𝕜) → Bool) (maxIter P : Nat) (d : Nat → List ((Fin n → 𝕜) × 𝕜)) : (Fin n → 𝕜) × Nat := lassoLoop lam small P d maxIter 0 0

/-- Rows of `X_j` and of `y - y_est` for replicated data of `m` rows on `P` processes (lasso.py:156-161): `X_j` is built with `is_split=0` from the whole local array. -/
def lassoReplicatedRows (m P : Nat) : Nat × Nat := (((List.range P).map fun _ => m).sum, m)

/-- Broadcasting two columns of `a` and `b` rows (stride_tricks.broadcast_shape). -/
def broadcastRows (a b : Nat) : Except Err Nat := if a = b then .ok a else if a = 1 then .ok b else if b = 1 then .ok a else .error .valueError

end Heat
