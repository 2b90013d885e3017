import Mathlib.LinearAlgebra.Matrix.DotProduct
import Mathlib.Data.Real.Sqrt
/-!
# Conjugate gradients (heat/core/linalg/solver.py:16-65)

Exact arithmetic over the reals, on whole vectors: the distributed products are the subject of C67, C72-C74. A value that is not a number is `none`.
-/
namespace Heat
open Matrix

/-- The loop (solver.py:46-60) with `m` passes left; `rs` is `rsold`. The division `rsold / (p · Ap)` by zero gives no number, and then neither does any later value: no comparison succeeds and the loop ends with it. -/
noncomputable def cgLoop {n : Nat} (A : Matrix (Fin n) (Fin n) ℝ) : Nat → (Fin n → ℝ) → (Fin n → ℝ) → (Fin n → ℝ) → ℝ → Option (Fin n → ℝ)
  | 0, x, _, _, _ => some x
  | m + 1, x, r, p, rs =>
    if p ⬝ᵥ (A *ᵥ p) = 0 then none
    else
      let alpha := rs / (p ⬝ᵥ (A *ᵥ p))
      let x' := x + alpha • p
      let r' := r - alpha • (A *ᵥ p)
      let rs' := r' ⬝ᵥ r'
      if Real.sqrt rs' < 1 / 10 ^ 10 then some x'
      else cgLoop A m x' r' (r' + (rs' / rs) • p) rs'

/-- `cg(A, b, x0)` (solver.py:41-65): `len(b)` passes. -/
noncomputable def cg {n : Nat} (A : Matrix (Fin n) (Fin n) ℝ) (b x0 : Fin n → ℝ) : Option (Fin n → ℝ) :=
  let r := b - A *ᵥ x0
  cgLoop A n x0 r r (r ⬝ᵥ r)


end Heat
