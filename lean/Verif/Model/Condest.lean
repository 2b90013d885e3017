import Verif.Model.Basic
import Mathlib.LinearAlgebra.Matrix.NonsingularInverse
import Mathlib.Data.Real.Sqrt
/-!
# Model of `condest` (heat/core/linalg/basics.py:77-162)

The factorisations, the triangular solve, the products and the norms it is composed of are C122-C125, C63 ff. and C157; here they are the exact operations.
-/
namespace Heat
open Matrix

/-- The parameters (basics.py:105-127): `p` (none: 2), the name of the algorithm and `params["nsamples"]`; the number of samples. -/
def condestParams (p : Option Int) (randomized : Bool) (nsamples : Option Int) : Except Err Int :=
  if p.getD 2 ≠ 2 then .error .valueError
  else if !randomized then .error .notImplemented
  else
    match nsamples with
    | none => .ok 10
    | some k => if k ≤ 0 then .error .valueError else .ok k

/-- The squared Frobenius norm. -/
def frobSq {m n : Nat} (M : Matrix (Fin m) (Fin n) ℝ) : ℝ := ∑ i, ∑ j, M i j ^ 2

/-- The returned number (basics.py:150-156) for the factor `R`, the samples `Q` and `X = solve_triangular(R, Q)`; `m` rows, `ns` samples. -/
noncomputable def condestValue {n k : Nat} (m ns : Nat) (R : Matrix (Fin n) (Fin n) ℝ) (Q X : Matrix (Fin n) (Fin k) ℝ) : ℝ :=
  Real.sqrt (frobSq (R * Q)) * Real.sqrt ((m : ℝ) / ns) * Real.sqrt (frobSq X)

/-- What a run of `condest` does for an `m × n` matrix with `n ≤ m` (basics.py:136-158): `R` is the factor of a QR factorisation, `Q` has `min n ns` orthonormal columns, `X` solves the
triangular system. -/
structure CondestRun {m n : Nat} (A : Matrix (Fin m) (Fin n) ℝ) (ns : Nat) where
  Q0 : Matrix (Fin m) (Fin n) ℝ
  R : Matrix (Fin n) (Fin n) ℝ
  Q : Matrix (Fin n) (Fin (min n ns)) ℝ
  X : Matrix (Fin n) (Fin (min n ns)) ℝ
  fact : A = Q0 * R
  orth : Q0ᵀ * Q0 = 1
  samples : Qᵀ * Q = 1
  solve : R * X = Q

/-- The result of the run. -/
noncomputable def CondestRun.est {m n ns : Nat} {A : Matrix (Fin m) (Fin n) ℝ} (c : CondestRun A ns) : ℝ := condestValue m ns c.R c.Q c.X

end Heat
