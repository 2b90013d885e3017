import Verif.Model.Chunk
import Verif.Spec.ND
import Mathlib.Analysis.RCLike.Basic
import Mathlib.LinearAlgebra.Matrix.ConjTranspose
import Mathlib.Analysis.SpecialFunctions.Log.Basic
/-!
# Test matrices (heat/utils/data/matrixgallery.py)

Exact arithmetic; random numbers are arguments.
-/
namespace Heat
open Matrix

/-- A range of indices `arange(n, split=...)` on process `r` (matrixgallery.py:104-115): first index and length. -/
def parterRange (n P : Nat) (distributed : Bool) (r : Nat) : Nat × Nat := if distributed then ((chunkRange n r P).1, (chunkRange n r P).2 - (chunkRange n r P).1) else (0, n)

/-- `parter(n, split)` on process `r` (matrixgallery.py:104-120): columns from `II`, rows from `JJ`; one of them is distributed. -/
def parterLoc (n P : Nat) (split : Option Nat) (r : Nat) : NArr ℚ :=
  let II := parterRange n P (split == some 1) r
  let JJ := parterRange n P (split == some 0) r
  ⟨2, fun k => if k = 0 then JJ.2 else II.2, fun idx => 1 / (((II.1 + idx 1 : Nat) : ℚ) - ((JJ.1 + idx 0 : Nat) : ℚ) + 1 / 2)⟩

/-- `parter` as an array; other split values are refused (matrixgallery.py:116-117). -/
def parter (n P : Nat) (split : Option Int) : Except Err (DND ℚ) :=
  match split with
  | none => .ok ⟨[n, n], none, parterLoc n P none, some true⟩
  | some s => if s = 0 then .ok ⟨[n, n], some 0, parterLoc n P (some 0), some true⟩ else if s = 1 then .ok ⟨[n, n], some 1, parterLoc n P (some 1), some true⟩ else .error .valueError

/-- `hermitian(n)` for the random matrix `R` (matrixgallery.py:58-71). -/
noncomputable def hermitianMat {K : Type} [RCLike K] {n : Nat} (positiveDefinite : Bool) (R : Matrix (Fin n) (Fin n) K) : Matrix (Fin n) (Fin n) K :=
  if positiveDefinite then ((1 : K) / (n : K)) • (R * Rᴴ) else R + Rᴴ

/-- `random_orthogonal` (matrixgallery.py:123-141): the first factor of a qr decomposition of a random matrix. -/
def randomOrthogonal (qr : ∀ m n, Matrix (Fin m) (Fin n) ℝ → Matrix (Fin m) (Fin n) ℝ) {m n : Nat} (R : Matrix (Fin m) (Fin n) ℝ) : Except Err (Matrix (Fin m) (Fin n) ℝ) :=
  if n > m then .error .runtimeError else .ok (qr m n R)

/-- `random_known_singularvalues` (matrixgallery.py:144-177) for the random matrices `R1` and `R2`: the matrix and its factors. -/
def knownSingular (qr : ∀ m n, Matrix (Fin m) (Fin n) ℝ → Matrix (Fin m) (Fin n) ℝ) {m n r : Nat} (R1 : Matrix (Fin m) (Fin r) ℝ) (R2 : Matrix (Fin n) (Fin r) ℝ) (s : Fin r → ℝ) :
    Except Err (Matrix (Fin m) (Fin n) ℝ × Matrix (Fin m) (Fin r) ℝ × (Fin r → ℝ) × Matrix (Fin n) (Fin r) ℝ) :=
  if r > min m n then .error .runtimeError
  else
    match randomOrthogonal qr R1, randomOrthogonal qr R2 with
    | .ok U, .ok V => .ok (U * (Matrix.diagonal s * Vᵀ), U, s, V)
    | .error e, _ => .error e
    | _, .error e => .error e

/-- `random_known_rank` (matrixgallery.py:180-206) for random numbers `x`: `order` is the permutation that sorts the values in descending order. -/
def knownRank (qr : ∀ m n, Matrix (Fin m) (Fin n) ℝ → Matrix (Fin m) (Fin n) ℝ) (quantile : ℝ → ℝ) {m n r : Nat} (R1 : Matrix (Fin m) (Fin r) ℝ) (R2 : Matrix (Fin n) (Fin r) ℝ) (x : Fin r → ℝ) (order : Equiv.Perm (Fin r)) :=
  if r > min m n then .error Err.runtimeError else knownSingular qr R1 R2 fun i => quantile (x (order i))

/-- The default quantile function (matrixgallery.py:184). -/
noncomputable def expQuantile (x : ℝ) : ℝ := - Real.log x

end Heat
