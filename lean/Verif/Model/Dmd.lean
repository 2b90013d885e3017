import Verif.Model.Basic
import Mathlib.LinearAlgebra.Matrix.NonsingularInverse
import Mathlib.Data.Complex.Basic
import Mathlib.Data.Matrix.ColumnRowPartitioned
/-!
# Dynamic mode decomposition (heat/decomposition/dmd.py)

Exact arithmetic; the arrays are whole matrices (their distribution is that of svd, matmul, resplit: C64, C134, C13).  The singular value decomposition and the eigendecomposition of the reduced matrix are parameters: the theorems
say what is needed of them.
-/
namespace Heat
open Matrix
variable {K : Type} [Field K]

/-- The arguments of the constructor; types are not modelled. -/
structure DmdArgs (K : Type) where
  solver : String
  rank : Option Int
  tol : Option K

/-- The checks in the constructor, which are the same for `DMD` and `DMDc` (dmd.py:84-127, 413-456). -/
def dmdInit [LinearOrder K] (a : DmdArgs K) : Except Err Unit :=
  if a.solver ∉ ["full", "hierarchical", "randomized"] then .error .valueError
  else if a.solver = "full" ∧ a.rank.isSome ∧ a.tol.isSome then .error .valueError
  else if a.solver = "hierarchical" ∧ a.rank.isNone ∧ a.tol.isNone then .error .valueError
  else if a.solver = "hierarchical" ∧ a.rank.isSome ∧ a.tol.isSome then .error .valueError
  else if a.solver = "randomized" ∧ a.rank.isNone then .error .valueError
  else if a.solver = "randomized" ∧ a.tol.isSome then .error .valueError
  else if (match a.rank with | some r => decide (r < 1) | none => false) then .error .valueError
  else if (match a.tol with | some t => decide (t ≤ 0) | none => false) then .error .valueError
  else .ok ()

/-- `n_modes_` with the full decomposition (dmd.py:164-176, 518-538): the running sums of squares that do not exceed `(1 - tol)` times the total, plus one; the rank; or all. -/
def dmdModes [LinearOrder K] (rank : Option Nat) (tol : Option K) (S : List K) : Nat :=
  match tol with
  | some t => ((List.range S.length).filter fun i => decide (((S.take (i + 1)).map fun s => s * s).sum ≤ (1 - t) * (S.map fun s => s * s).sum)).length + 1
  | none => match rank with
    | some r => r
    | none => S.length

/-- `X[:, :-1]`. -/
def headCols {n m : Nat} (X : Matrix (Fin n) (Fin (m + 1)) K) : Matrix (Fin n) (Fin m) K := X.submatrix id Fin.castSucc

/-- `X[:, 1:]`. -/
def tailCols {n m : Nat} (X : Matrix (Fin n) (Fin (m + 1)) K) : Matrix (Fin n) (Fin m) K := X.submatrix id Fin.succ

/-- `U[:, :k]`; no error if `k` exceeds the number of columns. -/
def takeCols {n r : Nat} (U : Matrix (Fin n) (Fin r) K) (k : Nat) : Matrix (Fin n) (Fin (min k r)) K := U.submatrix id (Fin.castLE (Nat.min_le_right k r))

/-- `Vt[:k, :]`. -/
def takeRows {m r : Nat} (V : Matrix (Fin r) (Fin m) K) (k : Nat) : Matrix (Fin (min k r)) (Fin m) K := V.submatrix (Fin.castLE (Nat.min_le_right k r)) id

/-- `S[:k]`. -/
def takeVals {r : Nat} (S : Fin r → K) (k : Nat) : Fin (min k r) → K := fun i => S (Fin.castLE (Nat.min_le_right k r) i)

/-- `M / S`: every column is divided by its value. -/
def divCols {n r : Nat} (A : Matrix (Fin n) (Fin r) K) (S : Fin r → K) : Matrix (Fin n) (Fin r) K := Matrix.of fun i j => A i j / S j

/-- `rom_transfer_matrix_` of `DMD` (dmd.py:177-179, 210-217), for `U, S, Vt` the decomposition of `X[:, :-1]` and `k` modes. -/
def dmdTransfer {n m r : Nat} (X : Matrix (Fin n) (Fin (m + 1)) K) (U : Matrix (Fin n) (Fin r) K) (S : Fin r → K) (Vt : Matrix (Fin r) (Fin m) K) (k : Nat) : Matrix (Fin (min k r)) (Fin (min k r)) K :=
  divCols ((takeCols U k)ᵀ * tailCols X * (takeRows Vt k)ᵀ) (takeVals S k)

/-- `predict_next(x, n_steps)` for the states in the columns of `x` (dmd.py:253-258), before the final `squeeze`. -/
def dmdNext {n k b : Nat} (basis : Matrix (Fin n) (Fin k) K) (rom : Matrix (Fin k) (Fin k) K) (x : Matrix (Fin n) (Fin b) K) (steps : Nat) : Matrix (Fin n) (Fin b) K :=
  ((basisᵀ * x)ᵀ * (basis * rom ^ steps)ᵀ)ᵀ

/-- The powers of the transfer matrix in `predict` (dmd.py:298-308): the real part of `W diag(lambda^s) W^(-1)`; `inverse` raises for a singular `W`. -/
noncomputable def dmdPower {k : Nat} (lam : Fin k → ℂ) (W : Matrix (Fin k) (Fin k) ℂ) (s : Nat) : Except Err (Matrix (Fin k) (Fin k) ℝ) :=
  open Classical in
  if W.det = 0 then .error .runtimeError else .ok ((W * Matrix.diagonal (fun i => lam i ^ s) * W⁻¹).map Complex.re)

/-- The state `predict` computes for step `s` (dmd.py:298-318): columns are the initial states. -/
noncomputable def dmdPredict {n k b : Nat} (basis : Matrix (Fin n) (Fin k) ℝ) (lam : Fin k → ℂ) (W : Matrix (Fin k) (Fin k) ℂ) (x : Matrix (Fin n) (Fin b) ℝ) (s : Nat) : Except Err (Matrix (Fin n) (Fin b) ℝ) :=
  match dmdPower lam W s with
  | .error e => .error e
  | .ok p => .ok (basis * (p * (basisᵀ * x)))

/-- The shape of what `predict` returns: `(steps, features, states)`, then `squeeze` and `.T` (dmd.py:310-320). -/
def dmdPredictShape (steps n b : Nat) : List Nat := ([steps, n, b].filter fun d => d ≠ 1).reverse

/-! ## With control -/

/-- The state features above the control features, `concatenate((X, C), axis=0)` (dmd.py:512). -/
def stackRows {n c m : Nat} (X : Matrix (Fin n) (Fin m) K) (C : Matrix (Fin c) (Fin m) K) : Matrix (Fin n ⊕ Fin c) (Fin m) K := Matrix.fromRows X C

/-- `rom_transfer_matrix_` of `DMDc` (dmd.py:612-617): `basis` from the decomposition of `X[:, 1:]`, `Ut, St, Vtt` (already truncated) from that of the stacked matrix. -/
def dmdcTransfer {n c m k q : Nat} (X : Matrix (Fin n) (Fin (m + 1)) K) (basis : Matrix (Fin n) (Fin k) K) (Ut : Matrix (Fin n ⊕ Fin c) (Fin q) K) (St : Fin q → K) (Vtt : Matrix (Fin q) (Fin m) K) : Matrix (Fin k) (Fin k) K :=
  basisᵀ * tailCols X * divCols Vttᵀ St * ((Ut.submatrix Sum.inl id)ᵀ * basis)

/-- `rom_control_matrix_` (dmd.py:618-620). -/
def dmdcControl {n c m k q : Nat} (X : Matrix (Fin n) (Fin (m + 1)) K) (basis : Matrix (Fin n) (Fin k) K) (Ut : Matrix (Fin n ⊕ Fin c) (Fin q) K) (St : Fin q → K) (Vtt : Matrix (Fin q) (Fin m) K) : Matrix (Fin k) (Fin c) K :=
  basisᵀ * tailCols X * (divCols Vttᵀ St * (Ut.submatrix Sum.inr id)ᵀ)

/-- `X_red_full[b, :, i]` (dmd.py:677-688). -/
def dmdcRed {n k c : Nat} (basis : Matrix (Fin n) (Fin k) K) (rom : Matrix (Fin k) (Fin k) K) (ctl : Matrix (Fin k) (Fin c) K) (x : Fin n → K) (u : Nat → Fin c → K) : Nat → Fin k → K
  | 0 => x ᵥ* basis
  | i + 1 => rom *ᵥ dmdcRed basis rom ctl x u i + ctl *ᵥ u i

/-- `predict` of `DMDc` (dmd.py:677-695) for `b` states and `T` time steps: `X_red_full.reshape(k, -1)`, the product with the basis, and the final `reshape(b, n, T)`, by the positions of the elements in row-major order. -/
def dmdcPredict {n k c : Nat} (basis : Matrix (Fin n) (Fin k) K) (rom : Matrix (Fin k) (Fin k) K) (ctl : Matrix (Fin k) (Fin c) K) (b T : Nat) (x : Nat → Fin n → K) (u : Nat → Fin c → K) (s f t : Nat) : K :=
  let red (pos : Nat) : K := if h : pos / T % k < k then dmdcRed basis rom ctl (x (pos / (k * T))) u (pos % T) ⟨pos / T % k, h⟩ else 0
  let prod (row col : Nat) : K := if h : row < n then ∑ a : Fin k, basis ⟨row, h⟩ a * red (a * (b * T) + col) else 0
  let pos := s * (n * T) + f * T + t
  prod (pos / (b * T)) (pos % (b * T))

end Heat
