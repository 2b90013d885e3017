import Mathlib.Data.Matrix.Block
import Mathlib.Data.Real.Basic
import Mathlib.LinearAlgebra.Matrix.Trace
import Mathlib.Algebra.Order.Round
import Mathlib.Data.Real.Archimedean
import Mathlib.Analysis.Real.Sqrt
import Mathlib.Logic.Equiv.Fin.Basic
/-!
# Model of `eigh` (heat/core/linalg/eigh.py)

Exact real arithmetic.  LAPACK's `eigh`, the polar decomposition, the orthogonal factor of a QR decomposition with random columns, the choice of
starting columns and the rounded share of processes are parameters of the model.  A matrix that is not distributed counts as distributed over
one process.
-/
namespace Heat
open Matrix

/-- A square matrix. -/
abbrev RMat (n : ℕ) := Matrix (Fin n) (Fin n) ℝ

/-- Square of the Frobenius norm. -/
noncomputable def fro2 {m n : Type} [Fintype m] [Fintype n] (M : Matrix m n ℝ) : ℝ := ∑ i, ∑ j, M i j ^ 2

/-- The first `k` indices and the others (`[:k]` and `[k:]`, heat/core/linalg/eigh.py:97-98, 205-216). -/
def blockEquiv {k n : ℕ} (h : k ≤ n) : Fin k ⊕ Fin (n - k) ≃ Fin n := finSumFinEquiv.trans (finCongr (by omega))

/-- `Q[:, :k]` (heat/core/linalg/eigh.py:97). -/
def firstCols {k n : ℕ} (h : k ≤ n) (Q : RMat n) : Matrix (Fin n) (Fin k) ℝ := Q.submatrix id fun i => blockEquiv h (.inl i)

/-- `Q[:, k:]` (heat/core/linalg/eigh.py:98). -/
def lastCols {k n : ℕ} (h : k ≤ n) (Q : RMat n) : Matrix (Fin n) (Fin (n - k)) ℝ := Q.submatrix id fun i => blockEquiv h (.inr i)

/-- External operations. -/
structure EighOps where
  /-- `torch.linalg.eigh`: eigenvalues in ascending order, eigenvectors as columns. -/
  teigh : (n : ℕ) → RMat n → (Fin n → ℝ) × RMat n
  /-- `polar(..., calcH=False)` on `P` processes. -/
  polar : (P n : ℕ) → RMat n → RMat n
  /-- The columns with large norm (heat/core/linalg/eigh.py:65-76); the percentage depends on `safetyparam`. -/
  sel : (safety n k : ℕ) → RMat n → List (Fin n)
  /-- `Q` of `qr` of the matrix with these columns, filled up with random columns, in iteration `it` (heat/core/linalg/eigh.py:82-96). -/
  qr : (it n : ℕ) → List (Fin n → ℝ) → RMat n
  /-- `round(k / n * nprocs)` in floating point (heat/core/linalg/eigh.py:190). -/
  share : (k n P : ℕ) → ℕ
  /-- `maxit` and `tol` (heat/core/linalg/eigh.py:51-56). -/
  maxit : ℕ
  tol : ℝ

/-- Columns of a matrix. -/
def colList {n k : ℕ} (M : Matrix (Fin n) (Fin k) ℝ) : List (Fin n → ℝ) := (List.finRange k).map fun j i => M i j

/-- `Q_k_orth.T @ A @ Q_k` (heat/core/linalg/eigh.py:99). -/
noncomputable def eighE {k n : ℕ} (h : k ≤ n) (A Q : RMat n) : Matrix (Fin (n - k)) (Fin k) ℝ := (lastCols h Q)ᵀ * A * firstCols h Q

open Classical in
/-- The loop of `_subspaceiteration` (heat/core/linalg/eigh.py:79-117) with `left + 1` iterations left.  The test compares squares; for `A = 0` the
quotient is not a number and the test fails.  The second component tells whether the test succeeded (the code prints that if it is not silent). -/
noncomputable def subIter (o : EighOps) {k n : ℕ} (h : k ≤ n) (A C : RMat n) : (left it : ℕ) → List (Fin n → ℝ) → RMat n × Bool
  | 0, it, X => (o.qr it n X, decide (fro2 (eighE h A (o.qr it n X)) < o.tol ^ 2 * fro2 A))
  | left + 1, it, X =>
    if fro2 (eighE h A (o.qr it n X)) < o.tol ^ 2 * fro2 A then (o.qr it n X, true)
    else subIter o h A C left (it + 1) (colList (C * firstCols h (o.qr it n X)))

/-- `_subspaceiteration(A, C, silent, depth)` (heat/core/linalg/eigh.py:24-117, 171-177: `depth` is passed as `safetyparam`). -/
noncomputable def subspaceIteration (o : EighOps) (depth : ℕ) {k n : ℕ} (h : k ≤ n) (A C : RMat n) : RMat n × Bool :=
  subIter o h A C (o.maxit - 1) 1 ((o.sel depth n k C).map fun j i => C i j)

/-- `statistics.median(diag(A))` (heat/core/linalg/eigh.py:162; C83). -/
noncomputable def medianDiag {n : ℕ} (A : RMat n) : ℝ :=
  let s := (List.ofFn fun i => A i i).mergeSort (fun a b => decide (a ≤ b))
  (s.getD ((n - 1) / 2) 0 + s.getD (n / 2) 0) / 2

/-- `C = 0.5 * (U + I)` (heat/core/linalg/eigh.py:164-176). -/
noncomputable def eighC (o : EighOps) (P : ℕ) {n : ℕ} (A : RMat n) : RMat n :=
  (1 / 2 : ℝ) • (o.polar P n (A - medianDiag A • (1 : RMat n)) + 1)

/-- `k = int(round(norm(C) ** 2))` (heat/core/linalg/eigh.py:64); ties are rounded up. -/
noncomputable def eighK (o : EighOps) (P : ℕ) {n : ℕ} (A : RMat n) : ℕ := (round (fro2 (eighC o P A))).toNat

/-- One division of the problem: what it was and what was found. -/
structure EighNode where
  n : ℕ
  k : ℕ
  le : k ≤ n
  A : RMat n
  U : RMat n
  C : RMat n
  Q : RMat n
  converged : Bool

/-- Result: `Lambda`, `V`, and the divisions that were made. -/
structure EighRes (n : ℕ) where
  lam : Fin n → ℝ
  V : RMat n
  nodes : List EighNode

/-- Direct solution (heat/core/linalg/eigh.py:146-156). -/
def eighDirect (o : EighOps) (n : ℕ) (A : RMat n) : EighRes n :=
  ⟨fun i => (o.teigh n A).1 i.rev, (o.teigh n A).2.submatrix id Fin.rev, []⟩

/-- `nprocs1` (heat/core/linalg/eigh.py:190). -/
def eighProcs1 (o : EighOps) (k n P : ℕ) : ℕ := max 1 (min (P - 1) (o.share k n P))

/-- `Lambda` and `V @ V_new` (heat/core/linalg/eigh.py:219-259). -/
noncomputable def eighMerge {k n : ℕ} (h : k ≤ n) (Q : RMat n) (r1 : EighRes k) (r2 : EighRes (n - k)) (node : EighNode) : EighRes n :=
  ⟨fun i => Sum.elim r1.lam r2.lam ((blockEquiv h).symm i),
   Q * (fromBlocks r1.V 0 0 r2.V).submatrix (blockEquiv h).symm (blockEquiv h).symm, node :: (r1.nodes ++ r2.nodes)⟩

/-- `_eigh` (heat/core/linalg/eigh.py:120-267) on `P` processes; `lmin` is the smallest local extent of `A`.  The two blocks of `V.T @ A @ V` are
solved by two groups of processes.  `none`: `k > n`, which `redistribute_` refuses. -/
noncomputable def eighRec (o : EighOps) (P orig lmin depth n : ℕ) (A : RMat n) : Option (EighRes n) :=
  if _h : n ≤ orig ∨ P ≤ 1 then some (eighDirect o n A)
  else if hk : eighK o P A ≤ n then
    let Q := subspaceIteration o depth hk A (eighC o P A)
    let A' := Q.1ᵀ * A * Q.1
    let P1 := eighProcs1 o (eighK o P A) n P
    let orig' := if orig = 0 then lmin else orig
    match eighRec o P1 orig' (eighK o P A / P1) (depth + 1) (eighK o P A) (A'.submatrix (fun i => blockEquiv hk (.inl i)) (fun i => blockEquiv hk (.inl i))),
      eighRec o (P - P1) orig' ((n - eighK o P A) / (P - P1)) (depth + 1) (n - eighK o P A)
        (A'.submatrix (fun i => blockEquiv hk (.inr i)) (fun i => blockEquiv hk (.inr i))) with
    | some r1, some r2 => some (eighMerge hk Q.1 r1 r2
        ⟨n, eighK o P A, hk, A, o.polar P n (A - medianDiag A • (1 : RMat n)), eighC o P A, Q.1, Q.2⟩)
    | _, _ => none
  else none
termination_by P
decreasing_by
  · rw [not_or] at _h; unfold eighProcs1; omega
  · rw [not_or] at _h; unfold eighProcs1; omega

open Classical in
/-- The matrix with which the iteration of `polar` starts on several processes: `X /= alpha` with the Frobenius norm as estimate
(heat/core/linalg/polar.py:229, 265, heat/core/linalg/basics.py:55-74); `none`: not a number. -/
noncomputable def polarStart {n : ℕ} (B : RMat n) : Option (RMat n) :=
  if fro2 B = 0 then none else some ((1 / Real.sqrt (fro2 B)) • B)

/-- `new_lshapes` (heat/core/linalg/eigh.py:192-195). -/
def eighLshapes (k n P1 P2 : ℕ) : List ℕ :=
  ((List.range P1).map fun i => k / P1 + if i < k % P1 then 1 else 0) ++
    (List.range P2).map fun i => (n - k) / P2 + if i < (n - k) % P2 then 1 else 0

/-- Slabs of the processes after `redistribute_` (C10). -/
def sliceBy {α : Type} : List ℕ → List α → List (List α)
  | [], _ => []
  | m :: ms, l => l.take m :: sliceBy ms (l.drop m)

/-- `A_local` of the process with the slabs `loc` (heat/core/linalg/eigh.py:201-216): slabs are rows for split 0 and columns for split 1. -/
def eighLocal {α : Type} (k P1 rank : ℕ) (loc : List (List α)) : List (List α) :=
  loc.map fun row => if rank < P1 then row.take k else row.drop k

/-- `V_local_larray` filled up with zeros (heat/core/linalg/eigh.py:220-253). -/
def eighFill {α : Type} (zero : α) (k n P1 rank : ℕ) (loc : List (List α)) : List (List α) :=
  loc.map fun row => if rank < P1 then row ++ List.replicate (n - k) zero else List.replicate k zero ++ row

end Heat
