import Mathlib.LinearAlgebra.Matrix.NonsingularInverse
import Verif.Model.ND
/-!
# Dense linear systems (heat/core/linalg/solver.py:298-427, `solve`)

Exact arithmetic over a field. Types, devices and the argument `out` are left out: the result is a new array. `torch.linalg.solve` is modelled by what it does to shapes
(right-hand sides that are vectors, broadcasting of the batch axes) and by the inverse matrix.
-/
namespace Heat
open Matrix
variable {K : Type} [Field K]

/-- What `solve` computes before the local call: the axis of the unknowns in `b`, whether `b` is shared by all matrices of the batch ("needs expanding"), and the shape and split of the result. -/
structure SolvePlan where
  nb : Nat
  expand : Bool
  shape : List Nat
  split : Option Nat
  deriving DecidableEq, Repr

/-- The checks (solver.py:353-395) on `P` processes. `is_distributed` is a split on more than one process (dndarray.py:1143-1147). -/
def solveCheck (P : Nat) (shA shB : List Nat) (spA spB : Option Nat) : Except Err SolvePlan :=
  let nA := shA.length
  let nB := shB.length
  if nA = 0 ∨ nB = 0 then .error .indexError
  else
    let n := shA.getD (nA - 1) 0
    let nb : Except Err Nat :=
      if shB.getD (nB - 1) 0 = n then .ok (nB - 1)
      else if nB = 1 then .error .valueError
      else if shB.getD (nB - 2) 0 = n then .ok (nB - 2)
      else .error .valueError
    match nb with
    | .error e => .error e
    | .ok nb =>
      if 2 ≤ P ∧ spB = some nb then .error .notImplemented
      else if 2 ≤ P ∧ ∃ s, spA = some s ∧ nA < s + 3 then .error .notImplemented
      else if 2 ≤ P ∧ spA ≠ none ∧ spB ≠ none ∧ spA ≠ spB then .error .valueError
      else if shB.take nb = shA.take (nA - 2) then .ok ⟨nb, false, shB, spB⟩
      else if nb = 0 ∧ 2 < nA then .ok ⟨nb, true, shA.take (nA - 2) ++ shB, if spA = none then spB else spA⟩
      else .error .valueError

/-- The matrix of a batch element: batch axes of extent one are repeated, missing ones are dropped (`b - (ndim - 2)` axes are missing). -/
def solveMat (A : NArr K) (b n : Nat) (idx : Nat → Nat) : Matrix (Fin n) (Fin n) K :=
  fun i j => A.get fun k => if k < A.ndim - 2 then (if A.dim k = 1 then 0 else idx (k + (b - (A.ndim - 2)))) else if k = A.ndim - 2 then i else j

/-- The right-hand side of a batch element and a column: `m` is the number of batch axes of `B`. -/
def solveRhs (B : NArr K) (b m n : Nat) (idx : Nat → Nat) : Fin n → K :=
  fun i => B.get fun k => if k < m then (if B.dim k = 1 then 0 else idx (k + (b - m))) else if k = m then i else idx (b + 1)

/-- Is the right-hand side a (batch of) vectors for torch? (`linalg_solve_is_vector_rhs` in ATen/native/LinearAlgebraUtils.h) -/
def torchVec (A B : NArr K) : Prop := B.ndim = 1 ∨ (A.ndim = B.ndim + 1 ∧ ∀ k < B.ndim, B.dim k = A.dim k)

/-- What torch does with extents along a batch axis. -/
def batchDim (A : NArr K) (b m k : Nat) : Nat := if k < b - m then 1 else A.dim (k - (b - m))

open Classical in
/-- The shape check of `torch.linalg.solve`: square matrices, fitting right-hand sides, batch axes that can be broadcast. -/
noncomputable def torchSolveShape (A B : NArr K) : Bool :=
  let m := if torchVec A B then B.ndim - 1 else B.ndim - 2
  let b := max (A.ndim - 2) m
  decide (2 ≤ A.ndim ∧ 1 ≤ B.ndim ∧ A.dim (A.ndim - 2) = A.dim (A.ndim - 1) ∧ B.dim m = A.dim (A.ndim - 1) ∧
    ∀ k < b, batchDim A b (A.ndim - 2) k = batchDim B b m k ∨ batchDim A b (A.ndim - 2) k = 1 ∨ batchDim B b m k = 1)

open Classical in
/-- The result of `torch.linalg.solve(A, B)` for inputs of fitting shapes. -/
noncomputable def torchSolveRes (A B : NArr K) : NArr K :=
  let m := if torchVec A B then B.ndim - 1 else B.ndim - 2
  let b := max (A.ndim - 2) m
  let n := A.dim (A.ndim - 1)
  ⟨b + (B.ndim - m), fun k => if k < b then (if batchDim A b (A.ndim - 2) k = 1 then batchDim B b m k else batchDim A b (A.ndim - 2) k) else B.dim (k - b + m),
    fun idx => if h : idx b < n then ((solveMat A b n idx)⁻¹ *ᵥ solveRhs B b m n idx) ⟨idx b, h⟩ else 0⟩

open Classical in
/-- Is a matrix of the batch singular (`LinAlgError`)? -/
noncomputable def torchSingular (A B : NArr K) : Bool :=
  let m := if torchVec A B then B.ndim - 1 else B.ndim - 2
  let b := max (A.ndim - 2) m
  decide (∃ idx : Nat → Nat, (∀ k < b, idx k < (torchSolveRes A B).dim k) ∧ (solveMat A b (A.dim (A.ndim - 1)) idx).det = 0)

/-- How a collective call ends: with a result, with an error on every process, or with some processes waiting for others that have raised. -/
inductive SolveEnd (K : Type) where
  | ok (x : DND K)
  | raises (e : Err)
  | stuck

open Classical in
/-- `solve(A, b)` (solver.py:298-427). An error about shapes is not caught by the `except` clause (solver.py:416): that process never reaches the `allgather` (line 420) of the messages. -/
noncomputable def solveDnd (P : Nat) (A b : DND K) : SolveEnd K :=
  match solveCheck P A.gshape b.gshape A.split b.split with
  | .error e => .raises e
  | .ok pl =>
    if ∀ r < P, torchSolveShape (A.loc r) (b.loc r) then
      if ∃ r < P, torchSingular (A.loc r) (b.loc r) then .raises .runtimeError
      else .ok ⟨pl.shape, pl.split, fun r => torchSolveRes (A.loc r) (b.loc r), some true⟩
    else if ∀ r < P, ¬ torchSolveShape (A.loc r) (b.loc r) then .raises .runtimeError
    else .stuck

end Heat
