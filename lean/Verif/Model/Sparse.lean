import Verif.Model.Basic
import Verif.Model.Chunk
import Verif.Model.Float32
import Verif.Spec.Dist
import Verif.Spec.Sparse
/-!
# Distributed sparse matrices (heat/sparse/factories.py, dcsx_matrix.py, _operations.py, manipulations.py)

One model for both orientations: "rows" are the compressed axis.
-/
namespace Heat
variable {α : Type}

open Spec (Csr csrOf)

/-- `sparse_csr_matrix(obj, split=0)` on rank `r` of `P` (factories.py:271-291; `chunk(sparse=True)`: communication.py:230-248). -/
def sparsePart (c : Csr α) (P r : Nat) : Csr α :=
  let se := chunkRange (c.indptr.length - 1) r P
  let lo := c.indptr.getD se.1 0
  let hi := c.indptr.getD se.2 0
  let ptr := (c.indptr.take (se.2 + 1)).drop se.1
  ⟨ptr.map (· - ptr.headD 0), (c.indices.take hi).drop lo, (c.data.take hi).drop lo⟩

/-- `neighbour_shape[is_split]` after the check against the rank before (factories.py:296-314): its extent, the smallest int64 if the other extents differ.
Rank 0 keeps its own. -/
def neighbourExtent (rows cols : Nat → Nat) (r : Nat) : Int :=
  if r = 0 then rows 0 else if cols r ≠ cols (r - 1) then -2 ^ 63 else rows (r - 1)

/-- `comm.Allreduce(..., MPI.MIN)` and the comparison with 0 (factories.py:318-325): does every rank raise ValueError? -/
def isSplitRaises (P : Nat) (rows cols : Nat → Nat) : Bool :=
  decide ((List.range P).foldl (fun m r => min m (neighbourExtent rows cols r)) (neighbourExtent rows cols 0) < 0)

/-- `sparse_csr_matrix(obj, is_split=0)`: the global extent and number of entries (factories.py:327-342), `none` if it raises. -/
def sparseIsSplit (P : Nat) (parts : Nat → Csr α) (cols : Nat → Nat) : Option (Nat × Nat) :=
  if isSplitRaises P (fun r => (parts r).indptr.length - 1) cols then none
  else some (((List.range P).map fun r => (parts r).indptr.length - 1).sum, ((List.range P).map fun r => (parts r).data.length).sum)

/-- `counts` of `counts_displs_nnz` (dcsx_matrix.py:283-286): a float32 tensor, zero but for the own rank, summed up. -/
def nnzCount (parts : Nat → Csr α) (r : Nat) : Nat := f32 (parts r).data.length

/-- `displs` of `counts_displs_nnz` (dcsx_matrix.py:287), `all_nnz` of `global_indptr` (71-80): `torch.cumsum` of float32 (accumulated in double precision, rounded to
float32). -/
def nnzBefore (parts : Nat → Csr α) (r : Nat) : Nat := f32 ((List.range r).map (nnzCount parts)).sum

/-- `global_indptr` of rank `r` (dcsx_matrix.py:64-98). -/
def indptrPart (P : Nat) (parts : Nat → Csr α) (r : Nat) : List Nat :=
  let g := (parts r).indptr.map (· + nnzBefore parts r)
  if r ≠ P - 1 then g.dropLast else g

/-- `indptr` (dcsx_matrix.py:157-164): `resplit(None)` of the parts (C13). -/
def gatheredIndptr (P : Nat) (parts : Nat → Csr α) : List Nat := Spec.content P (indptrPart P parts)

/-- Write `x` at position `p` of a buffer. -/
def writeAt {β : Type} (buf : List β) (p : Nat) (x : List β) : List β := buf.take p ++ x ++ buf.drop (p + x.length)

/-- `Allgatherv(local, (buffer, counts, displs))` (dcsx_matrix.py:138-139, 191-192): `none` (MPI error) if the count of a rank is not what it sends. -/
def gatherAt {β : Type} (P gnnz : Nat) (zero : β) (counts displs : Nat → Nat) (loc : Nat → List β) : Option (List β) :=
  if (List.range P).all fun r => decide (counts r = (loc r).length) then
    some ((List.range P).foldl (fun b r => writeAt b (displs r) (loc r)) (List.replicate gnnz zero))
  else none

/-- `indices` (dcsx_matrix.py:180-193). -/
def gatheredIndices (P gnnz : Nat) (parts : Nat → Csr α) : Option (List Nat) := gatherAt P gnnz 0 (nnzCount parts) (nnzBefore parts) fun r => (parts r).indices

/-- `data` (dcsx_matrix.py:128-140). -/
def gatheredData (P gnnz : Nat) (zero : α) (parts : Nat → Csr α) : Option (List α) := gatherAt P gnnz zero (nnzCount parts) (nnzBefore parts) fun r => (parts r).data

/-- A distributed (`dist`) or replicated sparse matrix: global number of rows, rows of every rank, element type (dcsx_matrix.py:45-65).  The local compressed tensors
are given by their rows (`csrOf`). -/
structure SpMat (α τ : Type) where
  dist : Bool
  n : Nat
  loc : Nat → List (List (Nat × α))
  ty : τ

/-- A replicated operand next to a distributed one is distributed (_operations.py:117-122), see `sparsePart`. -/
def SpMat.spread {τ : Type} (P : Nat) (t : SpMat α τ) : SpMat α τ :=
  ⟨true, t.n, fun r => ((t.loc r).take (chunkRange t.n r P).2).drop (chunkRange t.n r P).1, t.ty⟩

/-- The operand after _operations.py:117-122. -/
def SpMat.align {τ : Type} (P : Nat) (t u : SpMat α τ) : SpMat α τ := if (t.dist || u.dist) && !t.dist then t.spread P else t

/-- The local result (_operations.py:157-160): nothing is computed without entries; torch refuses different local shapes.  `f` is the operation on a row. -/
def sparseLocal {τ : Type} (f : List (Nat × α) → List (Nat × α) → List (Nat × α)) (join : τ → τ → τ) (a b : SpMat α τ) (r : Nat) : Except Err (List (List (Nat × α)) × τ) :=
  if Spec.nnz (a.loc r) = 0 ∧ Spec.nnz (b.loc r) = 0 then .ok (a.loc r, a.ty)
  else if (a.loc r).length = (b.loc r).length then .ok (List.zipWith f (a.loc r) (b.loc r), join a.ty b.ty)
  else .error .runtimeError

/-- `__binary_op_csx` of two matrices with the same number of columns (_operations.py:111-209): what rank `r` returns. -/
def sparseBinary {τ : Type} (f : List (Nat × α) → List (Nat × α) → List (Nat × α)) (join : τ → τ → τ) (P : Nat) (a b : SpMat α τ) (r : Nat) :
    Except Err (List (List (Nat × α)) × τ) :=
  if a.n ≠ b.n then .error .valueError else sparseLocal f join (a.align P b) (b.align P a) r

/-- With a scalar the operation is applied to the stored values (_operations.py:91-109). -/
def scalarRows (op : α → α) (rows : List (List (Nat × α))) : List (List (Nat × α)) := rows.map fun row => row.map fun e => (e.1, op e.2)

/-- `Tensor.to_sparse_csr` of a dense row (factories.py:236-241): the entries that are not zero. -/
def sparseRow (row : List Int) : List (Nat × Int) := (row.zipIdx.filter fun e => e.1 ≠ 0).map fun e => (e.2, e.1)

end Heat
