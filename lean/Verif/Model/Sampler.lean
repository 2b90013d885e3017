import Verif.Spec.Dist
import Verif.Model.Basic
import Verif.Model.Chunk
import Verif.Model.Dataset
import Mathlib.Algebra.Order.Floor.Semiring
import Mathlib.Data.Rat.Floor
/-!
# `DistributedSampler` and `create_train_val_split` (heat/utils/data/datatools.py:266-666)

An array of `N` rows (an arbitrary type) with split 0 on `P` processes, process `r` holds `d r`. The random permutations (`torch.randperm`) are arguments. Process `r` may read and write only the memory of its rows: anything else is `none`.
-/
namespace Heat
open Spec
variable {α : Type}

/-- `_in_slice` with step 1 (datatools.py:349-369). -/
def smpIn (idx : Nat) (s : Nat × Nat) : Bool := decide (s.1 ≤ idx) && decide (idx < s.2)

/-- The search `for rank, tslice in enumerate(rank_slices): if in: break` (datatools.py:414-421): the first rank whose slice has the index; the last rank when there is none. -/
def smpOwner (N P idx : Nat) : Nat := ((List.range P).find? (fun r => smpIn idx (chunkRange N r P))).getD (P - 1)

/-- `indice_buffers[q]` on process `rank` (datatools.py:402, 412-425): for every position `i` of the permutation the receiver is the owner of `i`; the sender is the owner of the index. The own buffer gets all indices received, the others those sent. -/
def smpBuffer (N P : Nat) (indices : List Nat) (rank q : Nat) : List Nat :=
  (indices.zipIdx.filter (fun p =>
    if smpOwner N P p.2 = rank then decide (q = rank)
    else decide (smpOwner N P p.1 = rank) && decide (smpOwner N P p.2 = q))).map Prod.fst

/-- `send_indice` (datatools.py:431-437). -/
def smpSendIdx (N P : Nat) (indices : List Nat) (rank q : Nat) : List Nat :=
  if q = rank then (smpBuffer N P indices rank q).filter (fun idx => smpIn idx (chunkRange N rank P)) else smpBuffer N P indices rank q

/-- The rows sent from process `rank` to `q` (datatools.py:409, 438-449): the row at byte offset `(idx - displacement)`, where the displacement is the true start of the local rows. -/
def smpSent (N P : Nat) (indices : List Nat) (d : Nat → List α) (rank q : Nat) : Option (List α) :=
  (smpSendIdx N P indices rank q).mapM (fun idx => if startOf d rank ≤ idx then (d rank)[idx - startOf d rank]? else none)

/-- `recv_counts[src]` on process `rank` (datatools.py:451-457). -/
def smpRecvCount (N P : Nat) (indices : List Nat) (rank src : Nat) : Nat :=
  ((smpBuffer N P indices rank rank).filter (fun idx => decide ((List.range P).find? (fun r => smpIn idx (chunkRange N r P)) = some src))).length

/-- `local_recv_buffer` after `Alltoallw` (datatools.py:429, 462-487): the blocks of the processes one after the other. The number of rows of a block must be the number sent, and together they must fill the buffer, which has the size of the local rows. -/
def smpRecv (N P : Nat) (indices : List Nat) (d : Nat → List α) (rank : Nat) : Option (List α) :=
  ((List.range P).mapM (fun src => smpSent N P indices d src rank)).bind (fun blocks =>
    if blocks.map List.length = (List.range P).map (smpRecvCount N P indices rank) ∧ blocks.flatten.length = (d rank).length then some blocks.flatten else none)

/-- `indices[local_slice]` (datatools.py:408, 502). -/
def smpSlice (N P : Nat) (indices : List Nat) (rank : Nat) : List Nat := (indices.take (chunkRange N rank P).2).drop (chunkRange N rank P).1

/-- `local_slices_sorted` (datatools.py:496-505): the slice stably sorted by the rank the rows come from. -/
def smpSorted (N P : Nat) (indices : List Nat) (rank : Nat) : List Nat :=
  (smpSlice N P indices rank).mergeSort (fun a b => decide (smpOwner N P a ≤ smpOwner N P b))

/-- `self.dndarray.larray[dest] = local_recv_buffer[i]` for one `i` (datatools.py:507-511): `dest` is the position of the `i`-th sorted index in the slice. -/
def smpPut (slice : List Nat) (l : List α) (p : Nat × α) : Option (List α) :=
  if slice.idxOf p.1 < l.length ∧ slice.idxOf p.1 < slice.length then some (l.set (slice.idxOf p.1) p.2) else none

/-- `_alltoall_shuffle` on process `rank` (datatools.py:387-513). -/
def smpShuffle (N P : Nat) (indices : List Nat) (correction : Bool) (d : Nat → List α) (rank : Nat) : Option (List α) :=
  (smpRecv N P indices d rank).bind (fun buf =>
    if correction then
      if (smpSorted N P indices rank).length ≤ buf.length then
        ((smpSorted N P indices rank).zip buf).foldlM (smpPut (smpSlice N P indices rank)) (d rank)
      else none
    else some buf)

/-- `_shuffle` with `shuffle_type="local"` (datatools.py:372-375). -/
def smpLocal (prm : List Nat) (l : List α) : Option (List α) := pickRows prm l

/-- `train_rows = int(X.lshape[0] * p)` (datatools.py:613). Simplification: exact arithmetic, `p` is a rational number. -/
def tvTrain (p : Rat) (n : Nat) : Nat := ⌊(n : Rat) * p⌋₊

/-- The local part of `create_train_val_split` (datatools.py:613-621, 632, 640): `train = int(lshape[0] * p)`, the first `train` and the last `val` entries of a permutation (`perm[-val:]` with `val = 0` is everything), the `assert`, and the rows. -/
def tvSplit (train : Nat) (perm : List Nat) (l : List α) : Option (List α × List α) :=
  let val := l.length - train
  let trainIdx := perm.take train
  let valIdx := if val = 0 then perm else perm.drop (perm.length - val)
  if trainIdx.length + valIdx.length = l.length then
    (pickRows trainIdx l).bind (fun a => (pickRows valIdx l).map (fun b => (a, b)))
  else none

end Heat
