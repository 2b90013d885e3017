import Verif.Model.ND
import Verif.Model.Chunk
import Verif.Model.Mpi
/-!
# HDF5 files (heat/core/io.py:49-68, 600-892)

h5py is a library and modelled by what it reads and writes.  A data set is an array (`NArr`); for `load_multiple_hdf5` and `save_hdf5` it is the
list of its slabs along the axis that is distributed.  Types and conversions are not modelled.
-/
namespace Heat
variable {α : Type}

/-! ## load_hdf5 -/


/-- A bound of `range(size)[start:stop]` (Python): negative bounds count from the end, out-of-range ones are clipped. -/
def rangeBound (size : Nat) (b : Int) : Nat := if b < 0 then (b + size).toNat else min b.toNat size

/-- `size_from_slice(size, s)` for a step of 1 or None (io.py:49-68): length and start of `range(size)[s]`, start 0 if it is empty. -/
def sizeFromSlice (size : Nat) (s : PySlice) : Nat × Nat :=
  let lo := rangeBound size (s.start.getD 0)
  let hi := rangeBound size (s.stop.getD size)
  (hi - lo, if hi - lo > 0 then lo else 0)

/-- Size and offset of one axis (io.py:645-655); `none`: no slice given (or None) for this axis. -/
def axisWindow (size : Nat) : Option PySlice → Except Err (Nat × Nat)
  | none => .ok (size, 0)
  | some s => if s.step ≠ none ∧ s.step ≠ some 1 then .error .valueError else .ok (sizeFromSlice size s)

/-- `slices[i]` if `i < len(slices)` (io.py:646). -/
def sliceOf (slices : List (Option PySlice)) (i : Nat) : Option PySlice := slices.getD i none

/-- The loop over the axes (io.py:644-657): new global shape with offsets. -/
def windows (shape : List Nat) (slices : Option (List (Option PySlice))) : Except Err (List (Nat × Nat)) :=
  match slices with
  | none => .ok (shape.map fun e => (e, 0))
  | some sl => (List.range shape.length).mapM fun i => axisWindow (shape.getD i 0) (sliceOf sl i)

/-- `data[indices]`: h5py reads the block `[lo, hi)` of every axis (clipped at the extent, as Python slices are). -/
def NArr.block (a : NArr α) (lo hi : Nat → Nat) : NArr α :=
  ⟨a.ndim, fun k => min (hi k) (a.dim k) - lo k, fun idx => a.get fun k => idx k + lo k⟩

/-- What a rank reads (io.py:663-690): `lo`/`hi` are `indices` with the offsets added; the fall-back of a rank without data. -/
def hdf5Read (F : NArr α) (gdim : Nat → Nat) (split : Option Nat) (lo hi : Nat → Nat) : NArr α :=
  match split with
  | none => F.block lo hi
  | some s =>
    if hi s > lo s then F.block lo hi
    else
      let one := F.block (fun _ => 0) fun k => if k ≠ s then gdim k else 1
      one.block (fun _ => 0) fun k => if k ≠ s then gdim k else 0

/-- `indices[k]` of `comm.chunk(gshape, split)` on rank `r` (communication.py:228-246): first and last-plus-one index of axis `k`. -/
def chunkAxis (P : Nat) (gdim : Nat → Nat) (sp : Option Nat) (r k : Nat) : Nat × Nat := if sp = some k then chunkRange (gdim k) r P else (0, gdim k)

/-- The local part of rank `r` (io.py:661-690): windows `w k = (size, offset)`. -/
def hdf5Local (P : Nat) (F : NArr α) (w : Nat → Nat × Nat) (sp : Option Nat) (r : Nat) : NArr α :=
  hdf5Read F (fun k => (w k).1) sp (fun k => (chunkAxis P (fun k => (w k).1) sp r k).1 + (w k).2)
    fun k => (chunkAxis P (fun k => (w k).1) sp r k).2 + (w k).2

/-- `load_hdf5(path, dataset, split=split, slices=slices)` on all ranks (io.py:637-690). -/
def loadHdf5 (P : Nat) (F : NArr α) (slices : Option (List (Option PySlice))) (split : Option Int) : Except Err (DND α) :=
  match windows F.shape slices with
  | .error e => .error e
  | .ok w =>
    match sanitizeAxis (w.map Prod.fst).length split with
    | .error e => .error e
    | .ok sp => .ok ⟨w.map Prod.fst, sp, hdf5Local P F (fun k => w.getD k (0, 0)) sp, some true⟩

/-! ## load_multiple_hdf5 -/

/-- The loop building `ranges` (io.py:846-852): first and last-plus-one global row of every file. -/
def fileRanges (n : Nat) : List Nat → List (Nat × Nat)
  | [] => []
  | rows :: t => (n, n + rows) :: fileRanges (n + rows) t

/-- The three conditions of `find_file_ids_for_range` (io.py:856-863). -/
def rangeHit (lo hi : Nat) (rg : Nat × Nat) : Bool :=
  if rg.1 ≤ lo ∧ lo < rg.2 then true
  else if rg.1 < hi ∧ hi ≤ rg.2 then true
  else decide (lo ≤ rg.1 ∧ rg.2 ≤ hi)

/-- `find_file_ids_for_range(slice(lo, hi))` (io.py:854-864). -/
def fileIds (ranges : List (Nat × Nat)) (lo hi : Nat) : List Nat :=
  (List.range ranges.length).filter fun i => rangeHit lo hi (ranges.getD i (0, 0))

/-- State of the reading loop: the local buffer (`none`: uninitialised memory) and the number `n` of rows filled. -/
abbrev MultiState (α : Type) := List (Option α) × Nat

/-- `buf[lo:lo+len(v)] = v` for a slice inside the buffer. -/
def bufWrite (buf : List (Option α)) (lo : Nat) (v : List α) : List (Option α) := buf.take lo ++ v.map some ++ buf.drop (lo + v.length)

/-- One pass of the loop (io.py:876-891): `startIndex` rows of the file are skipped, the overshoot is cut off. -/
def readOne (file : List α) (startIndex maxN : Nat) (st : MultiState α) : MultiState α :=
  let n := st.2
  let rows := file.length - startIndex
  let diff := n + rows - min (n + rows) maxN
  (bufWrite st.1 n ((file.take (startIndex + rows - diff)).drop startIndex), n + rows - diff)

/-- The loop over the files of this rank after the first one: `start_index = 0`. -/
def readRest (files : List (List α)) (maxN : Nat) (ids : List Nat) (st : MultiState α) : MultiState α :=
  ids.foldl (fun st i => readOne (files.getD i []) 0 maxN st) st

/-- `load_multiple_hdf5` on one rank (io.py:866-892): the local buffer; `local_h5_file_ids[0]` raises an IndexError if no file was found.  A negative
`start_h5_index` would read from the end of the file; here it is an error (and never happens, see `load_multiple_hdf5_spec`). -/
def loadMultiple (P : Nat) (files : List (List α)) (rank : Nat) : Except Err (List (Option α)) :=
  let total := (files.map List.length).sum
  let rg := chunkRange total rank P
  match fileIds (fileRanges 0 (files.map List.length)) rg.1 rg.2 with
  | [] => .error .indexError
  | i0 :: ids =>
    if rg.1 < ((files.map List.length).take i0).sum then .error .valueError
    else
      let startIndex := rg.1 - ((files.map List.length).take i0).sum
      let maxN := rg.2 - rg.1
      .ok (readRest files maxN ids (readOne (files.getD i0 []) startIndex maxN (List.replicate maxN none, 0))).1

/-! ## save_hdf5 without parallel I/O -/

/-- Operations of a rank in `save_hdf5` (io.py:757-782): open (creating the data set or for updating), write the own part, close, `Isend` and `Recv` of
an empty message. -/
inductive IoOp where
  | create | openRW | write | close
  | ping (dst : Nat)
  | await (src : Nat)
  deriving DecidableEq, Repr

/-- What rank `r` does for an array that is split (`is_split`) on `P` ranks. -/
def saveProg (P r : Nat) : List IoOp :=
  if r = 0 then [.create, .write, .close] ++ (if P > 1 then [.ping 1, .await (P - 1)] else [])
  else [.await (r - 1), .openRW, .write, .close, .ping ((r + 1) % P)]

/-- `dset[lo:hi] = part` (h5py): nothing to do for an empty selection; equal lengths are copied; one slab is broadcast; anything else raises. -/
def dsetWrite (file : List (Option α)) (lo hi : Nat) (part : List α) : Option (List (Option α)) :=
  if hi ≤ lo then some file
  else if part.length = hi - lo then some (file.take lo ++ part.map some ++ file.drop hi)
  else if part.length = 1 then some (file.take lo ++ (List.replicate (hi - lo) part.head?) ++ file.drop hi)
  else none

/-- State of a save: remaining operations, ranks that have the file open, ranks that raised, unreceived pings per (source, destination), and the data
set on disk. -/
structure SaveState (α : Type) where
  prog : Nat → List IoOp
  isOpen : Nat → Bool
  raised : Nat → Bool
  pings : Nat → Nat → Nat
  file : Option (List (Option α))

/-- Replace one entry of a table. -/
def setPing (t : Nat → Nat → Nat) (s d v : Nat) : Nat → Nat → Nat := fun s' d' => if s' = s ∧ d' = d then v else t s' d'

/-- One step of one rank.  A rank that raises leaves the `with` block, which closes the file, and stops. -/
inductive SaveStep (P n : Nat) (parts : Nat → List α) : SaveState α → SaveState α → Prop where
  | create (st : SaveState α) (r : Nat) (rest : List IoOp) (hr : r < P) (h : st.prog r = .create :: rest) :
      SaveStep P n parts st { st with prog := set1 st.prog r rest, isOpen := set1 st.isOpen r true, file := some (List.replicate n none) }
  | openRW (st : SaveState α) (r : Nat) (rest : List IoOp) (hr : r < P) (h : st.prog r = .openRW :: rest) :
      SaveStep P n parts st { st with prog := set1 st.prog r rest, isOpen := set1 st.isOpen r true }
  | write (st : SaveState α) (r : Nat) (rest : List IoOp) (file file' : List (Option α)) (hr : r < P) (h : st.prog r = .write :: rest)
      (hf : st.file = some file) (hw : dsetWrite file (chunkRange n r P).1 (chunkRange n r P).2 (parts r) = some file') :
      SaveStep P n parts st { st with prog := set1 st.prog r rest, file := some file' }
  | fail (st : SaveState α) (r : Nat) (rest : List IoOp) (hr : r < P) (h : st.prog r = .write :: rest)
      (hf : ∀ file, st.file = some file → dsetWrite file (chunkRange n r P).1 (chunkRange n r P).2 (parts r) = none) :
      SaveStep P n parts st { st with prog := set1 st.prog r [], isOpen := set1 st.isOpen r false, raised := set1 st.raised r true }
  | close (st : SaveState α) (r : Nat) (rest : List IoOp) (hr : r < P) (h : st.prog r = .close :: rest) :
      SaveStep P n parts st { st with prog := set1 st.prog r rest, isOpen := set1 st.isOpen r false }
  | ping (st : SaveState α) (r d : Nat) (rest : List IoOp) (hr : r < P) (h : st.prog r = .ping d :: rest) :
      SaveStep P n parts st { st with prog := set1 st.prog r rest, pings := setPing st.pings r d (st.pings r d + 1) }
  | await (st : SaveState α) (r s : Nat) (rest : List IoOp) (hr : r < P) (h : st.prog r = .await s :: rest) (hp : 0 < st.pings s r) :
      SaveStep P n parts st { st with prog := set1 st.prog r rest, pings := setPing st.pings s r (st.pings s r - 1) }

/-- Before the save of a split array: every rank at the beginning, no file. -/
def saveInit (P : Nat) : SaveState α := ⟨saveProg P, fun _ => false, fun _ => false, fun _ _ => 0, none⟩

end Heat
