import Verif.Model.Chunk
import Verif.Model.Basic
import Verif.Spec.Dist
/-!
# Model of reading many files into one array (heat/core/io.py:1387-1440, 1463-1528, 1603-1719) and of `save_zarr` (heat/core/io.py:1749-1878)

A file is the list of its slabs along the concatenation axis; files agree in the other axes.
-/
namespace Heat
open Heat.Spec
variable {α : Type}

/-- `idx` and `n_for_procs` (heat/core/io.py:1427-1433, 1502-1508). -/
def fileRange (nFiles P rank : Nat) : Nat × Nat :=
  if rank < nFiles % P then (rank * (nFiles / P + 1), nFiles / P + 1)
  else (rank * (nFiles / P) + nFiles % P, nFiles / P)

/-- `np.concatenate(array_list, split)` of the files of one process (heat/core/io.py:1434-1436). -/
def filesLocal (files : List (List α)) (P rank : Nat) : List α :=
  ((files.drop (fileRange files.length P rank).1).take (fileRange files.length P rank).2).flatten

/-- `load_npy_from_path` and `load_csv_from_folder` for an integer `split` (heat/core/io.py:1415-1440, 1490-1528): the local parts of all
processes; `listing r` are the files in the order in which `os.listdir` returns them on the process `r`. -/
def loadFolder (P : Nat) (listing : Nat → List (List α)) (rank : Nat) : Except Err (List α) :=
  let files := listing rank
  if files.length = 0 then .error .valueError
  else if files.length < P ∧ P > 1 then .error .runtimeError
  else .ok (filesLocal files P rank)

/-- The same for a communicator that contains the processes `world 0, ..., world (Q - 1)` of the `P` processes of MPI_WORLD
(heat/core/io.py:1415, 1427: number and rank are those of MPI_WORLD). -/
def loadFolderComm (P : Nat) (world : Nat → Nat) (listing : Nat → List (List α)) (q : Nat) : Except Err (List α) :=
  loadFolder P listing (world q)

/-- `load_zarr` with a wildcard (heat/core/io.py:1623-1719): the directories of a process are given by `comm.chunk`; it may have none. -/
def zarrLocal (dirs : List (List α)) (P rank : Nat) : List α :=
  ((dirs.take (chunkRange dirs.length rank P).2).drop (chunkRange dirs.length rank P).1).flatten

/-- `out_gshape[split]` (heat/core/io.py:1703-1704): the sum of the local extents; 0 for processes without directories. -/
def zarrExtent (dirs : List (List α)) (P : Nat) : Nat := ((List.range P).map fun r => (zarrLocal dirs P r).length).sum

/-- The loop that makes chunks smaller (heat/core/io.py:1819-1839) with `k` of its ten iterations left; `slab` is the number of bytes of
one slab. -/
def zarrShrink (limit slab : Nat) : Nat → Nat → Nat
  | 0, _ => 1
  | k + 1, c => if c * slab > limit then (if c % 2 = 0 then zarrShrink limit slab k (c / 2) else 1) else c

/-- Chunk extent along the split axis (heat/core/io.py:1808-1839). -/
def zarrChunkSize (n P slab : Nat) : Nat :=
  if n % P ≠ 0 then 1 else zarrShrink (2 ^ 31 - 1) slab 10 (n / P)

/-- The chunks a process touches: those that contain one of its slabs (heat/core/io.py:1867-1872). -/
def zarrChunksOf (n P slab r : Nat) : List Nat :=
  (List.range (n / zarrChunkSize n P slab + 1)).filter fun k =>
    (List.range n).any fun i => decide ((chunkRange n r P).1 ≤ i) && decide (i < (chunkRange n r P).2) && i / zarrChunkSize n P slab == k

/-- One chunk operation: zarr reads the chunk, puts the slabs of the process in, and writes the whole chunk back. -/
inductive ZOp where
  | read (k : Nat)
  | write (k : Nat)
  deriving DecidableEq, Repr

/-- Program of the process `r` (heat/core/io.py:1870). -/
def zarrProg (n P slab r : Nat) : List ZOp := (zarrChunksOf n P slab r).flatMap fun k => [.read k, .write k]

/-- State of the concurrent write: remaining operations, what each process has last read, and the file. -/
structure ZState (α : Type) where
  prog : Nat → List ZOp
  seen : Nat → Nat → Option α
  file : Nat → Option α

/-- The process `r` does its next operation; `val i` is slab `i` of the array. -/
def zstep (n P slab : Nat) (val : Nat → α) (r : Nat) (s : ZState α) : ZState α :=
  match s.prog r with
  | [] => s
  | .read _ :: rest => ⟨fun q => if q = r then rest else s.prog q, fun q => if q = r then s.file else s.seen q, s.file⟩
  | .write k :: rest =>
    ⟨fun q => if q = r then rest else s.prog q, s.seen, fun i =>
      if i / zarrChunkSize n P slab = k then
        (if (chunkRange n r P).1 ≤ i ∧ i < (chunkRange n r P).2 then some (val i) else s.seen r i)
      else s.file i⟩

/-- Start: the data set has been created (after the barrier, heat/core/io.py:1863-1865), its content is arbitrary (`overwrite`, fill value). -/
def zinit (n P slab : Nat) (old : Nat → Option α) : ZState α :=
  ⟨fun r => if r < P then zarrProg n P slab r else [], fun _ _ => none, old⟩

/-- A schedule: which process does the next operation. -/
def zrun (n P slab : Nat) (val : Nat → α) (sched : List Nat) (s : ZState α) : ZState α :=
  sched.foldl (fun s r => zstep n P slab val r s) s

end Heat
