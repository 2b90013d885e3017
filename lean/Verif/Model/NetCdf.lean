import Verif.Model.ND
import Verif.Model.Chunk
import Verif.Model.StrideTricks
import Verif.Model.Reshape
/-!
# load_netcdf, save_netcdf (heat/core/io.py:104-515)

netCDF4 is a library and modelled by what it selects and writes.  A variable is an array (`NArr`) of fixed extent; `nc.utils._StartCountStride` is represented by its result, one window `start, count, stride` per axis
(slices and integers; index arrays, masks and unlimited dimensions are not modelled).  Types, names, creation of files and variables are not modelled.
-/
namespace Heat
variable {α : Type}

/-- One axis of the region of the variable that `file_slices` selects: positions `start + stride * i` for `i < count` (`_StartCountStride`, io.py:359-366). -/
structure NcWin where
  start : Int
  count : Nat
  stride : Int

/-- Python's clipping of a bound of a slice (`slice.indices`): negative bounds count from the end. -/
def pyClip (n : Nat) (neg : Bool) (b : Int) : Int :=
  if b < 0 then (if b + n < 0 then (if neg then -1 else 0) else b + n) else if (n : Int) ≤ b then (if neg then (n : Int) - 1 else n) else b

/-- The positions `lo, lo + step, ...` before `hi` (Python's `range`). -/
def stepSel (lo hi step : Int) : List Int :=
  (List.range (if step < 0 then (if hi < lo then (lo - hi - 1) / (-step) + 1 else 0) else if lo < hi then (hi - lo - 1) / step + 1 else 0).toNat).map fun (i : Nat) => lo + step * (i : Int)

/-- The positions that `slice(start, stop, step)` selects on an axis of extent `n` (Python, netCDF4). -/
def pySel (n : Nat) (start stop : Option Int) (step : Int) : List Int :=
  stepSel (match start with
    | none => if step < 0 then (n : Int) - 1 else 0
    | some b => pyClip n (decide (step < 0)) b) (match stop with
    | none => if step < 0 then -1 else (n : Int)
    | some b => pyClip n (decide (step < 0)) b) step

/-- The shape without extents of 1, and the axes that are left (io.py:302-305). -/
def nonEmptyAxes (shape : List Nat) : List Nat := (List.range shape.length).filter fun i => shape.getD i 0 ≠ 1

/-- `__get_expanded_split(shape, expanded_shape, split)` (io.py:268-329). -/
def expandedSplit (shape ex : List Nat) (split : Option Nat) : Except Err (Option Nat) :=
  if shape.prod ≠ ex.prod then .error .valueError
  else if shape.prod = 1 then .ok split
  else if shape.length = ex.length then .ok split
  else match split with
    | none => .ok none
    | some s =>
      let ne := nonEmptyAxes shape
      let exNe := nonEmptyAxes ex
      if (ne.map fun i => shape.getD i 0) ≠ exNe.map fun i => ex.getD i 0 then .error .valueError
      else if s ∈ ne then .ok (some (exNe.getD (ne.idxOf s) 0))
      else
        let before := s - (shape.take s).count 1
        match ne[before]? with
        | none => .error .indexError
        | some after =>
          match (exNe.take after).max? with
          | none => .error .valueError
          | some m =>
            match ((List.range m).filter fun i => ex.getD i 0 = 1).max? with
            | none => .error .valueError
            | some i => .ok (some i)

/-- `a = None if a < 0 else a` (io.py:401-402). -/
def noneIfNeg (a : Int) : Option Int := if a < 0 then none else some a

/-- The entry of `new_slices` for an axis that is not distributed: `slice(begin, begin + step * count, step)` (io.py:371-377). -/
def ncAxis (n : Nat) (w : NcWin) : List Int := pySel n (some w.start) (some (w.start + w.stride * w.count)) w.stride

/-- The entry for the distributed axis: `range(start, stop, step)[slices[data.split]]`, negative bounds replaced by None (io.py:389-403).  `lo, hi`: the chunk of this process; Python clips it at the length of the range. -/
def ncSplitAxis (n : Nat) (w : NcWin) (lo hi : Nat) : List Int :=
  pySel n (noneIfNeg (w.start + w.stride * (min lo w.count : Nat))) (noneIfNeg (w.start + w.stride * (min hi w.count : Nat))) w.stride

/-- `__merge_slices` on process `r` (io.py:331-408): the positions selected along every axis of the variable. -/
def mergeSlices (P r : Nat) (F : NArr α) (w : Nat → NcWin) (gshape : List Nat) (split outSplit : Option Nat) (k : Nat) : List Int :=
  match split, outSplit with
  | some s, some o => if k = o then ncSplitAxis (F.dim k) (w k) (chunkRange (gshape.getD s 0) r P).1 (chunkRange (gshape.getD s 0) r P).2 else ncAxis (F.dim k) (w k)
  | _, _ => ncAxis (F.dim k) (w k)

/-- `var[slices] = data` (netCDF4): every selected position gets the entry of `data` with the same number.  Data of another shape is refused (netCDF4 raises IndexError or tries to reshape or broadcast it: not modelled). -/
def NArr.ncPut (F : NArr α) (sel : Nat → List Int) (d : NArr α) : Except Err (NArr α) :=
  if d.ndim = F.ndim ∧ (∀ k < F.ndim, d.dim k = (sel k).length) then
    .ok ⟨F.ndim, F.dim, fun idx => if (List.range F.ndim).all fun k => decide ((idx k : Int) ∈ sel k) then d.get fun k => (sel k).idxOf (idx k : Int) else F.get idx⟩
  else .error .indexError

/-- The writes of the processes `order`, one after the other; a failure is handed on and stops the writing (serial I/O: io.py:437-489, processes 0, 1, ..., every one waits for the message of the one before it). -/
def ncWrites (write : Nat → NArr α → Except Err (NArr α)) : List Nat → NArr α → Except Err (NArr α)
  | [], F => .ok F
  | r :: l, F => match write r F with
    | .error e => .error e
    | .ok F' => ncWrites write l F'

/-- `save_netcdf(data, ..., file_slices)` without parallel I/O (io.py:436-500) into a variable that exists or has just been created, with as many windows as the array has axes.  Afterwards `allreduce(failed, MAX)` makes every
process raise the error of the one that failed. -/
def saveNcSerial (P : Nat) (x : DND α) (F : NArr α) (w : Nat → NcWin) : Except Err (NArr α) :=
  match x.split with
  | none => F.ncPut (fun k => (List.range (w k).count).map fun (i : Nat) => (w k).start + (w k).stride * (i : Int)) (x.loc 0)
  | some s =>
    match expandedSplit x.gshape ((List.range F.ndim).map fun k => (w k).count) (some s) with
    | .error e => .error e
    | .ok o => ncWrites (fun r V => V.ncPut (mergeSlices P r F w x.gshape (some s) o) (x.loc r)) (List.range P) F

/-- `save_netcdf` with parallel I/O (io.py:411-435): every process writes its part, a replicated array is cut along axis 0 (`slices`, io.py:265, 428).  `order`: the order in which the writes take effect. -/
def saveNcParallel (P : Nat) (order : List Nat) (x : DND α) (F : NArr α) (w : Nat → NcWin) : Except Err (NArr α) :=
  match expandedSplit x.gshape ((List.range F.ndim).map fun k => (w k).count) x.split with
  | .error e => .error e
  | .ok o => ncWrites (fun r V => V.ncPut (mergeSlices P r F w x.gshape x.split o) (match x.split with
      | some _ => x.loc r
      | none => (x.loc r).slice 0 (chunkRange (x.gshape.getD 0 0) r P).1 ((chunkRange (x.gshape.getD 0 0) r P).2 - (chunkRange (x.gshape.getD 0 0) r P).1))) order F

/-- `load_netcdf(path, variable, split=split)` on all processes (io.py:165-186): every process reads its chunk; one without data creates an empty tensor of the local shape (`F.slice` with length 0). -/
def loadNc (P : Nat) (F : NArr α) (split : Option Int) : Except Err (DND α) :=
  match sanitizeAxis F.ndim split with
  | .error e => .error e
  | .ok none => .ok ⟨F.shape, none, fun _ => F, some true⟩
  | .ok (some s) => .ok ⟨F.shape, some s, fun r => F.slice s (chunkRange (F.dim s) r P).1 ((chunkRange (F.dim s) r P).2 - (chunkRange (F.dim s) r P).1), some true⟩

end Heat
