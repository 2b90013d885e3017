/-!
# Data loading from an HDF5 file with two threads (heat/utils/data/partial_dataset.py)

The state of one process: the loading thread (`thread_replace_converted_batches`), the converting thread (`__thread_convert_all`) and the consumer (`__next__`), at the granularity of the statements that touch shared data. An element of the loaded arrays is represented by the number of the row of the file it came from; there are `nsets` arrays (`dataset_names`), which the loading thread overwrites one after the other.

Simplifications: reading an item (`self.dataset[ind]`, written by the user) takes all arrays at once; `with condition: wait()` up to the release of the lock, and `with condition: notify()`, are one step each (the lock is not available to the other thread in between anyway); a new epoch starts after the converting thread has finished the last one; transforms, collation and moving to a device do not touch the shared state.
-/
namespace Heat

/-- What does not change: `total_size`, `comm.size`, the batch size, `load_len` (after rounding, see `pdsLoadLen`), `loads_needed` and the number of arrays. -/
structure PdsCfg where
  total : Nat
  procs : Nat
  batch : Nat
  loadLen : Nat
  loadsNeeded : Nat
  nsets : Nat

/-- One converted item: the index it was read from and the rows found there in the arrays. -/
structure PdsItem where
  slot : Nat
  rows : List Nat
deriving DecidableEq, Repr

/-- Where the converting thread is (partial_dataset.py:323-360). -/
inductive ConvPc where
  | item | mark (i : Nat) | check | notify | emit
deriving DecidableEq, Repr

/-- Where the loading thread is (partial_dataset.py:196-223); the argument is the number of loads of the task that are still to come. -/
inductive LoadPc where
  | idle | load (k : Nat) | pre (k : Nat) | wait (k : Nat) | woken (k : Nat) | repl (k d : Nat) | dec (k : Nat)
deriving DecidableEq, Repr

structure PdsSt where
  slots : Nat → Nat → Nat
  used : List Nat
  loadsLeft : Nat
  loadStart : Nat
  loadEnd : Nat
  hold : List Nat
  tasks : Nat
  lpc : LoadPc
  plan : List Nat
  todo : List Nat
  cur : List PdsItem
  cpc : ConvPc
  ready : List (List PdsItem)
  out : List (List PdsItem)

/-- `dset[idx] = new` for the array `d` (partial_dataset.py:216). -/
def pdsWrite (d : Nat) : List Nat → List Nat → (Nat → Nat → Nat) → Nat → Nat → Nat
  | i :: is, r :: rs, s => pdsWrite d is rs (fun e j => if e = d ∧ j = i then r else s e j)
  | _, _, s => s

/-- The rows `f[d][start:end]` (partial_dataset.py:202). -/
def pdsRows (total a b : Nat) : List Nat := (List.range (min b total - a)).map (a + ·)

/-- The loading thread holds the lock. -/
def LoadPc.locked : LoadPc → Bool
  | .repl _ _ => true
  | _ => false

/-- `notify` wakes the loading thread up if it waits, and is lost otherwise (partial_dataset.py:348-349). -/
def LoadPc.wake : LoadPc → LoadPc
  | .wait k => .woken k
  | l => l

/-- A step of the loading thread (partial_dataset.py:196-223). -/
def pdsLoad (c : PdsCfg) (s : PdsSt) : Option PdsSt :=
  match s.lpc with
  | .idle => if 0 < s.tasks then some { s with tasks := s.tasks - 1, loadsLeft := c.loadsNeeded, lpc := .load c.loadsNeeded } else none
  | .load 0 => some { s with lpc := .idle }
  | .load (k + 1) =>
    let e := if c.total < s.loadEnd + c.procs then 0 else s.loadEnd
    some { s with hold := pdsRows c.total s.loadStart s.loadEnd, loadStart := e, loadEnd := e + c.loadLen, lpc := .pre k }
  | .pre k => some { s with lpc := .wait k }
  | .wait _ => none
  | .woken k => some { s with lpc := .repl k 0 }
  | .repl k d =>
    if d < c.nsets then some { s with slots := pdsWrite d s.used (s.hold.take s.used.length) s.slots, lpc := .repl k (d + 1) }
    else some { s with used := [], lpc := .dec k }
  | .dec k => some { s with loadsLeft := s.loadsLeft - 1, lpc := .load k }

/-- A step of the converting thread (partial_dataset.py:327-360). -/
def pdsConv (c : PdsCfg) (s : PdsSt) : Option PdsSt :=
  match s.cpc with
  | .item =>
    match s.todo with
    | [] => none
    | i :: rest => some { s with todo := rest, cur := s.cur ++ [⟨i, (List.range c.nsets).map fun d => s.slots d i⟩], cpc := .mark i }
  | .mark i => some { s with used := s.used ++ [i], cpc := if s.cur.length = c.batch then .check else .item }
  | .check => some { s with cpc := if s.used.length = c.loadLen ∧ 0 < s.loadsLeft then .notify else .emit }
  | .notify =>
    if s.lpc.locked then none
    else some { s with lpc := s.lpc.wake, cpc := .emit }
  | .emit => some { s with ready := s.ready ++ [s.cur], cur := [], cpc := .item }

/-- The consumer takes a batch (partial_dataset.py:281-303); it stops after `len(index_list) // batch_size` batches. -/
def pdsTake (c : PdsCfg) (s : PdsSt) : Option PdsSt :=
  if s.out.length = s.plan.length / c.batch then none
  else match s.ready with
    | [] => none
    | b :: r => some { s with ready := r, out := s.out ++ [b] }

/-- A new epoch with the index list `idx` (partial_dataset.py:251-270). -/
def pdsEpoch (s : PdsSt) (idx : List Nat) : Option PdsSt :=
  if s.cpc = .item ∧ s.todo = [] then some { s with plan := idx, todo := idx, cur := [], ready := [], out := [], tasks := s.tasks + 1 } else none

/-- Who moves. -/
inductive PdsAct where
  | load | conv | take | epoch (idx : List Nat)

/-- One step. -/
def pdsStep (c : PdsCfg) (s : PdsSt) : PdsAct → Option PdsSt
  | .load => pdsLoad c s
  | .conv => pdsConv c s
  | .take => pdsTake c s
  | .epoch idx => pdsEpoch s idx

/-- A sequence of steps. -/
def pdsRun (c : PdsCfg) : PdsSt → List PdsAct → Option PdsSt
  | s, [] => some s
  | s, a :: l => (pdsStep c s a).bind fun s' => pdsRun c s' l

/-- `load_len` after rounding up to a multiple of the batch size (partial_dataset.py:254-257). -/
def pdsLoadLen (loadLen batch : Nat) : Nat := if loadLen % batch ≠ 0 then loadLen + (batch - loadLen % batch) else loadLen

/-- `lcl_full_sz` and the first local row (partial_dataset.py:104-107). -/
def pdsLocal (total procs rank : Nat) : Nat × Nat := (total / procs, rank * (total / procs))

/-- The parameters in the partial case (partial_dataset.py:109-124, 254-257): `loads_needed` is computed from the length before rounding. -/
def pdsCfg (total procs batch loadLength nsets : Nat) : PdsCfg := ⟨total, procs, batch, pdsLoadLen loadLength batch, (total / procs + loadLength - 1) / loadLength, nsets⟩

/-- The state after the constructors of the data set and the first iterator (partial_dataset.py:126-152, 248-270): rows `start ..< start + initial` are loaded. -/
def pdsInit (total procs rank batch initial loadLength : Nat) (idx : List Nat) : PdsSt :=
  { slots := fun _ i => rank * (total / procs) + i
    used := [], loadsLeft := (total / procs + loadLength - 1) / loadLength
    loadStart := rank * (total / procs) + initial
    loadEnd := rank * (total / procs) + initial + pdsLoadLen loadLength batch
    hold := [], tasks := 1, lpc := .idle, plan := idx, todo := idx, cur := [], cpc := .item, ready := [], out := [] }

end Heat
