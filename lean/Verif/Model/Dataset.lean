import Verif.Spec.Dist
import Verif.Model.Basic
/-!
# Shuffling between epochs (heat/utils/data/datatools.py:116-256, 660-799)

`Dataset` of an array with split 0 on `P` processes. Process `r` holds the rows `ht r` of the array (`htdata`) and `data r`, the first `m` of them (`m = n // P`, lines 222-228). `h = m // 2` rows are sent to the next process.
The random permutations (`torch.randperm`) are arguments.
-/
namespace Heat
open Spec
variable {α : Type}

/-- `t[prm]`: rows by index; an index outside raises (`none`) (datatools.py:713, 720, 791, 798). -/
def pickRows (prm : List Nat) (l : List α) : Option (List α) := prm.mapM (fun i => l[i]?)

/-- What process `r` receives from the process before it (datatools.py:698-709, 752-763): the first `h` rows of its data. -/
def dsReceived (P h : Nat) (data : Nat → List α) (r : Nat) : List α := (data (if r ≠ 0 then r - 1 else P - 1)).take h

/-- `t[:h] = new` (datatools.py:711, 718, 789, 796). -/
def dsOverwrite (h : Nat) (new l : List α) : List α := new ++ l.drop h

/-- The local state of the data set: `data` and `htdata`. -/
structure DsState (α : Type) where
  data : Nat → List α
  ht : Nat → List α

/-- `Dataset.__init__` (datatools.py:223-228). -/
def dsInit (m : Nat) (ht : Nat → List α) : DsState α := ⟨fun r => (ht r).take m, ht⟩

/-- `dataset_shuffle` for `[["data", "htdata"]]` (datatools.py:691-716) on process `r`; `prm` is a permutation of the rows of `htdata`. -/
def dsShuffle (P m : Nat) (prm : List Nat) (s : DsState α) (r : Nat) : Option (List α × List α) :=
  (pickRows prm (dsOverwrite (m / 2) (dsReceived P (m / 2) s.data r) (s.ht r))).map (fun l => (l.take m, l))

/-- All processes shuffle (datatools.py:691-716); any error is an error. -/
def dsShuffleAll (P m : Nat) (prm : Nat → List Nat) (s : DsState α) : Option (DsState α) :=
  if ∀ r < P, (dsShuffle P m (prm r) s r).isSome then
    some ⟨fun r => ((dsShuffle P m (prm r) s r).getD ([], [])).1, fun r => ((dsShuffle P m (prm r) s r).getD ([], [])).2⟩
  else none

/-- `dataset_shuffle` for an attribute without DNDarray, `[["targets", None]]` (datatools.py:717-721). -/
def dsShufflePlain (P m : Nat) (prm : List Nat) (data : Nat → List α) (r : Nat) : Option (List α) :=
  (pickRows prm (dsOverwrite (m / 2) (dsReceived P (m / 2) data r) (data r))).map (fun l => l.take m)

/-- `dataset_irecv` on process `r` (datatools.py:783-799) with the rows `new` of the receive list. -/
def dsIrecv (m : Nat) (prm : List Nat) (new : List α) (s : DsState α) (r : Nat) : Option (List α × List α) :=
  (pickRows prm (dsOverwrite (m / 2) new (s.ht r))).map (fun l => (l.take m, l))

/-- The data loader: `_first_iter` and the receive list of the data set (datatools.py:122, 144-164, 763). -/
structure DsLoader (α : Type) where
  first : Bool
  received : Option (Nat → List α)
  ds : DsState α

/-- `_full_dataset_shuffle_iter` with `ishuffle = False` (datatools.py:146-151). -/
def loaderIter (P m : Nat) (prm : Nat → List Nat) (s : DsLoader α) : Option (DsLoader α) :=
  if s.first then some { s with first := false }
  else (dsShuffleAll P m prm s.ds).map (fun d => { s with ds := d })

/-- `_full_dataset_shuffle_iter` with `ishuffle = True` (datatools.py:152-160): first a new send (unless `last_epoch`, or a test set, whose `Ishuffle` does nothing), then the receive. A missing receive list is an `AttributeError`. -/
def loaderIiter (P m : Nat) (last testSet : Bool) (prm : Nat → List Nat) (s : DsLoader α) : Option (DsLoader α) :=
  let s1 := if last ∨ testSet then s else { s with received := some (fun r => dsReceived P (m / 2) s.ds.data r) }
  if s.first then some { s1 with first := false }
  else
    match s1.received with
    | none => none
    | some new =>
      if ∀ r < P, (dsIrecv m (prm r) (new r) s1.ds r).isSome then
        some { s1 with ds := ⟨fun r => ((dsIrecv m (prm r) (new r) s1.ds r).getD ([], [])).1, fun r => ((dsIrecv m (prm r) (new r) s1.ds r).getD ([], [])).2⟩ }
      else none

/-- Several epochs with blocking shuffles (datatools.py:125-151). -/
def loaderEpochs (P m : Nat) : List (Nat → List Nat) → DsLoader α → Option (DsLoader α)
  | [], s => some s
  | p :: ps, s => (loaderIter P m p s).bind (loaderEpochs P m ps)

/-- Several epochs with non-blocking shuffles, `last_epoch` never set (datatools.py:125-160). -/
def loaderIepochs (P m : Nat) : List (Nat → List Nat) → DsLoader α → Option (DsLoader α)
  | [], s => some s
  | p :: ps, s => (loaderIiter P m false false p s).bind (loaderIepochs P m ps)

end Heat
