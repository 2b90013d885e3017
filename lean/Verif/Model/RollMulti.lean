import Verif.Model.Dist
import Verif.Spec.Dist
/-!
# `roll` with several axes (heat/core/manipulations.py:2413-2491)

The array is distributed along axis `split`; process `r` holds the slabs `parts r`. `one s a` rolls a slab by `s` along axis `a` (not the split axis). `torch.roll` with lists rolls along one axis after the other.
The exchange along the split axis is C38; here its result is used.
-/
namespace Heat
open Spec
variable {β : Type}

/-- The slabs rolled by `shift` (result of manipulations.py:2369-2411, C38): position `g` gets the slab of position `(g - shift) mod n`. -/
def rollSlabs (shift : Int) (l : List β) : List β :=
  (List.range l.length).filterMap fun (g : Nat) => l[(((g : Int) - shift) % (l.length : Int)).toNat]?

/-- The same on the processes: every process keeps its number of slabs (manipulations.py:2411). -/
def rollSplit (P : Nat) (parts : Nat → List β) (shift : Int) (r : Nat) : List β :=
  ((rollSlabs shift (content P parts)).drop ((List.range r).map fun k => (parts k).length).sum).take (parts r).length

/-- One pass of the loop that takes the entries for axis `y` out of both lists and adds their shifts (manipulations.py:2466-2472). -/
def takeAxis (y : Int) (st : Int × List Int × List Int) : Int × List Int × List Int :=
  let idx := (List.range st.2.2.length).filter fun i => st.2.2.getD i 0 = y
  (idx.foldl (fun acc i => acc + st.2.1.getD i 0) st.1, idx.reverse.foldl (fun sh i => sh.eraseIdx i) st.2.1, idx.reverse.foldl (fun ax _ => ax.erase y) st.2.2)

/-- `torch.roll(x.larray, shift, axis)` of one process for axes other than the split axis (manipulations.py:2480). -/
def rollLocal (one : Int → Int → β → β) (shift axis : List Int) (l : List β) : List β :=
  l.map fun x => (List.zip shift axis).foldl (fun y sa => one sa.1 sa.2 y) x

/-- `roll(x, shift, axis)` for lists of integers, `axis` after `sanitize_axis`, on a distributed array (manipulations.py:2433-2491): the local parts of the result, and the list `shift` afterwards, which is the list of
the caller if the caller gave a list (`sanitize_sequence`, heat/core/sanitation.py:362-365). -/
def rollMulti (one : Int → Int → β → β) (ndim split P : Nat) (parts : Nat → List β) (shift axis : List Int) : Except Err ((Nat → List β) × List Int) :=
  if shift.length ≠ axis.length then .error .valueError
  else if (split : Int) ∈ axis then
    let st := takeAxis ((split : Int) - ndim) (takeAxis split (0, shift, axis))
    let x := rollSplit P parts st.1
    if st.2.2.length = 0 then .ok (x, st.2.1) else .ok (fun r => rollLocal one st.2.1 st.2.2 (x r), st.2.1)
  else .ok (fun r => rollLocal one shift axis (parts r), shift)

/-- `shift` is one integer and `axis` a tuple (manipulations.py:2413-2431): the same shift for every axis. -/
def rollInt (one : Int → Int → β → β) (ndim split P : Nat) (parts : Nat → List β) (shift : Int) (axis : List Int) : Except Err ((Nat → List β) × List Int) :=
  rollMulti one ndim split P parts (List.replicate axis.length shift) axis

end Heat
