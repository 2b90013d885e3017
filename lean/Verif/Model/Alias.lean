import Verif.Model.Basic
/-!
# Memory shared between arrays: `copy`, `pos`, `balance`, `astype`, `array`, `asarray`, `conjugate`, the type constructors, `flatten`

One process: its local part of each array. Memory is a collection of buffers; a torch tensor refers to a buffer (contiguous, in one dimension), has a type and the bit that marks a lazy conjugate. A DNDarray
is an object that refers to a tensor. Types are numbers; `cast` converts an element from one type to another, `cj` is the complex conjugate.
-/
namespace Heat
variable {α : Type}

/-- A torch tensor: the address of its buffer, its type, the conjugate bit. -/
structure ATensor where
  addr : Nat
  dt : Nat
  conj : Bool

/-- Buffers below `next` and DNDarrays below `nobj` exist. -/
structure AState (α : Type) where
  next : Nat
  buf : Nat → List α
  nobj : Nat
  obj : Nat → ATensor

/-- The elements that a tensor shows. -/
def tVals (cj : α → α) (s : AState α) (t : ATensor) : List α := if t.conj then (s.buf t.addr).map cj else s.buf t.addr

/-- The elements of a DNDarray. -/
def aVals (cj : α → α) (s : AState α) (x : Nat) : List α := tVals cj s (s.obj x)

/-- `x.larray[i] = v`: the assignment goes to the buffer (through the conjugate bit). -/
def aWrite (cj : α → α) (s : AState α) (x i : Nat) (v : α) : AState α :=
  { s with buf := fun a => if a = (s.obj x).addr then (s.buf a).set i (if (s.obj x).conj then cj v else v) else s.buf a }

/-- A new tensor with its own buffer. -/
def aAlloc (s : AState α) (l : List α) (dt : Nat) : ATensor × AState α :=
  (⟨s.next, dt, false⟩, { s with next := s.next + 1, buf := fun a => if a = s.next then l else s.buf a })

/-- A new DNDarray that refers to a tensor. -/
def aNew (ts : ATensor × AState α) : Nat × AState α :=
  (ts.2.nobj, { ts.2 with nobj := ts.2.nobj + 1, obj := fun x => if x = ts.2.nobj then ts.1 else ts.2.obj x })

/-- `tensor.type(dtype)`: the tensor itself if it has this type already. -/
def tType (cast : Nat → Nat → α → α) (cj : α → α) (s : AState α) (t : ATensor) (dt : Nat) : ATensor × AState α :=
  if t.dt = dt then (t, s) else aAlloc s ((tVals cj s t).map (cast t.dt dt)) dt

/-- `copy(x)` (heat/core/memory.py:32-42): `x.larray.clone()`. -/
def aCopy (cj : α → α) (s : AState α) (x : Nat) : Nat × AState α := aNew (aAlloc s (aVals cj s x) (s.obj x).dt)

/-- `pos(x)` and `+x` (heat/core/arithmetics.py:2492-2500). -/
def aPos (cj : α → α) (s : AState α) (x : Nat) : Nat × AState α := aCopy cj s x

/-- `balance(x, copy)` (heat/core/manipulations.py:144-146) of a balanced array: nothing is moved. -/
def aBalance (cj : α → α) (s : AState α) (x : Nat) (copy : Bool) : Nat × AState α := if copy then aCopy cj s x else (x, s)

/-- `x.astype(dtype, copy)` (heat/core/dndarray.py:538-563; not on MPS devices). -/
def aAstype (cast : Nat → Nat → α → α) (cj : α → α) (s : AState α) (x dt : Nat) (copy : Bool) : Nat × AState α :=
  let ts := tType cast cj s (s.obj x) dt
  if copy then aNew ts else (x, { ts.2 with obj := fun y => if y = x then ts.1 else ts.2.obj y })

/-- `ht.float32(x)` and the other types as functions (heat/core/types.py:128-140). -/
def aTypeNew (cast : Nat → Nat → α → α) (cj : α → α) (s : AState α) (x dt : Nat) : Nat × AState α := aNew (tType cast cj s (s.obj x) dt)

/-- `array(x, dtype, copy)` and `asarray(x, dtype, copy)` of a DNDarray (heat/core/factories.py:310-388), not distributed, on the same device. -/
def aArray (cast : Nat → Nat → α → α) (cj : α → α) (s : AState α) (x : Nat) (dt : Option Nat) (copy : Option Bool) : Except Err (Nat × AState α) :=
  if dt.getD (s.obj x).dt = (s.obj x).dt then .ok (if copy = some true then aCopy cj s x else (x, s))
  else if copy = some true then
    let ts := aAlloc s (aVals cj s x) (s.obj x).dt
    .ok (aNew (tType cast cj ts.2 ts.1 (dt.getD (s.obj x).dt)))
  else if copy = some false then .error .valueError
  else .ok (aNew (tType cast cj s (s.obj x) (dt.getD (s.obj x).dt)))

/-- `conjugate(x)` (heat/core/complex_math.py:46-61, heat/core/_operations.py:379-398): the operand is cast to `promote` of its type, then `torch.conj`, which flips the conjugate bit of complex tensors and
returns other tensors themselves. -/
def aConj (cast : Nat → Nat → α → α) (cj : α → α) (isComplex : Nat → Bool) (promote : Nat → Nat) (s : AState α) (x : Nat) : Nat × AState α :=
  let ts := tType cast cj s (s.obj x) (promote (s.obj x).dt)
  aNew (if isComplex ts.1.dt then { ts.1 with conj := !ts.1.conj } else ts.1, ts.2)

/-- `flatten(x)` and `ravel(x)` (heat/core/manipulations.py:1095-1102, 1786-1794) of an array that is not distributed: `torch.flatten` of a contiguous tensor is a view, `array(copy=None)` keeps it. -/
def aFlatten (s : AState α) (x : Nat) : Nat × AState α := aNew (s.obj x, s)

end Heat
