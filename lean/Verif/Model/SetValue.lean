import Verif.Model.Indexing
import Verif.Spec.Assign
/-!
# Model of `__setitem__` with array values and with index tensors along the split axis (heat/core/dndarray.py:1624-1950)

Complements `Verif.Model.Indexing`, which models scalar values.  Only the key's component along the split axis is modelled and the
other components are whole axes; the array is distributed (`P ≥ 2`).
-/
namespace Heat
open Heat.Spec
variable {α : Type}

/-- torch's `t[sel] = v` on a local tensor: the extents along the assigned axis must agree, or `v` has one slab and is broadcast;
anything else is torch's RuntimeError (shape mismatch). -/
def torchPut (p : Nat → Bool) (v l : List α) : Except Err (List α) :=
  if v.length = selBelow p l.length then .ok (assignSel p v l)
  else match v with
    | [x] => .ok (overwrite p x l)
    | _ => .error .runtimeError

/-- The extent of rank `r` that `__setitem__` computes with `comm.chunk` (heat/core/dndarray.py:1785-1788). -/
def setEnds (n P r : Nat) : Int := let ch := chunkRange n r P; ((ch.2 - ch.1 : Nat) : Int)

/-- `key_start` before it is made local (heat/core/dndarray.py:1805). -/
def setKeyStart (start : Option Int) : Int := start.getD 0
/-- `key_stop` before it is made local (heat/core/dndarray.py:1806-1812). -/
def setKeyStop (n : Nat) (stop : Option Int) : Int := if stop.getD n < 0 then n + stop.getD n else stop.getD n

/-- The local slice bounds on an active rank, `none` on the others (heat/core/dndarray.py:1813-1819, 1838-1842, 1873-1880). -/
def setKey (n P : Nat) (start stop : Option Int) (step : Option Nat) (rank : Nat) : Option (Int × Int) :=
  let stPr := (firstFrom P 0 fun r => setKeyStart start < cum (setEnds n P) (r + 1)).getD P
  let spPr := (lastWhere (P + 1) fun r => setKeyStop n stop ≥ cum (setEnds n P) r).getD 0
  if stPr ≤ rank ∧ rank ≤ spPr then
    let ks := if rank ≠ stPr then 0 else setKeyStart start - cum (setEnds n P) rank
    let ke := if rank ≠ spPr then setEnds n P rank else setKeyStop n stop - cum (setEnds n P) rank
    some (xitemStart rank stPr ks step (cum (setEnds n P) (rank - 1 + 1)) (setKeyStart start), ke)
  else none

/-- `a[start:stop:step] = v` where `v` is a torch tensor, or a `DNDarray` with `split=None`, that every process holds
(heat/core/dndarray.py:1871-1893): rank `rank`'s local data afterwards. -/
def setitemTensor (n P : Nat) (parts : Nat → List α) (start stop : Option Int) (step : Option Nat) (v : List α) (rank : Nat) :
    Except Err (List α) :=
  match setKey n P start stop step rank with
  | none => .ok (parts rank)
  | some (ks, ke) =>
    -- value_slice (lines 1884-1891)
    let vs := max (cum (setEnds n P) rank - setKeyStart start) 0
    let ve := ceilDivInt (vs + ke) (step.getD 1)
    torchPut (inSlice (parts rank).length (some ks) (some ke) (step.getD 1)) (pySlice v (some vs) (some ve) 1) (parts rank)

/-- Row `r` of `target_reshape_map` along the split axis: the extent of the local slice, read off a proxy tensor of the global shape
(heat/core/dndarray.py:1829-1849). -/
def setTarget (n P : Nat) (start stop : Option Int) (step : Option Nat) (r : Nat) : Nat :=
  match setKey n P start stop step r with
  | none => 0
  | some (ks, ke) => selBelow (inSlice n (some ks) (some ke) (step.getD 1)) n

/-- What an active rank writes once the value has been redistributed (heat/core/dndarray.py:1850-1869). -/
def setLocal (n P : Nat) (parts v : Nat → List α) (start stop : Option Int) (step : Option Nat) (rank : Nat) :
    Except Err (List α) :=
  match setKey n P start stop step rank with
  | none => .ok (parts rank)
  | some (ks, ke) => torchPut (inSlice (parts rank).length (some ks) (some ke) (step.getD 1)) (v rank) (parts rank)

/-- `a[start:stop:step] = v` where `v` is a `DNDarray` split along the same axis whose extent `m` there differs from the extent `n` of
`a` (heat/core/dndarray.py:1821-1869): a copy of `v` is redistributed to the extents of the local slices and written locally. -/
def setitemDist (fuel n P : Nat) (parts : Nat → List α) (start stop : Option Int) (step : Option Nat) (m : Nat) (v : Nat → List α)
    (rank : Nat) : Except Err (List α) :=
  (redistribute fuel m P (some fun r => (setTarget n P start stop step r : Int)) v).bind fun v' =>
    setLocal n P parts v' start stop step rank

/-- The same with a `DNDarray` value of equal extent along the split axis (heat/core/dndarray.py:1871-1893): rank `rank` takes its own
global slice of the value. -/
def setitemSame (n P : Nat) (parts : Nat → List α) (start stop : Option Int) (step : Option Nat) (vstarts vcounts : Nat → Int)
    (v : Nat → List α) (rank : Nat) :
    Except Err (List α) :=
  match setKey n P start stop step rank with
  | none => .ok (parts rank)
  | some (ks, ke) =>
    let vs := max (cum (setEnds n P) rank - setKeyStart start) 0
    let ve := ceilDivInt (vs + ke) (step.getD 1)
    (getitemSlice n P vstarts vcounts v (some vs) (some ve) 1 rank).bind fun w =>
      torchPut (inSlice (parts rank).length (some ks) (some ke) (step.getD 1)) w (parts rank)

/-- torch's position for index `k` in a tensor of extent `len`: negative indices count from the end, others raise IndexError. -/
def torchIndex (len : Nat) (k : Int) : Option Nat :=
  if 0 ≤ k ∧ k < len then some k.toNat else if k < 0 ∧ -(len : Int) ≤ k then some (k + len).toNat else none

/-- The indices of the key that lie on rank `rank`, made local (heat/core/dndarray.py:1744-1766 filters with the actual distribution,
line 1897 subtracts the start `comm.chunk` computes). -/
def setIdxLocal (n P : Nat) (starts counts : Nat → Int) (inds : List Int) (rank : Nat) : List Int :=
  (inds.filter fun i => starts rank ≤ i && i < starts rank + counts rank).map fun i => i - (chunkRange n rank P).1

/-- `a[k] = c` with a scalar `c` where `k` is an index tensor with at least two entries or a boolean mask, which has been replaced by the
tensor of its true positions (heat/core/dndarray.py:1697-1701, 1714-1719, 1895-1899).  A tensor with one entry has become an integer
(lines 1738-1742; see `setitemInt`). -/
def setitemIdx (n P : Nat) (starts counts : Nat → Int) (parts : Nat → List α) (inds : List Int) (c : α) (rank : Nat) :
    Except Err (List α) :=
  match (setIdxLocal n P starts counts inds rank).mapM (torchIndex (parts rank).length) with
  | none => .error .indexError
  | some ks => .ok (overwrite (fun j => decide (j ∈ ks)) c (parts rank))

/-- `a[k] = v` with an index tensor and a tensor `v` of values (heat/core/dndarray.py:1895-1899): a rank that owns one of the indices
hands torch the whole of `v`. -/
def setitemIdxVec (n P : Nat) (starts counts : Nat → Int) (parts : Nat → List α) (inds : List Int) (v : List α) (rank : Nat) :
    Except Err (List α) :=
  let loc := setIdxLocal n P starts counts inds rank
  if loc.length = 0 then .ok (parts rank)
  else match loc.mapM (torchIndex (parts rank).length) with
    | none => .error .indexError
    | some ks =>
      if v.length = ks.length then .ok ((ks.zip v).foldl (fun l kv => l.set kv.1 kv.2) (parts rank))
      else match v with
        | [x] => .ok (overwrite (fun j => decide (j ∈ ks)) x (parts rank))
        | _ => .error .runtimeError

/-- How the key's component along the split axis arrives at line 1895: integer `DNDarray`s, integer tensors and Python lists that are the
whole key have been turned into Python lists (heat/core/dndarray.py:1692-1705). -/
inductive IdxKey
  | pyList (inds : List Int)
  | tensor (inds : List Int)

/-- `a[k] = c` for either kind of key: `key[self.split] -= chunk_start` on a Python list raises TypeError
(heat/core/dndarray.py:1895-1897). -/
def setitemKey (n P : Nat) (starts counts : Nat → Int) (parts : Nat → List α) (k : IdxKey) (c : α) (rank : Nat) : Except Err (List α) :=
  match k with
  | .pyList _ => .error .typeError
  | .tensor inds => setitemIdx n P starts counts parts inds c rank

end Heat
