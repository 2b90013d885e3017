import Verif.Model.Dist
import Verif.Spec.Select
/-!
# Model of `__getitem__` / `__setitem__` along the split axis (heat/core/dndarray.py:923-1177, 1624-1911, 2020-2041)

Only the component of the key along the split axis is modelled; the components for other axes act on slabs and are passed
through to torch unchanged.  `P ≥ 2` (otherwise the code calls torch directly).  Local torch slicing
`t[start:stop:step]` is Python slicing (`Spec.pySlice`); torch rejects steps < 1 with a ValueError, so `step ≥ 1` here.
-/
namespace Heat
open Heat.Spec

/-- Last `i < P` with `p i` (`torch.where(p)[0][-1]`). -/
def lastWhere (P : Nat) (p : Nat → Bool) : Option Nat := (List.range P).reverse.find? p

/-- `__xitem_get_key_start_stop` (heat/core/dndarray.py:2020-2041), the new start.  `endPrev = ends[rank-1]`. -/
def xitemStart (rank actives0 : Nat) (keySt : Int) (step : Option Nat) (endPrev : Int) (ogStart : Int) : Int :=
  match step with
  | none => keySt
  | some step =>
    if rank > actives0 then
      let offset := (endPrev - ogStart) % (step : Int)
      if step > 2 ∧ offset > 0 then keySt + (step - offset)
      else if step = 2 ∧ offset > 0 then keySt + offset
      else keySt
    else keySt

/-- `math.ceil(a / b)` for `b > 0` (exact rational division; the code's float64 division is exact below 2^53). -/
def ceilDivInt (a : Int) (b : Nat) : Int := -((-a) / (b : Int))

/-- `arr.reshape(lout)` where only the split extent can differ: torch accepts the right extent, and `-1`, which it infers;
anything else raises RuntimeError.  (For slabs without elements torch is more permissive; not modelled.) -/
def reshapeExtent {α : Type} (l : List α) (want : Int) : Except Err (List α) :=
  if want = (l.length : Int) ∨ want = -1 then .ok l else .error .runtimeError

/-- `a[start:stop:step]` along the split axis of a distributed array (heat/core/dndarray.py:1111-1142): what rank
`rank` returns.  `starts r`, `counts r` are `counts_displs`. -/
def getitemSlice {α : Type} (n P : Nat) (starts counts : Nat → Int) (parts : Nat → List α)
    (start stop : Option Int) (step : Nat) (rank : Nat) : Except Err (List α) :=
  -- sanitize_slice
  let (keyStart, keyStop, _) := sanitizeSlice ⟨start, stop, some step⟩ n
  let stPr := (firstFrom P 0 fun r => keyStart < starts r + counts r).getD P
  let spPr := (lastWhere P fun r => keyStop ≥ starts r).getD 0
  -- actives = range(st_pr, sp_pr + 1)
  if stPr ≤ rank ∧ rank ≤ spPr then
    let ks := if rank ≠ stPr then 0 else keyStart - starts rank
    let ke := if rank ≠ spPr then counts rank else keyStop - starts rank
    let ks := xitemStart rank stPr ks (some step) (starts (rank - 1) + counts (rank - 1)) keyStart
    let want := ceilDivInt (ke - ks) step
    reshapeExtent (pySlice (parts rank) (some ks) (some ke) step) want
  else .ok []

/-- `a[i]` with an integer along the split axis (heat/core/dndarray.py:1144-1166): the slab every rank gets (the owner's
slab is broadcast).  An index outside `[-n, n)` raises IndexError when the torch proxy is indexed (line 1032). -/
def getitemInt {α : Type} (n P : Nat) (starts : Nat → Int) (parts : Nat → List α) (i : Int) : Except Err α :=
  if i < -(n : Int) ∨ i ≥ n then .error .indexError
  else
    let k := if i < 0 then i + n else i
    match lastWhere P fun r => k ≥ starts r with
    | none => .error .indexError
    | some active =>
      match (parts active)[(k - starts active).toNat]? with
      | none => .error .indexError
      | some x => .ok x

/-- `a[[i0, i1, ...]]` with a list (or 1-d integer tensor) along the split axis (heat/core/dndarray.py:1065-1109), what rank
`rank` returns.  Each index must be in `[-n, n)` (torch proxy, line 1032).  With fewer than two entries the first
branch is not taken (`len(key) > 1`, line 1072), the key is no slice and `__key_is_singular` is False for a
one-element list (the proxy keeps a dimension), so `arr` stays the empty tensor of line 1053. -/
def getitemList {α : Type} (n : Nat) (starts counts : Nat → Int) (parts : Nat → List α)
    (inds : List Int) (rank : Nat) : Except Err (List α) :=
  if inds.any fun i => i < -(n : Int) || i ≥ (n : Int) then .error .indexError
  else if inds.length > 1 then
    let loc := inds.filter fun i => starts rank ≤ i && i < starts rank + counts rank
    .ok (loc.filterMap fun i => (parts rank)[(i - starts rank).toNat]?)
  else .ok []

/-- `a[start:stop:step] = c` with a scalar along the split axis of a distributed array
(heat/core/dndarray.py:1783-1817, 1871-1895): rank `rank`'s local data afterwards.  Offsets come from `comm.chunk`,
not from the actual distribution; `chunk_starts` has `P + 1` entries (line 1790). -/
def setitemSlice {α : Type} (n P : Nat) (parts : Nat → List α) (start stop : Option Int) (step : Option Nat)
    (c : α) (rank : Nat) : List α :=
  let ends (r : Nat) : Int := let ch := chunkRange n r P; ((ch.2 - ch.1 : Nat) : Int)
  let chunkEnd (r : Nat) : Int := cum ends (r + 1)
  let chunkStart (r : Nat) : Int := cum ends r
  let keyStart := start.getD 0
  let keyStop := stop.getD n
  let keyStop := if keyStop < 0 then n + stop.getD n else keyStop
  let stPr := (firstFrom P 0 fun r => keyStart < chunkEnd r).getD P
  let spPr := (lastWhere (P + 1) fun r => keyStop ≥ chunkStart r).getD 0
  if stPr ≤ rank ∧ rank ≤ spPr then
    let ks := if rank ≠ stPr then 0 else keyStart - chunkStart rank
    let ke := if rank ≠ spPr then ends rank else keyStop - chunkStart rank
    let ks := xitemStart rank stPr ks step (chunkEnd (rank - 1)) keyStart
    let l := parts rank
    overwrite (inSlice l.length (some ks) (some ke) (step.getD 1)) c l
  else parts rank

/-- `a[i] = c` with an integer along the split axis (heat/core/dndarray.py:1902-1911): rank `rank`'s local data afterwards,
or torch's IndexError if the local index does not exist.  An index outside `[-n, n)` matches no branch. -/
def setitemInt {α : Type} (n P : Nat) (parts : Nat → List α) (i : Int) (c : α) (rank : Nat) :
    Except Err (List α) :=
  let ch := chunkRange n rank P
  let put (k : Int) : Except Err (List α) :=
    if k.toNat < (parts rank).length then .ok ((parts rank).set k.toNat c) else .error .indexError
  if (ch.1 : Int) ≤ i ∧ i < ch.2 then put (i - ch.1)
  else if i < 0 then
    if (ch.1 : Int) ≤ n + i ∧ n + i < ch.2 then put (i + n - ch.1) else .ok (parts rank)
  else .ok (parts rank)

end Heat
