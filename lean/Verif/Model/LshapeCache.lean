import Verif.Model.Dist
/-!
# State machine of the cached `lshape_map` (heat/core/dndarray.py)

Only shapes matter here, so slabs are `Unit`; data movement is the real `redistribute` model.
`P ≥ 2` processes and a split array (otherwise nothing below is distributed).
-/
namespace Heat

/-- The part of a DNDarray the cache depends on: `gshape`, the split axis, the local data of all ranks and
`__lshape_map` (heat/core/dndarray.py:70-90; all ranks hold the same cache). -/
structure CArr where
  gshape : List Nat
  split : Nat
  parts : Nat → List Unit
  cache : Option (Nat → List Int)

/-- The true local shape of rank `r`: `gshape` with the local size in the split position. -/
def CArr.actualRow (a : CArr) (r : Nat) : List Int :=
  ((a.gshape.set a.split (a.parts r).length).map fun (k : Nat) => (k : Int))

/-- `gshape[split]`. -/
def CArr.n (a : CArr) : Nat := a.gshape.getD a.split 0

/-- `create_lshape_map(force_check)` (heat/core/dndarray.py:711-743): the cached map unless forced or absent;
otherwise chunk shapes (balanced) or an Allreduce of the local shapes, which is stored. -/
def CArr.lshapeMap (P : Nat) (a : CArr) (force : Bool) : CArr × (Nat → List Int) :=
  match force, a.cache with
  | false, some m => (a, m)
  | _, _ =>
    let m : Nat → List Int := fun r => ((a.gshape.map fun (k : Nat) => (k : Int)).set a.split
      (lshapeMapForced a.n P a.parts r))
    ({ a with cache := some m }, m)

/-- Column `split` of a map. -/
def col (split : Nat) (m : Nat → List Int) (r : Nat) : Int := (m r).getD split 0

/-- Operations on the array. Collective: every rank performs the operation. -/
inductive COp where
  /-- `a.lshape_map` is read (heat/core/dndarray.py:308-312) -/
  | read
  /-- `a.redistribute_(target_map=m)` -/
  | redistribute (m : Nat → List Int)
  /-- `a.balance_()` -/
  | balance
  /-- `a.collect_(t)`, `0 ≤ t < P` -/
  | collect (t : Nat)
  /-- `a.resplit_(axis)` between two axes -/
  | resplit (axis : Nat)
  /-- `a.larray = x` on every rank, with local split sizes `k r` -/
  | setLarray (k : Nat → Nat)

/-- One operation.  Exceptions leave the array unchanged.  redistribute_ (lines 1369-1475): the forced map is
computed (and cached, line 742), the data is moved, `__lshape_map = target_map` (line 1475).
balance_ (565-603): `target_map` is the forced map with its split column replaced by the chunk sizes (1383-1391).
collect_ (679-682): `target_map` is a clone of `lshape_map` with the split column replaced.
resplit_ (1603-1620): every rank gets the chunk of the new axis, the cache is dropped (C12 proves the content).
larray setter (161-169): neither checks nor drops the cache; `gshape` is unchanged. -/
def CArr.step (P : Nat) (a : CArr) : COp → CArr
  | .read => (a.lshapeMap P false).1
  | .redistribute m =>
    let a1 := (a.lshapeMap P true).1
    match Heat.redistribute 2 a1.n P (some (col a1.split m)) a1.parts with
    | .error _ => a1
    | .ok p => { a1 with parts := p, cache := some m }
  | .balance =>
    if isBalancedCheck a.n P a.parts then a
    else
      let a1 := (a.lshapeMap P true)
      match Heat.redistribute 2 a.n P none a.parts with
      | .error _ => a1.1
      | .ok p =>
        let m : Nat → List Int := fun r =>
          let c := chunkRange a.n r P
          (a1.2 r).set a.split ((c.2 - c.1 : Nat) : Int)
        { a1.1 with parts := p, cache := some m }
  | .collect t =>
    let a0 := (a.lshapeMap P false)
    let m : Nat → List Int := fun r => (a0.2 r).set a.split (if r = t then (a.n : Int) else 0)
    let a1 := (a0.1.lshapeMap P true).1
    match Heat.redistribute 2 a1.n P (some (col a1.split m)) a1.parts with
    | .error _ => a1
    | .ok p => { a1 with parts := p, cache := some m }
  | .resplit axis =>
    if axis = a.split then a
    else
      let newParts : Nat → List Unit := fun r =>
        let c := chunkRange (a.gshape.getD axis 0) r P
        List.replicate (c.2 - c.1) ()
      { a with split := axis, parts := newParts, cache := none }
  | .setLarray k => { a with parts := fun r => List.replicate (k r) () }

end Heat
