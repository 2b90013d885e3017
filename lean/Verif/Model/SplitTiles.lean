import Verif.Model.Basic
import Mathlib.Algebra.BigOperators.Group.Finset.Basic
/-!
# `SplitTiles`: reading and writing tiles (heat/core/tiling.py)

The tile sizes are exact (the code keeps them in float32: see Model/Resplit, C14).  Keys are integers and slices without step; tensors as keys are not modelled (`__getitem__` refuses them).
-/
namespace Heat

/-- One entry of a key. -/
inductive TKey where
  | int (i : Int)
  | slice (a b : Option Int)

/-- `SplitTiles` of an array (tiling.py:86-112): `dims ax p` is `tile_dims[ax][p]`. -/
structure STiles where
  P : Nat
  ndim : Nat
  split : Option Nat
  dims : Nat → Nat → Nat

/-- The constructor (tiling.py:90-101): the lshape map along the split axis, chunks along the others. -/
def mkSTiles (P ndim : Nat) (split : Option Nat) (shape : Nat → Nat) (lens : Nat → Nat) : STiles :=
  ⟨P, ndim, split, fun ax p => if split = some ax then lens p else if p < shape ax % P then shape ax / P + 1 else shape ax / P⟩

/-- `tile_ends_g[ax][p]` (tiling.py:103). -/
def stEnds (T : STiles) (ax p : Nat) : Nat := ∑ q ∈ Finset.range (p + 1), T.dims ax q

/-- `lshape_map[p][ax]`. -/
def stLshape (T : STiles) (p ax : Nat) : Nat := if T.split = some ax then T.dims ax p else ∑ q ∈ Finset.range T.P, T.dims ax q

/-- The index `i` of an axis of extent `P` in Python. -/
def stIndex (P : Nat) (i : Int) : Option Nat := if 0 ≤ i then (if i < P then some i.toNat else none) else if -(P : Int) ≤ i then some (i + P).toNat else none

/-- A bound of a slice in Python, for an axis of extent `P`. -/
def stBound (P : Nat) (i : Int) : Nat := if i < 0 then (i + P).toNat else min i.toNat P

/-- First and last plus one of the tiles that an entry of a key selects. -/
def stRange (P : Nat) : TKey → Nat × Nat
  | .int i => (((stIndex P i).getD 0), (stIndex P i).getD 0 + 1)
  | .slice a b => ((a.map (stBound P)).getD 0, (b.map (stBound P)).getD P)

/-- The entry for an axis, after completing the key with `slice(0, None)` (tiling.py:252-257). -/
def stKey (ks : List TKey) (ax : Nat) : TKey := ks.getD ax (.slice (some 0) none)

/-- `tile_locations[key]` raises no IndexError. -/
def stKeyOk (T : STiles) (ks : List TKey) : Bool := decide (ks.length ≤ T.ndim) && ks.all fun k => match k with
  | .int i => (stIndex T.P i).isSome
  | .slice _ _ => true

/-- `rank in tile_locations[key]` (tiling.py:115-140, 233): tiles are at the process with their number along the split axis, and everywhere without a split axis. -/
def stHere (T : STiles) (me : Nat) (ks : List TKey) : Bool :=
  ((List.range T.ndim).all fun ax => decide ((stRange T.P (stKey ks ax)).1 < (stRange T.P (stKey ks ax)).2)) &&
  match T.split with
  | none => true
  | some s => decide ((stRange T.P (stKey ks s)).1 ≤ me) && decide (me < (stRange T.P (stKey ks s)).2)

/-- The extents of `tile_locations[key]`: integers remove their axis. -/
def stLocShape (T : STiles) (ks : List TKey) : List Nat := (List.range T.ndim).filterMap fun ax => match stKey ks ax with
  | .int _ => none
  | k@(.slice _ _) => some ((stRange T.P k).2 - (stRange T.P k).1)

/-- `self.lshape_map[end_rank][d].max()` for the split axis (tiling.py:246-250, 262-266): with several locations `end_rank` is the last one; with one location it is the whole tensor `tile_locations[key]`; if this has an axis,
`[d]` selects along this axis instead of the axis of the shape, and `max` runs over all axes of the array. -/
def stSplitStop (T : STiles) (ks : List TKey) (s : Nat) : Option Nat :=
  let r := stRange T.P (stKey ks s)
  if r.2 - r.1 > 1 then some (stLshape T (r.2 - 1) s)
  else match stLocShape T ks with
    | [] => some (stLshape T r.1 s)
    | l :: _ => if s < l then some ((List.range T.ndim).foldl (fun acc ax => max acc (stLshape T r.1 ax)) 0) else none

/-- The stop of an axis (tiling.py:261-266). -/
def stStop (T : STiles) (ks : List TKey) (ax : Nat) : Option Nat :=
  if T.split = some ax then stSplitStop T ks ax else some (stEnds T ax ((stRange T.P (stKey ks ax)).2 - 1))

/-- The start of an axis (tiling.py:267-287). -/
def stStart (T : STiles) (ks : List TKey) (ax : Nat) : Option Nat :=
  match stKey ks ax with
  | .slice (some a) _ => if T.split ≠ some ax ∧ a ≠ 0 then (stIndex T.P (a - 1)).map (stEnds T ax) else some 0
  | .slice none _ => some 0
  | .int i => if i > 0 ∧ T.split ≠ some ax then (stIndex T.P (i - 1)).map (stEnds T ax) else some 0

/-- `tiles[key]` on process `me` (tiling.py:186-236): `none` for `None`, otherwise the region of the local array as start and stop of every axis; torch cuts the stop off at the local extent. -/
def stGet (T : STiles) (me : Nat) (ks : List TKey) : Except Err (Option (Nat → Nat × Nat)) :=
  if stKeyOk T ks = false then .error .indexError
  else if stHere T me ks = false then .ok none
  else if (List.range T.ndim).all (fun ax => (stStop T ks ax).isSome && (stStart T ks ax).isSome) = false then .error .indexError
  else .ok (some fun ax => ((stStart T ks ax).getD 0, min ((stStop T ks ax).getD 0) (stLshape T me ax)))

/-- `get_tile_size(key)` along an axis (tiling.py:290-303). -/
def stSize (T : STiles) (ks : List TKey) (ax : Nat) : Int := ((stStop T ks ax).getD 0 : Int) - (stStart T ks ax).getD 0

/-- `tiles[key] = value` on process `me` (tiling.py:305-334), for a number: `__getitem__` gives a view, into which torch writes. -/
def stSet {α : Type} (T : STiles) (me : Nat) (ks : List TKey) (loc : (Nat → Nat) → α) (v : α) : Except Err ((Nat → Nat) → α) :=
  match stGet T me ks with
  | .error e => .error e
  | .ok none => .ok loc
  | .ok (some reg) => .ok fun ix => if (List.range T.ndim).all fun ax => decide ((reg ax).1 ≤ ix ax) && decide (ix ax < (reg ax).2) then v else loc ix

end Heat
