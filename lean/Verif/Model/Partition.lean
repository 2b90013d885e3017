import Verif.Model.ND
import Verif.Model.Chunk
import Verif.Model.Float32
import Verif.Spec.Partition
/-!
# The partition interface (heat/core/dndarray.py:745-841, heat/core/factories.py:917-1070)
-/
namespace Heat
variable {α : Type}

/-- One entry of `partitions` as seen by one rank; `data` is `None` unless the rank has the data (dndarray.py:822-829).
`dtype` and `device` are omitted. -/
structure Part where
  start : List Nat
  shape : List Nat
  hasData : Bool
  location : Nat
  deriving DecidableEq, Repr

/-- `d[k] = v` on a Python dict, as the list of its items in insertion order. -/
def dictSet {κ β : Type} [DecidableEq κ] (d : List (κ × β)) (k : κ) (v : β) : List (κ × β) :=
  if d.any (fun p => p.1 = k) then d.map fun p => if p.1 = k then (k, v) else p else d ++ [(k, v)]

/-- `start_idx_map[r]` (dndarray.py:798-812).  `torch.cat((z, cumsum))` has the promoted type of the array and int64, so for floating point arrays
the starts pass through that type: `rnd` is that conversion. -/
def startIdx (rnd : Nat → Nat) (lmap : Nat → List Nat) (split : Option Nat) (n r : Nat) : List Nat :=
  match split with
  | none => (List.range n).map fun _ => 0
  | some s => (List.range n).map fun k => if k = s then rnd (((List.range r).map fun q => (lmap q).getD s 0).sum) else 0

/-- The key of rank `r` (dndarray.py:815-821). -/
def partKey (split : Option Nat) (n r : Nat) : List Nat := (List.range n).map fun k => if split = some k then r else 0

/-- The `partitions` dictionary made by rank `me` (dndarray.py:814-829); `lmap` is the lshape map (C09). -/
def partitionInterface (rnd : Nat → Nat) (P : Nat) (lmap : Nat → List Nat) (split : Option Nat) (n me : Nat) : List (List Nat × Part) :=
  (List.range P).foldl (fun d r => dictSet d (partKey split n r)
    ⟨startIdx rnd lmap split n r, lmap r, decide (split = none ∨ r = me), r⟩) []

/-- `locals` (dndarray.py:802-807, 835). -/
def partLocal (split : Option Nat) (n me : Nat) : List Nat := (List.range n).map fun k => if split = some k then me else 0

/-- The split axis found by comparing the local with the global shape (factories.py:1036-1048). -/
def inferSplit (gshape lshape : List Nat) : Except Err (Option Nat) :=
  match (List.range (min gshape.length lshape.length)).filter fun k => gshape.getD k 0 ≠ lshape.getD k 0 with
  | [] => .ok none
  | [k] => .ok (some k)
  | _ => .error .runtimeError

/-- Local shape that `comm.chunk(gshape, split, rank)` gives (factories.py:1052). -/
def chunkShape (gshape : List Nat) (split : Option Nat) (r P : Nat) : Option (List Nat) :=
  (chunk gshape (split.map fun (s : Nat) => (s : Int)) r P).toOption.map (·.lshape)

/-- `from_partition_dict(parted)` on a rank whose local block has shape `lshape`: split axis and `balanced` attribute of the result
(factories.py:1006-1070).  Global shape and data are taken over as they are. -/
def fromPartition (P : Nat) (gshape : List Nat) (parts : List (List Nat × Part)) (lshape : List Nat) : Except Err (Option Nat × Bool) :=
  match inferSplit gshape lshape with
  | .error e => .error e
  | .ok split => .ok (split, parts.all fun p => decide (chunkShape gshape split p.2.location P = some p.2.shape))

end Heat
