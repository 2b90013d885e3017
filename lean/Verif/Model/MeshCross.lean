import Verif.Model.BroadcastND
import Verif.Model.Rot90
/-!
# meshgrid, cross and flatten (heat/core/factories.py:1395-1436, heat/core/linalg/basics.py:202-268, heat/core/manipulations.py:1068-1115)
-/
namespace Heat
variable {α : Type}

/-! ## meshgrid -/

/-- The axis of the grids along which vector `i` varies: for `xy` indexing and at least two vectors the first two are exchanged (factories.py:1418-1424, and inside `torch.meshgrid`). -/
def meshAxis (xy : Bool) (n i : Nat) : Nat := if xy && decide (1 < n) then (if i = 0 then 1 else if i = 1 then 0 else i) else i

/-- `torch.meshgrid(*l, indexing=...)`: tensors with more than one axis are a RuntimeError; a 0-d tensor counts as one element. -/
def torchMeshgrid (xy : Bool) (l : List (NArr α)) : Except Err (List (NArr α)) :=
  if l.any fun t => decide (1 < t.ndim) then .error .runtimeError
  else .ok (l.zipIdx.map fun p => ⟨l.length, fun k => (l.map fun t => if t.ndim = 0 then 1 else t.dim 0).getD (meshAxis xy l.length k) 0, fun idx => p.1.get fun _ => idx (meshAxis xy l.length p.2)⟩)

/-- The loop that looks for the distributed vector (factories.py:1407-1412). -/
def meshSplit : List (Option Nat) → Nat → Option Nat → Except Err (Option Nat)
  | [], _, acc => .ok acc
  | s :: l, i, acc => if s ≠ none then (if acc ≠ none then .error .valueError else meshSplit l (i + 1) (some i)) else meshSplit l (i + 1) acc

/-- `meshgrid(*xs, indexing=indexing)` (factories.py:1395-1436).  The results of one process are a list, entry `i` belongs to vector `i`. -/
def meshgrid (xs : List (DND α)) (indexing : String) : Except Err (BcArrays α) :=
  if indexing ≠ "xy" ∧ indexing ≠ "ij" then .error .valueError
  else if xs = [] then .ok ⟨[], none, fun _ => .ok [], some true⟩
  else match meshSplit (xs.map DND.split) 0 none with
    | .error e => .error e
    | .ok sp =>
      let xy := indexing == "xy"
      let shape := xs.map fun x => x.gshape.prod
      .ok ⟨(List.range xs.length).map fun k => shape.getD (meshAxis xy xs.length k) 0, sp.map (meshAxis xy xs.length), fun r => torchMeshgrid xy (xs.map fun x => x.loc r), some true⟩

/-! ## cross -/

/-- The index with its entry for axis `ax` replaced. -/
def setAx (idx : Nat → Nat) (ax j : Nat) : Nat → Nat := fun k => if k = ax then j else idx k

/-- `torch.cross(a, b, dim=ax)`. -/
def torchCross [Mul α] [Sub α] (a b : NArr α) (ax : Nat) : Except Err (NArr α) :=
  if a.ndim ≠ b.ndim then .error .runtimeError
  else if a.dim ax ≠ 3 ∨ b.dim ax ≠ 3 then .error .runtimeError
  else match broadcastShape a.shape b.shape with
    | .error _ => .error .runtimeError
    | .ok c => .ok ⟨c.length, fun k => c.getD k 0, fun idx =>
        let u := fun j => (a.expandTo c).get (setAx idx ax (j % 3))
        let v := fun j => (b.expandTo c).get (setAx idx ax (j % 3))
        u (idx ax + 1) * v (idx ax + 2) - u (idx ax + 2) * v (idx ax + 1)⟩

/-- `torch.cat((t, zeros), dim=ax)` with one more entry along `ax`. -/
def NArr.padZero [Zero α] (t : NArr α) (ax : Nat) : NArr α :=
  ⟨t.ndim, fun k => if k = ax then t.dim ax + 1 else t.dim k, fun idx => if idx ax < t.dim ax then t.get idx else 0⟩

/-- A two-dimensional vector gets a third entry 0: `concatenate([x, zeros(shape)], axis=ax)` (basics.py:225-238, concatenate 533-585; the vectors are not along the split axis).  The zeros are replicated, every
process takes its canonical chunk of them; if that is not as large as its part of `x`, `torch.cat` raises RuntimeError on that process (and the others wait for it): modelled as RuntimeError. -/
def padVec [Zero α] (P : Nat) (x : DND α) (ax : Nat) : Except Err (DND α) :=
  if x.gshape.getD ax 0 ≠ 2 then .ok x
  else match x.split with
    | none => .ok ⟨x.gshape.set ax 3, none, fun r => (x.loc r).padZero ax, some true⟩
    | some s =>
      if (List.range P).all fun r => (x.loc r).dim s == chunkLen (x.gshape.getD s 0) P r then .ok ⟨x.gshape.set ax 3, some s, fun r => (x.loc r).padZero ax, some true⟩
      else .error .runtimeError

/-- `if axisc != axisa: a = moveaxis(a, axisa, axisc)` (basics.py:240-244). -/
def moveVec (x : DND α) (src dst : Nat) : Except Err (DND α) := if dst = src then .ok x else moveaxis x [(src : Int)] [(dst : Int)]

/-- `ret[..., -1, ...]`: the last entry along `ax`. -/
def NArr.lastAlong (t : NArr α) (ax : Nat) : NArr α :=
  ⟨t.ndim - 1, fun k => t.dim (if k < ax then k else k + 1), fun idx => t.get fun k => if k < ax then idx k else if k = ax then t.dim ax - 1 else idx (k - 1)⟩

/-- The axes (basics.py:208-215); 0-d arrays have none (`del` of index `None` is a TypeError). -/
def crossAxes (na nb : Nat) (axisa axisb axisc axis : Int) : Except Err (Nat × Nat × Nat) :=
  if axis ≠ -1 ∨ (axisa = axis ∧ axisb = axis ∧ axisc = axis) then
    match sanitizeAxis na (some axis) with
    | .error e => .error e
    | .ok none => .error .typeError
    | .ok (some a) => .ok (a, a, a)
  else match sanitizeAxis na (some axisa), sanitizeAxis nb (some axisb), sanitizeAxis na (some axisc) with
    | .ok (some a), .ok (some b), .ok (some c) => .ok (a, b, c)
    | .error e, _, _ => .error e
    | _, .error e, _ => .error e
    | _, _, .error e => .error e
    | _, _, _ => .error .typeError

/-- `cross(a, b, axisa, axisb, axisc, axis)` (basics.py:202-268).  `a.is_balanced and b.is_balanced` are bound methods, hence true: the operands are never redistributed (250-252).  `del b_shape[axisb]` fails if `b` has
too few axes. -/
def cross [Mul α] [Sub α] [Zero α] (P : Nat) (x y : DND α) (axisa axisb axisc axis : Int) : Except Err (BinND α) :=
  match crossAxes x.gshape.length y.gshape.length axisa axisb axisc axis with
  | .error e => .error e
  | .ok (a, b, c) =>
    if x.split = some a ∨ y.split = some b then .error .valueError
    else if y.gshape.length ≤ b then .error .indexError
    else match broadcastShape (x.gshape.eraseIdx a) (y.gshape.eraseIdx b) with
      | .error e => .error e
      | .ok shape =>
        match padVec P x a, padVec P y b with
        | .error e, _ => .error e
        | _, .error e => .error e
        | .ok x1, .ok y1 =>
          match moveVec x1 a c, moveVec y1 b c with
          | .error e, _ => .error e
          | _, .error e => .error e
          | .ok x2, .ok y2 =>
            if x2.split ≠ y2.split then .error .valueError
            else if x.gshape.getD a 0 = 2 ∧ y.gshape.getD b 0 = 2 then
              .ok ⟨shape, x2.split, fun r => match torchCross (x2.loc r) (y2.loc r) c with
                | .error e => .error e
                | .ok t => .ok (t.lastAlong c), some true⟩
            else .ok ⟨shape.take c ++ 3 :: shape.drop c, x2.split, fun r => torchCross (x2.loc r) (y2.loc r) c, some true⟩

/-! ## flatten -/

/-- `torch.flatten(t)`. -/
def NArr.ravel [Inhabited α] (t : NArr α) : NArr α := ⟨1, fun _ => t.flat.length, fun idx => t.flat.getD (idx 0) default⟩

/-- `flatten(a)` (manipulations.py:1090-1112): distributed arrays are resplit along axis 0, flattened locally, assembled with `is_split=0` and balanced. -/
def flatten [Inhabited α] (P : Nat) (x : DND α) : DND α :=
  match x.split with
  | none => ⟨[((x.loc 0).ravel).dim 0], none, fun r => (x.loc r).ravel, some true⟩
  | some s =>
    let a := if s > 0 then resplitTo P x 0 else x
    balanceND P ⟨[((List.range P).map fun r => ((a.loc r).ravel).dim 0).sum], some 0, fun r => (a.loc r).ravel, none⟩ 0

end Heat
