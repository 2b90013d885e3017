import Verif.Spec.ND
import Verif.Model.StrideTricks
/-!
# Axis manipulations (heat/core/manipulations.py, heat/core/linalg/basics.py:1853-1909)

The local torch operations (`permute`, `unsqueeze`, `reshape` dropping axes of extent one, `stack`) are library
functions and modelled by what they do to shape and elements.
-/
namespace Heat
variable {α : Type}

/-! ## torch -/

/-- `tensor.permute(*axes)` for axes already in range: axis `k` of the result is axis `axes[k]`. -/
def NArr.permute (a : NArr α) (axes : List Nat) : NArr α :=
  ⟨a.ndim, fun k => a.dim (axes.getD k 0), fun idx => a.get fun j => idx (axes.idxOf j)⟩

/-- `tensor.unsqueeze(dim)`. -/
def NArr.unsqueeze (a : NArr α) (ax : Nat) : Except Err (NArr α) :=
  if ax > a.ndim then .error .indexError
  else .ok ⟨a.ndim + 1, fun k => if k < ax then a.dim k else if k = ax then 1 else a.dim (k - 1),
    fun idx => a.get fun k => if k < ax then idx k else idx (k + 1)⟩

/-- `torch.stack(tensors, dim)` of `m` tensors of equal shape. -/
def stackLoc (m : Nat) (t : Nat → NArr α) (ax : Nat) : NArr α :=
  ⟨(t 0).ndim + 1, fun k => if k < ax then (t 0).dim k else if k = ax then m else (t 0).dim (k - 1),
    fun idx => (t (idx ax)).get fun k => if k < ax then idx k else idx (k + 1)⟩

/-- `tensor.reshape([extent of the axes not in gone])`, all axes in `gone` having extent 1: element `idx` of the result
is the element with coordinate 0 on the vanished axes.  `keep` lists the remaining axes. -/
def NArr.dropAxes (a : NArr α) (gone : List Nat) : NArr α :=
  let keep := (List.range a.ndim).filter fun k => k ∉ gone
  ⟨keep.length, fun k => a.dim (keep.getD k 0), fun idx => a.get fun j => if j ∈ gone then 0 else idx (keep.idxOf j)⟩

/-- Python's `list.insert(i, v)` for `i ≥ 0`. -/
def pyInsert {β : Type} (l : List β) (i : Nat) (v : β) : List β := l.take i ++ v :: l.drop i

/-! ## transpose -/

/-- Axis numbers after linalg/basics.py:1881-1885: negative ones shifted once. -/
def shiftAxes (n : Nat) (axes : List Int) : List Int := axes.map fun a => if a < 0 then a + n else a

/-- torch's own check and normalisation of the arguments of `permute`: every axis in `[-n, n)`, no axis twice. -/
def permuteAxes (n : Nat) (axes : List Int) : Option (List Nat) :=
  if axes.all fun a => -(n : Int) ≤ a && a < n then
    let l := axes.map fun (a : Int) => (a % (n : Int)).toNat
    if l.Nodup then some l else none
  else none

/-- `transpose(a, axes)` (linalg/basics.py:1853-1909).  Errors: a wrong number of axes, the split axis missing
(ValueError, 1890-1891), anything torch rejects (ValueError, 1908-1909). -/
def transpose (x : DND α) (axes : Option (List Int)) : Except Err (DND α) :=
  let n := x.gshape.length
  let go (axes : List Int) : Except Err (DND α) :=
    match (match x.split with
      | none => Except.ok none
      | some s => if (s : Int) ∈ axes then .ok (some (axes.idxOf (s : Int))) else .error Err.valueError) with
    | .error e => .error e
    | .ok split =>
      match permuteAxes n axes with
      | none => .error .valueError
      | some l => .ok ⟨l.map fun a => x.gshape.getD a 0, split, fun r => (x.loc r).permute l, x.balanced⟩
  match axes with
  | none => go ((List.range n).reverse.map fun (i : Nat) => (i : Int))
  | some axes => if axes.length ≠ n then .error .valueError else go (shiftAxes n axes)

/-- Insertion into an ascending list of pairs (for `sorted(zip(destination, source))`). -/
def insertPair (p : Nat × Nat) : List (Nat × Nat) → List (Nat × Nat)
  | [] => [p]
  | q :: l => if p.1 < q.1 ∨ (p.1 = q.1 ∧ p.2 ≤ q.2) then p :: q :: l else q :: insertPair p l

/-- `sorted(pairs)`. -/
def sortPairs (l : List (Nat × Nat)) : List (Nat × Nat) := l.foldr insertPair []

/-- The order computed by `moveaxis` (manipulations.py:1419-1422). -/
def moveOrder (n : Nat) (src dst : List Nat) : List Nat :=
  (sortPairs (dst.zip src)).foldl (fun order p => pyInsert order p.1 p.2) ((List.range n).filter fun k => k ∉ src)

/-- `moveaxis(x, source, destination)` (manipulations.py:1362-1424).  A 0-d array has no axes: `sanitize_axis` returns
`None`, whose `len` raises TypeError. -/
def moveaxis (x : DND α) (src dst : List Int) : Except Err (DND α) :=
  match sanitizeAxes x.gshape.length src, sanitizeAxes x.gshape.length dst with
  | .error e, _ => .error e
  | _, .error e => .error e
  | .ok (some s), .ok (some d) =>
    if s.length ≠ d.length then .error .valueError
    else transpose x (some ((moveOrder x.gshape.length s d).map fun (k : Nat) => (k : Int)))
  | _, _ => .error .typeError

/-- Python list index: negative counts from the end; out of range raises IndexError. -/
def pyIndex (n : Nat) (i : Int) : Except Err Nat :=
  if 0 ≤ i ∧ i < n then .ok i.toNat else if -(n : Int) ≤ i ∧ i < 0 then .ok (i + n).toNat else .error .indexError

/-- `axes[axis1], axes[axis2] = axes[axis2], axes[axis1]` on `axes = [0, ..., n-1]`. -/
def swapOrder (n i j : Nat) : List Nat := ((List.range n).set i j).set j i

/-- `swapaxes(x, axis1, axis2)` (manipulations.py:3376-3416). -/
def swapaxes (x : DND α) (a b : Int) : Except Err (DND α) :=
  match pyIndex x.gshape.length a, pyIndex x.gshape.length b with
  | .ok i, .ok j => transpose x (some ((swapOrder x.gshape.length i j).map fun (k : Nat) => (k : Int)))
  | .error e, _ => .error e
  | _, .error e => .error e

/-! ## expand_dims -/

/-- The loop over the axes (manipulations.py:1039-1042, 1047-1049) on the bookkeeping list, the shape and one local tensor. -/
def expandLoop (marks : List Bool) (shape : List Nat) (t : NArr α) : List Nat → Except Err (List Bool × List Nat × NArr α)
  | [] => .ok (marks, shape, t)
  | ax :: rest => match t.unsqueeze ax with
    | .error e => .error e
    | .ok t' => expandLoop (pyInsert marks ax false) (pyInsert shape ax 1) t' rest

/-- `expand_dims` with the axes already sanitized (manipulations.py:1030-1062), on rank `r`. -/
def expandDimsRank (x : DND α) (axes : List Nat) (r : Nat) : Except Err (List Nat × Option Nat × NArr α) :=
  let marks := (List.range x.gshape.length).map fun k => decide (x.split = some k)
  match expandLoop marks x.gshape (x.loc r) axes with
  | .error e => .error e
  | .ok (m, shape, t) => .ok (shape, if true ∈ m then some (m.idxOf true) else none, t)

/-- `expand_dims(a, axis)` for a tuple or list of axes (manipulations.py:1036-1042): axes are sanitized against the
number of dimensions of the result. A single int is the one-element case. -/
def expandDims (x : DND α) (axes : List Int) (r : Nat) : Except Err (List Nat × Option Nat × NArr α) :=
  match sanitizeAxes (x.gshape.length + axes.length) axes with
  | .error e => .error e
  | .ok none => expandDimsRank x [] r
  | .ok (some l) => expandDimsRank x l r

/-! ## squeeze -/

/-- The rank owning position `i` along axis `s`, and the local position. -/
def locate (P : Nat) (loc : Nat → NArr α) (s i : Nat) : Nat × Nat :=
  let r := ((List.range P).find? fun q => decide (i < Spec.axisStart loc s (q + 1))).getD 0
  (r, i - Spec.axisStart loc s r)

/-- `x.resplit_(None)`: every rank obtains the concatenation of the local tensors along the split axis (`Allgatherv`,
dndarray.py:1616-1628; the communication itself is the subject of C13). -/
def resplitNone (P : Nat) (x : DND α) : DND α :=
  match x.split with
  | none => x
  | some s =>
    let whole : NArr α := ⟨x.gshape.length, fun k => x.gshape.getD k 0, fun idx =>
      (x.loc (locate P x.loc s (idx s)).1).get fun k => if k = s then (locate P x.loc s (idx s)).2 else idx k⟩
    ⟨x.gshape, none, fun _ => whole, some true⟩

/-- The argument `axis` of `squeeze`. -/
inductive SqAxis where
  | none | one (a : Int) | many (l : List Int)
  deriving DecidableEq, Repr

/-- Axes to be removed (manipulations.py:3196-3207); `sanitize_axis` of a 0-d array gives `None`. -/
def squeezeAxes (shape : List Nat) : SqAxis → Except Err (List Nat)
  | .none => .ok ((List.range shape.length).filter fun k => shape.getD k 0 == 1)
  | .one a => match sanitizeAxis shape.length (some a) with
    | .error e => .error e
    | .ok none => .ok []
    | .ok (some k) => if shape.getD k 0 = 1 then .ok [k] else .error .valueError
  | .many l => match sanitizeAxes shape.length l with
    | .error e => .error e
    | .ok none => .ok []
    | .ok (some ks) => if ks.all fun k => shape.getD k 0 == 1 then .ok ks else .error .valueError

/-- `squeeze(x, axis)` (manipulations.py:3137-3231): the result, and the argument `x` as the caller sees it afterwards
(`x.resplit_` works in place).  The split of the result may become negative for repeated axes. -/
def squeeze (P : Nat) (x : DND α) (axis : SqAxis) : Except Err ((List Nat × Option Int × (Nat → NArr α)) × DND α) :=
  match squeezeAxes x.gshape axis with
  | .error e => .error e
  | .ok gone =>
    let x := match x.split with
      | none => x
      | some s => if s ∈ gone then resplitNone P x else x
    let shape := ((List.range x.gshape.length).filter fun k => k ∉ gone).map fun k => x.gshape.getD k 0
    let split := x.split.map fun (s : Nat) => (s : Int) - ((gone.filter fun (d : Nat) => d < s).length : Int)
    .ok ((shape, split, fun r => (x.loc r).dropAxes gone), x)

/-! ## stack -/

/-- `stack(arrays, axis)` (manipulations.py:3326-3373) for `m ≥ 2` arrays already aligned by `sanitize_distribution`
(C50): same shapes, split and local shapes. -/
def stack (m : Nat) (xs : Nat → DND α) (axis : Int) : Except Err (DND α) :=
  if m < 2 then .error .valueError
  else
    let target := xs 0
    match sanitizeAxis (target.gshape.length + 1) (some axis) with
    | .error e => .error e
    | .ok none => .error .typeError
    | .ok (some ax) =>
      .ok ⟨target.gshape.take ax ++ m :: target.gshape.drop ax,
        target.split.map fun s => if ax ≤ s then s + 1 else s,
        fun r => stackLoc m (fun j => (xs j).loc r) ax, target.balanced⟩

end Heat
