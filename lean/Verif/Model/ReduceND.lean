import Verif.Model.Reduce
import Verif.Model.Norm
import Mathlib.Algebra.Group.Defs
import Mathlib.Algebra.BigOperators.Group.List.Basic
/-!
# Reductions of arrays of any dimension (`__reduce_op`, heat/core/_operations.py:414-545)

For operators that reduce an empty axis to their neutral element (sum, prod, any, all): written additively, for any commutative monoid.  The maximum and the minimum, which have no neutral element, and arg-reductions are not
modelled here (C20, C59).  Types are not modelled.
-/
namespace Heat
variable {M : Type} [AddCommMonoid M]

/-- `split in axis`, all axes for None. -/
def splitReduced (split : Option Nat) (axis : Option (List Nat)) : Bool :=
  match split with
  | none => false
  | some s => match axis with
    | none => true
    | some ax => decide (s ∈ ax)

/-- `0 in x.lshape`. -/
def NArr.hasZero (t : NArr M) : Bool := t.shape.contains 0

/-- The tensor that is reduced (_operations.py:460-474): one slab of neutral elements on a process without data, if the split axis is reduced. -/
def reduceInput (P : Nat) (x : DND M) (axis : Option (List Nat)) (r : Nat) : NArr M :=
  if decide (1 < P) && (x.loc r).hasZero && splitReduced x.split axis then
    match x.split with
    | some s => ⟨x.gshape.length, fun k => (x.gshape.set s 1).getD k 0, fun _ => 0⟩
    | none => x.loc r
  else x.loc r

/-- `partial_op(partial)`, everything (_operations.py:477-478): the result has no axes. -/
def NArr.sumAll (t : NArr M) : NArr M :=
  ⟨0, fun _ => 1, fun _ => ((List.range t.ndim).foldl (fun t ax => redAxis List.sum t ax true) t).get fun _ => 0⟩

/-- `partial_op(partial, dim=dim, keepdim=True)` for all axes, then the reshape without these axes unless `keepdims`; a tensor with one axis and one all of whose axes are reduced is not reshaped (_operations.py:486-503). -/
def NArr.sumSome (t : NArr M) (ax : List Nat) (keepdims : Bool) : NArr M :=
  let p := ax.foldl (fun t ax => redAxis List.sum t ax true) t
  if !keepdims && p.ndim ≠ 1 then
    if (List.range t.ndim).any fun k => k ∉ ax then p.dropAxes ax else p
  else p

/-- The partial result of process `r` (_operations.py:477-503). -/
def reducePart (P : Nat) (x : DND M) (axis : Option (List Nat)) (keepdims : Bool) (r : Nat) : NArr M :=
  match axis with
  | none => (reduceInput P x axis r).sumAll
  | some ax => (reduceInput P x axis r).sumSome ax keepdims

/-- The shape of the result (_operations.py:480-484, 487, 492, 494-496). -/
def reduceShape (gshape : List Nat) (axis : Option (List Nat)) (keepdims : Bool) : List Nat :=
  match axis with
  | none => []
  | some ax => if !keepdims && gshape.length ≠ 1 then loseDims gshape ax else onesAt gshape ax

/-- The split axis of the result (_operations.py:505-514).  An integer: every entry of `axis` below the split axis is subtracted, also repeated ones. -/
def reduceSplit (split : Option Nat) (axis : Option (List Nat)) (keepdims : Bool) : Option Int :=
  match split with
  | none => none
  | some s => match axis with
    | none => none
    | some ax => if s ∈ ax then none else if !keepdims then some ((s : Int) - ((ax.filter fun dim => dim < s).length : Int)) else some (s : Int)

/-- `v` is a possible result of `Allreduce(IN_PLACE, partial, op)`: every entry is combined in any order and bracketing. -/
def AllreduceN (P : Nat) (parts : Nat → NArr M) (r : Nat) (v : NArr M) : Prop :=
  v.ndim = (parts r).ndim ∧ (∀ k < v.ndim, v.dim k = (parts r).dim k) ∧
  ∀ idx, (∀ k < v.ndim, idx k < v.dim k) → Combine (· + ·) ((List.range P).map fun q => (parts q).get idx) (v.get idx)

/-- `z` is a possible result of `__reduce_op(x, ..., axis=axis, keepdims=keepdims)` (_operations.py:505-545). -/
def ReducesTo (P : Nat) (x : DND M) (axis : Option (List Nat)) (keepdims : Bool) (z : DND M) : Prop :=
  z.gshape = reduceShape x.gshape axis keepdims ∧ z.split.map Int.ofNat = reduceSplit x.split axis keepdims ∧
  ∀ r < P, if splitReduced x.split axis && decide (1 < P) then AllreduceN P (reducePart P x axis keepdims) r (z.loc r) else z.loc r = reducePart P x axis keepdims r

end Heat
