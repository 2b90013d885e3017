import Verif.Model.Reduce
import Verif.Model.Diag
import Verif.Model.LocalOp
import Verif.Model.StrideTricks
import Mathlib.Algebra.Group.Defs
import Mathlib.Algebra.BigOperators.Group.List.Basic
/-!
# Cumulative operations of arrays of any dimension (`__cum_op`, heat/core/_operations.py:234-335; `cumsum`, `cumprod` and their in-place forms, heat/core/arithmetics.py:742-913)

Written additively, for any commutative monoid; `cumprod` is the same with the product.  Devices and the parameter `out` of another array are not modelled.
-/
namespace Heat
variable {M A B : Type} [AddCommMonoid M]

/-- The index with coordinate `a` replaced. -/
def setIx (a i : Nat) (idx : Nat → Nat) (k : Nat) : Nat := if k = a then i else idx k

/-- `torch.cumsum(t, ax)` (_operations.py:297-302). -/
def NArr.cumAxis (t : NArr M) (ax : Nat) : NArr M :=
  ⟨t.ndim, t.dim, fun idx => ((List.range (idx ax + 1)).map fun i => t.get (setIx ax i idx)).sum⟩

/-- `send` (_operations.py:305-315): the last slab, or neutral elements if there is none. -/
def cumSendN (c : NArr M) (ax : Nat) : NArr M :=
  ⟨c.ndim, fun k => if k = ax then 1 else c.dim k, fun idx => if 0 ≤ (c.dim ax : Int) - 1 then c.get (setIx ax (c.dim ax - 1) idx) else 0⟩

/-- `v` is a possible content of `recv` on process `r` after `Exscan` (_operations.py:316-323): the slabs of the lower processes combined in any order and bracketing; process 0 keeps the neutral elements. -/
def CumRecvN (cums : Nat → NArr M) (ax r : Nat) (v : NArr M) : Prop :=
  v.ndim = (cums r).ndim ∧ (∀ k < v.ndim, v.dim k = if k = ax then 1 else (cums r).dim k) ∧
  ∀ idx, (∀ k < v.ndim, idx k < v.dim k) → if r = 0 then v.get idx = 0 else Combine (· + ·) ((List.range r).map fun q => (cumSendN (cums q) ax).get idx) (v.get idx)

/-- `final_op(cumop, recv)` (_operations.py:324): the slab is broadcast. -/
def NArr.addSlab (c v : NArr M) (ax : Nat) : NArr M := ⟨c.ndim, c.dim, fun idx => c.get idx + v.get (setIx ax 0 idx)⟩

/-- `c` is a possible local tensor of process `r` after line 324; `up` is the conversion to the type in which the running totals are computed (the `dtype` of the call; without it torch's, e.g. int64 for booleans and integers). -/
def CumLocN (up : A → M) (x : DND A) (ax r : Nat) (c : NArr M) : Prop :=
  if x.split = some ax then ∃ v, CumRecvN (fun q => ((x.loc q).mapA up).cumAxis ax) ax r v ∧ c = (((x.loc r).mapA up).cumAxis ax).addSlab v ax
  else c = ((x.loc r).mapA up).cumAxis ax

/-- The axis: None is refused, also for an array without axes (_operations.py:281-283). -/
def cumAxisOf (ndim : Nat) (axis : Option Int) : Except Err Nat :=
  match axis with
  | none => .error .notImplemented
  | some a => match sanitizeAxis ndim (some a) with
    | .error e => .error e
    | .ok (some s) => .ok s
    | .ok none => .error .typeError

/-- `z` is a possible result of `__cum_op` along axis `ax` without `out` (_operations.py:297-335); `back` is the conversion to the type of the result, which is the type of the operand unless `dtype` is given. -/
def CumTo (up : A → M) (back : M → B) (P : Nat) (x : DND A) (ax : Nat) (z : DND B) : Prop :=
  z.split = x.split ∧ z.gshape = isSplitShape P z.loc x.split ∧ ∀ r < P, ∃ c, CumLocN up x ax r c ∧ z.loc r = c.mapA back

/-- `x` after `cumsum_` / `cumprod_` along axis `ax` (arithmetics.py:779-913): the local totals if the array is not distributed, otherwise `__cum_op` on its own memory. -/
def CumInPlace (P : Nat) (x : DND M) (ax : Nat) (z : DND M) : Prop :=
  z.split = x.split ∧ z.gshape = x.gshape ∧ z.balanced = x.balanced ∧
  ∀ r < P, if x.split.isSome && decide (1 < P) then CumLocN id x ax r (z.loc r) else z.loc r = (x.loc r).cumAxis ax

/-- The conversion from bool to int64 in `torch.cumsum`. -/
def boolUp (b : Bool) : Int := if b then 1 else 0

/-- The conversion of the totals to bool. -/
def boolBack (n : Int) : Bool := n != 0

end Heat
