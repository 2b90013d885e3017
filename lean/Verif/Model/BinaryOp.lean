import Verif.Model.Dist
/-!
# Model of `__binary_op` and `sanitize_distribution` (heat/core/_operations.py:22-231, heat/core/sanitation.py:33-156)

`P ≥ 2`.  Modelled: operands that are either split along the same axis or not split (`split=None`), `out=None`,
`where=True`; the split axis only (the other axes belong to the slab operation `f`).  Type promotion is C24/C25,
broadcasting of shapes C03.
-/
namespace Heat
variable {α β γ : Type}

/-- An operand as seen along the split axis of the result: `n` slabs, `dist` = is it split, its local data (the whole array on
every rank if not split) and its `balanced` attribute (`none` = unknown, then `is_balanced` checks). -/
structure Opnd (α : Type) where
  n : Nat
  dist : Bool
  loc : Nat → List α
  flag : Option Bool

/-- `is_balanced(force_check=False)` (heat/core/dndarray.py:1219-1232). -/
def Opnd.isBalanced (P : Nat) (a : Opnd α) : Bool :=
  if !a.dist then true else a.flag.getD (isBalancedCheck a.n P a.loc)

/-- `arr.larray[target_map[:rank].sum() : target_map[:rank+1].sum()]` (heat/core/sanitation.py:124-131). -/
def sliceByMap (l : List α) (tmap : Nat → Int) (r : Nat) : List α :=
  (l.take (cum tmap (r + 1)).toNat).drop (cum tmap r).toNat

/-- `sanitize_distribution(arg, target=..., diff_map=...)` for a split target with split column `tmap`, total size
`tsize` and balance flag `tbal` (heat/core/sanitation.py:93-156): the local data of the returned operand. -/
def sanitizeDist (fuel P : Nat) (tmap : Nat → Int) (tsize : Int) (tbal : Bool) (arg : Opnd α) :
    Except Err (Nat → List α) :=
  if arg.n = 1 ∧ tsize > 1 then
    -- resplit(None): everybody gets everything
    .ok fun r => if arg.dist then (List.range P).flatMap arg.loc else arg.loc r
  else if (arg.n : Int) ≠ tsize then .error .valueError
  else if !arg.dist then
    if tbal then .ok fun r => let c := chunkRange arg.n r P; ((arg.loc r).take c.2).drop c.1
    else .ok fun r => sliceByMap (arg.loc r) tmap r
  else if !(tbal && arg.isBalanced P) then
    let cur : Nat → Int := fun r => ((arg.loc r).length : Int)
    if (List.range P).any fun r => cur r != tmap r then redistribute fuel arg.n P (some tmap) arg.loc
    else .ok arg.loc
  else .ok arg.loc

/-- The local torch operation: element-wise on equal sizes, broadcasting size one, otherwise a RuntimeError. -/
def torchZip (f : α → β → γ) : List α → List β → Except Err (List γ)
  | [x], b => .ok (b.map (f x))
  | a, [y] => .ok (a.map (f · y))
  | a, b => if a.length = b.length then .ok (List.zipWith f a b) else .error .runtimeError

/-- The result: local data per rank (or the exception), its split column, and its `balanced` attribute. -/
structure BinRes (γ : Type) where
  loc : Nat → Except Err (List γ)
  dist : Bool
  n : Nat
  flag : Option Bool

/-- `broadcast_shape` of one axis (heat/core/_operations.py:132). -/
def bcastSize (a b : Nat) : Option Nat := if a = b then some a else if a = 1 then some b else if b = 1 then some a else none

/-- The modified `lmap` of a split operand that is broadcast along its split axis: `idx.item()` requires exactly one
populated rank (heat/core/_operations.py:179-181). -/
def bcastMap (nout : Nat) (loc : Nat → List α) (r : Nat) : Int := if (loc r).length ≠ 0 then (nout : Int) else 0

/-- `target_balanced` computed from a `diff_map` (heat/core/sanitation.py:79-87). -/
def mapBalanced (P : Nat) (tmap : Nat → Int) (tsize : Nat) : Bool :=
  (List.range P).all fun r => decide (tmap r = ((tsize / P + if r < tsize % P then 1 else 0 : Nat) : Int))

/-- `__binary_op(f, t1, t2)` (heat/core/_operations.py:131-215). -/
def binaryOp (fuel P : Nat) (f : α → β → γ) (t1 : Opnd α) (t2 : Opnd β) : Except Err (BinRes γ) :=
  match bcastSize t1.n t2.n with
  | none => .error .valueError
  | some nout =>
    if t1.dist ∧ t1.n = nout then
      match sanitizeDist fuel P (fun r => ((t1.loc r).length : Int)) t1.n (t1.isBalanced P) t2 with
      | .error e => .error e
      | .ok l2 => .ok ⟨fun r => torchZip f (t1.loc r) (l2 r), true, nout, t1.flag⟩
    else if t2.dist ∧ t2.n = nout then
      match sanitizeDist fuel P (fun r => ((t2.loc r).length : Int)) t2.n (t2.isBalanced P) t1 with
      | .error e => .error e
      | .ok l1 => .ok ⟨fun r => torchZip f (l1 r) (t2.loc r), true, nout, t2.flag⟩
    else if t1.dist then
      match sanitizeDist fuel P (bcastMap nout t1.loc) nout (mapBalanced P (bcastMap nout t1.loc) nout) t2 with
      | .error e => .error e
      | .ok l2 => .ok ⟨fun r => torchZip f (t1.loc r) (l2 r), true, nout, t1.flag⟩
    else if t2.dist then
      match sanitizeDist fuel P (bcastMap nout t2.loc) nout (mapBalanced P (bcastMap nout t2.loc) nout) t1 with
      | .error e => .error e
      | .ok l1 => .ok ⟨fun r => torchZip f (l1 r) (t2.loc r), true, nout, t2.flag⟩
    else .ok ⟨fun r => torchZip f (t1.loc r) (t2.loc r), false, nout, t1.flag⟩

end Heat
