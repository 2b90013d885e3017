import Verif.Model.BinaryOp
import Verif.Model.Float32
/-!
# `equal` (heat/core/relational.py:83-194), `allclose` and `isclose` (heat/core/logical.py:109-162, 229-284, 470-537)

Operands as in `__binary_op` (`Model/BinaryOp.lean`): slabs along the split axis, the other axes have the same shape.  `P ≥ 2`.
-/
namespace Heat
variable {α : Type}

/-- The operands after the alignment (relational.py:130-180); operands with different split axes raise (171-174) and are not represented. -/
def equalAlign (fuel P : Nat) (x y : Opnd α) : Except Err ((Nat → List α) × (Nat → List α)) :=
  if !x.dist && !y.dist then .ok (x.loc, y.loc)
  else if !x.dist then
    if y.isBalanced P then .ok (fun r => let c := chunkRange x.n r P; ((x.loc r).take c.2).drop c.1, y.loc)
    else .ok (fun r => sliceByMap (x.loc r) (fun q => ((y.loc q).length : Int)) r, y.loc)
  else if !y.dist then
    if x.isBalanced P then .ok (x.loc, fun r => let c := chunkRange y.n r P; ((y.loc r).take c.2).drop c.1)
    else .ok (x.loc, fun r => sliceByMap (y.loc r) (fun q => ((x.loc q).length : Int)) r)
  else if !(x.isBalanced P && y.isBalanced P) then
    if (List.range P).any fun r => (x.loc r).length != (y.loc r).length then
      match balance fuel x.n P x.loc with
      | .error e => .error e
      | .ok a =>
        match balance fuel y.n P y.loc with
        | .error e => .error e
        | .ok b => .ok (a, b)
    else .ok (x.loc, y.loc)
  else .ok (x.loc, y.loc)

/-- `equal` of two arrays with more than one element (relational.py:128-129, 182-194): `torch.equal` on every rank, combined with a logical and. -/
def equalArrays [DecidableEq α] (fuel P : Nat) (x y : Opnd α) : Except Err Bool :=
  if x.n ≠ y.n then .ok false
  else
    match equalAlign fuel P x y with
    | .error e => .error e
    | .ok (a, b) => .ok ((List.range P).all fun r => if (a r).length > 0 then decide (a r = b r) else true)

/-- `equal` of two one-element arrays of floating point type with whole-number values (relational.py:109-111, 122-125): both become Python scalars, then arrays again;
`factories.array` of a Python float has type float32 (factories.py:340-350). -/
def equalSingle (a b : Nat) : Bool := decide (f32 a = f32 b)

/-- `torch.allclose` / `torch.isclose` of two local tensors, with broadcasting along the split axis; shapes that do not fit raise. -/
def localClose (close : α → α → Bool) (a b : List α) : Except Err (List Bool) :=
  if a.length = b.length then .ok (List.zipWith close a b)
  else if a.length = 1 then .ok (b.map fun v => a.all fun u => close u v)
  else if b.length = 1 then .ok (a.map fun u => b.all fun v => close u v)
  else .error .runtimeError

/-- The operand `factories.array(t.larray, split=...)` (logical.py:522, 528): the replicated array, distributed evenly. -/
def asSplit (P : Nat) (t : Opnd α) : Opnd α := ⟨t.n, true, fun r => let c := chunkRange t.n r P; ((t.loc r).take c.2).drop c.1, some true⟩

/-- `__sanitize_close_input` (logical.py:517-537) for operands of the same number of dimensions, split along the same axis or not split. -/
def closeAlign (fuel P : Nat) (x y : Opnd α) : Except Err ((Nat → List α) × (Nat → List α)) :=
  if x.dist && !y.dist then
    match sanitizeDist fuel P (fun r => ((x.loc r).length : Int)) x.n (x.isBalanced P) (asSplit P y) with
    | .error e => .error e
    | .ok b => .ok (x.loc, b)
  else if y.dist && !x.dist then
    match sanitizeDist fuel P (fun r => ((y.loc r).length : Int)) y.n (y.isBalanced P) (asSplit P x) with
    | .error e => .error e
    | .ok a => .ok (a, y.loc)
  else .ok (x.loc, y.loc)

/-- `allclose` (logical.py:141-162).  An exception on one rank is an error of the whole call. -/
def allclose (close : α → α → Bool) (fuel P : Nat) (x y : Opnd α) : Except Err Bool :=
  match closeAlign fuel P x y with
  | .error e => .error e
  | .ok (a, b) =>
    match (List.range P).mapM fun r => localClose close (a r) (b r) with
    | .error e => .error e
    | .ok ls => .ok (ls.all fun l => l.all id)

/-- `Allgather(_local_isclose, res)` (logical.py:258-259; communication.py:1358-1377): every rank receives `total // P` values from each rank; blocks of another size are an MPI error.  The buffer is uninitialised before (`false` here). -/
def gatherClose (P total : Nat) (ls : List (List Bool)) : Except Err (List Bool) :=
  if ls.all fun l => l.length == total / P then .ok (ls.flatten ++ List.replicate (total - ls.flatten.length) false) else .error .runtimeError

/-- `isclose` (logical.py:250-284), split axis 0 (or one dimension): the local tensors of the result.  For a distributed operand *every* rank keeps the whole gathered array, with `split=x.split`. -/
def isclose (close : α → α → Bool) (fuel P : Nat) (x y : Opnd α) : Except Err (Nat → List Bool) :=
  match closeAlign fuel P x y with
  | .error e => .error e
  | .ok (a, b) =>
    match (List.range P).mapM fun r => localClose close (a r) (b r) with
    | .error e => .error e
    | .ok ls =>
      if x.dist || y.dist then
        match gatherClose P (max x.n y.n) ls with
        | .error e => .error e
        | .ok l => .ok fun _ => l
      else .ok fun r => ls.getD r []

end Heat
