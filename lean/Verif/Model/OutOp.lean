import Verif.Model.BinaryOp
/-!
# Model of `__binary_op` with `out` and `where`, and of the in-place operators
(heat/core/_operations.py:131-231, heat/core/sanitation.py:33-156, 288-344, heat/core/arithmetics.py:130-192, 3058-3130)

As in `Verif/Model/BinaryOp.lean`: `P ≥ 2`, operands split along the same axis or not split, the split axis only.  Element types are not
modelled (`copy_` converts the result to the type of `out`; the check `can_cast` of the in-place operators is C26).
-/
namespace Heat
variable {α β γ : Type}

/-- The local `out.larray.copy_(result)` (heat/core/_operations.py:230): torch broadcasts the result to the shape of `out`. -/
def torchCopy (m : Nat) : List γ → Except Err (List γ)
  | [x] => .ok (List.replicate m x)
  | l => if l.length = m then .ok l else .error .runtimeError

/-- The operands as they enter the local operation when `out` is given (heat/core/_operations.py:162-199): the checks of `sanitize_out`
(heat/core/sanitation.py:322-336), then both operands are distributed like `out`. -/
def outOperands (fuel P : Nat) (t1 : Opnd α) (t2 : Opnd β) (nout : Nat) (out : Opnd γ) : Except Err ((Nat → List α) × (Nat → List β)) :=
  if nout ≠ out.n then .error .valueError
  else if (t1.dist || t2.dist) ≠ out.dist then .error .valueError
  else if !out.dist then .ok (t1.loc, t2.loc)
  else
    match sanitizeDist fuel P (fun r => ((out.loc r).length : Int)) out.n (out.isBalanced P) t1 with
    | .error e => .error e
    | .ok l1 =>
      match sanitizeDist fuel P (fun r => ((out.loc r).length : Int)) out.n (out.isBalanced P) t2 with
      | .error e => .error e
      | .ok l2 => .ok (l1, l2)

/-- `__binary_op(f, t1, t2, out=out)` (heat/core/_operations.py:131-231): the new local data of `out`, rank by rank. -/
def binaryOut (fuel P : Nat) (f : α → β → γ) (t1 : Opnd α) (t2 : Opnd β) (out : Opnd γ) : Except Err (Nat → Except Err (List γ)) :=
  match bcastSize t1.n t2.n with
  | none => .error .valueError
  | some nout =>
    match outOperands fuel P t1 t2 nout out with
    | .error e => .error e
    | .ok (l1, l2) => .ok fun r => (torchZip f (l1 r) (l2 r)).bind (torchCopy (out.loc r).length)

/-- `t1 += t2` and the like: `__binary_op(wrap_add_, t1, t2, out=t1)` (heat/core/arithmetics.py:184-192).  The operand is its own target, so
that `sanitize_distribution` returns it unchanged. -/
def inplaceOp (fuel P : Nat) (f : α → β → α) (t1 : Opnd α) (t2 : Opnd β) : Except Err (Nat → Except Err (List α)) :=
  binaryOut fuel P f t1 t2 t1

/-- `torch.where(where.larray, result, out.larray)` (heat/core/_operations.py:228). -/
def torchWhere (w : List Bool) (res out : List γ) : Except Err (List γ) :=
  (torchZip Prod.mk w res).bind fun l => torchZip (fun p o => if p.1 then p.2 else o) l out

/-- The condition on the process `r`: it is distributed like `out` only if the split attributes differ (heat/core/_operations.py:226-227). -/
def whereOperand (fuel P : Nat) (w : Opnd Bool) (out : Opnd γ) : Except Err (Nat → List Bool) :=
  if w.dist = out.dist then .ok w.loc
  else if !out.dist then .error .notImplemented
  else sanitizeDist fuel P (fun r => ((out.loc r).length : Int)) out.n (out.isBalanced P) w

/-- `__binary_op(f, t1, t2, out=out, where=w)` (heat/core/_operations.py:131-231) with a condition of the size of the result. -/
def binaryWhere (fuel P : Nat) (f : α → β → γ) (t1 : Opnd α) (t2 : Opnd β) (w : Opnd Bool) (out : Opnd γ) :
    Except Err (Nat → Except Err (List γ)) :=
  match bcastSize t1.n t2.n with
  | none => .error .valueError
  | some n2 =>
    match bcastSize w.n n2 with
    | none => .error .valueError
    | some nout =>
      match outOperands fuel P t1 t2 nout out with
      | .error e => .error e
      | .ok (l1, l2) =>
        match whereOperand fuel P w out with
        | .error e => .error e
        | .ok lw => .ok fun r => ((torchZip f (l1 r) (l2 r)).bind fun res => torchWhere (lw r) res (out.loc r)).bind (torchCopy (out.loc r).length)

/-- `__binary_op(f, t1, t2, where=w)` without `out` (heat/core/_operations.py:206-231): the buffer is created balanced, whatever the
distribution of the result; `junk` is its uninitialised content. -/
def binaryWhereNew (fuel P : Nat) (f : α → β → γ) (t1 : Opnd α) (t2 : Opnd β) (w : Opnd Bool) (junk : List γ) :
    Except Err (Nat → Except Err (List γ)) :=
  match binaryOp fuel P f t1 t2 with
  | .error e => .error e
  | .ok res =>
    let out : Opnd γ := ⟨res.n, res.dist, fun r => if res.dist then (junk.take (chunkRange res.n r P).2).drop (chunkRange res.n r P).1 else junk.take res.n, some true⟩
    match whereOperand fuel P w out with
    | .error e => .error e
    | .ok lw => .ok fun r => ((res.loc r).bind fun x => torchWhere (lw r) x (out.loc r)).bind (torchCopy (out.loc r).length)

end Heat
