import Verif.Model.BroadcastND
/-!
# Element-wise operations of one operand (`__local_op`, heat/core/_operations.py:338-411)

`exp`, `sqrt`, `sin`, `abs`, `floor`, ... all end here.  The types are not modelled (C09).
-/
namespace Heat
variable {α β : Type}

/-- The operation applied to every element of a tensor. -/
def NArr.mapA (f : α → β) (t : NArr α) : NArr β := ⟨t.ndim, t.dim, fun idx => f (t.get idx)⟩

/-- Without `out` (_operations.py:384-394). -/
def localOp (f : α → β) (x : DND α) : DND β := ⟨x.gshape, x.split, fun r => (x.loc r).mapA f, x.balanced⟩

/-- The multiples (_operations.py:399-401): `int(a / b) if b > 0 else 0` for the broadcast shape and the shape of `x` padded with ones on the left. -/
def opMultiples (bs xs : List Nat) : List Nat := List.zipWith (fun a b => if b > 0 then a / b else 0) bs (List.replicate (bs.length - xs.length) 1 ++ xs)

/-- `t.repeat(multiples)` (torch): new axes on the left if there are more multiples than axes. -/
def NArr.repeatBy (t : NArr α) (m : List Nat) : NArr α :=
  ⟨m.length, fun k => m.getD k 0 * (if k < m.length - t.ndim then 1 else t.dim (k - (m.length - t.ndim))), fun idx => t.get fun j => idx (j + (m.length - t.ndim)) % t.dim j⟩

/-- One process with `out` (_operations.py:398-408): the operand is repeated if some multiple is greater than 1; the operation then writes to `out.larray`, which torch resizes to the shape of the result if it has another
one. -/
def localOpBuf (f : α → β) (t : NArr α) (o : NArr β) : Except Err (NArr β) :=
  match broadcastShape t.shape o.shape with
  | .error e => .error e
  | .ok bs => .ok ((if (opMultiples bs t.shape).any fun m => decide (1 < m) then t.repeatBy (opMultiples bs t.shape) else t).mapA f)

/-- With `out`: the new local data of `out`; its shape, split and balance attributes are neither checked nor changed (_operations.py:374-376, 410). -/
def localOpOut (f : α → β) (x : DND α) (out : DND β) : BinND β := ⟨out.gshape, out.split, fun r => localOpBuf f (x.loc r) (out.loc r), out.balanced⟩

end Heat
