import Verif.Model.Memory
/-!
# Reductions over tensors in memory (`__reduce_like`, heat/core/communication.py:982-1087)

At least two processes, buffers in host memory, at most COUNT_LIMIT elements (larger ones: C46).  The reduction itself is a function of the values of all processes and the rank, so that `Allreduce`, `Reduce`, `Scan` and `Exscan` are covered.
-/
namespace Heat
variable {α : Type}

/-- The buffers of one process; no send buffer is `MPI.IN_PLACE`. -/
structure RBuf (α : Type) where
  send : Option (Tens α)
  recv : Tens α

/-- Harmonising the buffers (communication.py:1024-1059): if strides or offsets differ, both are replaced by contiguous ones (`set_` changes the tensor objects, not the storages they came from). -/
def RBuf.harmonize (b : RBuf α) : Except Err (RBuf α) :=
  match b.send with
  | none => .ok b
  | some s =>
    if s.shape.prod ≠ b.recv.shape.prod then .error .valueError
    else if s.strides ≠ b.recv.strides ∨ s.off ≠ b.recv.off then .ok ⟨some s.contiguous, b.recv.contiguous⟩
    else .ok b

/-- The tensor whose values are sent. -/
def RBuf.source (b : RBuf α) : Tens α := b.send.getD b.recv

/-- The reduction (communication.py:1068-1084): `as_buffer(rbuf, is_contiguous=True)` describes `numel` consecutive elements from the first one on, whatever the strides are; MPI combines the elements at the same positions of these blocks
(`F me` applied to the values of the processes) and writes the block of the receive buffer. -/
def reduceBlock (F : Nat → (Nat → Option α) → Option α) (me : Nat) (src : Nat → Tens α) (recv : Tens α) : Tens α :=
  { recv with sto := fun j => if recv.off ≤ j ∧ j < recv.off + recv.shape.prod then F me fun p => (src p).sto ((src p).off + (j - recv.off)) else recv.sto j }

/-- `__reduce_like` on process `me`, for the buffers of all processes after harmonising. -/
def reduceLike (F : Nat → (Nat → Option α) → Option α) (me : Nat) (bufs : Nat → RBuf α) : Tens α := reduceBlock F me (fun p => (bufs p).source) (bufs me).recv

/-- What is afterwards in the storage from which the receive buffer was taken (for example as a slice of a larger tensor). -/
def reduceBase (F : Nat → (Nat → Option α) → Option α) (me : Nat) (bufs : Nat → RBuf α) (b : RBuf α) : Nat → Option α :=
  match b.send with
  | none => (reduceLike F me bufs).sto
  | some s => if (s.strides ≠ b.recv.strides ∨ s.off ≠ b.recv.off) ∧ b.recv.isContig = false then b.recv.sto else (reduceLike F me bufs).sto

end Heat
