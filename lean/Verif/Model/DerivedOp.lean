import Verif.Model.Memory
/-!
# The reduction operation for derived datatypes (`__derived_op`, heat/core/communication.py:885-926; used by `__reduce_like`, 1072-1076, for more than COUNT_LIMIT elements)

MPI calls the operation with the addresses of two blocks, which hold the elements of the datatype one after the other.  Memory is by bytes, from the address of a block on; positions behind the block belong to somebody else.
-/
namespace Heat
variable {α β : Type}

/-- An element type: its size in bytes, how bytes are read and written (torch; the ctypes of `__mpi_dtype2ctype`, communication.py:153-164, have the same sizes). -/
structure ElemType (α β : Type) where
  size : Nat
  dec : (Nat → β) → α
  enc : α → Nat → β

/-- The tensor handed to MPI: `shape`, `stride()`, `storage_offset()` (communication.py:889-893). -/
structure OpTensor where
  shape : List Nat
  strides : List Nat
  offset : Nat

/-- The element at byte position `p`. -/
def byteElem (ty : ElemType α β) (mem : Nat → β) (p : Nat) : α := ty.dec fun j => mem (p + j)

/-- The byte at which the element of `as_strided(frombuffer(arr, offset=offset), shape, stride)` at an index begins (communication.py:912-921): the argument `offset` of `torch.frombuffer` counts bytes. -/
def opPosition (ty : ElemType α β) (t : OpTensor) (idx : List Nat) : Nat := t.offset + ty.size * strideDot idx t.strides

/-- `torch_op(send_tensor, recv_tensor, out=recv_tensor)` (communication.py:922) for one index. -/
def opWrite (ty : ElemType α β) (t : OpTensor) (f : α → α → α) (send : Nat → β) (recv : Nat → β) (idx : List Nat) : Nat → β :=
  let p := opPosition ty t idx
  let v := f (byteElem ty send p) (byteElem ty recv p)
  fun q => if p ≤ q ∧ q < p + ty.size then ty.enc v (q - p) else recv q

/-- The operation: all indices, in row-major order. -/
def derivedOp (ty : ElemType α β) (t : OpTensor) (f : α → α → α) (send recv : Nat → β) : Nat → β :=
  ((List.range t.shape.prod).map (unrav t.shape)).foldl (fun r idx => opWrite ty t f send r idx) recv

end Heat
