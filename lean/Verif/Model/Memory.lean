import Verif.Model.Basic
/-!
# Memory layouts (`sanitize_memory_layout`, heat/core/memory.py:50-104, and its use in `array`, heat/core/factories.py:423-438)

Tensors are views of a storage.  Positions outside of the storage (which `set_` extends with uninitialised memory) have no value.
-/
namespace Heat
variable {α : Type}

/-- A torch tensor: storage, `storage_offset()`, `shape`, `stride()`. -/
structure Tens (α : Type) where
  sto : Nat → Option α
  off : Nat
  shape : List Nat
  strides : List Nat

/-- The distance of an element from the first one. -/
def strideDot (idx strides : List Nat) : Nat := (List.zipWith (· * ·) idx strides).sum

/-- The element at an index. -/
def Tens.get (t : Tens α) (idx : List Nat) : Option α := t.sto (t.off + strideDot idx t.strides)

/-- `t.permute(reversed(range(t.ndim)))` (memory.py:81-84). -/
def Tens.rev (t : Tens α) : Tens α := ⟨t.sto, t.off, t.shape.reverse, t.strides.reverse⟩

/-- The strides of a row-major tensor. -/
def rowStrides : List Nat → List Nat
  | [] => []
  | _ :: sh => sh.prod :: rowStrides sh

/-- The index of the `i`-th element in row-major order. -/
def unrav : List Nat → Nat → List Nat
  | [], _ => []
  | _ :: sh, i => i / sh.prod :: unrav sh (i % sh.prod)

/-- Extents and strides of the axes whose extent is not 1. -/
def realAxes (shape strides : List Nat) : List (Nat × Nat) := (shape.zip strides).filter fun p => p.1 ≠ 1

/-- `t.is_contiguous()` (torch) of a tensor with elements: row-major, apart from the strides of axes of extent 1. -/
def Tens.isContig (t : Tens α) : Bool := decide ((realAxes t.shape t.strides).map (·.2) = rowStrides ((realAxes t.shape t.strides).map (·.1)))

/-- `t.contiguous()` (torch): the tensor itself if it is contiguous, otherwise a copy in a storage of its own. -/
def Tens.contiguous (t : Tens α) : Tens α :=
  if t.isContig then t else ⟨fun i => if i < t.shape.prod then t.get (unrav t.shape i) else none, 0, t.shape, rowStrides t.shape⟩

/-- `torch.all(stride[1:] - stride[:-1] >= 0)` (memory.py:69-74). -/
def columnMajor (strides : List Nat) : Bool := (strides.zip strides.tail).all fun p => decide (p.1 ≤ p.2)

/-- The argument `order`. -/
inductive MemOrder | C | F | K | other
  deriving DecidableEq, Repr

/-- `y.set_(permutation.untyped_storage(), x.storage_offset(), x.shape, reversed(permutation.stride()))` (memory.py:84-98). -/
def Tens.relayout (t : Tens α) : Tens α := ⟨t.rev.contiguous.sto, t.off, t.shape, t.rev.contiguous.strides.reverse⟩

/-- `sanitize_memory_layout(x, order)` (memory.py:62-104). -/
def sanitizeLayout (t : Tens α) (order : MemOrder) : Except Err (Tens α) :=
  if order = .K then .error .notImplemented
  else if t.shape.length < 2 ∨ t.shape.prod = 0 then .ok t
  else
    let col := columnMajor t.strides
    let row := !col
    if (order = .C ∧ row) ∨ (order = .F ∧ col) then .ok t
    else if (order = .C ∧ col) ∨ (order = .F ∧ row) then .ok t.relayout
    else .error .valueError

/-- `t[slices]` for the slices of `chunk` (factories.py:430-431): the slabs from `start` on along an axis. -/
def Tens.slab (t : Tens α) (ax start len : Nat) : Tens α := ⟨t.sto, t.off + start * t.strides.getD ax 0, t.shape.set ax len, t.strides⟩

/-- The local tensor of `array(t, split=ax, order=order)` on a process (factories.py:428-434). -/
def arraySplitLayout (t : Tens α) (ax start len : Nat) (order : MemOrder) : Except Err (Tens α) := sanitizeLayout (t.slab ax start len).contiguous order

end Heat
