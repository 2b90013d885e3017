/-!
# Specification vocabulary: elements of strided arrays in memory

`indices shape` lists all multi-indices of an array in row-major order (last index fastest).  The element with index `idx`
of an array with the given strides (in elements) lies `sz * Σ idx_k * stride_k` bytes behind the first one.
-/
namespace Heat.Spec

/-- All multi-indices, row-major. -/
def indices : List Nat → List (List Nat)
  | [] => [[]]
  | n :: sh => (List.range n).flatMap fun i => (indices sh).map (i :: ·)

/-- `Σ idx_k * stride_k`. -/
def dot (idx stride : List Nat) : Nat := ((idx.zip stride).map fun p => p.1 * p.2).sum

/-- Byte offsets of all elements of a strided array, in row-major order. -/
def byteOffsets (sz : Nat) (shape stride : List Nat) : List Nat := (indices shape).map fun idx => sz * dot idx stride

/-- Byte offsets of the elements of the block of extents `sub` that starts at the multi-index `start`, in row-major order. -/
def blockOffsets (sz : Nat) (sub start stride : List Nat) : List Nat :=
  (indices sub).map fun idx => sz * (dot start stride + dot idx stride)

/-- Strides of a contiguous (C order) array. -/
def cStrides : List Nat → List Nat
  | [] => []
  | _ :: sh => sh.prod :: cStrides sh

end Heat.Spec

namespace Heat.Spec

/-- `torch.Tensor.is_contiguous()` of a tensor that is not empty: every axis of extent other than 1 has the C-order stride. -/
def Contig : List Nat → List Nat → Prop
  | [], [] => True
  | n :: sh, s :: st => (n = 1 ∨ s = sh.prod) ∧ Contig sh st
  | _, _ => False

/-- The block of extents `sub` at `start` lies inside the array. -/
def Inside : List Nat → List Nat → List Nat → Prop
  | [], [], [] => True
  | n :: sh, m :: sub, s :: start => s + m ≤ n ∧ Inside sh sub start
  | _, _, _ => False

end Heat.Spec
