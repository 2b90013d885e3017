import Verif.Model.Diag
import Verif.Model.Concat
import Verif.Spec.LinAlg
/-!
# tril, triu, trace and dot (heat/core/linalg/basics.py:362-412, 1524-1833, 1923-2035)

Element types and `out` arguments are not modelled; numbers are exact.
-/
namespace Heat
variable {α : Type}

/-! ## Triangles -/

/-- Does torch.tril / torch.triu with diagonal `k` keep column `j` of row `i`? -/
def triKeep (lower : Bool) (k : Int) (i j : Nat) : Bool := if lower then decide ((j : Int) - i ≤ k) else decide (k ≤ (j : Int) - i)

/-- `torch.tril(a, k)` / `torch.triu(a, k)` on the last two axes (basics.py:1979-1988: one call for a matrix, otherwise a loop over the leading axes). -/
def NArr.tri (a : NArr α) (lower : Bool) (zero : α) (k : Int) : NArr α :=
  { a with get := fun idx => if triKeep lower k (idx (a.ndim - 2)) (idx (a.ndim - 1)) then a.get idx else zero }

/-- `larray.expand(n, -1)` of a vector. -/
def NArr.expandRows (a : NArr α) (n : Nat) : NArr α := ⟨2, fun k => if k = 0 then n else a.dim 0, fun idx => a.get fun _ => idx 1⟩

/-- `m.comm.chunk(m.shape, m.split)[0]` (basics.py:1949). -/
def triOffset (P : Nat) (x : DND α) (r : Nat) : Nat :=
  match x.split with
  | none => 0
  | some s => (chunkRange (x.gshape.getD s 0) r P).1

/-- `k` adapted to the distribution (basics.py:1971-1975). -/
def triDiag (x : DND α) (k : Int) (off : Nat) : Int :=
  match x.split with
  | none => k
  | some s => if s + 1 = x.gshape.length - 1 then k + off else if s = x.gshape.length - 1 then k - off else k

/-- `__tri_op(m, k, op)` (basics.py:1923-1990). -/
def triOp (P : Nat) (x : DND α) (lower : Bool) (zero : α) (k : Int) : Except Err (DND α) :=
  match x.gshape with
  | [] => .error .indexError
  | [n] => .ok ⟨[n, n], x.split.map fun _ => 1, fun r => ((x.loc r).expandRows n).tri lower zero (k - triOffset P x r), x.balanced⟩
  | _ => .ok ⟨x.gshape, x.split, fun r => (x.loc r).tri lower zero (triDiag x k (triOffset P x r)), x.balanced⟩

/-! ## trace -/

/-- `torch.trace` of the local matrix without its first columns (`off > 0`) or rows (`off < 0`), 0 if nothing is left (basics.py:1673-1693). -/
def localTrace (a : NArr Int) (off : Int) : Int :=
  if 0 < off then
    let c := min off.toNat (a.dim 1)
    Spec.sumTo (min (a.dim 0) (a.dim 1 - c)) fun t => a.get fun k => if k = 0 then t else t + c
  else if off < 0 then
    let c := min (-off).toNat (a.dim 0)
    Spec.sumTo (min (a.dim 0 - c) (a.dim 1)) fun t => a.get fun k => if k = 0 then t + c else t
  else Spec.sumTo (min (a.dim 0) (a.dim 1)) fun t => a.get fun _ => t

/-- Local offset of the diagonal (basics.py:1664-1671). -/
def traceOffset (P : Nat) (x : DND Int) (off : Int) (r : Nat) : Int :=
  match x.split with
  | none => off
  | some s => if P ≤ 1 then off else if s = 0 then off + ((chunkRange (x.gshape.getD s 0) r P).1 : Int) else off - ((chunkRange (x.gshape.getD s 0) r P).1 : Int)

/-- Result of `trace(a, offset, ...)` of a matrix on rank `r` (basics.py:1648-1705); `axis1`, `axis2` are ignored. -/
def traceMatrix (P : Nat) (x : DND Int) (off : Int) (r : Nat) : Int :=
  let part := fun q => if off ≤ -((x.gshape.getD 0 0 : Nat) : Int) ∨ ((x.gshape.getD 1 0 : Nat) : Int) ≤ off then 0 else localTrace (x.loc q) (traceOffset P x off q)
  if x.split.isSome ∧ 1 < P then Spec.sumTo P part else part r

/-- `torch.sum(diag_t, last_axis)`. -/
def NArr.sumLast (a : NArr Int) : NArr Int :=
  ⟨a.ndim - 1, a.dim, fun idx => Spec.sumTo (a.dim (a.ndim - 1)) fun t => a.get fun k => if k = a.ndim - 1 then t else idx k⟩

/-- Split axis of the result when the split axis is not one of the trace axes (basics.py:1787-1792). -/
def traceSplit (split : Option Nat) (n a2 : Nat) : Option Nat :=
  split.map fun s =>
    let g := if s < a2 then s else s - 2
    if n - 2 ≤ g then n - 3 else g

/-- `trace(a, offset, axis1, axis2)` of an array of more than two dimensions whose split axis is not a trace axis; non-negative axes
(basics.py:1711-1729, 1786-1797): the axes are swapped if `axis1 > axis2`, the offset is not. -/
def traceND (P : Nat) (x : DND Int) (off : Int) (axis1 axis2 : Nat) : DND Int :=
  let a1 := min axis1 axis2
  let a2 := max axis1 axis2
  let loc := fun r => ((x.loc r).diagonal off a1 a2).sumLast
  let split := traceSplit x.split x.gshape.length a2
  ⟨isSplitShape P loc split, split, loc, none⟩

/-- The same if the split axis is a trace axis and the array is distributed (basics.py:1733-1757): the local diagonals are *reshaped* to the result's shape
(`torch.reshape` raises unless the number of elements is right), not summed, and then added up over the ranks.  Result on every rank. -/
def traceSplitAxis (P : Nat) (x : DND Int) (off : Int) (axis1 axis2 : Nat) : Except Err (List Int) :=
  let a1 := min axis1 axis2
  let a2 := max axis1 axis2
  let diag := fun r =>
    let o := (chunkRange (x.gshape.getD (x.split.getD 0) 0) r P).1
    (x.loc r).diagonal (if x.split = some a1 then off + (o : Int) else off - (o : Int)) a1 a2
  let shape := fun r => (diag r).shape.map fun d => if 0 ∈ (diag r).shape ∧ d = 0 then 1 else d
  let elems := fun r => if 0 ∈ (diag r).shape then List.replicate (shape r).prod 0 else (diag r).flat
  if (List.range P).all fun r => (elems r).length == (shape r).dropLast.prod then
    .ok ((List.range P).foldl (fun acc r => List.zipWith (· + ·) acc (elems r)) (List.replicate (elems 0).length 0))
  else .error .runtimeError

/-! ## dot -/

/-- Length of the array as declared by its shape. -/
def vecLen (P : Nat) (a : CatArr Int) : Nat := a.len P

/-- `a.lloc[asl]` on rank `r` (basics.py:396-401): of a replicated operand the chunk of the (first) operand's shape, of a distributed one its first
`stop - start` elements. -/
def dotSlice (P n r : Nat) (a : CatArr Int) : List Int :=
  match a with
  | .rep l => (l.take (chunkRange n r P).2).drop (chunkRange n r P).1
  | .along d => (d r).take ((chunkRange n r P).2 - (chunkRange n r P).1)

/-- `torch.dot`: raises if the lengths differ. -/
def torchDot (a b : List Int) : Except Err Int := if a.length = b.length then .ok (Spec.inner a b) else .error .runtimeError

/-- `dot(a, b)` of two vectors on `P` ranks (basics.py:388-407): the result on every rank. -/
def dotVec (P : Nat) (a b : CatArr Int) : Except Err Int :=
  match a, b with
  | .rep l, .rep m => torchDot l m
  | _, _ => (List.range P).foldlM (fun acc r => (torchDot (dotSlice P (vecLen P a) r a) (dotSlice P (vecLen P a) r b)).map fun v => acc + v) 0

end Heat
