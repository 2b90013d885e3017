import Verif.Model.Reduce
import Verif.Spec.Arg
/-!
# argmax and argmin (heat/core/statistics.py:50-200, 1389-1457; heat/core/_operations.py:462-521)

Values are integers (no NaN); they travel as float64 together with their indices: `conv` is that conversion.
-/
namespace Heat

/-- Comparison used by `torch.max(..., dim)` (`mx`) or `torch.min(..., dim)`: does `b` replace the earlier `a`? -/
def beats (mx : Bool) (b a : Int) : Bool := if mx then decide (b > a) else decide (b < a)

/-- The better of two (value, index) pairs, the first in case of a tie: `torch.max` over two columns. -/
def pick (mx : Bool) (a b : Int × Nat) : Int × Nat := if beats mx b.1 a.1 then b else a

/-- `mpi_argmax` / `mpi_argmin` (statistics.py:1389-1454) on buffers with one (value, index) pair per position: the operand whose *first* index is
smaller is put first for all positions. -/
def argOp (mx : Bool) (l r : Nat → Int × Nat) : Nat → Int × Nat :=
  if (l 0).2 < (r 0).2 then fun c => pick mx (l c) (r c) else fun c => pick mx (r c) (l c)

/-- `torch.max(tensor, dim)` / `torch.argmax`: value and position of the first optimum of a local column that is not empty. -/
def localArg (mx : Bool) : List Int → Nat → Int × Nat → Int × Nat
  | [], _, best => best
  | v :: vs, i, best => localArg mx vs (i + 1) (pick mx best (v, i))

/-- The partial result of one rank for one position (statistics.py:83-110, _operations.py:462-474): value and index + offset; a rank without data
uses one slab filled with `neutral`. -/
def argPartial (mx : Bool) (conv : Int → Int) (neutral : Int) (off : Nat) (col : List Int) : Int × Nat :=
  match col with
  | [] => (conv neutral, off)
  | v :: vs => (conv (localArg mx vs 1 (v, 0)).1, (localArg mx vs 1 (v, 0)).2 + off)

/-- `v` is a possible result of the `Allreduce` with the operator created with `commute=True` (statistics.py:1422, 1457): `cols r c` is the local
column of rank `r` for position `c` of the result, `off r` the offset the rank adds to its indices. -/
def ArgResult (mx : Bool) (conv : Int → Int) (neutral : Int) (P : Nat) (off : Nat → Nat) (cols : Nat → Nat → List Int) (v : Nat → Int × Nat) : Prop :=
  Combine (argOp mx) ((List.range P).map fun r c => argPartial mx conv neutral (off r) (cols r c)) v

/-- Offset of rank `r` for a reduction along the split axis of extent `n` (statistics.py:100-102). -/
def argOffset (n P r : Nat) : Nat := (chunkRange n r P).1

/-- Offset of rank `r` for `axis=None` (statistics.py:89-102): the chunk of the flattened shape if the array is split along axis 0, none otherwise. -/
def argFlatOffset (shape : List Nat) (split P r : Nat) : Nat := if split = 0 then (chunkRange shape.prod r P).1 else 0

/-- Results of the `Allreduce` if MPI keeps the rank order (operators that are not commutative, or an implementation that does not use commutativity). -/
inductive CombineOrd {M : Type} (op : M → M → M) : List M → M → Prop
  | one (x : M) : CombineOrd op [x] x
  | node {l₁ l₂ : List M} {a b : M} : CombineOrd op l₁ a → CombineOrd op l₂ b → CombineOrd op (l₁ ++ l₂) (op a b)

/-- Conversion of an int64 to float64 (round to nearest, ties to even), as the integer it denotes. -/
def toDouble (v : Int) : Int :=
  let n := v.natAbs
  if n ≤ 2 ^ 53 then v
  else
    let e := Nat.log2 n - 52
    let q := n / 2 ^ e
    let rem := n % 2 ^ e
    let half := 2 ^ (e - 1)
    let q := if rem > half then q + 1 else if rem = half then (if q % 2 = 0 then q else q + 1) else q
    v.sign * ((q * 2 ^ e : Nat) : Int)

end Heat
