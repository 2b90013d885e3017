import Verif.Model.ND
import Verif.Model.Dist
import Verif.Spec.Diag
/-!
# Diagonals, nonzero, where and scalar conversion
(heat/core/manipulations.py:773-923, heat/core/indexing.py, heat/core/dndarray.py:611-635, 883-921)
-/
namespace Heat
variable {α : Type}

/-! ## diagonal -/

/-- `torch.diagonal(a, offset, dim1, dim2)`. -/
def NArr.diagonal (a : NArr α) (off : Int) (d1 d2 : Nat) : NArr α :=
  let keep := (List.range a.ndim).filter fun k => k ∉ [d1, d2]
  let r0 := (-off).toNat
  let c0 := off.toNat
  ⟨keep.length + 1, fun k => if k < keep.length then a.dim (keep.getD k 0) else min (a.dim d1 - r0) (a.dim d2 - c0),
    fun idx => a.get fun k => if k = d1 then idx keep.length + r0 else if k = d2 then idx keep.length + c0 else idx (keep.idxOf k)⟩

/-- Global shape computed by `factories.array(..., is_split=split)` from the local tensors: the split extents are summed
(heat/core/factories.py:455-490). -/
def isSplitShape (P : Nat) (loc : Nat → NArr α) (split : Option Nat) : List Nat :=
  (List.range (loc 0).ndim).map fun k => if split = some k then Spec.axisStart loc k P else (loc 0).dim k

/-- Split axis of the result (manipulations.py:902-913). -/
def diagonalSplit (split : Option Nat) (n d1 d2 : Nat) : Option Nat :=
  let x := min d1 d2
  let y := max d1 d2
  match split with
  | none => none
  | some s =>
    if s < x ∧ x < y then some s
    else if x < s ∧ s < y then some (s - 1)
    else if x < y ∧ y < s then some (s - 2)
    else some (n - 2)

/-- Offset of the diagonal in the local tensor of rank `r` (manipulations.py:915-922). -/
def diagonalOffset (P : Nat) (gshape : List Nat) (split : Option Nat) (off : Int) (d1 d2 r : Nat) : Int :=
  match split with
  | none => off
  | some s => if s = d1 then off + ((chunkRange (gshape.getD s 0) r P).1 : Int)
    else if s = d2 then off - ((chunkRange (gshape.getD s 0) r P).1 : Int) else off

/-- `diagonal(a, offset, dim1, dim2)` (manipulations.py:850-923). -/
def diagonal (P : Nat) (x : DND α) (off : Int) (dim1 dim2 : Int) : Except Err (DND α) :=
  match sanitizeAxes x.gshape.length [dim1, dim2] with
  | .error e => .error e
  | .ok (some [d1, d2]) =>
    if d1 = d2 then .error .valueError
    else
      let split := diagonalSplit x.split x.gshape.length d1 d2
      let loc := fun r => (x.loc r).diagonal (diagonalOffset P x.gshape x.split off d1 d2 r) d1 d2
      .ok ⟨isSplitShape P loc split, split, loc, none⟩
  | .ok _ => .error .typeError

/-! ## diag of a vector -/

/-- `diag(a, offset)` of a 1-D array (manipulations.py:818-847) that is split or not (`dist`); local matrix entry `(i, j)` of rank `r`.
`parts` are the local vectors.  The padding of `concatenate` is `torch.empty`, any values (`pad`); only its effect, the padded global
vector, is used, and the following `balance_()` gives every rank its canonical chunk (C07). -/
def diagVec (P : Nat) (zero : α) (dist : Bool) (v : List α) (pad : List α) (off : Int) (r : Nat) : Option (NArr α) :=
  let n := v.length + off.natAbs
  let c := if dist then chunkRange n r P else (0, n)
  let rows := c.2 - c.1
  let padded := if off > 0 then v ++ pad else if off < 0 then pad ++ v else v
  let larray := (padded.take c.2).drop c.1
  let lo := if off < 0 then max 0 (min ((off.natAbs : Int) - c.1) rows) else 0
  let hi := if off > 0 then min (rows : Int) (max ((n : Int) - c.1 - off) 0) else rows
  -- `local[indices_x, indices_y] = a.larray[indices_x]` needs all indices within bounds
  if hi ≤ larray.length then
    some ⟨2, fun k => if k = 0 then rows else n, fun idx =>
      if lo ≤ idx 0 ∧ (idx 0 : Int) < hi ∧ (idx 1 : Int) = idx 0 + c.1 + off then larray.getD (idx 0) zero else zero⟩
  else none

/-! ## fill_diagonal -/

/-- The loop with `break` of `fill_diagonal` (dndarray.py:900-903): the last process before the first whose displacement exceeds `k`. -/
def lastProc (displ : Nat → Nat) (k : Nat) : Nat → Nat → Nat → Nat
  | 0, _, proc => proc
  | n + 1, p, proc => if displ p > k then proc else lastProc displ k n (p + 1) p

/-- `fill_diagonal(value)` (dndarray.py:883-921). -/
def fillDiagonal (P : Nat) (x : DND α) (v : α) : Except Err (DND α) :=
  if x.gshape.length ≠ 2 then .error .valueError
  else
    match x.split with
    | none => .ok { x with loc := fun r => { x.loc r with get := fun idx => if idx 0 = idx 1 then v else (x.loc r).get idx } }
    | some s =>
      if P ≤ 1 then .ok { x with loc := fun r => { x.loc r with get := fun idx => if idx 0 = idx 1 then v else (x.loc r).get idx } }
      else
        let displ := fun p => (displsShape (x.gshape.getD s 0) P).getD p 0
        let k := min (x.gshape.getD 0 0) (x.gshape.getD 1 0)
        let proc := lastProc displ k P 0 0
        let o := 1 - s
        .ok { x with loc := fun r =>
          let a := displ r
          let b := if r + 1 ≠ P then displ (r + 1) else k
          { x.loc r with get := fun idx =>
            -- diagonal of the slice [a, b) of the axis that is not split
            if r ≤ proc ∧ a ≤ idx o ∧ idx o < b ∧ idx s = idx o - a then v else (x.loc r).get idx } }

/-! ## nonzero -/

/-- `lcl_nonzero[..., split] += start`. -/
def addAt (s off : Nat) (l : List Nat) : List Nat := l.set s (l.getD s 0 + off)

/-- Local rows of `nonzero(x)` (indexing.py:54-82). -/
def nonzeroLocal (P : Nat) (p : α → Bool) (x : DND α) (r : Nat) : List (List Nat) :=
  let lcl := Spec.positions p (x.loc r)
  match x.split with
  | none => lcl
  | some s => lcl.map (addAt s (chunkRange (x.gshape.getD s 0) r P).1)

/-! ## where -/

/-- Floating point numbers as far as needed here: exact finite values, infinities and NaN. -/
inductive Fl where
  | fin (x : Int) | inf | ninf | nan
  deriving DecidableEq, Repr

/-- IEEE multiplication (without rounding). -/
def Fl.mul : Fl → Fl → Fl
  | .nan, _ => .nan
  | _, .nan => .nan
  | .fin a, .fin b => .fin (a * b)
  | .fin a, .inf => if a = 0 then .nan else if a > 0 then .inf else .ninf
  | .fin a, .ninf => if a = 0 then .nan else if a > 0 then .ninf else .inf
  | .inf, .fin a => if a = 0 then .nan else if a > 0 then .inf else .ninf
  | .ninf, .fin a => if a = 0 then .nan else if a > 0 then .ninf else .inf
  | .inf, .inf => .inf
  | .inf, .ninf => .ninf
  | .ninf, .inf => .ninf
  | .ninf, .ninf => .inf

/-- IEEE addition (without rounding). -/
def Fl.add : Fl → Fl → Fl
  | .nan, _ => .nan
  | _, .nan => .nan
  | .fin a, .fin b => .fin (a + b)
  | .fin _, y => y
  | x, .fin _ => x
  | .inf, .inf => .inf
  | .ninf, .ninf => .ninf
  | _, _ => .nan

/-- One element of `where(cond, x, y)`: `cond.dtype(cond == 0) * y + cond * x` (indexing.py:141). -/
def whereElem (c x y : Fl) : Fl := ((Fl.fin (if c = .fin 0 then 1 else 0)).mul y).add (c.mul x)

/-! ## scalar conversion -/

/-- `__cast` (dndarray.py:611-635) on rank `r` for an array of `n` elements with flattened local parts; `none` is Python's `None`. -/
def castScalar (P n : Nat) (dist : Bool) (parts : Nat → List α) (r : Nat) : Except Err (Option α) :=
  if n ≠ 1 then .error .typeError
  else if dist = false ∨ P ≤ 1 then .ok (parts r).head?
  else
    let root := ((List.range P).map fun q => if (parts q).length = 0 then 0 else q).sum
    .ok (parts root).head?

end Heat
