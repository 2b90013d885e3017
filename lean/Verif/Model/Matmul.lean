import Verif.Model.Reshape
import Verif.Model.Chunk
import Verif.Spec.Matmul
/-!
# `matmul` of two matrices (heat/core/linalg/basics.py:545-905)

Two-dimensional operands (no batch dimensions, no vectors), numbers are integers without overflow.  A rank whose torch operation fails has `none`; after an
`Allreduce` everybody has `none` if anybody has (the others never return).  `Ibcast` of the blocks (782-838) delivers the root's block to every rank; the
one-step prefetch only changes when the requests are waited for.
-/
namespace Heat

open Spec in
/-- `a @ b` of torch for two matrices: the inner extents have to agree. -/
def torchMatmul (A B : NArr Int) : Option (NArr Int) := if A.dim 1 = B.dim 0 then some (product A B) else none

/-- `A[..., lo:hi]` (columns) / `A[..., lo:hi, :]` (rows) as torch slices: bounds are clamped. -/
def NArr.cut (A : NArr Int) (ax lo hi : Nat) : NArr Int :=
  ⟨2, fun a => if a = ax then min hi (A.dim ax) - min lo (A.dim ax) else A.dim a, fun idx => A.get fun a => if a = ax then idx a + min lo (A.dim ax) else idx a⟩

/-- The elements of `C` after `C[:m, lo:hi] += X` if the region has `rows` rows and `cols` columns. -/
def addedAt (C X : NArr Int) (m lo hi rows cols : Nat) (idx : Nat → Nat) : Int :=
  if (idx 0 < m ∧ lo ≤ idx 1) ∧ idx 1 < hi then
    C.get idx + X.get (Spec.ix (if X.dim 0 = rows then idx 0 else 0) (if X.dim 1 = cols then idx 1 - lo else 0))
  else C.get idx

/-- `C[:m, lo:hi] += X`: `X` is broadcast along axes of extent 1, every other difference of extents raises. -/
def addRegion (C : NArr Int) (m lo hi : Nat) (X : NArr Int) : Option (NArr Int) :=
  if (X.dim 0 = min m (C.dim 0) ∨ X.dim 0 = 1) ∧ (X.dim 1 = min hi (C.dim 1) - min lo (C.dim 1) ∨ X.dim 1 = 1) then
    some ⟨C.ndim, C.dim, addedAt C X m lo hi (min m (C.dim 0)) (min hi (C.dim 1) - min lo (C.dim 1))⟩
  else none

/-- The elements of `C` after `C[lo:hi, :] += X`. -/
def addedRow (C X : NArr Int) (lo hi : Nat) (idx : Nat → Nat) : Int :=
  if lo ≤ idx 0 ∧ idx 0 < hi then C.get idx + X.get (Spec.ix (if X.dim 0 = hi - lo then idx 0 - lo else 0) (if X.dim 1 = C.dim 1 then idx 1 else 0)) else C.get idx

/-- `C[lo:hi, :] += X` for `hi` within the bounds of `C`. -/
def addRows (C : NArr Int) (lo hi : Nat) (X : NArr Int) : Option (NArr Int) :=
  if (X.dim 0 = hi - lo ∨ X.dim 0 = 1) ∧ (X.dim 1 = C.dim 1 ∨ X.dim 1 = 1) then some ⟨C.ndim, C.dim, addedRow C X lo hi⟩ else none

/-- `factories.zeros((m, n), split=s)` on rank `r`. -/
def zerosLoc (m n s P r : Nat) : NArr Int :=
  ⟨2, fun a => let d := if a = 0 then m else n; if a = s then (chunkRange d r P).2 - (chunkRange d r P).1 else d, fun _ => 0⟩

/-- The blocks that are added one after the other to `c` (basics.py:782-817, 820-846). -/
def accumulate (c : NArr Int) (step : Nat → NArr Int → Option (NArr Int)) (P : Nat) : Option (NArr Int) :=
  (List.range P).foldl (fun acc q => acc.bind (step q)) (some c)

/-- Split 0 of both operands (basics.py:803-806): the rows of `b` on rank `q` belong to the columns `b_start:b_stop` of `a`. -/
def step00 (P : Nat) (a b : DND Int) (r q : Nat) (c : NArr Int) : Option (NArr Int) :=
  let n := b.gshape.getD 0 0
  (torchMatmul ((a.loc r).cut 1 (chunkRange n q P).1 (chunkRange n q P).2) (b.loc q)).bind fun x => addRegion c (c.dim 0) 0 (c.dim 1) x

/-- Split 0 of `a`, split 1 of `b` (basics.py:807-810): note that the rows are cut off according to the row block of rank `q`, with one row to spare (767). -/
def step01 (P : Nat) (a b : DND Int) (r q : Nat) (c : NArr Int) : Option (NArr Int) :=
  let m := a.gshape.getD 0 0
  let n := b.gshape.getD 1 0
  (torchMatmul (a.loc r) (b.loc q)).bind fun x => addRegion c ((chunkRange m q P).2 + 1 - (chunkRange m q P).1) (chunkRange n q P).1 (chunkRange n q P).2 x

/-- Split 1 of both operands (basics.py:840-845). -/
def step11 (P : Nat) (a b : DND Int) (r q : Nat) (c : NArr Int) : Option (NArr Int) :=
  let n := a.gshape.getD 1 0
  (torchMatmul (a.loc q) ((b.loc r).cut 0 (chunkRange n q P).1 (chunkRange n q P).2)).bind fun x => addRegion c (c.dim 0) 0 (c.dim 1) x

/-- An element of a local contribution. -/
def getOr (p : Option (NArr Int)) (idx : Nat → Nat) : Int := (p.map fun p => p.get idx).getD 0

/-- `Allreduce(SUM)` of equally shaped local arrays. -/
def sumArr (P : Nat) (part : Nat → Option (NArr Int)) : Option (NArr Int) :=
  if (List.range P).all fun q => (part q).isSome then
    (part 0).map fun p0 => ⟨p0.ndim, p0.dim, fun idx => Spec.sumTo P fun q => getOr (part q) idx⟩
  else none

/-- The part of the columns of `a` on rank `r` times the rows of the replicated `b` (basics.py:720-729), or the other way round (731-740): the offset is that of
the canonical distribution, the length is that of the local block. -/
def part1None (P : Nat) (a b : DND Int) (r : Nat) : Option (NArr Int) :=
  let st := (chunkRange (a.gshape.getD 1 0) r P).1
  (torchMatmul (a.loc r) ((b.loc r).cut 0 st (st + (a.loc r).dim 1))).bind fun x =>
    addRegion ⟨2, fun k => if k = 0 then a.gshape.getD 0 0 else b.gshape.getD 1 0, fun _ => 0⟩ (a.gshape.getD 0 0) 0 (b.gshape.getD 1 0) x

/-- The mirror image: basics.py:731-740. -/
def partNone0 (P : Nat) (a b : DND Int) (r : Nat) : Option (NArr Int) :=
  let st := (chunkRange (b.gshape.getD 0 0) r P).1
  (torchMatmul ((a.loc r).cut 1 st (st + (b.loc r).dim 0)) (b.loc r)).bind fun x =>
    addRegion ⟨2, fun k => if k = 0 then a.gshape.getD 0 0 else b.gshape.getD 1 0, fun _ => 0⟩ (a.gshape.getD 0 0) 0 (b.gshape.getD 1 0) x

/-- The part of a replicated matrix that `factories.array(c, split=s)` keeps on rank `r` (basics.py:753-760). -/
def keepPart (P s r : Nat) (c : NArr Int) : NArr Int := c.cut s (chunkRange (c.dim s) r P).1 (chunkRange (c.dim s) r P).2

/-- A result: split and local parts (`none`: the rank has raised or waits for ever). -/
structure MatRes where
  split : Option Nat
  loc : Nat → Option (NArr Int)

/-- `matmul(a, b)` of two matrices on `P > 1` ranks with `allow_resplit=False` (basics.py:604-874).  An inner extent that does not match raises on every rank. -/
def matmulHeat (P : Nat) (a b : DND Int) : Except Err MatRes :=
  if a.gshape.getD 1 0 ≠ b.gshape.getD 0 0 then .error .valueError
  else
    let m := a.gshape.getD 0 0
    let n := b.gshape.getD 1 0
    match a.split, b.split with
    | none, none => .ok ⟨none, fun r => torchMatmul (a.loc r) (b.loc r)⟩
    | some 0, none => .ok ⟨some 0, fun r => torchMatmul (a.loc r) (b.loc r)⟩
    | none, some 1 => .ok ⟨some 1, fun r => torchMatmul (a.loc r) (b.loc r)⟩
    | some 1, none => .ok ⟨some 1, fun r => (sumArr P (part1None P a b)).map (keepPart P 1 r)⟩
    | none, some 0 => .ok ⟨some 0, fun r => (sumArr P (partNone0 P a b)).map (keepPart P 0 r)⟩
    | some 0, some 0 => .ok ⟨some 0, fun r => accumulate (zerosLoc m n 0 P r) (step00 P a b r) P⟩
    | some 0, some 1 => .ok ⟨some 0, fun r => accumulate (zerosLoc m n 0 P r) (step01 P a b r) P⟩
    | some 1, some 1 => .ok ⟨some 1, fun r => accumulate (zerosLoc m n 1 P r) (step11 P a b r) P⟩
    | some 1, some 0 => .ok ⟨some 1, fun r => accumulate (zerosLoc m n 1 P r) (step11 P a (resplitTo P b 1) r) P⟩
    | _, _ => .error .indexError

/-- Two replicated matrices with `allow_resplit=True` (basics.py:683-693): `a` is resplit in place along axis 0, every rank adds its rows of the product to zeros and
the results are summed.  Returns the result (replicated) and what the argument `a` has become. -/
def matmulAllow (P : Nat) (a b : DND Int) : Except Err (MatRes × DND Int) :=
  if a.gshape.getD 1 0 ≠ b.gshape.getD 0 0 then .error .valueError
  else
    let a' := resplitTo P a 0
    let m := a.gshape.getD 0 0
    .ok (⟨none, fun _ => sumArr P fun r => (torchMatmul (a'.loc r) (b.loc r)).bind fun x =>
      addRows ⟨2, fun k => if k = 0 then m else b.gshape.getD 1 0, fun _ => 0⟩ (chunkRange m r P).1 (chunkRange m r P).2 x⟩, a')

end Heat
