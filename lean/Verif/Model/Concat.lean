import Verif.Model.Dist
import Verif.Model.Mpi
import Verif.Spec.Dist
/-!
# `concatenate` (heat/core/manipulations.py:446-770)

An operand is seen as the list of its slabs along `axis` (`CatArr`) or, if it is split along another axis, as the list of its rows along the split axis, each
row being a list along `axis`.  Type promotion (lines 549-559) and communicators (lines 545-547) are not modelled.
-/
namespace Heat

/-- Which branch is taken. -/
inductive CatPath where
  | local       -- no operand is split
  | sliceBoth   -- one operand is split, along another axis
  | localSplit  -- both are split along another axis
  | exchange    -- at least one operand is split along `axis`
  deriving DecidableEq, Repr

/-- Checks and choice of the branch (manipulations.py:533-543, 561-600). -/
def catPath (shape0 shape1 : List Nat) (axis : Int) (s0 s1 : Option Nat) : Except Err (Nat × CatPath) :=
  match sanitizeAxis shape0.length (some axis) with
  | .error e => .error e
  | .ok none => .error .typeError
  | .ok (some ax) =>
    if shape0.length ≠ shape1.length then .error .valueError
    else if (List.range shape0.length).any fun i => i != ax && shape0.getD i 0 != shape1.getD i 0 then .error .valueError
    else match s0, s1 with
      | none, none => .ok (ax, .local)
      | some a, some b => if a ≠ b then .error .runtimeError else if a ≠ ax then .ok (ax, .localSplit) else .ok (ax, .exchange)
      | none, some b => if b ≠ ax then .ok (ax, .sliceBoth) else .ok (ax, .exchange)
      | some a, none => if a ≠ ax then .ok (ax, .sliceBoth) else .ok (ax, .exchange)

/-! ### Split along another axis -/

/-- `torch.cat` along `axis` of two tensors given as lists of rows: the numbers of rows must agree (RuntimeError otherwise). -/
def catRows {α : Type} (a b : List (List α)) : Except Err (List (List α)) :=
  if a.length = b.length then .ok (List.zipWith (· ++ ·) a b) else .error .runtimeError

/-- `larray[chunk slice]` of a replicated operand (manipulations.py:575-578). -/
def chunkRows {α : Type} (P : Nat) (rows : List (List α)) (r : Nat) : List (List α) :=
  (rows.take (chunkRange rows.length r P).2).drop (chunkRange rows.length r P).1

/-- Result on rank `r` if arr0 is replicated and arr1 is split along another axis (manipulations.py:574-585); `chunk(arr1.shape, None)` is everything. -/
def catSliceLeft {α : Type} (P : Nat) (rows0 : List (List α)) (d1 : Nat → List (List α)) (r : Nat) : Except Err (List (List α)) :=
  catRows (chunkRows P rows0 r) (d1 r)

/-- Result on rank `r` if arr1 is replicated and arr0 is split along another axis (manipulations.py:574-585). -/
def catSliceRight {α : Type} (P : Nat) (d0 : Nat → List (List α)) (rows1 : List (List α)) (r : Nat) : Except Err (List (List α)) :=
  catRows (d0 r) (chunkRows P rows1 r)

/-- Result on rank `r` if both are split along the same other axis (manipulations.py:588-599). -/
def catLocalSplit {α : Type} (d0 d1 : Nat → List (List α)) (r : Nat) : Except Err (List (List α)) := catRows (d0 r) (d1 r)

/-! ### Split along `axis` -/

/-- An operand as slabs along `axis`: replicated, or split along `axis`. -/
inductive CatArr (α : Type) where
  | rep (l : List α)
  | along (d : Nat → List α)

/-- `chunk_map[r, axis]` (manipulations.py:610-619). -/
def catChunk (n P r : Nat) : Nat := (chunkRange n r P).2 - (chunkRange n r P).1

/-- `snt` (manipulations.py:646-651, 691-696); the sender computes the same number from its local tensor (631-634, 674-677), whose size is its
entry of `lshape_map`. -/
def catAmount (chunk l : Nat → Nat) (spr pr : Nat) : Nat :=
  let a := ((chunk pr : Int) - (l pr : Int)).natAbs
  if a < l spr then a else l spr

/-- One pass of the loops over `(spr, pr)`: update of `lshape_map` (661-662, 706-707) and, if the amount is not zero, a transfer
`(spr, pr, amount)`. -/
def catStep (chunk : Nat → Nat) (st : (Nat → Nat) × List (Nat × Nat × Nat)) (p : Nat × Nat) : (Nat → Nat) × List (Nat × Nat × Nat) :=
  let a := catAmount chunk st.1 p.1 p.2
  (upd (upd st.1 p.1 (st.1 p.1 - a)) p.2 (st.1 p.2 + a), if a ≠ 0 then st.2 ++ [(p.1, p.2, a)] else st.2)

/-- The order of the loops for arr0 (manipulations.py:628-645): `spr = 1, ..., size-1`, `pr = 0, ..., spr-1`. -/
def frontPairs (P : Nat) : List (Nat × Nat) := (List.range P).flatMap fun spr => (List.range spr).map fun pr => (spr, pr)

/-- The order of the loops for arr1 (manipulations.py:670-690): `spr = size-1, ..., 0`, `pr = size-1, ..., spr+1`. -/
def backPairs (P : Nat) : List (Nat × Nat) :=
  (List.range P).flatMap fun i => (List.range i).map fun j => (P - 1 - i, P - 1 - j)

/-- All transfers of arr0. -/
def frontPlan (P : Nat) (chunk l : Nat → Nat) : List (Nat × Nat × Nat) := ((frontPairs P).foldl (catStep chunk) (l, [])).2

/-- All transfers of arr1. -/
def backPlan (P : Nat) (chunk l : Nat → Nat) : List (Nat × Nat × Nat) := ((backPairs P).foldl (catStep chunk) (l, [])).2

/-- A transfer of arr0 (manipulations.py:636-644, 653-660): the first `a` slabs of `spr` are appended on `pr`.  The local state is the pair `(t_arr0, t_arr1)`. -/
def frontXfer {α : Type} (P : Nat) (t : Nat × Nat × Nat) : Xfer (List α × List α) (List α) :=
  { src := t.1, dst := t.2.1, tag := t.2.1 + P + t.1
    msg := fun s => s.1.take t.2.2, after := fun s => (s.1.drop t.2.2, s.2), take := fun m s => (s.1 ++ m, s.2) }

/-- A transfer of arr1 (manipulations.py:679-689, 699-705): the last `a` slabs of `spr` are put in front on `pr`. -/
def backXfer {α : Type} (P : Nat) (t : Nat × Nat × Nat) : Xfer (List α × List α) (List α) :=
  { src := t.1, dst := t.2.1, tag := t.2.1 + P + t.1
    msg := fun s => s.2.drop (s.2.length - t.2.2), after := fun s => (s.1, s.2.take (s.2.length - t.2.2)), take := fun m s => (s.1, m ++ s.2) }

/-- Number of slabs of an operand along `axis`. -/
def CatArr.len {α : Type} (P : Nat) : CatArr α → Nat
  | .rep l => l.length
  | .along d => (Spec.content P d).length

/-- `larray` of an operand. -/
def CatArr.loc {α : Type} : CatArr α → Nat → List α
  | .rep l => fun _ => l
  | .along d => d

/-- The transfers for arr0: none if it is replicated (line 624). -/
def CatArr.front {α : Type} (P : Nat) (chunk : Nat → Nat) : CatArr α → List (Nat × Nat × Nat)
  | .rep _ => []
  | .along d => frontPlan P chunk fun r => (d r).length

/-- The transfers for arr1: none if it is replicated (line 664). -/
def CatArr.back {α : Type} (P : Nat) (chunk : Nat → Nat) : CatArr α → List (Nat × Nat × Nat)
  | .rep _ => []
  | .along d => backPlan P chunk fun r => (d r).length

/-- All point-to-point transfers in the order in which every rank runs through them (manipulations.py:624-707). -/
def catXfers {α : Type} (P : Nat) (a b : CatArr α) : List (Xfer (List α × List α) (List α)) :=
  let chunk := catChunk (a.len P + b.len P) P
  (a.front P chunk).map (frontXfer P) ++ (b.back P chunk).map (backXfer P)

/-- `(t_arr0, t_arr1)` of every rank after the transfers. -/
def catMoved {α : Type} (P : Nat) (a b : CatArr α) : Nat → List α × List α := runSeq (catXfers P a b) fun r => (a.loc r, b.loc r)

/-- Shape after `.squeeze()` and, if axes are missing, `unsqueeze_(axis)` (manipulations.py:722-733, 747-759); `none` is an IndexError of
`unsqueeze_`. -/
def squeezed (shape : List Nat) (axis : Nat) : Option (List Nat) :=
  let q := shape.filter (· != 1)
  if q.length < shape.length then (if axis ≤ q.length then some (q.take axis ++ 1 :: q.drop axis) else none) else some q

/-- `torch.cat` accepts the squeezed replicated operand next to the other one: same number of axes, same extents except along `axis`. -/
def squeezeFits (shape : List Nat) (axis : Nat) : Bool :=
  match squeezed shape axis with
  | none => false
  | some q => q.length == shape.length && (List.range shape.length).all fun i => i == axis || q.getD i 0 == shape.getD i 0

/-- Part of the replicated arr0 used by rank `r` (manipulations.py:709-730): `chunk_map` minus what the rank already has of arr1, taken from the front.
These numbers are not negative if arr1's parts are not larger than their share. -/
def catLeft {α : Type} (chunk : Nat → Nat) (l : List α) (have1 : Nat → Nat) (r : Nat) : List α :=
  let need : Nat → Int := fun i => (chunk i : Int) - (have1 i : Int)
  (l.take (cum need (r + 1)).toNat).drop (cum need r).toNat

/-- Part of the replicated arr1 used by rank `r` (manipulations.py:735-757), taken from the back: with `ttl` the needs of the higher ranks, the slice
`[len - (need r + ttl), len - ttl)`. -/
def catRight {α : Type} (P : Nat) (chunk : Nat → Nat) (l : List α) (have0 : Nat → Nat) (r : Nat) : List α :=
  let need : Nat → Int := fun i => (chunk i : Int) - (have0 i : Int)
  let ttl := cum need P - cum need (r + 1)
  (l.take ((l.length : Int) - ttl).toNat).drop ((l.length : Int) - (need r + ttl)).toNat

/-- The result on rank `r` (manipulations.py:709-768).  `shape` is the shape of a slab list, i.e. the global shape; its entry at `axis` is replaced by the
number of slabs. -/
def catResult {α : Type} (P : Nat) (shape : List Nat) (axis : Nat) (a b : CatArr α) (r : Nat) : Except Err (List α) :=
  let chunk := catChunk (a.len P + b.len P) P
  let m := catMoved P a b
  match a, b with
  | .rep l, .along _ =>
    let t0 := catLeft chunk l (fun i => (m i).2.length) r
    if squeezeFits (shape.set axis t0.length) axis then .ok (t0 ++ (m r).2) else .error .runtimeError
  | .along _, .rep l =>
    let t1 := catRight P chunk l (fun i => (m i).1.length) r
    if squeezeFits (shape.set axis t1.length) axis then .ok ((m r).1 ++ t1) else .error .runtimeError
  | _, _ => .ok ((m r).1 ++ (m r).2)

/-- An exception was raised. -/
def isErr {β : Type} : Except Err β → Bool
  | .ok _ => false
  | .error _ => true

/-- The value, if there is one. -/
def okOr {β : Type} (d : β) : Except Err β → β
  | .ok l => l
  | .error _ => d

/-- `concatenate((a, b), axis)` where no operand is split along another axis: replicated if both are (manipulations.py:563-568), split along `axis`
otherwise. An exception on any rank is the result. -/
def concat2 {α : Type} (P : Nat) (shape : List Nat) (axis : Nat) (a b : CatArr α) : Except Err (CatArr α) :=
  match a, b with
  | .rep l, .rep l' => .ok (.rep (l ++ l'))
  | _, _ =>
    if (List.range P).any fun r => isErr (catResult P shape axis a b r) then .error .runtimeError
    else .ok (.along fun r => okOr [] (catResult P shape axis a b r))

/-- One more array. -/
def concatMore {α : Type} (P : Nat) (shape : List Nat) (axis : Nat) (acc : Except Err (CatArr α)) (x : CatArr α) : Except Err (CatArr α) :=
  match acc with
  | .error e => .error e
  | .ok c => concat2 P shape axis c x

/-- More than two arrays are concatenated from the left; fewer are refused (manipulations.py:520-528). -/
def concatN {α : Type} (P : Nat) (shape : List Nat) (axis : Nat) : List (CatArr α) → Except Err (CatArr α)
  | a :: b :: rest =>
    rest.foldl (concatMore P shape axis) (concat2 P shape axis a b)
  | _ => .error .valueError

end Heat
