import Verif.Model.Dist
/-!
# `split` (heat/core/manipulations.py:2903-3134) along the split axis of a distributed array

Rows along the split axis; `hsplit`, `vsplit` and `dsplit` call it.  Along any other axis every rank splits its local tensor.
-/
namespace Heat
variable {α : Type}

/-- `torch.split(t, sizes)`: consecutive pieces; the sizes have to add up to the length. -/
def torchSplit (t : List α) (sizes : List Nat) : Except Err (List (List α)) :=
  if sizes.sum = t.length then .ok ((List.range sizes.length).map fun i => (t.drop (sizes.take i).sum).take (sizes.getD i 0)) else .error .runtimeError

/-- `new_indices` of a rank that holds `len > 0` rows from row `offset` on (manipulations.py:3005-3031); `size` is the number of rows per section, `s` the number of sections.  Writing behind the end of the tensor is an IndexError, a slice is clipped. -/
def sectionSizes (size s offset len : Nat) : Except Err (List Nat) :=
  let idx := offset / size
  let leftChunk := size - offset % size
  if leftChunk ≥ len then
    if idx < s then .ok ((List.replicate s 0).set idx len) else .error .indexError
  else if ¬ idx < s then .error .indexError
  else
    let left := len - leftChunk
    let fill := left / size
    if fill + (idx + 1) < s then
      .ok ((List.range s).map fun i => if i = idx then leftChunk else if idx + 1 ≤ i ∧ i < fill + (idx + 1) then size else if i = fill + (idx + 1) then left % size else 0)
    else .error .indexError

/-- The pieces of one rank for an integer argument (manipulations.py:2991-3033). -/
def splitIntLocal (n s P : Nat) (d : Nat → List α) (r : Nat) : Except Err (List (List α)) :=
  if P = s then .ok ((List.range s).map fun i => if i ≠ r then [] else d r)
  else if (d r).length = 0 then .ok (List.replicate s [])
  else
    match sectionSizes (n / s) s (chunkRange n r P).1 (d r).length with
    | .error e => .error e
    | .ok sizes => torchSplit (d r) sizes

/-- One clipped index (manipulations.py:3045-3052). -/
def clipIndex (start stop v : Int) : Int := let v := if v ≤ start then start else v; if v ≥ stop then stop else v

/-- First differences of a list. -/
def diffs : List Int → List Int
  | a :: b :: t => (b - a) :: diffs (b :: t)
  | _ => []

/-- The pieces of one rank for a list of indices (manipulations.py:3034-3067): negative sizes are refused by `torch.split`. -/
def splitListLocal (n P : Nat) (inds : List Int) (d : Nat → List α) (r : Nat) : Except Err (List (List α)) :=
  let c := chunkRange n r P
  let sizes := diffs ((c.1 : Int) :: (inds.map (clipIndex c.1 c.2)) ++ [(c.2 : Int)])
  if sizes.any (· < 0) then .error .runtimeError else torchSplit (d r) (sizes.map Int.toNat)

/-- The sub-arrays, one after the other, assembled from the local pieces and balanced (manipulations.py:3125-3134). -/
def splitAssemble (fuel P k : Nat) (parts : List (List (List α))) : Except Err (List (Nat → List α)) :=
  (List.range k).mapM fun i =>
    let sub : Nat → List α := fun r => (parts.getD r []).getD i []
    balance fuel (((List.range P).map fun r => (sub r).length).sum) P sub

/-- `split(x, s)` with an integer. -/
def splitInt (fuel P s : Nat) (d : Nat → List α) : Except Err (List (Nat → List α)) :=
  let n := ((List.range P).map fun r => (d r).length).sum
  if s = 0 then .error .zeroDivision
  else if n % s ≠ 0 then .error .valueError
  else
    match (List.range P).mapM fun r => splitIntLocal n s P d r with
    | .error e => .error e
    | .ok parts => splitAssemble fuel P s parts

/-- `split(x, [i0, i1, ...])`. -/
def splitList (fuel P : Nat) (inds : List Int) (d : Nat → List α) : Except Err (List (Nat → List α)) :=
  let n := ((List.range P).map fun r => (d r).length).sum
  match (List.range P).mapM fun r => splitListLocal n P inds d r with
  | .error e => .error e
  | .ok parts => splitAssemble fuel P (inds.length + 1) parts

end Heat
