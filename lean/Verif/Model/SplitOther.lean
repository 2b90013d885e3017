import Verif.Model.Split
/-!
# `split` (heat/core/manipulations.py:2903-3134) along an axis that is not the distributed one, and of arrays that are not distributed

The array is seen as rows along its split axis, every row being the list of its entries along the axis that is cut; `n` is `x.gshape[axis]`, the length of every row.
-/
namespace Heat
variable {α : Type}

/-- Sizes of the pieces of `torch.split(t, size, axis)` for a length `n`: pieces of `size`, the last one smaller; one empty piece for length 0. -/
def chunkSizes (n : Nat) (size : Int) : Except Err (List Nat) :=
  if size < 0 then .error .runtimeError
  else if size = 0 ∧ n ≠ 0 then .error .runtimeError
  else if n = 0 then .ok [0]
  else .ok ((List.range ((n + size.toNat - 1) / size.toNat)).map fun i => min size.toNat (n - i * size.toNat))

/-- `torch.split(t, [sizes], axis)`: the sizes have to be non-negative and to add up to the length. -/
def givenSizes (n : Nat) (sizes : List Int) : Except Err (List Nat) :=
  if sizes.any (· < 0) then .error .runtimeError else if sizes.sum = n then .ok (sizes.map Int.toNat) else .error .runtimeError

/-- Sizes for an integer argument (manipulations.py:2984-2990, 3090-3091); Python's `%` and `//`. -/
def intSizes (n : Nat) (s : Int) : Except Err (List Nat) :=
  if s = 0 then .error .zeroDivision
  else if Int.fmod n s ≠ 0 then .error .valueError
  else chunkSizes n (Int.fdiv n s)

/-- Sizes for a list of indices (manipulations.py:3104-3125): indices behind the end become the length, then first differences from 0 to the length. -/
def listSizes (n : Nat) (inds : List Int) : Except Err (List Nat) :=
  givenSizes n (diffs ((0 : Int) :: (inds.map fun (v : Int) => if v ≤ (n : Int) then v else (n : Int)) ++ [(n : Int)]))

/-- Piece `i` of the local tensor (manipulations.py:3091, 3125). -/
def cutRows (sizes : List Nat) (rows : List (List α)) (i : Nat) : List (List α) :=
  rows.map fun row => (row.drop (sizes.take i).sum).take (sizes.getD i 0)

/-- The sub-arrays of an array distributed along another axis: assembled with `is_split=x.split` and balanced (manipulations.py:3126-3134). -/
def splitOther (fuel P : Nat) (sizes : Except Err (List Nat)) (d : Nat → List (List α)) : Except Err (List (Nat → List (List α))) :=
  match sizes with
  | .error e => .error e
  | .ok sizes => (List.range sizes.length).mapM fun i => balance fuel (((List.range P).map fun r => (cutRows sizes (d r) i).length).sum) P fun r => cutRows sizes (d r) i

/-- The sub-arrays of an array that is not distributed (every process has all rows; nothing to balance, manipulations.py:3126-3134). -/
def splitReplicated (sizes : Except Err (List Nat)) (rows : List (List α)) : Except Err (List (List (List α))) :=
  match sizes with
  | .error e => .error e
  | .ok sizes => .ok ((List.range sizes.length).map fun i => cutRows sizes rows i)

end Heat
