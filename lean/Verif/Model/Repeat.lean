import Verif.Model.Dist
/-!
# `repeat` (heat/core/manipulations.py:1862-2090) along the split axis of a distributed array

`d r` are the rows of rank `r` along the split axis (with `axis=None`: the elements, flattened), `rp r` the local part of `repeats` after it has been distributed.  Repetition numbers are natural numbers (torch refuses negative ones).
-/
namespace Heat
variable {α : Type}

/-- `torch.repeat_interleave(t, repeats, dim)` with a tensor of repetitions: one number is used for all rows, otherwise the lengths have to agree. -/
def repeatInterleave (xs : List α) (rs : List Nat) : Except Err (List α) :=
  match rs with
  | [k] => .ok (xs.flatMap (List.replicate k))
  | _ => if rs.length = xs.length then .ok ((xs.zip rs).flatMap fun p => List.replicate p.2 p.1) else .error .runtimeError

/-- `resplit(repeats, 0)` of replicated repetitions: rank `r` gets its chunk (manipulations.py:2041-2047, 2058-2063). -/
def repeatsChunk (rs : List Nat) (P r : Nat) : List Nat := (rs.take (chunkRange rs.length r P).2).drop (chunkRange rs.length r P).1

/-- The local results, declared as parts of the result and balanced (manipulations.py:2081-2090). -/
def repeatAssemble (fuel P : Nat) (loc : Nat → Except Err (List α)) : Except Err (Nat → List α) :=
  match (List.range P).mapM loc with
  | .error e => .error e
  | .ok parts => balance fuel (((List.range P).map fun r => (parts.getD r []).length).sum) P (fun r => parts.getD r [])

/-- `repeat(a, k)` with an integer (or one-element) `repeats` (manipulations.py:1973-1995): an empty array is returned as it is. -/
def repeatInt (fuel P k : Nat) (d : Nat → List α) : Except Err (Nat → List α) :=
  if ((List.range P).map fun r => (d r).length).sum = 0 then .ok d else repeatAssemble fuel P fun r => .ok ((d r).flatMap (List.replicate k))

/-- `repeat(a, repeats)` with several repetition numbers, `a` distributed along the axis (manipulations.py:2025-2090); the total sizes are compared only if `axis` is None (2027). -/
def repeatArr (fuel P : Nat) (axisNone : Bool) (d : Nat → List α) (rp : Nat → List Nat) : Except Err (Nat → List α) :=
  let n := ((List.range P).map fun r => (d r).length).sum
  let m := ((List.range P).map fun r => (rp r).length).sum
  if m = 0 then .error .valueError
  else if n = 0 then .ok d
  else if axisNone ∧ n ≠ m then .error .valueError
  else repeatAssemble fuel P fun r => repeatInterleave (d r) (rp r)

/-- Shape of `repeat(a, k, axis)` (manipulations.py:1973-1974, 1984): with a dimension of size 0 the input is returned. -/
def repeatShape (shape : List Nat) (k axis : Nat) : List Nat := if 0 ∈ shape then shape else shape.set axis (shape.getD axis 0 * k)

end Heat
