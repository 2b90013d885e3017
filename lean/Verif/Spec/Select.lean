/-!
# Specification vocabulary: selecting and overwriting positions of a list
-/
namespace Heat.Spec
variable {α : Type}

/-- The elements of `l` at the positions that satisfy `p`, in order; the first element of `l` has position `o`. -/
def pick (p : Nat → Bool) (o : Nat) : List α → List α
  | [] => []
  | x :: xs => if p o then x :: pick p (o + 1) xs else pick p (o + 1) xs

/-- `l` with `c` written at the positions that satisfy `p`. -/
def overwrite (p : Nat → Bool) (c : α) (l : List α) : List α := l.mapIdx fun g x => if p g then c else x

/-- A Python slice bound for a sequence of length `n`: negative bounds count from the end; the result is clamped to
`[0, n]` (https://docs.python.org/3/reference/datamodel.html, `slice.indices`, positive step). -/
def clampBound (n : Nat) (b : Int) : Nat :=
  if b < 0 then (b + n).toNat else min b.toNat n

/-- Positions of a sequence of length `n` selected by `start:stop:step`, `step ≥ 1`. -/
def inSlice (n : Nat) (start stop : Option Int) (step : Nat) (g : Nat) : Bool :=
  let lo := clampBound n (start.getD 0)
  let hi := clampBound n (stop.getD n)
  decide (lo ≤ g ∧ g < hi ∧ (g - lo) % step = 0)

/-- `l[start:stop:step]` of a Python list or a NumPy array's first axis, `step ≥ 1`. -/
def pySlice (l : List α) (start stop : Option Int) (step : Nat) : List α :=
  pick (inSlice l.length start stop step) 0 l

end Heat.Spec
