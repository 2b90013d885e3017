import Verif.Model.Basic
/-!
# Model of heat/core/stride_tricks.py
-/
namespace Heat

/-- `sanitize_axis(shape, axis)` for `axis` an `int` or `None`
(heat/core/stride_tricks.py:116-180; the branch for tuples is `sanitizeAxes`).
Line 158: a 0-d shape turns the axis into `None`; line 172: `None` or `0 <= axis < ndim` is returned as is;
line 174: a negative axis is shifted by `ndim`; line 177: still out of bounds raises ValueError.
The TypeError branch (line 161, non-int axis) has no counterpart: the argument is typed. -/
def sanitizeAxis (ndim : Nat) (axis : Option Int) : Except Err (Option Nat) :=
  let axis := if ndim = 0 then none else axis
  match axis with
  | none => .ok none
  | some a =>
    if 0 ≤ a ∧ a < ndim then .ok (some a.toNat)
    else
      let a := if a < 0 then a + ndim else a
      if a < 0 ∨ a ≥ ndim then .error .valueError else .ok (some a.toNat)

/-- The tuple branch of `sanitize_axis` (heat/core/stride_tricks.py:163-170); `none` as result stands for
Python's `None` (0-d array, lines 158-159). -/
def sanitizeAxes (ndim : Nat) (axes : List Int) : Except Err (Option (List Nat)) :=
  if ndim = 0 then .ok none
  else
    let axes := axes.map fun dim => if dim < 0 then dim + (ndim : Int) else dim
    if axes.any fun dim => dim < 0 || dim ≥ (ndim : Int) then .error .valueError
    else .ok (some (axes.map Int.toNat))

/-- `torch.broadcast_shapes(a, b)` on *reversed* shapes (innermost dimension first), as used by
`broadcast_shape` (heat/core/stride_tricks.py:53).  torch: dimensions are compared right-aligned; equal
dimensions are kept, a 1 is stretched to the other one, anything else is a RuntimeError. -/
def broadcastRev : List Nat → List Nat → Option (List Nat)
  | [], b => some b
  | a, [] => some a
  | x :: a, y :: b =>
    if x = y then (broadcastRev a b).map (x :: ·)
    else if x = 1 then (broadcastRev a b).map (y :: ·)
    else if y = 1 then (broadcastRev a b).map (x :: ·)
    else none

/-- `broadcast_shape(shape_a, shape_b)` (heat/core/stride_tricks.py:12-61): torch's result as a tuple, its
RuntimeError translated to ValueError (lines 58-59). -/
def broadcastShape (a b : List Nat) : Except Err (List Nat) :=
  match broadcastRev a.reverse b.reverse with
  | some c => .ok c.reverse
  | none => .error .valueError

/-- `broadcast_shapes(*shapes)` (heat/core/stride_tricks.py:64-113): torch folds the shapes from left to
right starting from the empty shape. -/
def broadcastShapes (shapes : List (List Nat)) : Except Err (List Nat) :=
  match shapes.foldl (fun acc s => acc.bind fun r => broadcastRev r s.reverse) (some []) with
  | some c => .ok c.reverse
  | none => .error .valueError

/-- A Python slice object with integer or `None` entries. -/
structure PySlice where
  start : Option Int
  stop : Option Int
  step : Option Int
  deriving DecidableEq, Repr

/-- `sanitize_slice(sl, max_dim)` (heat/core/stride_tricks.py:228-258): remove `None`s and shift negative
bounds once by `max_dim`.  Note that bounds are *not* clamped to `[0, max_dim]`. -/
def sanitizeSlice (sl : PySlice) (maxDim : Nat) : Int × Int × Int :=
  let st := sl.start.getD 0
  let st := if st < 0 then st + maxDim else st
  let sp := sl.stop.getD maxDim
  let sp := if sp < 0 then sp + maxDim else sp
  (st, sp, sl.step.getD 1)

end Heat
