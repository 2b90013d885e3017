import Verif.Model.Halo
import Verif.Spec.Dist
/-!
# `unfold` (heat/core/manipulations.py:3692-3777) along the split axis

Rows along the split axis, `P ≥ 2` processes (with one process, or along another axis, `torch.unfold` is called on the local tensor: 3742-3747).
-/
namespace Heat
open Spec
variable {α : Type}

/-- `tensor.unfold(axis, size, step)` of torch: the windows of `size` rows that begin at multiples of `step`; the tensor must not be shorter than a window. -/
def torchUnfold (t : List α) (size step : Nat) : Except Err (List (List α)) :=
  if t.length < size then .error .runtimeError
  else .ok ((List.range ((t.length - size) / step + 1)).map fun i => (t.drop (i * step)).take size)

/-- `min_index`: first local row at which a window begins (manipulations.py:3761); `displ` is the number of rows on lower ranks, `//` is floor division. -/
def unfoldMinIndex (displ step : Nat) : Int := (((displ : Int) - 1) / (step : Int) + 1) * (step : Int) - (displ : Int)

/-- Whether the rank has no window (manipulations.py:3762-3764). -/
def unfoldNoData (P : Nat) (d : Nat → List α) (size step r : Nat) : Bool :=
  unfoldMinIndex (startOf d r) step ≥ (d r).length || (r == P - 1 && unfoldMinIndex (startOf d r) step + size > (d r).length)

/-- The local windows (manipulations.py:3753-3772). -/
def unfoldLocal (P : Nat) (d : Nat → List α) (size step r : Nat) : Except Err (List (List α)) :=
  if (List.range P).any fun q => size - 1 > (d q).length then .error .runtimeError
  else
    match withHalos P d (size - 1) false true r with
    | .error e => .error e
    | .ok ext =>
      if unfoldNoData P d size step r then .ok []
      else torchUnfold (ext.drop (unfoldMinIndex (startOf d r) step).toNat) size step

/-- `unfold(a, axis, size, step)` (manipulations.py:3728-3776). -/
def unfoldArr (P : Nat) (d : Nat → List α) (size step : Nat) : Except Err (Nat → List (List α)) :=
  if step < 1 then .error .valueError
  else if size ≤ 1 then .error .valueError
  else if size > ((List.range P).map fun r => (d r).length).sum then .error .valueError
  else
    match (List.range P).mapM fun r => unfoldLocal P d size step r with
    | .error e => .error e
    | .ok parts => .ok fun r => parts.getD r []

/-- The element type a rank assigns to the result (manipulations.py:3765-3774): `torch.zeros` without a type is float32, and `factories.array` takes the type of the local tensor. -/
def unfoldDtype {τ : Type} (float32 dt : τ) (P : Nat) (d : Nat → List α) (size step r : Nat) : τ := if unfoldNoData P d size step r then float32 else dt

end Heat
