import Verif.Model.Basic
import Verif.Model.Chunk
import Verif.Model.StrideTricks
import Verif.Model.Float32
import Verif.Spec.Moments
/-!
# Means and variances (heat/core/statistics.py)

Every position of the result is computed on its own, so an array is seen through one position: `d r` are the numbers which rank `r` holds and which are reduced
into this position.  Numbers are exact rationals or NaN (`FNum`); rounding only appears as the conversion `conv` to the element type of the buffers.
A division by 0 is NaN (infinities are not modelled; where the code divides by a zero count the numerator is 0, too).
-/
namespace Heat

/-- A number or NaN. -/
abbrev FNum := Option Rat

/-- Addition. -/
def fadd : FNum → FNum → FNum
  | some x, some y => some (x + y)
  | _, _ => none

/-- Subtraction. -/
def fsub : FNum → FNum → FNum
  | some x, some y => some (x - y)
  | _, _ => none

/-- Multiplication. -/
def fmul : FNum → FNum → FNum
  | some x, some y => some (x * y)
  | _, _ => none

/-- Division. -/
def fdiv : FNum → FNum → FNum
  | some x, some y => if y = 0 then none else some (x / y)
  | _, _ => none

/-- `torch.mean` of a local tensor: NaN if it is empty. -/
def torchMean (l : List Rat) : FNum := Spec.mean l

/-- `torch.var(..., correction=corr)` of a local tensor: NaN if there are not more elements than the correction. -/
def torchVar (corr : Bool) (l : List Rat) : FNum := Spec.variance (if corr then 1 else 0) l

/-- `if torch.isnan(v): v = 0.0` (statistics.py:1026-1027, 2228-2231). -/
def nanTo0 : FNum → FNum
  | none => some 0
  | some x => some x

/-- `__merge_moments` of means (statistics.py:1122-1128); a pair is `(mu, n)`. -/
def mergeMean (m1 m2 : FNum × FNum) : FNum × FNum :=
  let n := fadd m1.2 m2.2
  let delta := fsub m2.1 m1.1
  (fadd m1.1 (fmul m2.2 (fdiv delta n)), n)

/-- `__merge_moments` of variances (statistics.py:1122-1137); a triple is `(var, mu, n)`. -/
def mergeVar (corr : Bool) (m1 m2 : FNum × FNum × FNum) : FNum × FNum × FNum :=
  let n1 := m1.2.2
  let n2 := m2.2.2
  let mu1 := m1.2.1
  let mu2 := m2.2.1
  let n := fadd n1 n2
  let delta := fsub mu2 mu1
  let mu := fadd mu1 (fmul n2 (fdiv delta n))
  let cross := fdiv (fmul (fmul (fmul delta delta) n1) n2) n
  let var := if corr then
      fdiv (fadd (fadd (fmul m1.1 (fsub n1 (some 1))) (fmul m2.1 (fsub n2 (some 1)))) cross) (fsub n (some 1))
    else fdiv (fadd (fadd (fmul m1.1 n1) (fmul m2.1 n2)) cross) n
  (var, mu, n)

/-- Writing a pair into the buffer `mu_tot` (`n_tot`), whose element type is float32 by default (statistics.py:988-991, 1029-1031, 1035). -/
def storeMean (conv : Rat → Rat) (m : FNum × FNum) : FNum × FNum := (m.1.map conv, m.2.map conv)

/-- The loop `for i in range(1, size)` over the rows of `mu_tot` (statistics.py:995-998, 1034-1037). After the `Allreduce` row `r` is what rank `r` contributed, because
all other ranks contribute 0 to it. -/
def foldMean (conv : Rat → Rat) (P : Nat) (c : Nat → FNum × FNum) : FNum × FNum :=
  (List.range (P - 1)).foldl (fun acc i => storeMean conv (mergeMean acc (storeMean conv (c (i + 1))))) (storeMean conv (c 0))

/-- `mean(x)` with `axis=None` (statistics.py:1009-1038). -/
def meanAll (conv : Rat → Rat) (P : Nat) (d : Nat → List Rat) : FNum :=
  if P = 1 then torchMean (d 0)
  else (foldMean conv P fun r => (nanTo0 (torchMean (d r)), some ((d r).length : Rat))).1

/-- `mean(x, axis)` where `axis` is or contains the split axis (statistics.py:965-999); `m r` is the local extent of the split axis. -/
def meanAxis (conv : Rat → Rat) (P : Nat) (m : Nat → Nat) (d : Nat → List Rat) : FNum :=
  (foldMean conv P fun r => (if m r ≠ 0 then torchMean (d r) else some 0, some (m r : Rat))).1

/-- The loop over the rows of `var_tot` (statistics.py:2208-2213, 2239-2244); its element type is that of `x`. -/
def foldVar (corr : Bool) (P : Nat) (c : Nat → FNum × FNum × FNum) : FNum × FNum × FNum :=
  (List.range (P - 1)).foldl (fun acc i => mergeVar corr acc (c (i + 1))) (c 0)

/-- `var(x, ddof)` with `axis=None` (statistics.py:2217-2245). -/
def varAll (corr : Bool) (P : Nat) (d : Nat → List Rat) : FNum :=
  if P = 1 then torchVar corr (d 0)
  else (foldVar corr P fun r => (nanTo0 (torchVar corr (d r)), nanTo0 (torchMean (d r)), some ((d r).length : Rat))).1

/-- `var(x, axis, ddof)` where `axis` is or contains the split axis (statistics.py:2182-2214). -/
def varAxis (corr : Bool) (P : Nat) (m : Nat → Nat) (d : Nat → List Rat) : FNum :=
  (foldVar corr P fun r =>
    if m r ≠ 0 then (torchVar corr (d r), torchMean (d r), some (m r : Rat)) else (some 0, some 0, some (m r : Rat))).1

/-- `ddof`/`bessel` of `var` (statistics.py:2170-2180): the flag `correction`. -/
def varCorrection (ddof : Int) (bessel : Option Bool) : Except Err Bool :=
  if ddof > 1 then .error .notImplemented
  else if ddof < 0 then .error .valueError
  else .ok (if bessel = some true then true else decide (ddof ≠ 0))

/-- Does `var` of an integer array work?  Only the undistributed case with `axis=None` converts to float (statistics.py:2219); the others call `torch.mean`/`torch.var` on
integers, which raises a RuntimeError. `none`: no exception. -/
def varIntRaises (axisNone distributed : Bool) : Option Err := if axisNone && !distributed then none else some .runtimeError

/-- Shape of the result if the split axis is reduced: `mu_tot[0][0] if mu_tot[0].size == 1 else mu_tot[0]` (statistics.py:986-999, 2200-2214). -/
def momentShape (out : List Nat) : List Nat :=
  let mu := if out = [] then [1] else out
  if mu.foldl (· * ·) 1 = 1 then mu.drop 1 else mu

/-- `is_split` of the result if the split axis is not reduced: one axis given as an integer (statistics.py:1333-1341). -/
def momentSplit1 (axis split : Nat) : Nat := if axis > split then split else split - 1

/-- `is_split` of the result if the split axis is not reduced and the axes are given as a tuple (statistics.py:1362, 1380-1386). -/
def momentSplitN (ndim : Nat) (axes : List Nat) (split : Nat) : Nat :=
  let outLen := ((List.range ndim).filter fun i => !axes.contains i).length
  if split < outLen then split else outLen - 1

/-- How `skew` and `kurtosis` compute (statistics.py:774-793, 1938-1957). -/
inductive MomentPath where
  | global      -- mean, differences and sums as distributed operations
  | perPosition -- local function, the split axis is not reduced
  deriving DecidableEq, Repr

/-- The branch of `skew`/`kurtosis` for an integer axis: `x.split == axis` compares the axis as given; `__moment_w_axis` normalises it and calls
`elementwise_function`, which is `None`, if it is the split axis (statistics.py:774, 793, 1311-1341). -/
def skewPath (ndim : Nat) (split : Option Nat) (axis : Int) : Except Err MomentPath :=
  if split.map Int.ofNat = some axis then .ok .global
  else if axis ≥ ndim then .error .valueError
  else match sanitizeAxis ndim (some axis) with
    | .error e => .error e
    | .ok none => .error .typeError
    | .ok (some a) => if split = some a then .error .typeError else .ok .perPosition

end Heat
