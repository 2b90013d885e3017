import Verif.Model.Moments
import Verif.Model.Reduce
import Mathlib.Analysis.SpecialFunctions.Pow.Real
/-!
# Weighted averages, skewness and kurtosis (heat/core/statistics.py:209-340, 748-799, 1277-1341, 1921-1963, 2038-2105)

As in Model/Moments.lean an array is seen through one position of the result: `d r` are the numbers of rank `r` that are reduced into this position.  Numbers are exact.
-/
namespace Heat

/-! ## average -/

/-- The weights given to `average`, as far as its checks look at them. -/
structure WgtInfo where
  shape : List Nat
  split : Option Nat
  deriving DecidableEq, Repr

/-- The argument `axis` of `average` after `sanitize_axis`. -/
inductive AvgAxis where
  | none | one (a : Nat) | tuple (l : List Nat)
  deriving DecidableEq, Repr

/-- The checks of `average` with weights (statistics.py:287-319): `none` if they pass.  The result tells whether the weights are taken as they are (`true`) or
as one-dimensional weights along the axis (`false`). -/
def avgCheck (distributed : Bool) (xshape : List Nat) (xsplit : Option Nat) (axis : AvgAxis) (w : WgtInfo) : Except Err Bool :=
  if xshape ≠ w.shape then
    match axis with
    | .none => .error .typeError
    | .tuple _ => .error .notImplemented
    | .one a =>
      if w.shape.length ≠ 1 then .error .typeError
      else if w.shape.getD 0 0 ≠ xshape.getD a 0 then .error .valueError
      else .ok false
  else if distributed = true ∧ xsplit ≠ none ∧ w.split ≠ xsplit ∧ w.shape.length ≠ 1 then .error .notImplemented
  else .ok true

/-- Local shape and split of the one-dimensional weights made compatible with `x` (statistics.py:299-308); `n` is the number of local weights. -/
def wgtMeta (ndim axis n : Nat) (wsplit : Option Nat) : List Nat × Option Nat :=
  ((List.range ndim).map fun dim => if dim = axis then n else 1, if wsplit = none then none else some axis)

/-- One position of the weighted average over the distributed axis (statistics.py:320-324): both sums are reductions of the local products; `all` are the sums of the weights of
all positions of the result, any zero among them raises. -/
def AvgResult (P : Nat) (d : Nat → List (Rat × Rat)) (others : List Rat) (v : Except Err Rat) : Prop :=
  ∃ w s, ReduceResult (· + ·) id 0 P (fun r => (d r).map fun p => p.2) w ∧ ReduceResult (· + ·) id 0 P (fun r => (d r).map fun p => p.1 * p.2) s ∧
    v = if (w :: others).any (fun z => decide (z = 0)) then .error .zeroDivision else .ok (s / w)

/-- `x.gnumel / result.gnumel`, the sum of weights returned without weights (statistics.py:282-285): the quotient of the products of the extents. -/
def avgCount (shape outShape : List Nat) : Rat := (shape.foldl (· * ·) 1 : Nat) / (outShape.foldl (· * ·) 1 : Nat)

/-- `wgt = empty_like(weights); wgt.larray = weights.larray` (statistics.py:317-318, dndarray.py:164-169): what rank `r` then believes about the balance of `wgt`.  A new array is
balanced (`some true`); the setter resets this to unknown (`none`) only on the processes whose number of slabs differs from that of the new array. -/
def wgtBalanced (n P : Nat) (sizes : Nat → Nat) (r : Nat) : Option Bool :=
  if sizes r ≠ (chunkRange n r P).2 - (chunkRange n r P).1 then none else some true

/-- Does rank `r` take part in the `allreduce` of `wgt.is_balanced()` (dndarray.py:1219-1232, called from sanitation.py:91, 143)? -/
def joinsAllreduce (b : Option Bool) : Bool := b.isNone

/-! ## skewness and kurtosis -/

/-- `sum((x - mu)^k) / n` over all processes (statistics.py:1943-1948, 779-783). -/
def CentralMoment (k : Nat) (μ : Rat) (n P : Nat) (d : Nat → List Rat) (m : Rat) : Prop :=
  ∃ s, ReduceResult (· + ·) id 0 P (fun r => (d r).map fun x => (x - μ) ^ k) s ∧ m = s / n

/-- The last steps of `skew` (statistics.py:1949-1952, 2065-2068).  NaN is `none`: 0 divided by 0 if all numbers are equal.  The factor is a Python number: its division by
`n - 2` raises ZeroDivisionError for two numbers. -/
noncomputable def skewFin (unbiased : Bool) (n : Nat) (m : Option (Rat × Rat)) : Except Err (Option Real) :=
  if unbiased = true ∧ n = 2 then .error .zeroDivision
  else .ok (match m with
    | none => none
    | some (m3, m2) =>
      if m2 = 0 then none
      else some ((if unbiased then Real.sqrt ((n : Real) * (n - 1)) / (n - 2) else 1) * ((m3 : Real) / (m2 : Real) ^ (3 / 2 : Real))))

/-- The last steps of `kurtosis` (statistics.py:784-789, 2100-2105). -/
def kurtFin (unbiased fischer : Bool) (n : Nat) (m : Option (Rat × Rat)) : Except Err (Option Rat) :=
  if unbiased = true ∧ (n = 2 ∨ n = 3) then .error .zeroDivision
  else .ok (match m with
    | none => none
    | some (m4, m2) =>
      if m2 = 0 then none
      else
        let res := m4 / m2 ^ 2
        let res := if unbiased then ((n : Rat) - 1) / (((n : Rat) - 2) * (n - 3)) * (((n : Rat) + 1) * res - 3 * (n - 1)) + 3 else res
        some (if fischer then res - 3 else res))

/-- `skew(x)` or `skew(x, axis)` along the split axis: mean, differences and sums as distributed operations (statistics.py:1938-1952); `μ` is the value of `mean`. -/
def SkewGlobal (unbiased : Bool) (μ : FNum) (n P : Nat) (d : Nat → List Rat) (v : Except Err (Option Real)) : Prop :=
  match μ with
  | none => v = skewFin unbiased n none
  | some μ => ∃ m3 m2, CentralMoment 3 μ n P d m3 ∧ CentralMoment 2 μ n P d m2 ∧ v = skewFin unbiased n (some (m3, m2))

/-- `kurtosis(x)` or `kurtosis(x, axis)` along the split axis (statistics.py:774-789). -/
def KurtGlobal (unbiased fischer : Bool) (μ : FNum) (n P : Nat) (d : Nat → List Rat) (v : Except Err (Option Rat)) : Prop :=
  match μ with
  | none => v = kurtFin unbiased fischer n none
  | some μ => ∃ m4 m2, CentralMoment 4 μ n P d m4 ∧ CentralMoment 2 μ n P d m2 ∧ v = kurtFin unbiased fischer n (some (m4, m2))

/-- `__torch_skew(t, dim, correction)` for one position (statistics.py:2055-2068). -/
noncomputable def torchSkew (correction : Bool) (l : List Rat) : Except Err (Option Real) :=
  skewFin correction l.length (match torchMean l with
    | none => none
    | some μ => some ((l.map fun x => (x - μ) ^ 3).sum / l.length, (l.map fun x => (x - μ) ^ 2).sum / l.length))

/-- `__torch_kurtosis(t, dim, fischer, correction)` for one position (statistics.py:2090-2105). -/
def torchKurt (correction fischer : Bool) (l : List Rat) : Except Err (Option Rat) :=
  kurtFin correction fischer l.length (match torchMean l with
    | none => none
    | some μ => some ((l.map fun x => (x - μ) ^ 4).sum / l.length, (l.map fun x => (x - μ) ^ 2).sum / l.length))

/-- `mu = mean(x, axis); if axis > 0: mu = mu.expand_dims(axis)` for an array split along `axis` (statistics.py:776-778, 1940-1942): the shape of `mu`.  `mean` drops an axis if its
result has one element (`momentShape`); `expand_dims` then refuses the axis. -/
def muShape (shape : List Nat) (axis : Nat) : Except Err (List Nat) :=
  let mu := momentShape (shape.eraseIdx axis)
  if axis > 0 then (if axis > mu.length then .error .valueError else .ok (mu.insertIdx axis 1)) else .ok mu

end Heat
