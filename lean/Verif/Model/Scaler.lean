import Verif.Model.Dist
import Verif.Model.Moments
import Verif.Model.Reduce
import Verif.Model.Percentile
import Verif.Spec.Dist
import Verif.Spec.Scaler
/-!
# Scalers (heat/preprocessing/preprocessing.py)

A data set distributed along the data points: `d r` are the rows of rank `r`.  Exact arithmetic; `sqrt` stands for the power 0.5.
-/
namespace Heat
open Spec
variable {n : Nat}

/-- The column of feature `j` on every rank. -/
def colParts (d : Nat → List (Fin n → Rat)) (j : Fin n) : Nat → List Rat := fun r => (d r).map fun x => x j

/-- `if scale_.min() < tol: scale_ = where(abs(scale_) >= tol, scale_, 1)` (preprocessing.py:106-114).  The minimum over the features is below `tol` iff one of them is. -/
def guardAbs (tol : Rat) (v : Fin n → Rat) : Fin n → Rat :=
  if ∃ j, v j < tol then fun j => if tol ≤ |v j| then v j else 1 else v

/-- What `fit` stores (preprocessing.py:102-116, 225-241, 394-405, 543-573): `transform` subtracts `shift`, multiplies by `scale` and adds `low`. -/
structure ScalerParams (n : Nat) where
  shift : Fin n → Rat
  scale : Fin n → Rat
  low : Rat

/-- `transform` of one data point (preprocessing.py:131, 255, 419, 589-595). -/
def scaledRow (p : ScalerParams n) (x : Fin n → Rat) : Fin n → Rat := fun j => (x j - p.shift j) * p.scale j + p.low

/-- `inverse_transform` of one data point (preprocessing.py:151, 275, 437, 617-623). -/
def unscaledRow (p : ScalerParams n) (y : Fin n → Rat) : Fin n → Rat := fun j => (y j - p.low) / p.scale j + p.shift j

/-- The number of features is checked, then every rank treats its rows (`_has_n_features`, preprocessing.py:33-37, called in 129, 149, 253, 273, 417, 435, 585-588, 613-616). -/
def applyRows (f : (Fin n → Rat) → Fin n → Rat) {n' : Nat} (d : Nat → List (Fin n' → Rat)) : Except Err (Nat → List (Fin n' → Rat)) :=
  if h : n' = n then .ok fun r => (d r).map fun x => h ▸ f (h ▸ x) else .error .valueError

/-- What a call of `transform` leaves behind: what it returns (`none`: the scaler object itself) and the values of the argument afterwards. -/
structure ScalerCall (n : Nat) where
  returned : Option (Nat → List (Fin n → Rat))
  argument : Nat → List (Fin n → Rat)

/-- `transform`/`inverse_transform` of StandardScaler, MinMaxScaler, MaxAbsScaler with `copy` (preprocessing.py:130-135, 150-155, 254-261, 274-281, 418-423, 436-441). -/
def scalerCall (copy : Bool) (f : (Fin n → Rat) → Fin n → Rat) {n' : Nat} (d : Nat → List (Fin n' → Rat)) : Except Err (ScalerCall n') :=
  match applyRows f d with
  | .error e => .error e
  | .ok y => .ok (if copy then ⟨some y, d⟩ else ⟨none, y⟩)

/-- `transform`/`inverse_transform` of RobustScaler with `copy` (preprocessing.py:589-601, 617-629): in place, it returns the data. -/
def robustCall (copy : Bool) (f : (Fin n → Rat) → Fin n → Rat) {n' : Nat} (d : Nat → List (Fin n' → Rat)) : Except Err (ScalerCall n') :=
  match applyRows f d with
  | .error e => .error e
  | .ok y => .ok ⟨some y, if copy then d else y⟩

/-- `mean_` (preprocessing.py:102). -/
def stdMean (P : Nat) (d : Nat → List (Fin n → Rat)) (j : Fin n) : FNum := meanAxis (fun x => x) P (fun r => (d r).length) (colParts d j)

/-- `var_` (preprocessing.py:103). -/
def stdVar (P : Nat) (d : Nat → List (Fin n → Rat)) (j : Fin n) : FNum := varAxis false P (fun r => (d r).length) (colParts d j)

/-- `StandardScaler.fit` (preprocessing.py:83-116); `none`: a mean or a variance is NaN.  `with_mean`, `with_std` and `sample_weight` are accepted and never looked at
(the error for `sample_weight` is created but not raised, lines 95-98). -/
def stdFit (sqrt : Rat → Rat) (tol : Rat) (_withMean _withStd _weights : Bool) (P : Nat) (d : Nat → List (Fin n → Rat)) : Option (ScalerParams n) :=
  if ∀ j, (stdMean P d j).isSome ∧ (stdVar P d j).isSome then
    some ⟨fun j => (stdMean P d j).getD 0, fun j => 1 / sqrt (guardAbs tol (fun j => (stdVar P d j).getD 0) j), 0⟩
  else none

/-- `MinMaxScaler.__init__` (preprocessing.py:196-213). -/
def minMaxInit (low high : Rat) (clip : Bool) : Except Err Unit :=
  if clip then .error .notImplemented else if high ≤ low then .error .valueError else .ok ()

/-- `ht.min(X, axis=0)` (preprocessing.py:225; `big` stands for infinity): any order of combination. -/
def ColMin (big : Rat) (P : Nat) (d : Nat → List (Fin n → Rat)) (j : Fin n) (m : Rat) : Prop := ReduceResult min id big P (colParts d j) m

/-- `ht.max(X, axis=0)` (preprocessing.py:226). -/
def ColMax (big : Rat) (P : Nat) (d : Nat → List (Fin n → Rat)) (j : Fin n) (m : Rat) : Prop := ReduceResult max id (-big) P (colParts d j) m

/-- `where(abs(data_range_) >= tol, scale_, 1)` (preprocessing.py:230-238). -/
def guardRange (tol : Rat) (range scale : Fin n → Rat) : Fin n → Rat :=
  if ∃ j, |range j| < tol then fun j => if tol ≤ |range j| then scale j else 1 else scale

/-- `MinMaxScaler.fit` (preprocessing.py:215-241) from the minima and maxima. -/
def minMaxParams (low high tol : Rat) (lo hi : Fin n → Rat) : ScalerParams n :=
  ⟨lo, fun j => 1 / guardRange tol (fun j => hi j - lo j) (fun j => (hi j - lo j) / (high - low)) j, low⟩

/-- The attribute `min_` (preprocessing.py:240). -/
def minMaxTranslation (p : ScalerParams n) (j : Fin n) : Rat := -p.shift j * p.scale j + p.low

/-- `norm(X, axis=0, ord=inf)` (preprocessing.py:394; basics.py:2183-2184). -/
def ColMaxAbs (big : Rat) (P : Nat) (d : Nat → List (Fin n → Rat)) (j : Fin n) (m : Rat) : Prop :=
  ReduceResult max id (-big) P (fun r => (colParts d j r).map fun x => |x|) m

/-- `if scale_.min() < tol: scale_ = where(scale_ >= tol, scale_, 1)` (preprocessing.py:397-403). -/
def guardPlain (tol : Rat) (v : Fin n → Rat) : Fin n → Rat :=
  if ∃ j, v j < tol then fun j => if tol ≤ v j then v j else 1 else v

/-- `MaxAbsScaler.fit` (preprocessing.py:384-405) from the maxima. -/
def maxAbsParams (tol : Rat) (v : Fin n → Rat) : ScalerParams n := ⟨fun _ => 0, fun j => 1 / guardPlain tol v j, 0⟩

/-- The norm of a row (basics.py:2183-2193, preprocessing.py:340). -/
def rowNorm (sqrt : Rat → Rat) (k : NormKind) (x : Fin n → Rat) : Rat :=
  match k with
  | .l1 => ∑ j, |x j|
  | .l2 => sqrt (∑ j, x j * x j)
  | .linf => (List.ofFn fun j => |x j|).foldl max 0

/-- `Normalizer.transform` (preprocessing.py:327-355) of a data set. -/
def normalizeRows (sqrt : Rat → Rat) (k : NormKind) (tol : Rat) (P : Nat) (d : Nat → List (Fin n → Rat)) : Nat → List (Fin n → Rat) := fun r =>
  (d r).map fun x =>
    let v := if ∃ z ∈ content P d, rowNorm sqrt k z < tol then (if tol ≤ rowNorm sqrt k x then rowNorm sqrt k x else 1) else rowNorm sqrt k x
    fun j => x j / v

/-- `RobustScaler.__init__` (preprocessing.py:497-531). -/
def robustInit (centering scaling : Bool) (qmin qmax : Rat) (unitVariance : Bool) : Except Err Unit :=
  if !centering && !scaling then .error .valueError
  else if qmax ≤ qmin ∨ 100 < qmax ∨ qmin < 0 then .error .valueError
  else if unitVariance then .error .notImplemented else .ok ()

/-- `where(abs(scale_) >= tol, scale_, 1)` (preprocessing.py:563-571). -/
def guardIqr (tol : Rat) (v : Fin n → Rat) : Fin n → Rat :=
  if ∃ j, |v j| < tol then fun j => if tol ≤ |v j| then v j else 1 else v

/-- `RobustScaler.fit` (preprocessing.py:533-573) from the medians and the two percentiles; without centering (scaling) nothing is subtracted (multiplied by). -/
def robustParams (centering scaling : Bool) (tol : Rat) (med qlo qhi : Fin n → Rat) : ScalerParams n :=
  ⟨fun j => if centering then med j else 0, fun j => if scaling then 1 / guardIqr tol (fun j => qhi j - qlo j) j else 1, 0⟩

end Heat
