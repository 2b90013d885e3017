import Verif.Model.Basic
import Mathlib.Algebra.BigOperators.Group.Finset.Basic
import Mathlib.Algebra.Order.Field.Basic
/-!
# Model of `cov` (heat/core/statistics.py:487-560)

Exact arithmetic in an ordered field.  Arrays are balanced (others raise RuntimeError, heat/core/statistics.py:517-518).  Means, products and
in-place operations on distributed arrays are the subject of C62, C72 and C149; here their global meaning is used.
-/
namespace Heat
open scoped BigOperators
variable {K : Type}

/-- A one- or two-dimensional argument; for a vector of `n` elements `rows = n`, `cols = 1` and `f i 0` is element `i`. -/
structure CovArg (K : Type) where
  vec : Bool
  rows : Nat
  cols : Nat
  split : Option Nat
  f : Nat → Nat → K

/-- `expand_dims(1)` of vectors and `x.T` (heat/core/statistics.py:522-526, 541-545): a vector becomes a column; without `rowvar` everything
with more than one row is transposed. -/
def covPrep (rowvar : Bool) (m : CovArg K) : CovArg K :=
  if !rowvar && m.rows != 1 then ⟨false, m.cols, m.rows, m.split.map fun s => 1 - s, fun i j => m.f j i⟩
  else ⟨false, m.rows, m.cols, m.split, m.f⟩

/-- `concatenate((x, y), axis=0)` (heat/core/statistics.py:547); arrays split along the same axis or not split (C61). -/
def covJoin (x : CovArg K) (y : Option (CovArg K)) : Except Err (CovArg K) :=
  match y with
  | none => .ok x
  | some y =>
    if x.cols ≠ y.cols then .error .valueError
    else .ok ⟨false, x.rows + y.rows, x.cols, if x.split.isSome then x.split else y.split, fun i j => if i < x.rows then x.f i j else y.f (i - x.rows) j⟩

/-- The default of `ddof` (heat/core/statistics.py:528-534). -/
def covDdof (bias : Bool) (ddof : Option Int) : Int := ddof.getD (if bias then 0 else 1)

/-- `mean(x, axis=1)` (heat/core/statistics.py:549). -/
def covMean [Field K] (x : CovArg K) (i : Nat) : K := (∑ t ∈ Finset.range x.cols, x.f i t) / (x.cols : K)

/-- `avg.expand_dims(1)` (heat/core/statistics.py:554): the mean of one variable along the split axis is a scalar
(heat/core/statistics.py:996, `mu_tot[0][0] if mu_tot[0].size == 1`), for which axis 1 is out of bounds. -/
def covExpandOk (x : CovArg K) : Bool := !(x.rows == 1 && x.split == some 1)

/-- `cov` (heat/core/statistics.py:514-560), the entry for two variables.  `float` = the data are of a floating point type: otherwise the
means cannot be subtracted in place (heat/core/_operations.py:99-104). -/
def covModel [Field K] (float : Bool) (rowvar bias : Bool) (ddof : Option Int) (m : CovArg K) (y : Option (CovArg K)) :
    Except Err (Nat × (Nat → Nat → K)) :=
  match covJoin (covPrep rowvar m) (y.map (covPrep rowvar)) with
  | .error e => .error e
  | .ok x =>
    if (x.cols : Int) - covDdof bias ddof ≤ 0 then .error .valueError
    else if !covExpandOk x then .error .valueError
    else if !float then .error .typeError
    else .ok (x.rows, fun i j =>
      (∑ t ∈ Finset.range x.cols, (x.f i t - covMean x i) * (x.f j t - covMean x j)) / (((x.cols : Int) - covDdof bias ddof : Int) : K))

end Heat
