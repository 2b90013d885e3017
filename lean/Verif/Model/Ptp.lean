import Verif.Model.Basic
/-!
# Model of `ptp` (heat/core/statistics.py:1740-1903, heat/core/_operations.py:415-545, heat/core/communication.py:928-980)

Values are integers (an ordered type without rounding); `none` is NaN.  Reductions along the split axis act on every column separately, so
one column is modelled.
-/
namespace Heat

/-- The packed pair `[mins; maxs]` of one process for one column (heat/core/statistics.py:1778-1787).  A process without slabs contributes
the neutral element, which is NaN because `ptp` passes none (heat/core/_operations.py:463-472). -/
def ptpLocal (l : List Int) : Option (Int × Int) :=
  match l.min?, l.max? with
  | some a, some b => some (a, b)
  | _, _ => none

/-- The MPI operation `[mins; maxs]` (heat/core/communication.py:976-978): torch's minimum and maximum return NaN if one of the operands is
NaN. -/
def ptpOp : Option (Int × Int) → Option (Int × Int) → Option (Int × Int)
  | some (a, b), some (c, d) => some (min a c, max b d)
  | _, _ => none

/-- `ptp` along the split axis on `P` processes (heat/core/statistics.py:1832-1843): the value of one column.  For an integer array the
NaN tensor cannot be built on the processes without slabs and torch raises RuntimeError there. -/
def ptpSplit (isFloat : Bool) (P : Nat) (parts : Nat → List Int) : Except Err (Option Int) :=
  if !isFloat && (List.range P).any fun r => (parts r).isEmpty then .error .runtimeError
  else .ok ((((List.range P).tail.map fun r => ptpLocal (parts r)).foldl ptpOp (ptpLocal (parts 0))).map fun p => p.2 - p.1)

/-- `ptp` along an axis that is not split, on one process with the local extent `m` of the split axis (heat/core/statistics.py:1794-1806):
a process without slabs raises, the others return one value per slab. -/
def ptpOther (rows : List (List Int)) : Except Err (List (Option Int)) :=
  if rows.length = 0 then .error .runtimeError else .ok (rows.map fun l => (ptpLocal l).map fun p => p.2 - p.1)

/-- The `axis` argument of `ptp`. -/
inductive PtpAxis
  | all
  | one (a : Int)
  | tup (l : List Int)

/-- The split the result is given (heat/core/statistics.py:1845-1858); the axis is compared as the user passed it. -/
def ptpSplitOf (split : Option Nat) : PtpAxis → Option Int
  | .all => none
  | .tup _ => none
  | .one a =>
    match split with
    | none => none
    | some s => if a < s then some ((s : Int) - 1) else if a > s then some (s : Int) else none

/-- `local_minmax` of a matrix along axis 0 (heat/core/statistics.py:1778-1787): a row of minima and a row of maxima of the `c` columns. -/
def minmax0 (c : Nat) (m : List (List Int)) : List (List Int) :=
  [(List.range c).map fun j => ((m.map fun row => row.getD j 0).min?).getD 0,
   (List.range c).map fun j => ((m.map fun row => row.getD j 0).max?).getD 0]

/-- `local_minmax` of a matrix along axis 1: minima of all rows, then maxima of all rows, each a row of one element. -/
def minmax1 (m : List (List Int)) : List (List Int) :=
  (m.map fun row => [(row.min?).getD 0]) ++ m.map fun row => [(row.max?).getD 0]

/-- `ptp(x, axis=(a0, a1), keepdims=True)` of a matrix with `c` columns on one process: `local_minmax` is applied once for every axis of the
tuple (heat/core/_operations.py:487-491), then the result is halved and subtracted (heat/core/statistics.py:1841-1843). -/
def ptpPair (c : Nat) (zeroFirst : Bool) (m : List (List Int)) : List (List Int) :=
  let packed := if zeroFirst then minmax1 (minmax0 c m) else minmax0 1 (minmax1 m)
  let h := (packed.length + 1) / 2
  List.zipWith (fun a b => List.zipWith (fun x y => y - x) a b) (packed.take h) (packed.drop h)

end Heat
