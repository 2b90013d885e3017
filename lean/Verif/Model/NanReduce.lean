import Verif.Model.Basic
import Mathlib.Data.Rat.Defs
/-!
# `nansum`, `nanprod` and `nan_to_num` (heat/core/arithmetics.py:2215-2400)

Numbers are exact: rationals, the two infinities and not-a-number.
-/
namespace Heat

/-- A floating point number without rounding. -/
inductive ENum where
  | fin (q : Rat)
  | pinf
  | ninf
  | nan
deriving DecidableEq

namespace ENum

/-- Addition (IEEE 754). -/
def add : ENum → ENum → ENum
  | .nan, _ => .nan
  | _, .nan => .nan
  | .fin a, .fin b => .fin (a + b)
  | .fin _, y => y
  | x, .fin _ => x
  | .pinf, .pinf => .pinf
  | .ninf, .ninf => .ninf
  | .pinf, .ninf => .nan
  | .ninf, .pinf => .nan

/-- An infinity times a number with this sign. -/
def infMul (pos : Bool) (s : Int) : ENum := if s = 0 then .nan else if decide (0 < s) = pos then .pinf else .ninf

/-- The sign; irrelevant for not-a-number. -/
def sgn : ENum → Int
  | .fin q => if q = 0 then 0 else if 0 < q then 1 else -1
  | .pinf => 1
  | .ninf => -1
  | .nan => 0

/-- Multiplication (IEEE 754). -/
def mul : ENum → ENum → ENum
  | .nan, _ => .nan
  | _, .nan => .nan
  | .fin a, .fin b => .fin (a * b)
  | .pinf, y => infMul true (sgn y)
  | .ninf, y => infMul false (sgn y)
  | x, .pinf => infMul true (sgn x)
  | x, .ninf => infMul false (sgn x)

end ENum

/-- `torch.nansum` of one process (arithmetics.py:2397-2399): not-a-number counts as zero. -/
def nansumLocal (l : List ENum) : ENum := l.foldl (fun acc x => acc.add (if x = .nan then .fin 0 else x)) (.fin 0)

/-- `nansum(a)` over all elements (arithmetics.py:2357-2399): local sums, added with `MPI.SUM`; the neutral element on processes without elements. -/
def nansumAll (P : Nat) (d : Nat → List ENum) : ENum := (List.range P).foldl (fun acc r => acc.add (nansumLocal (d r))) (.fin 0)

/-- `torch.nan_to_num(x, nan, posinf=None, neginf=None)` (arithmetics.py:2246-2254): infinities become the largest finite numbers `big` and `-big` of the type. -/
def nanToNum (big nan : Rat) : ENum → ENum
  | .nan => .fin nan
  | .pinf => .fin big
  | .ninf => .fin (-big)
  | .fin q => .fin q

/-- `nanprod(a)` over all elements (arithmetics.py:2350-2354): `nan_to_num(a, nan=1)`, local products, multiplied with `MPI.PROD`. -/
def nanprodAll (big : Rat) (P : Nat) (d : Nat → List ENum) : ENum :=
  (List.range P).foldl (fun acc r => acc.mul ((((d r).map (nanToNum big 1)).foldl ENum.mul (.fin 1)))) (.fin 1)

end Heat
