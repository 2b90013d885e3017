import Verif.Model.Basic
/-!
# bincount, histc, digitize (heat/core/statistics.py:343-411, 562-697)
-/
namespace Heat

/-- Element types of the local counts. -/
inductive CountDt where
  | i64 | f32 | f64
  deriving DecidableEq, Repr

/-- Type of the weights: none given, float32, or anything else (which torch converts to float64). -/
inductive WeightDt where
  | none | f32 | other
  deriving DecidableEq, Repr

/-- `torch.bincount(x, weights, minlength)`: values; without weights every weight is 1. -/
def torchBincount (l : List (Nat × Int)) (minlength : Nat) : List Int :=
  (List.range (l.foldl (fun m x => max m (x.1 + 1)) minlength)).map fun v => ((l.filter fun x => x.1 == v).map fun x => x.2).sum

/-- Element type of `counts` after resizing (statistics.py:380-394): torch returns int64 zeros for an empty tensor; heat replaces them if their number is 0. -/
def countDt (w : WeightDt) (isEmpty : Bool) (minlength : Nat) : CountDt :=
  if isEmpty then
    if minlength = 0 then (match w with | .none => .i64 | _ => .f64) else .i64
  else match w with
    | .none => .i64
    | .f32 => .f32
    | .other => .f64

/-- Padding with zeros to `maxlength` (statistics.py:385-394). -/
def padTo (n : Nat) (l : List Int) : List Int := l ++ List.replicate (n - l.length) 0

/-- Elementwise sum. -/
def addLists (a b : List Int) : List Int := List.zipWith (· + ·) a b

/-- `maxlength`: `allreduce` of the local sizes with MAX (statistics.py:382-383). -/
def maxLen (P : Nat) (d : Nat → List (Nat × Int)) (minlength : Nat) : Nat :=
  (List.range P).foldl (fun m r => max m (torchBincount (d r) minlength).length) 0

/-- `bincount` of an array with `split=0` (statistics.py:375-411): `none` if the ranks call `Allreduce` with different element types, which is erroneous. -/
def bincountDist (w : WeightDt) (P : Nat) (d : Nat → List (Nat × Int)) (minlength : Nat) : Option (List Int) :=
  if (List.range P).all fun r => countDt w (d r).isEmpty minlength == countDt w (d 0).isEmpty minlength then
    some ((List.range P).foldl (fun acc r => addLists acc (padTo (maxLen P d minlength) (torchBincount (d r) minlength))) (List.replicate (maxLen P d minlength) 0))
  else none

/-- `bincount` of a replicated array (statistics.py:400-401). -/
def bincountRep (l : List (Nat × Int)) (minlength : Nat) : List Int := torchBincount l minlength

/-- `torch.histc` of a local tensor; `bin` is the bin of an element, none outside of the range. -/
def torchHistc {α : Type} (bin : α → Option Nat) (bins : Nat) (l : List α) : List Int :=
  (List.range bins).map fun b => ((l.filter fun x => bin x == some b).length : Int)

/-- `histc` (statistics.py:667-697): the limits are global (given or the global minimum and maximum), so the bin of an element is the same function on all ranks. -/
def histcDist {α : Type} (bin : α → Option Nat) (bins P : Nat) (d : Nat → List α) : List Int :=
  (List.range P).foldl (fun acc r => addLists acc (torchHistc bin bins (d r))) (List.replicate bins 0)

/-- The search of `torch.bucketize` in `boundaries[lo:hi]` (aten/src/ATen/native/BucketizationUtils.h `cus_upper_bound`, `cus_lower_bound`): go right as long as
`goRight` holds of the middle element. The fuel is the length of the interval. -/
def bsearch (goRight : Int → Bool) (b : List Int) : Nat → Nat → Nat → Nat
  | 0, lo, _ => lo
  | fuel + 1, lo, hi =>
    if lo < hi then
      let mid := lo + (hi - lo) / 2
      if goRight (b.getD mid 0) then bsearch goRight b fuel (mid + 1) hi else bsearch goRight b fuel lo mid
    else lo

/-- `torch.bucketize(x, boundaries, right)`: the elements `≤ x` (right) or `< x` lie to the left. -/
def bucketize (b : List Int) (right : Bool) (x : Int) : Nat := bsearch (fun y => if right then decide (y ≤ x) else decide (y < x)) b b.length 0 b.length

/-- `digitize` (statistics.py:608-634) of one element. -/
def digitize (bins : List Int) (right : Bool) (x : Int) : Except Err Nat :=
  if bins = [] then .error .indexError
  else if bins.headD 0 > bins.getLastD 0 then .ok (bins.length - bucketize bins.reverse (!right) x)
  else .ok (bucketize bins (!right) x)

end Heat
