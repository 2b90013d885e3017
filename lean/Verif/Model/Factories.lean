import Verif.Model.Chunk
import Verif.Model.Float64
/-!
# Array creation: `arange`, `eye`, `linspace`, `array` (heat/core/factories.py)

One-dimensional results are given per rank as the local list of elements; `split : Bool` says whether the array
is split along axis 0 (`split=0`) or replicated (`split=None`).  A Python float is a rational number and
every float operation is followed by the rounding function `fl` (`fl64` for IEEE doubles).
-/
namespace Heat

/-- `np.ceil` followed by `int` (factories.py:106, 115, 122). -/
def ceilQ (q : Rat) : Int := -((-q).floor)

/-- `comm.chunk((n,), split)` for a possibly negative `n` (communication.py:228-246 with Python's floor division
and modulo): offset and local size. -/
def chunkInt (n : Int) (split : Bool) (rank P : Nat) : Int × Int :=
  if split then
    let chunk := n / (P : Int)
    let remainder := n % (P : Int)
    if remainder > rank then (rank * (chunk + 1), chunk + 1) else (rank * chunk + remainder, chunk)
  else (0, n)

/-- `torch.arange(start, stop, step)` for integers (library; raises for a zero step or an inconsistent sign). -/
def torchArangeInt (start stop step : Int) : Except Err (List Int) :=
  if step = 0 then .error .runtimeError
  else if (0 < step ∧ stop < start) ∨ (step < 0 ∧ start < stop) then .error .runtimeError
  else .ok ((List.range (ceilQ (((stop - start : Int) : Rat) / (step : Rat))).toNat).map fun (i : Nat) => start + (i : Int) * step)

/-- The number of elements of `arange(start, stop, step)` for integer arguments (factories.py:106-122):
`int(np.ceil(...))` of a float64; in the three-argument form of a correctly rounded quotient. -/
def arangeNum (start stop : Int) (step : Option Int) : Except Err Int :=
  match step with
  | none => .ok (ceilQ (fl64 ((stop - start : Int) : Rat)))
  | some s => if s = 0 then .error .zeroDivision
              else .ok (ceilQ (fl64 (((stop - start : Int) : Rat) / (s : Rat))))

/-- `arange` with integer arguments on one rank (factories.py:95-148): the declared global size and the local
data.  `arange(stop)` is `start = 0`, `step = none`.  `cast` is the elementwise conversion to the requested
type (`data.type(...)`, line 145; int32 by default). -/
def arangeInt (cast : Int → Int) (start stop : Int) (step : Option Int) (split : Bool) (rank P : Nat) :
    Except Err (Int × List Int) := do
  let num ← arangeNum start stop step
  let stp := step.getD 1
  let (offset, lsize) := chunkInt num split rank P
  let start := start + offset * stp
  let stop := start + lsize * stp
  let data ← torchArangeInt start stop stp
  pure (num, data.map cast)

/-- int64 → int32 conversion of torch (library): two's complement wrap-around. -/
def wrapInt32 (x : Int) : Int := (x + 2 ^ 31) % 2 ^ 32 - 2 ^ 31

/-- `torch.arange(start, stop, step)` for floats (library): `ceil((stop - start) / step)` elements computed in
double precision. -/
def torchArangeFloat (fl : Rat → Rat) (start stop step : Rat) : Except Err (List Rat) :=
  if step = 0 then .error .runtimeError
  else if (0 < step ∧ stop < start) ∨ (step < 0 ∧ start < stop) then .error .runtimeError
  else .ok ((List.range (ceilQ (fl (fl (stop - start) / step))).toNat).map fun (i : Nat) => fl (start + fl ((i : Rat) * step)))

/-- `arange(start, stop, step)` with float arguments on one rank (factories.py:116-148). -/
def arangeFloat (fl : Rat → Rat) (start stop step : Rat) (split : Bool) (rank P : Nat) :
    Except Err (Int × List Rat) := do
  if step = 0 then throw .zeroDivision
  let num := ceilQ (fl (fl (stop - start) / step))
  let (offset, lsize) := chunkInt num split rank P
  let start := fl (start + fl (offset * step))
  let stop := fl (start + fl (lsize * step))
  let data ← torchArangeFloat fl start stop step
  pure (num, data)

/-- `torch.linspace(start, stop, n)` in exact arithmetic (library). -/
def torchLinspace (start stop : Rat) (n : Nat) : List Rat :=
  (List.range n).map fun (i : Nat) => if n = 1 then start else start + (i : Rat) * ((stop - start) / ((n - 1 : Nat) : Rat))

/-- `linspace` in exact arithmetic on one rank (factories.py:1233-1265): local data and the step. -/
def linspace (start stop : Rat) (num : Int) (endpoint split : Bool) (rank P : Nat) : Except Err (List Rat × Rat) :=
  if num < 0 then .error .valueError
  else
    let step := (stop - start) / ((max 1 (if endpoint then num - 1 else num) : Int) : Rat)
    let (offset, lsize) := chunkInt num split rank P
    let start := start + offset * step
    let stop := start + lsize * step - step
    .ok (torchLinspace start stop lsize.toNat, step)

/-- The positions set by the loop of `eye` (factories.py:729-734), as local positions in the order visited;
`split` is 0, 1 or none, `lr × lc` the local shape.  The loop stops at the first position outside. -/
def eyeLoop (split : Option Nat) (offset lr lc : Nat) : Nat → Nat → List (Nat × Nat)
  | 0, _ => []
  | fuel + 1, i =>
    let x := if split = some 0 then i else i + offset
    let y := if split = some 1 then i else i + offset
    if x ≥ lr ∨ y ≥ lc then [] else (x, y) :: eyeLoop split offset lr lc fuel (i + 1)

/-- The local block of `eye((n, m), split)` (factories.py:711-734): local shape and the entry at a local
position. -/
def eyeLocal (n m : Nat) (split : Option Nat) (rank P : Nat) : Except Err ((Nat × Nat) × (Nat → Nat → Nat)) := do
  let c ← chunk [n, m] (split.map fun s => (s : Int)) rank P
  let lr := c.lshape.getD 0 0
  let lc := c.lshape.getD 1 0
  let ones := eyeLoop split c.offset lr lc (min lr lc) 0
  pure ((lr, lc), fun x y => if (x, y) ∈ ones then 1 else 0)

/-! ## array -/

/-- `array(obj, split=s)`: the local slabs kept by rank `r` (factories.py:428-432, `obj[slices]`), `data` being the
slabs of the (replicated) object along the split axis. -/
def arraySplit {α : Type} (P : Nat) (data : List α) (r : Nat) : List α :=
  let c := chunkRange data.length r P
  (data.take c.2).drop c.1

/-- `np.iinfo(int64).min` (factories.py:457, 464). -/
def int64Min : Int := -(2 ^ 63)

/-- The entry `lshape[is_split]` of rank `r` after the comparison with the left neighbour
(factories.py:442-465). `shapes` are the local shapes of all ranks, `s` the (sanitized) split axis. -/
def checkedSize (shapes : Nat → List Nat) (s : Nat) (r : Nat) : Int :=
  let own := shapes r
  if r = 0 then (own.getD s 0 : Int)
  else
    let left := shapes (r - 1)
    if left.length ≠ own.length then int64Min
    else if (List.range own.length).any fun i => i != s && own.getD i 0 != left.getD i 0 then int64Min
    else (own.getD s 0 : Int)

/-- `MPI.MIN` over ranks `0..P-1`. -/
def minOver (f : Nat → Int) : Nat → Int
  | 0 => 0
  | 1 => f 0
  | k + 1 => min (minOver f k) (f k)

/-- Result of `array(obj, is_split=s)` on rank `r` (factories.py:437-494): global shape, split, and the balanced
flag, or `ValueError`.  `Allreduce` gives every rank the same value.  (For one process see line 424: nothing is
checked.) -/
def arrayIsSplit (P : Nat) (shapes : Nat → List Nat) (s : Nat) (r : Nat) : Except Err (List Nat × Nat × Bool) :=
  if P = 1 then .ok (shapes r, s, true)
  else
    let checked := checkedSize shapes s
    if minOver checked P < 0 then .error .valueError
    else
      let total := ((List.range P).map checked).sum.toNat
      let gshape := (shapes r).set s total
      let fits (q : Nat) : Bool :=
        ((shapes q).set s total).set s ((chunkRange total q P).2 - (chunkRange total q P).1) == shapes q
      let gmatch := ((List.range P).map fun q => if fits q then 1 else 0).sum
      .ok (gshape, s, gmatch == P)

/-- `array(obj, dtype, split, is_split)` for a one-dimensional DNDarray `obj` with local data `parts r` (equal to
the whole array on every rank if `obj.split is None`) on `P > 1` processes (factories.py:311-336 and 423-494).
`sameType` says that no other dtype is requested.  Result of rank `r`: local data, declared global size, declared
split.  `conv` is the conversion to the requested type (identity if none). -/
def arrayOfDND {α : Type} (P : Nat) (sameType : Bool) (conv : α → α) (split isSplit objSplit : Option Nat)
    (n : Nat) (parts : Nat → List α) (r : Nat) : Except Err (List α × Nat × Option Nat) :=
  if sameType && (split.isNone || split == objSplit) && (isSplit.isNone || isSplit == objSplit) then
    .ok (parts r, n, objSplit)
  else if split.isSome && objSplit.isSome && split != objSplit then .error .valueError
  else if isSplit.isSome && objSplit.isSome && isSplit != objSplit then .error .valueError
  else
    let obj (q : Nat) := (parts q).map conv          -- obj = obj.larray
    if split.isNone && isSplit.isNone then .ok (obj r, (obj r).length, none)
    else if split.isSome then
      .ok (arraySplit P (obj r) r, (obj r).length, split)
    else .ok (obj r, ((List.range P).map fun q => (obj q).length).sum, isSplit)

end Heat
