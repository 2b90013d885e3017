import Verif.Spec.Dist
import Mathlib.Algebra.Field.Defs
import Mathlib.Data.Rat.Defs
/-!
# `det` and `inv` of a distributed matrix (heat/core/linalg/basics.py:276-360, 428-542): Gaussian elimination over the ranks

The matrix is split along its rows: rank `r` holds the list `parts r` of its rows.  (Split along the columns no row operation looks at the distribution: that
case is the model with one rank, whose rows are put together from the column blocks.)  Numbers are elements of a field: rounding is not modelled.
`tiny` is the test `np.isclose(x, 0)`.  One matrix of the batch is modelled.  `acopy` is the canonically distributed copy made by `reshape` (484-485).
A row `acopy[k, i, :]` and an element `acopy[k, i, j].item()` are the same on every rank (property C03); `acopy[k, i + 1:, :].larray` are the local rows with
a larger global number.
-/
namespace Heat

/-- A row. -/
abbrev GRow (K : Type) := Nat → K

/-- `np.isclose(x, 0)` (numpy: `|x - 0| ≤ atol + rtol * |0|` with `atol = 1e-8`). -/
def isCloseZero (x : Rat) : Bool := decide (x ≤ 1 / 100000000 ∧ -(1 / 100000000) ≤ x)

section

open Spec

variable {K : Type}

/-- Change every row, knowing its global number. -/
def mapRows (parts : Nat → List (GRow K)) (F : Nat → GRow K → GRow K) : Nat → List (GRow K) :=
  fun r => (parts r).mapIdx fun t row => F (startOf parts r + t) row

variable [Field K]

/-- Row `i` of the global matrix. -/
def rowAt (P : Nat) (parts : Nat → List (GRow K)) (i : Nat) : GRow K := (content P parts).getD i fun _ => 0

/-- The row that becomes row `i`: the first row from `i` on whose element in column `i` is not tiny (basics.py:332-348, 496-515). -/
def pivotRow (tiny : K → Bool) (n P : Nat) (A : Nat → List (GRow K)) (i : Nat) : Option Nat :=
  if tiny (rowAt P A i i) then (List.range' (i + 1) (n - (i + 1))).find? fun j => !tiny (rowAt P A j i) else some i

/-- Exchange of two rows (basics.py:336-342, 500-511). -/
def swapRows (P : Nat) (A : Nat → List (GRow K)) (i j : Nat) : Nat → List (GRow K) :=
  mapRows A fun g row => if g = i then rowAt P A j else if g = j then rowAt P A i else row

/-- `z = acopy[k, i+1:, i] / acopy[k, i, i]; acopy[k, i+1:, :] -= z * acopy[k, i, :]` (basics.py:351-352). -/
def elimRows (P : Nat) (A : Nat → List (GRow K)) (i : Nat) : Nat → List (GRow K) :=
  mapRows A fun g row => if i < g then fun c => row c - row i / rowAt P A i i * rowAt P A i c else row

/-- The loop of `det` (basics.py:329-352): determinant so far, number of exchanges; `none` is the `abord` case. -/
def detLoop (tiny : K → Bool) (n P : Nat) : List Nat → (Nat → List (GRow K)) → K → Nat → Option (K × Nat)
  | [], _, d, m => some (d, m)
  | i :: is, A, d, m =>
    match pivotRow tiny n P A i with
    | none => none
    | some j =>
      let A' := if j = i then A else swapRows P A i j
      detLoop tiny n P is (elimRows P A' i) (d * rowAt P A' i i) (if j = i then m else m + 1)

/-- `det` (basics.py:326-359) of a distributed `n × n` matrix. -/
def detHeat (tiny : K → Bool) (n P : Nat) (A : Nat → List (GRow K)) : K :=
  match detLoop tiny n P (List.range n) A 1 0 with
  | none => 0
  | some (d, m) => if m % 2 ≠ 0 then -d else d

/-- The rank that is supposed to hold row `i` (basics.py:521-522). -/
def trackRank (P : Nat) (A : Nat → List (GRow K)) (rank i : Nat) : Nat := if rank < P - 1 ∧ startOf A (rank + 1) ≤ i then rank + 1 else rank

/-- `larray[k, i - displs[rank], :] /= scale` on rank `rank` (basics.py:523-525); an index that is out of range raises. -/
def scaleRow (A : Nat → List (GRow K)) (rank i : Nat) (s : K) : Option (Nat → List (GRow K)) :=
  if startOf A rank ≤ i ∧ i - startOf A rank < (A rank).length then
    some fun r => if r = rank then (A r).mapIdx fun t row => if t = i - startOf A rank then fun c => row c / s else row else A r
  else none

/-- `ainv[k, i+1:, :] -= factor * ainv[k, i, :]` for the rows selected by `sel`, with `factor` the column `i` of `A` (basics.py:530-532 and 536-538). -/
def subRows (P : Nat) (A B : Nat → List (GRow K)) (i : Nat) (sel : Nat → Bool) : Nat → List (GRow K) :=
  mapRows B fun g row => if sel g then fun c => row c - rowAt P A g i * rowAt P B i c else row

/-- The forward loop of `inv` (basics.py:493-532); `none`: an error is raised. -/
def invForward (tiny : K → Bool) (n P : Nat) : List Nat → Nat → (Nat → List (GRow K)) → (Nat → List (GRow K)) → Option ((Nat → List (GRow K)) × (Nat → List (GRow K)))
  | [], _, A, B => some (A, B)
  | i :: is, rank, A, B =>
    match pivotRow tiny n P A i with
    | none => none
    | some j =>
      let A' := if j = i then A else swapRows P A i j
      let B' := if j = i then B else swapRows P B i j
      let rank' := trackRank P A' rank i
      match scaleRow A' rank' i (rowAt P A' i i), scaleRow B' rank' i (rowAt P A' i i) with
      | some A'', some B'' =>
        invForward tiny n P is rank' (subRows P A'' A'' i fun g => decide (i < g)) (subRows P A'' B'' i fun g => decide (i < g))
      | _, _ => none

/-- The backward loop of `inv` (basics.py:535-538) over the given list of rows. -/
def invBackward (P : Nat) : List Nat → (Nat → List (GRow K)) → (Nat → List (GRow K)) → (Nat → List (GRow K)) × (Nat → List (GRow K))
  | [], A, B => (A, B)
  | i :: is, A, B => invBackward P is (subRows P A A i fun g => decide (g < i)) (subRows P A B i fun g => decide (g < i))

/-- The identity in the distribution of `A` (`ainv`, basics.py:486-488). -/
def identityRows (A : Nat → List (GRow K)) : Nat → List (GRow K) := mapRows A fun g _ c => if c = g then 1 else 0

/-- `inv` (basics.py:484-542) of a distributed `n × n` matrix; `none`: an error is raised. -/
def invHeat (tiny : K → Bool) (n P : Nat) (A : Nat → List (GRow K)) : Option (Nat → List (GRow K)) :=
  (invForward tiny n P (List.range n) 0 A (identityRows A)).map fun AB => (invBackward P (List.range' 1 (n - 1)).reverse AB.1 AB.2).2

end

end Heat
