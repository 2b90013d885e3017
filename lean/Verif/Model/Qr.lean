import Verif.Spec.Dist
import Verif.Model.Basic
import Mathlib.Algebra.Star.Basic
import Mathlib.Algebra.BigOperators.Group.Finset.Basic
/-!
# QR decomposition of a matrix with split 0 on many processes: TS-QR (heat/core/linalg/qr.py:256-371)

Matrices over a commutative ring with an involution (`star`: the identity for real, the conjugation for complex numbers), in exact arithmetic. One matrix, no batch.
The decomposition on one process (`torch.linalg.qr`) is an argument.
-/
namespace Heat
open Spec
variable {K : Type} [CommRing K]

/-- A local matrix: the number of columns and the rows; a row is a function of the column, read only below the number of columns. -/
structure DMat (K : Type) where
  width : Nat
  rows : List (Nat → K)

/-- The entry in row `i` and column `j`. -/
def DMat.at (A : DMat K) (i j : Nat) : K := (A.rows.getD i (fun _ => 0)) j

/-- `A @ B` of local matrices (qr.py:326); raises when the inner dimensions differ. -/
def DMat.mul (A B : DMat K) : Option (DMat K) :=
  if A.width = B.rows.length then some ⟨B.width, A.rows.map (fun v j => ∑ t ∈ Finset.range A.width, v t * B.at t j)⟩ else none

/-- `Q_loc` and `R_loc` of the processes. -/
structure TsState (K : Type) where
  Q : Nat → DMat K
  R : Nat → DMat K

/-- The members of the group of the process with index `i` among the current processes, as indices (`local_comm`, qr.py:261, 339-341): `Split(rank // procs_to_merge)`. -/
def tsMembers (m len i : Nat) : List Nat := (List.range len).filter (fun k => decide (k / m = i / m))

/-- `gathered_R_loc` of the group (qr.py:271-287). -/
def tsGathered (n : Nat) (procs : List Nat) (R : Nat → DMat K) (mem : List Nat) : DMat K :=
  ⟨n, mem.flatMap (fun k => (R (procs.getD k 0)).rows)⟩

/-- `scattered_Q_buf` of the member with index `i` (qr.py:279-282, 290, 298-306): as many rows of `Q_buf` as it has sent, into a buffer with `n` columns. With another number of columns the rows do not fit. -/
def tsPiece (n : Nat) (procs : List Nat) (R : Nat → DMat K) (mem : List Nat) (i : Nat) (Qb : DMat K) : Option (DMat K) :=
  let size := fun k => (R (procs.getD k 0)).rows.length
  let displ := ((mem.take (mem.idxOf i)).map size).sum
  if Qb.width = n ∨ size i = 0 then some ⟨n, (Qb.rows.drop displ).take (size i)⟩ else none

/-- The new `Q_loc` of process `r` in one round (qr.py:309-329): the root of its leaves is `r // s * s` (`leave_comm`, qr.py:265, 343); when that process has merged, `Q_loc` is multiplied by the part of `Q_buf` scattered to it. -/
def tsNewQ (qr : DMat K → DMat K × DMat K) (n m s : Nat) (procs : List Nat) (st : TsState K) (r : Nat) : Option (DMat K) :=
  let i := procs.idxOf (r / s * s)
  let mem := tsMembers m procs.length i
  if i < procs.length ∧ 1 < mem.length then
    (tsPiece n procs st.R mem i (qr (tsGathered n procs st.R mem)).1).bind (fun q => (st.Q r).mul q)
  else some (st.Q r)

/-- The new `R_loc` of process `p` in one round (qr.py:288-292). -/
def tsNewR (qr : DMat K → DMat K × DMat K) (n m : Nat) (procs : List Nat) (st : TsState K) (p : Nat) : DMat K :=
  let i := procs.idxOf p
  let mem := tsMembers m procs.length i
  if i < procs.length ∧ 1 < mem.length ∧ mem.idxOf i = 0 then (qr (tsGathered n procs st.R mem)).2 else st.R p

/-- One round on all processes (qr.py:269-329). -/
def tsStep (qr : DMat K → DMat K × DMat K) (n m s P : Nat) (procs : List Nat) (st : TsState K) : Option (TsState K) :=
  if ∀ r < P, (tsNewQ qr n m s procs st r).isSome then
    some ⟨fun r => (tsNewQ qr n m s procs st r).getD (st.Q r), tsNewR qr n m procs st⟩
  else none

/-- The processes of the next round (qr.py:332-334). -/
def tsNext (m : Nat) (procs : List Nat) : List Nat :=
  ((List.range procs.length).filter (fun i => decide (i % m = 0))).map (fun i => procs.getD i 0)

/-- `while len(current_procs) > 1` (qr.py:268-344); `s = procs_to_merge ** (level - 1)`. The fuel is an upper bound of the number of rounds. -/
def tsLoop (qr : DMat K → DMat K × DMat K) (n m P : Nat) : Nat → Nat → List Nat → TsState K → Option (TsState K)
  | 0, _, _, st => some st
  | fuel + 1, s, procs, st =>
    if procs.length ≤ 1 then some st
    else (tsStep qr n m s P procs st).bind (fun st' => tsLoop qr n m P fuel (s * m) (tsNext m procs) st')

/-- TS-QR of the matrix with local rows `A r` and `n` columns (qr.py:256-371): the local factors `Q_loc` and the common `R` of process 0, which must be an `n` by `n` matrix to be broadcast. -/
def tsqr (qr : DMat K → DMat K × DMat K) (n m P : Nat) (A : Nat → DMat K) : Option ((Nat → DMat K) × DMat K) :=
  (tsLoop qr n m P P 1 (List.range P) ⟨fun r => (qr (A r)).1, fun r => (qr (A r)).2⟩).bind
    (fun st => if (st.R 0).rows.length = n then some (st.Q, st.R 0) else none)

/-- `procs_to_merge` (qr.py:90-95): 0 means all processes, 1 and negative numbers are refused. -/
def tsMerge (P : Nat) (procsToMerge : Int) : Except Err Nat :=
  if procsToMerge < 0 ∨ procsToMerge = 1 then .error .valueError
  else if procsToMerge = 0 then .ok P else .ok procsToMerge.toNat

end Heat
