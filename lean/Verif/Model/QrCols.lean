import Verif.Model.Qr
/-!
# QR decomposition of a matrix with split 1: block-wise Gram-Schmidt (heat/core/linalg/qr.py:125-201)

`M` rows; process `r` holds a block with `c r` columns. Exact arithmetic, one matrix. The array is balanced in the sense that the blocks of `R` have the same columns as the blocks of `A`.
-/
namespace Heat
open Spec
variable {K : Type} [CommRing K] [StarRing K]

/-- The first column of block `r` (qr.py:130-131, 154-159). -/
def colOff (c : Nat → Nat) (r : Nat) : Nat := ((List.range r).map c).sum

/-- `Q_bufᴴ @ A` (qr.py:191): the rows are indexed by the columns of `Q`. -/
def DMat.hmul (M : Nat) (Q A : DMat K) : DMat K :=
  ⟨A.width, (List.range Q.width).map (fun t j => ∑ x ∈ Finset.range M, star (Q.at x t) * A.at x j)⟩

/-- `A -= Q_buf @ R_loc` (qr.py:192). -/
def DMat.subMul (A Q R : DMat K) : DMat K :=
  ⟨A.width, (List.range A.rows.length).map (fun x j => A.at x j - ∑ t ∈ Finset.range Q.width, Q.at x t * R.at t j)⟩

/-- The state of the loop: `A_columns`, the local `Q`, and the entries of the local `R` (row, column). -/
structure GsState (K : Type) where
  A : Nat → DMat K
  Q : Nat → DMat K
  R : Nat → Nat → Nat → K

/-- `R.larray[..., R_shapes[i] : R_shapes[i + 1], :] = R_loc[..., :r_size, :]` (qr.py:182-183, 193-194): the rows of the slice below `k`. -/
def gsStore (c : Nat → Nat) (k i : Nat) (Rloc : DMat K) (R : Nat → Nat → K) : Nat → Nat → K := fun row col =>
  if colOff c i ≤ row ∧ row < min (colOff c (i + 1)) k then Rloc.at (row - colOff c i) col else R row col

/-- One pass of the loop (qr.py:163-194): process `i` orthogonalises its block, the processes after it subtract the projection. -/
def gsStep (qr : DMat K → DMat K × DMat K) (M P k : Nat) (c : Nat → Nat) (st : GsState K) (i : Nat) : GsState K :=
  if i < P then
    let Qi := (qr (st.A i)).1
    ⟨fun r => if i < r then (st.A r).subMul Qi (Qi.hmul M (st.A r)) else st.A r,
     fun r => if r = i then Qi else st.Q r,
     fun r => if r = i then gsStore c k i (qr (st.A i)).2 (st.R r)
       else if i < r then gsStore c k i (Qi.hmul M (st.A r)) (st.R r) else st.R r⟩
  else st

/-- `last_row_reached` (qr.py:135-140): for a matrix with at most as many columns as rows the number of processes, else the first process where the columns reach the number of rows. -/
def gsLast (M P : Nat) (c : Nat → Nat) : Nat :=
  if colOff c P ≤ M then P else ((List.range P).find? (fun i => decide (M ≤ colOff c (i + 1)))).getD 0

/-- Block-wise Gram-Schmidt (qr.py:125-201): the loop over the blocks; `R` begins with zeros, `Q` too. The `k` columns kept of `Q` are the first ones of the blocks in order (qr.py:197). -/
def gsQr (qr : DMat K → DMat K × DMat K) (M P : Nat) (c : Nat → Nat) (A : Nat → DMat K) : GsState K :=
  (List.range (gsLast M P c + 1)).foldl (gsStep qr M P (min M (colOff c P)) c)
    ⟨A, fun r => ⟨c r, List.replicate M (fun _ => 0)⟩, fun _ _ _ => 0⟩

end Heat
