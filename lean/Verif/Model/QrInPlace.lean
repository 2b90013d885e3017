import Verif.Model.QrCols
/-!
# `_in_place_qr_with_q_only` of a matrix with split 1 (heat/core/linalg/polar.py:93-127)

Process `r` holds a block of columns; `M` rows. Exact arithmetic, one matrix; the local QR factorisation is a parameter.
-/
namespace Heat
open Spec
variable {K : Type} [CommRing K]

/-- `torch.transpose(Q_buf, -2, -1) @ A.larray` (polar.py:125): no conjugation. -/
def DMat.tmul (M : Nat) (Q A : DMat K) : DMat K :=
  ⟨A.width, (List.range Q.width).map (fun t j => ∑ x ∈ Finset.range M, Q.at x t * A.at x j)⟩

/-- One pass of the loop (polar.py:99-127): process `i` replaces its block by the factor `Q` of its block and sends it to all later processes (rank 0 of the communicator of the ranks from `i` on), which
subtract the projection from their blocks. -/
def qOnlyStep (qr : DMat K → DMat K × DMat K) (M : Nat) (A : Nat → DMat K) (i : Nat) : Nat → DMat K := fun r =>
  if r < i then A r
  else if r = i then (qr (A i)).1
  else (A r).subMul (qr (A i)).1 ((qr (A i)).1.tmul M (A r))

/-- The blocks afterwards (polar.py:93-127). -/
def qOnlyCols (qr : DMat K → DMat K × DMat K) (M P : Nat) (A : Nat → DMat K) : Nat → DMat K :=
  (List.range P).foldl (qOnlyStep qr M) A

/-- `concatenate([X, sqrt(c) * eye], axis=0)` (polar.py:290-293) with split 1: the block of process `r` of the matrix with the rows of `X` and the rows of the identity times `s`; column `j` of the block is
column `off r + j` of the matrix. -/
def polarStacked (m n : Nat) (s : K) (X : Nat → Nat → K) (c : Nat → Nat) (r : Nat) : DMat K :=
  ⟨c r, (List.range m).map (fun x j => X x (colOff c r + j)) ++ (List.range n).map (fun x j => if x = colOff c r + j then s else 0)⟩

end Heat
