import Verif.Model.QrCols
/-!
# QR decomposition of a matrix with split 0 that is not tall enough for TS-QR (heat/core/linalg/qr.py:203-254)

Block-wise Gram-Schmidt; every block of columns is decomposed by TS-QR over all processes. `l r` is the number of rows of process `r`, `N` the number of columns. Exact arithmetic, one matrix, mode "reduced".
-/
namespace Heat
open Spec
variable {K : Type} [CommRing K] [StarRing K]

/-- `column_idx` (qr.py:208-216): 0, the cumulative numbers of rows below `N`, and `N`. -/
def bgCuts (N P : Nat) (l : Nat → Nat) : List Nat :=
  0 :: (((List.range P).map (fun r => colOff l (r + 1))).filter (fun x => decide (x < N)) ++ [N])

/-- `A[..., :, a:b]` of the local rows (qr.py:224). -/
def DMat.cols (A : DMat K) (a b : Nat) : DMat K := ⟨b - a, A.rows.map (fun v j => v (a + j))⟩

/-- `concatenate((Q, Qnew), axis=-1)` of the local rows (qr.py:247): the rows stay on their processes. -/
def DMat.hcat (A B : DMat K) : DMat K :=
  ⟨A.width + B.width, List.zipWith (fun u v j => if j < A.width then u j else v (j - A.width)) A.rows B.rows⟩

/-- The state of the loop: the local `A_copy`, `R` and `Q`. -/
structure BgState (K : Type) where
  A : Nat → DMat K
  R : Nat → DMat K
  Q : Nat → DMat K

/-- `coeffs` after the Allreduce (qr.py:239-243): entry (row `t`, column `j`, counted in the whole matrix). -/
def bgCoeffs (P : Nat) (A Qn : Nat → DMat K) (t j : Nat) : K :=
  ∑ r ∈ Finset.range P, ∑ i ∈ Finset.range (A r).rows.length, star ((Qn r).at i t) * (A r).at i j

/-- The new local `R` of process `r` in pass `k` with the columns `a` to `b` (qr.py:230-237, 244-245); `upd` says whether columns remain. -/
def bgNewR (P k a b : Nat) (upd : Bool) (A Qn : Nat → DMat K) (Rn R : DMat K) (r : Nat) : DMat K :=
  ⟨R.width, (List.range R.rows.length).map (fun i j =>
    if r = k then
      if upd ∧ b ≤ j then bgCoeffs P A Qn i j
      else if a ≤ j ∧ j < b ∧ i < b - a then Rn.at i (j - a) else R.at i j
    else if k < r ∧ a ≤ j ∧ j < b then 0 else R.at i j)⟩

/-- The new local `A_copy` (qr.py:246): `A_copy.larray[..., b:] -= Qnew @ coeffs`. -/
def bgNewA (P b : Nat) (upd : Bool) (A Qn : Nat → DMat K) (w r : Nat) : DMat K :=
  ⟨(A r).width, (List.range (A r).rows.length).map (fun i j =>
    if upd ∧ b ≤ j then (A r).at i j - ∑ t ∈ Finset.range w, (Qn r).at i t * bgCoeffs P A Qn t j else (A r).at i j)⟩

/-- One pass (qr.py:221-247). The recursive call decomposes the block by TS-QR when some process has at least as many rows as the block has columns; the assignment of `coeffs` needs as many rows of `R` on process `k` as the block has columns (a single row would be repeated). Both hold in every pass that is reached, see `bgQr_partial`. -/
def bgStep (qr : DMat K → DMat K × DMat K) (m P : Nat) (cuts : List Nat) (k : Nat) (st : BgState K) : Option (BgState K) :=
  let a := cuts.getD k 0
  let b := cuts.getD (k + 1) 0
  let upd := decide (k + 2 < cuts.length)
  if (∃ r < P, b - a ≤ (st.A r).rows.length) ∧ (upd = true → k < P → (st.R k).rows.length = b - a) then
    (tsqr qr (b - a) m P (fun r => (st.A r).cols a b)).map (fun p =>
      ⟨bgNewA P b upd st.A p.1 (b - a), fun r => bgNewR P k a b upd st.A p.1 p.2 (st.R r) r,
       fun r => if k = 0 then p.1 r else (st.Q r).hcat (p.1 r)⟩)
  else none

/-- The first `n` passes (qr.py:221). -/
def bgLoop (qr : DMat K → DMat K × DMat K) (m P : Nat) (cuts : List Nat) : Nat → BgState K → Option (BgState K)
  | 0, st => some st
  | n + 1, st => (bgLoop qr m P cuts n st).bind (bgStep qr m P cuts n)

/-- The decomposition of a matrix split along the rows that is not tall enough for TS-QR (qr.py:208-254): the local rows of `Q` and all rows of `R`, of which the first `N` are kept when the matrix has more rows than columns (they are then balanced, qr.py:249). The loop leaves out the last block when there are more columns than rows (`offset`). -/
def bgQr (qr : DMat K → DMat K × DMat K) (N m P : Nat) (A : Nat → DMat K) : Option ((Nat → DMat K) × DMat K) :=
  let l := fun r => (A r).rows.length
  let M := colOff l P
  let cuts := bgCuts N P l
  (bgLoop qr m P cuts (cuts.length - (if N ≤ M then 1 else 2)) ⟨A, A, A⟩).map (fun st =>
    (st.Q, ⟨N, if N < M then (content P (fun r => (st.R r).rows)).take N else content P (fun r => (st.R r).rows)⟩))

/-- `qr` of a matrix split along the rows (qr.py:203-371). -/
def qrRows (qr : DMat K → DMat K × DMat K) (N m P : Nat) (A : Nat → DMat K) : Option ((Nat → DMat K) × DMat K) :=
  if ∃ r < P, N ≤ (A r).rows.length then tsqr qr N m P A else bgQr qr N m P A

end Heat
