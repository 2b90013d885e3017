import Verif.Model.Rsvd
import Verif.Props.Dmd
import Mathlib.LinearAlgebra.Matrix.Trace
/-!
# C177: randomized singular values and eigenvalues
-/
namespace Heat
open Matrix
variable {K : Type} [Field K]

namespace Spec

/-- What is needed of `qr`: orthonormal columns whose span contains the columns of the matrix. -/
def IsQFun (qr : QFun K) : Prop := ∀ n k (Y : Matrix (Fin n) (Fin k) K), (qr n k Y).2ᵀ * (qr n k Y).2 = 1 ∧ ∃ R : Matrix (Fin (qr n k Y).1) (Fin k) K, Y = (qr n k Y).2 * R

/-- The sum of the squares of all elements. -/
def frobSq {m n : Nat} (M : Matrix (Fin m) (Fin n) K) : K := ∑ i, ∑ j, M i j * M i j

end Spec
open Spec

/-! ## Matrices -/

theorem frobSq_trace {m n : Nat} (M : Matrix (Fin m) (Fin n) K) : frobSq M = trace (Mᵀ * M) := by
  unfold frobSq trace
  rw [Finset.sum_comm]
  rfl

/-- Pythagoras. -/
theorem frobSq_split {m n k : Nat} {Q : Matrix (Fin m) (Fin k) K} (hQ : Qᵀ * Q = 1) (A : Matrix (Fin m) (Fin n) K) (X : Matrix (Fin k) (Fin n) K) : frobSq (A - Q * X) = frobSq (A - Q * (Qᵀ * A)) + frobSq (Qᵀ * A - X) := by
  have h0 : Qᵀ * (A - Q * (Qᵀ * A)) = 0 := by
    rw [Matrix.mul_sub, ← Matrix.mul_assoc, hQ, Matrix.one_mul, sub_self]
  have h0' : (A - Q * (Qᵀ * A))ᵀ * Q = 0 := by
    have := congrArg Matrix.transpose h0
    rwa [Matrix.transpose_mul, Matrix.transpose_transpose, Matrix.transpose_zero] at this
  have e : A - Q * X = (A - Q * (Qᵀ * A)) + Q * (Qᵀ * A - X) := by
    rw [Matrix.mul_sub]
    abel
  rw [frobSq_trace, frobSq_trace, frobSq_trace]
  generalize A - Q * (Qᵀ * A) = E at *
  rw [e]
  generalize Qᵀ * A - X = Y at *
  rw [Matrix.transpose_add, Matrix.add_mul, Matrix.mul_add, Matrix.mul_add, ← Matrix.mul_assoc Eᵀ, h0', Matrix.zero_mul, Matrix.transpose_mul, Matrix.mul_assoc Yᵀ, h0, Matrix.mul_zero, zero_add, add_zero, Matrix.mul_assoc Yᵀ, ← Matrix.mul_assoc Qᵀ, hQ, Matrix.one_mul, Matrix.trace_add]

/-- The weight of a product with orthonormal factors. -/
theorem frobSq_svd {m n r : Nat} {U : Matrix (Fin m) (Fin r) K} {Vt : Matrix (Fin r) (Fin n) K} (hU : Uᵀ * U = 1) (hV : Vt * Vtᵀ = 1) (S : Fin r → K) : frobSq (U * diagonal S * Vt) = ∑ i, S i * S i := by
  rw [frobSq_trace, Matrix.transpose_mul, Matrix.transpose_mul, Matrix.diagonal_transpose]
  have : Vtᵀ * (diagonal S * Uᵀ) * (U * diagonal S * Vt) = Vtᵀ * (diagonal S * (Uᵀ * U) * (diagonal S * Vt)) := by simp only [Matrix.mul_assoc]
  rw [this, hU, Matrix.mul_one, Matrix.trace_mul_comm, Matrix.mul_assoc, Matrix.mul_assoc, hV, Matrix.mul_one, Matrix.diagonal_mul_diagonal, Matrix.trace_diagonal]

/-- Taking the first ones is setting the others to 0. -/
theorem take_trunc {m n r : Nat} (U : Matrix (Fin m) (Fin r) K) (S : Fin r → K) (Vt : Matrix (Fin r) (Fin n) K) (k : Nat) :
    takeCols U k * diagonal (takeVals S k) * takeRows Vt k = U * diagonal (fun i : Fin r => if (i : Nat) < k then S i else 0) * Vt := by
  ext a b
  rw [Matrix.mul_apply, Matrix.mul_apply]
  refine Fintype.sum_of_injective (Fin.castLE (Nat.min_le_right k r)) (Fin.castLE_injective _) _ _ (fun i hi => ?_) (fun i => ?_)
  · rw [Matrix.mul_diagonal, if_neg, mul_zero, zero_mul]
    intro c
    exact hi ⟨⟨i, by omega⟩, rfl⟩
  · have := i.2
    rw [Matrix.mul_diagonal, Matrix.mul_diagonal]
    have e : (if ((Fin.castLE (Nat.min_le_right k r) i : Fin r) : Nat) < k then S (Fin.castLE (Nat.min_le_right k r) i) else 0) = S (Fin.castLE (Nat.min_le_right k r) i) := if_pos (show (i : Nat) < k by omega)
    rw [e]
    rfl

/-! ## The range finder -/

/-- **C177.**  The columns are orthonormal, for every random matrix and every number of iterations. -/
theorem rangeFinder_ortho {qr : QFun K} (h : IsQFun qr) {m n ell : Nat} (A : Matrix (Fin m) (Fin n) K) (Om : Matrix (Fin n) (Fin ell) K) (q : Nat) : (rangeFinder qr A Om q).2ᵀ * (rangeFinder qr A Om q).2 = 1 := by
  cases q with
  | zero => exact (h _ _ _).1
  | succ q => exact (h _ _ _).1

theorem qfun_range {qr : QFun K} (h : IsQFun qr) {n k l : Nat} {Y : Matrix (Fin n) (Fin k) K} {X : Matrix (Fin n) (Fin l) K} {C : Matrix (Fin k) (Fin l) K} (hX : X = Y * C) : (qr _ _ Y).2 * ((qr _ _ Y).2ᵀ * X) = X := by
  obtain ⟨h1, R, h2⟩ := h n k Y
  have key : ∀ {j : Nat} (Q : Matrix (Fin n) (Fin j) K) (R : Matrix (Fin j) (Fin k) K), Qᵀ * Q = 1 → Y = Q * R → Q * (Qᵀ * X) = X := by
    intro j Q R h1 h2
    rw [hX, h2, Matrix.mul_assoc Q, ← Matrix.mul_assoc Qᵀ, h1, Matrix.one_mul]
  exact key _ R h1 h2

theorem rangeFinder_step {qr : QFun K} (h : IsQFun qr) {m n : Nat} {A : Matrix (Fin m) (Fin n) K} (Q : Σ j : Nat, Matrix (Fin m) (Fin j) K) (ih : Q.2 * (Q.2ᵀ * A) = A) :
    (qr _ _ (A * (qr _ _ (Aᵀ * Q.2)).2)).2 * ((qr _ _ (A * (qr _ _ (Aᵀ * Q.2)).2)).2ᵀ * A) = A := by
  have e1 : Aᵀ = Aᵀ * Q.2 * Q.2ᵀ := by
    have := congrArg Matrix.transpose ih
    rw [Matrix.transpose_mul, Matrix.transpose_mul, Matrix.transpose_transpose] at this
    exact this.symm
  have e2 := qfun_range h e1
  have key : ∀ Z : Σ j : Nat, Matrix (Fin n) (Fin j) K, Z.2 * (Z.2ᵀ * Aᵀ) = Aᵀ → (qr _ _ (A * Z.2)).2 * ((qr _ _ (A * Z.2)).2ᵀ * A) = A := by
    intro Z e2
    have e3 : A = A * Z.2 * Z.2ᵀ := by
      have := congrArg Matrix.transpose e2
      rw [Matrix.transpose_mul, Matrix.transpose_mul, Matrix.transpose_transpose, Matrix.transpose_transpose] at this
      exact this.symm
    exact qfun_range h e3
  exact key _ e2

/-- **C177.**  If the random matrix meets the whole range of `A`, so does the result, for every number of iterations. -/
theorem rangeFinder_range {qr : QFun K} (h : IsQFun qr) {m n ell : Nat} {A : Matrix (Fin m) (Fin n) K} {Om : Matrix (Fin n) (Fin ell) K} {C : Matrix (Fin ell) (Fin n) K} (hO : A = A * Om * C) (q : Nat) :
    (rangeFinder qr A Om q).2 * ((rangeFinder qr A Om q).2ᵀ * A) = A := by
  induction q with
  | zero => exact qfun_range h hO
  | succ q ih => exact rangeFinder_step h _ ih

/-! ## `rsvd` -/

/-- **C177.**  Both factors are orthonormal, and the squared error of the approximation is the part of `A` outside the range that was found plus the squares of the values left out: for every random matrix, rank, oversampling and number
of iterations. -/
theorem rsvd_error {qr : QFun K} (h : IsQFun qr) {m n ell r : Nat} (A : Matrix (Fin m) (Fin n) K) (Om : Matrix (Fin n) (Fin ell) K) (q : Nat) {U : Matrix (Fin (rangeFinder qr A Om q).1) (Fin r) K} {S : Fin r → K} {Vt : Matrix (Fin r) (Fin n) K}
    (hs : IsThinSvd (rsvdSmall (rangeFinder qr A Om q) A) U S Vt) (rank : Nat) :
    (rsvd (rangeFinder qr A Om q) U S Vt rank).1ᵀ * (rsvd (rangeFinder qr A Om q) U S Vt rank).1 = 1 ∧ (rsvd (rangeFinder qr A Om q) U S Vt rank).2.2 * (rsvd (rangeFinder qr A Om q) U S Vt rank).2.2ᵀ = 1 ∧
    frobSq (A - (rsvd (rangeFinder qr A Om q) U S Vt rank).1 * diagonal (rsvd (rangeFinder qr A Om q) U S Vt rank).2.1 * (rsvd (rangeFinder qr A Om q) U S Vt rank).2.2) =
      frobSq (A - (rangeFinder qr A Om q).2 * ((rangeFinder qr A Om q).2ᵀ * A)) + ∑ i : Fin r, if (i : Nat) < rank then 0 else S i * S i := by
  have hQ := rangeFinder_ortho h A Om q
  generalize rangeFinder qr A Om q = Q at *
  obtain ⟨h1, h2, h3⟩ := hs
  have hQU : (Q.2 * U)ᵀ * (Q.2 * U) = 1 := by
    rw [Matrix.transpose_mul, Matrix.mul_assoc, ← Matrix.mul_assoc Q.2ᵀ, hQ, Matrix.one_mul, h2]
  refine ⟨takeCols_ortho hQU rank, takeRows_ortho h3 rank, ?_⟩
  show frobSq (A - takeCols (Q.2 * U) rank * diagonal (takeVals S rank) * takeRows Vt rank) = _
  rw [take_trunc, Matrix.mul_assoc Q.2, Matrix.mul_assoc Q.2, frobSq_split hQ]
  congr 1
  have e : Q.2ᵀ * A = U * diagonal S * Vt := h1
  rw [e, ← Matrix.sub_mul, ← Matrix.mul_sub, Matrix.diagonal_sub, frobSq_svd h2 h3]
  refine Finset.sum_congr rfl fun i _ => ?_
  split_ifs <;> simp

/-- **C177.**  If the random matrix meets the whole range of `A` (for which the rank of `A` must not exceed `rank + n_oversamples`), the result is the beginning of a singular value decomposition of `A` itself. -/
theorem rsvd_exact {qr : QFun K} (h : IsQFun qr) {m n ell r : Nat} {A : Matrix (Fin m) (Fin n) K} {Om : Matrix (Fin n) (Fin ell) K} {C : Matrix (Fin ell) (Fin n) K} (hO : A = A * Om * C) (q : Nat) {U : Matrix (Fin (rangeFinder qr A Om q).1) (Fin r) K} {S : Fin r → K}
    {Vt : Matrix (Fin r) (Fin n) K} (hs : IsThinSvd (rsvdSmall (rangeFinder qr A Om q) A) U S Vt) (rank : Nat) :
    ∃ U', IsThinSvd A U' S Vt ∧ rsvd (rangeFinder qr A Om q) U S Vt rank = (takeCols U' rank, takeVals S rank, takeRows Vt rank) := by
  have hQ := rangeFinder_ortho h A Om q
  have hR := rangeFinder_range h hO q
  generalize rangeFinder qr A Om q = Q at *
  obtain ⟨h1, h2, h3⟩ := hs
  refine ⟨Q.2 * U, ⟨?_, ?_, h3⟩, rfl⟩
  · have e : Q.2ᵀ * A = U * diagonal S * Vt := h1
    rw [e] at hR
    rw [← hR]
    simp only [Matrix.mul_assoc]
  · rw [Matrix.transpose_mul, Matrix.mul_assoc, ← Matrix.mul_assoc Q.2ᵀ, hQ, Matrix.one_mul, h2]

/-- **C177.**  The squares of the values never add up to more than the squares of the elements of `A`. -/
theorem rsvd_values_le [LinearOrder K] [IsStrictOrderedRing K] {qr : QFun K} (h : IsQFun qr) {m n ell r : Nat} (A : Matrix (Fin m) (Fin n) K) (Om : Matrix (Fin n) (Fin ell) K) (q : Nat) {U : Matrix (Fin (rangeFinder qr A Om q).1) (Fin r) K} {S : Fin r → K} {Vt : Matrix (Fin r) (Fin n) K}
    (hs : IsThinSvd (rsvdSmall (rangeFinder qr A Om q) A) U S Vt) : ∑ i, S i * S i ≤ frobSq A := by
  have hQ := rangeFinder_ortho h A Om q
  generalize rangeFinder qr A Om q = Q at *
  obtain ⟨h1, h2, h3⟩ := hs
  have e : Q.2ᵀ * A = U * diagonal S * Vt := h1
  have := frobSq_split hQ A 0
  rw [Matrix.mul_zero, sub_zero, sub_zero, e, frobSq_svd h2 h3] at this
  rw [this]
  have hp : 0 ≤ frobSq (A - Q.2 * (U * diagonal S * Vt)) := Finset.sum_nonneg fun i _ => Finset.sum_nonneg fun j _ => mul_self_nonneg _
  linarith

/-! ## `reigh` -/

/-- **C177.**  For a symmetric matrix whose range is met, the values and vectors are eigenvalues and orthonormal eigenvectors of the matrix, in decreasing order of the values; and every eigenvector for another value than 0 is a
combination of the computed ones before truncation. -/
theorem reigh_exact [LinearOrder K] {qr : QFun K} (h : IsQFun qr) {m ell : Nat} {A : Matrix (Fin m) (Fin m) K} (hA : Aᵀ = A) {Om : Matrix (Fin m) (Fin ell) K} {C : Matrix (Fin ell) (Fin m) K} (hO : A = A * Om * C) (q : Nat)
    {lam : Fin (rangeFinder qr A Om q).1 → K} {W : Matrix (Fin (rangeFinder qr A Om q).1) (Fin (rangeFinder qr A Om q).1) K} (hW : Wᵀ * W = 1) (hE : reighSmall (rangeFinder qr A Om q) A = W * diagonal lam * Wᵀ)
    {idx : Fin (rangeFinder qr A Om q).1 → Fin (rangeFinder qr A Om q).1} (hi : Function.Injective idx) (hd : ∀ i j, i ≤ j → lam (idx j) ≤ lam (idx i)) (count : Nat) :
    A * (reigh (rangeFinder qr A Om q) lam W idx count).2 = (reigh (rangeFinder qr A Om q) lam W idx count).2 * diagonal (reigh (rangeFinder qr A Om q) lam W idx count).1 ∧
    (reigh (rangeFinder qr A Om q) lam W idx count).2ᵀ * (reigh (rangeFinder qr A Om q) lam W idx count).2 = 1 ∧
    (∀ i j, i ≤ j → (reigh (rangeFinder qr A Om q) lam W idx count).1 j ≤ (reigh (rangeFinder qr A Om q) lam W idx count).1 i) ∧
    A = (rangeFinder qr A Om q).2 * W * diagonal lam * ((rangeFinder qr A Om q).2 * W)ᵀ := by
  have hQ := rangeFinder_ortho h A Om q
  have hR := rangeFinder_range h hO q
  generalize rangeFinder qr A Om q = Q at *
  have hR' : A * Q.2 * Q.2ᵀ = A := by
    have := congrArg Matrix.transpose hR
    rw [Matrix.transpose_mul, Matrix.transpose_mul, Matrix.transpose_transpose, hA] at this
    exact this
  have hAQ : A = Q.2 * (W * diagonal lam * Wᵀ) * Q.2ᵀ := by
    rw [← hE]
    unfold reighSmall
    calc A = Q.2 * (Q.2ᵀ * (A * Q.2 * Q.2ᵀ)) := by rw [hR', hR]
      _ = _ := by simp only [Matrix.mul_assoc]
  have hWs : (W.submatrix id idx)ᵀ * W.submatrix id idx = 1 := by
    have : (W.submatrix id idx)ᵀ * W.submatrix id idx = (Wᵀ * W).submatrix idx idx := rfl
    rw [this, hW]
    ext i j
    rw [Matrix.submatrix_apply, Matrix.one_apply, Matrix.one_apply]
    simp [hi.eq_iff]
  refine ⟨?_, ?_, ?_, ?_⟩
  · show A * (Q.2 * takeCols (W.submatrix id idx) count) = Q.2 * takeCols (W.submatrix id idx) count * diagonal (takeVals (fun i => lam (idx i)) count)
    have e : diagonal lam * (Wᵀ * takeCols (W.submatrix id idx) count) = (1 : Matrix _ _ K).submatrix id (fun i : Fin (min count Q.1) => idx (Fin.castLE (Nat.min_le_right _ _) i)) * diagonal (takeVals (fun i => lam (idx i)) count) := by
      have : Wᵀ * takeCols (W.submatrix id idx) count = (Wᵀ * W).submatrix id (fun i : Fin (min count Q.1) => idx (Fin.castLE (Nat.min_le_right _ _) i)) := rfl
      rw [this, hW]
      ext i j
      rw [Matrix.diagonal_mul, Matrix.mul_diagonal, Matrix.submatrix_apply, Matrix.one_apply]
      unfold takeVals
      split_ifs with c
      · rw [id] at c
        rw [c, mul_comm]
      · simp
    have e2 : W * (1 : Matrix _ _ K).submatrix id (fun i : Fin (min count Q.1) => idx (Fin.castLE (Nat.min_le_right _ _) i)) = takeCols (W.submatrix id idx) count := by
      have : W * (1 : Matrix _ _ K).submatrix id (fun i : Fin (min count Q.1) => idx (Fin.castLE (Nat.min_le_right _ _) i)) = (W * 1).submatrix id (fun i : Fin (min count Q.1) => idx (Fin.castLE (Nat.min_le_right _ _) i)) := rfl
      rw [this, Matrix.mul_one]
      rfl
    conv_lhs => rw [hAQ]
    calc Q.2 * (W * diagonal lam * Wᵀ) * Q.2ᵀ * (Q.2 * takeCols (W.submatrix id idx) count) = Q.2 * (W * (diagonal lam * (Wᵀ * ((Q.2ᵀ * Q.2) * takeCols (W.submatrix id idx) count)))) := by simp only [Matrix.mul_assoc]
      _ = Q.2 * ((W * (1 : Matrix (Fin Q.1) (Fin Q.1) K).submatrix id (fun i : Fin (min count Q.1) => idx (Fin.castLE (Nat.min_le_right _ _) i))) * diagonal (takeVals (fun i => lam (idx i)) count)) := by rw [hQ, Matrix.one_mul, e, ← Matrix.mul_assoc W]
      _ = _ := by rw [e2, Matrix.mul_assoc]
  · show (Q.2 * takeCols (W.submatrix id idx) count)ᵀ * (Q.2 * takeCols (W.submatrix id idx) count) = 1
    rw [Matrix.transpose_mul, Matrix.mul_assoc, ← Matrix.mul_assoc Q.2ᵀ, hQ, Matrix.one_mul]
    exact takeCols_ortho hWs count
  · intro i j hij
    exact hd _ _ hij
  · rw [hAQ, Matrix.transpose_mul]
    simp only [Matrix.mul_assoc]

/-- **C177, defect.**  Documented is that the eigenvalues largest in magnitude are computed: of -2 and 1 the value 1 is returned. -/
theorem reigh_magnitude_violated (idx : Fin 2 → Fin 2) (hd : ∀ i j, i ≤ j → (![-2, 1] : Fin 2 → ℚ) (idx j) ≤ (![-2, 1] : Fin 2 → ℚ) (idx i)) (hi : Function.Injective idx) :
    (reigh (⟨2, 1⟩ : Σ j : Nat, Matrix (Fin 2) (Fin j) ℚ) ![-2, 1] 1 idx 1).1 = fun _ => 1 := by
  have h0 : idx 0 = 1 := by
    have a := hd 0 1 (by decide)
    have b : idx 0 ≠ idx 1 := fun c => absurd (hi c) (by decide)
    generalize idx 0 = u at *
    generalize idx 1 = v at *
    fin_cases u <;> fin_cases v <;> simp at a b ⊢
    exact absurd a (by norm_num)
  funext i
  show (![-2, 1] : Fin 2 → ℚ) (idx (Fin.castLE _ i)) = 1
  have : Fin.castLE (Nat.min_le_right 1 2) i = (0 : Fin 2) := by
    apply Fin.ext
    have := i.2
    simp at this ⊢
  rw [this, h0]
  rfl

/-- **C177.**  The arguments that are accepted. -/
theorem rrf_init_spec (rank oversamples power : Int) : rrfInit rank oversamples power = .ok () ↔ 1 ≤ rank ∧ 0 ≤ oversamples ∧ 0 ≤ power := by
  unfold rrfInit
  split_ifs with a b c <;> simp <;> omega

/-! ## Cases -/

/-- A matrix of rank 1, the random matrix of one column meets its range. -/
example : ∃ (A : Matrix (Fin 2) (Fin 2) ℚ) (Om : Matrix (Fin 2) (Fin 1) ℚ) (C : Matrix (Fin 1) (Fin 2) ℚ), A = A * Om * C ∧ A ≠ 0 := by
  refine ⟨!![1, 2; 2, 4], !![1; 0], !![1, 2], ?_, fun h => ?_⟩
  · ext i j; fin_cases i <;> fin_cases j <;> simp [Matrix.mul_apply] <;> norm_num
  · have := congrFun (congrFun h 0) 0
    simp at this

/-- Identity matrices as `Q` meet the contract of `qr` for all matrices. -/
example : IsQFun (K := ℚ) fun n _ _ => ⟨n, 1⟩ := fun n k Y => ⟨by simp, Y, by simp⟩

/-- With it the decomposition is that of the matrix itself. -/
example : IsThinSvd (rsvdSmall (rangeFinder (fun n _ _ => ⟨n, 1⟩) (!![3, 0; 0, 2] : Matrix (Fin 2) (Fin 2) ℚ) (1 : Matrix (Fin 2) (Fin 2) ℚ) 1) !![3, 0; 0, 2]) (1 : Matrix (Fin 2) (Fin 2) ℚ) ![3, 2] 1 := by
  have : rsvdSmall (rangeFinder (fun n _ _ => ⟨n, 1⟩) (!![3, 0; 0, 2] : Matrix (Fin 2) (Fin 2) ℚ) (1 : Matrix (Fin 2) (Fin 2) ℚ) 1) !![3, 0; 0, 2] = (1 : Matrix (Fin 2) (Fin 2) ℚ)ᵀ * !![3, 0; 0, 2] := rfl
  rw [this]
  show IsThinSvd ((1 : Matrix (Fin 2) (Fin 2) ℚ)ᵀ * !![3, 0; 0, 2]) (1 : Matrix (Fin 2) (Fin 2) ℚ) ![3, 2] 1
  refine ⟨?_, by simp, by simp⟩
  ext i j
  fin_cases i <;> fin_cases j <;> simp

end Heat
