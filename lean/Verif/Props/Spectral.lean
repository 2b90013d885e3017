import Verif.Model.Spectral
import Verif.Props.Rsvd
import Mathlib.LinearAlgebra.Matrix.ToLin
/-!
# C178: the embedding of spectral clustering
-/
namespace Heat
open Matrix
variable {K : Type} [Field K]

namespace Spec

/-- `mu` is an eigenvalue. -/
def IsEigenvalue {n : Nat} (L : Matrix (Fin n) (Fin n) K) (mu : K) : Prop := ∃ x : Fin n → K, x ≠ 0 ∧ L *ᵥ x = mu • x

/-- The columns are eigenvectors for the lowest eigenvalues: column `i` for the value `val i`, and every eigenvalue is one of these values or at least as large as all of them. -/
def IsLowest [LinearOrder K] {n k : Nat} (L : Matrix (Fin n) (Fin n) K) (cols : Matrix (Fin n) (Fin k) K) (val : Fin k → K) : Prop :=
  (∀ i, L *ᵥ (fun a => cols a i) = val i • fun a => cols a i) ∧ ∀ mu, IsEigenvalue L mu → (∃ i, mu = val i) ∨ ∀ i, val i ≤ mu

end Spec
open Spec

theorem mulVec_col {n m k : Nat} (L : Matrix (Fin n) (Fin m) K) (C : Matrix (Fin m) (Fin k) K) (i : Fin k) : L *ᵥ (fun a => C a i) = fun a => (L * C) a i := by
  funext a
  rw [Matrix.mul_apply]
  rfl

/-- **C178.**  With `eigen_solver="lanczos"` and as many iterations as samples, the samples are clustered by the eigenvectors of the `k` lowest eigenvalues of the Laplacian, as documented. -/
theorem spectral_lanczos_partial [LinearOrder K] {n : Nat} {L T V W : Matrix (Fin n) (Fin n) K} (hV : Vᵀ * V = 1) (hL : L * V = V * T) {lam : Fin n → K} (hW : T * W = W * diagonal lam) (hd : W.det ≠ 0) {idx : Fin n → Fin n} (hi : Function.Bijective idx)
    (hs : ∀ i j, i ≤ j → lam (idx i) ≤ lam (idx j)) (k : Nat) : IsLowest L (spectralComponents (spectralLanczos V lam W idx) k) (takeVals (spectralLanczos V lam W idx).1 k) := by
  have hV' : V * Vᵀ = 1 := mul_eq_one_comm.mp hV
  have hu : IsUnit W.det := isUnit_iff_ne_zero.mpr hd
  have hVW : L * (V * W) = V * W * diagonal lam := by
    rw [← Matrix.mul_assoc, hL, Matrix.mul_assoc, hW, Matrix.mul_assoc]
  constructor
  · intro i
    show L *ᵥ (fun a => (V * W) a (idx (Fin.castLE (Nat.min_le_right k n) i))) = lam (idx (Fin.castLE (Nat.min_le_right k n) i)) • fun a => (V * W) a (idx (Fin.castLE (Nat.min_le_right k n) i))
    rw [mulVec_col, hVW]
    funext a
    rw [Matrix.mul_diagonal, Pi.smul_apply, smul_eq_mul, mul_comm]
  · rintro mu ⟨x, hx, he⟩
    have hmem : ∃ j, mu = lam j := by
      have e1 : W⁻¹ * Vᵀ * (L * (V * W)) = diagonal lam := by
        rw [hVW]
        calc W⁻¹ * Vᵀ * (V * W * diagonal lam) = W⁻¹ * ((Vᵀ * V) * W) * diagonal lam := by simp only [Matrix.mul_assoc]
          _ = _ := by rw [hV, Matrix.one_mul, Matrix.nonsing_inv_mul W hu, Matrix.one_mul]
      have e2 : V * W * (W⁻¹ * Vᵀ) = 1 := by
        calc V * W * (W⁻¹ * Vᵀ) = V * (W * W⁻¹) * Vᵀ := by simp only [Matrix.mul_assoc]
          _ = _ := by rw [Matrix.mul_nonsing_inv W hu, Matrix.mul_one, hV']
      have hy : (W⁻¹ * Vᵀ) *ᵥ x ≠ 0 := by
        intro c
        apply hx
        have := congrArg (fun v => (V * W) *ᵥ v) c
        simp only [Matrix.mulVec_mulVec, e2, Matrix.one_mulVec, Matrix.mulVec_zero] at this
        exact this
      have hy2 : diagonal lam *ᵥ ((W⁻¹ * Vᵀ) *ᵥ x) = mu • ((W⁻¹ * Vᵀ) *ᵥ x) := by
        rw [← e1, Matrix.mulVec_mulVec]
        have : W⁻¹ * Vᵀ * (L * (V * W)) * (W⁻¹ * Vᵀ) = W⁻¹ * Vᵀ * L := by
          calc W⁻¹ * Vᵀ * (L * (V * W)) * (W⁻¹ * Vᵀ) = W⁻¹ * Vᵀ * (L * (V * W * (W⁻¹ * Vᵀ))) := by simp only [Matrix.mul_assoc]
            _ = _ := by rw [e2, Matrix.mul_one]
        rw [this, ← Matrix.mulVec_mulVec, he, Matrix.mulVec_smul]
      obtain ⟨j, hj⟩ := Function.ne_iff.mp hy
      refine ⟨j, ?_⟩
      have := congrFun hy2 j
      rw [Matrix.mulVec_diagonal, Pi.smul_apply, smul_eq_mul] at this
      exact (mul_right_cancel₀ hj this).symm
    obtain ⟨j, rfl⟩ := hmem
    obtain ⟨i, rfl⟩ := hi.2 j
    by_cases c : (i : Nat) < k
    · exact Or.inl ⟨⟨i, by omega⟩, rfl⟩
    · refine Or.inr fun i' => hs _ _ ?_
      have := i'.2
      rw [Fin.le_def]
      show (i' : Nat) ≤ i
      omega

/-- **C178, defect.**  The default `eigen_solver="randomized"` takes the vectors of the largest eigenvalues: for every symmetric matrix whose range is met, column `i` belongs to value `i` and no value that is left out is larger. -/
theorem spectral_randomized_largest [LinearOrder K] {qr : QFun K} (h : IsQFun qr) {m ell : Nat} {A : Matrix (Fin m) (Fin m) K} (hA : Aᵀ = A) {Om : Matrix (Fin m) (Fin ell) K} {C : Matrix (Fin ell) (Fin m) K} (hO : A = A * Om * C) (q : Nat)
    {lam : Fin (rangeFinder qr A Om q).1 → K} {W : Matrix (Fin (rangeFinder qr A Om q).1) (Fin (rangeFinder qr A Om q).1) K} (hW : Wᵀ * W = 1) (hE : reighSmall (rangeFinder qr A Om q) A = W * diagonal lam * Wᵀ)
    {idx : Fin (rangeFinder qr A Om q).1 → Fin (rangeFinder qr A Om q).1} (hi : Function.Injective idx) (hd : ∀ i j, i ≤ j → lam (idx j) ≤ lam (idx i)) (rank k : Nat) (i : Fin (min k (min rank (rangeFinder qr A Om q).1))) :
    A *ᵥ (fun a => spectralComponents (reigh (rangeFinder qr A Om q) lam W idx rank) k a i) = (reigh (rangeFinder qr A Om q) lam W idx rank).1 (Fin.castLE (Nat.min_le_right _ _) i) • (fun a => spectralComponents (reigh (rangeFinder qr A Om q) lam W idx rank) k a i) ∧
    ∀ j : Fin (min rank (rangeFinder qr A Om q).1), k ≤ (j : Nat) → (reigh (rangeFinder qr A Om q) lam W idx rank).1 j ≤ (reigh (rangeFinder qr A Om q) lam W idx rank).1 (Fin.castLE (Nat.min_le_right _ _) i) := by
  obtain ⟨h1, h2, h3, h4⟩ := reigh_exact h hA hO q hW hE hi hd rank
  constructor
  · show A *ᵥ (fun a => (reigh (rangeFinder qr A Om q) lam W idx rank).2 a (Fin.castLE (Nat.min_le_right _ _) i)) = _
    rw [mulVec_col, h1]
    funext a
    rw [Matrix.mul_diagonal, Pi.smul_apply, smul_eq_mul, mul_comm]
    rfl
  · intro j hj
    apply h3
    rw [Fin.le_def]
    have := i.2
    show (i : Nat) ≤ j
    omega

/-- **C178, defect.**  Two samples joined by an edge: the Laplacian has the eigenvalues 0 and 2; the documented embedding in one dimension is the constant vector (eigenvalue 0), the default one is the vector for 2.  This holds for every
eigendecomposition and every order that the code may find. -/
theorem spectral_randomized_violated {lam : Fin 2 → ℝ} {W : Matrix (Fin 2) (Fin 2) ℝ} (hW : Wᵀ * W = 1) (hE : reighSmall (⟨2, 1⟩ : Σ j : Nat, Matrix (Fin 2) (Fin j) ℝ) !![1, -1; -1, 1] = W * diagonal lam * Wᵀ) {idx : Fin 2 → Fin 2} (hi : Function.Injective idx)
    (hd : ∀ i j, i ≤ j → lam (idx j) ≤ lam (idx i)) : (reigh (⟨2, 1⟩ : Σ j : Nat, Matrix (Fin 2) (Fin j) ℝ) lam W idx 2).1 ⟨0, by decide⟩ = 2 ∧ IsEigenvalue (!![1, -1; -1, 1] : Matrix (Fin 2) (Fin 2) ℝ) 0 := by
  have e : (!![1, -1; -1, 1] : Matrix (Fin 2) (Fin 2) ℝ) = W * diagonal lam * Wᵀ := by
    rw [← hE]
    unfold reighSmall
    simp
  have ht : lam 0 + lam 1 = 2 := by
    have := congrArg trace e
    rw [Matrix.mul_assoc, Matrix.trace_mul_comm, Matrix.mul_assoc, hW, Matrix.mul_one, Matrix.trace_diagonal, Fin.sum_univ_two, Matrix.trace_fin_two] at this
    simp at this
    linarith
  have hdt : lam 0 * lam 1 = 0 := by
    have := congrArg det e
    have hw : W.det * W.det = 1 := by
      have := congrArg det hW
      rwa [Matrix.det_mul, Matrix.det_transpose, Matrix.det_one] at this
    rw [Matrix.det_mul, Matrix.det_mul, Matrix.det_transpose, Matrix.det_diagonal, Matrix.det_fin_two, Fin.prod_univ_two] at this
    have e2 : W.det * (lam 0 * lam 1) * W.det = (W.det * W.det) * (lam 0 * lam 1) := by ring
    rw [e2, hw, one_mul] at this
    rw [← this]
    simp
  constructor
  · show lam (idx 0) = 2
    have a := hd 0 1 (by decide)
    have b : idx 0 ≠ idx 1 := fun c => absurd (hi c) (by decide)
    have hsum : lam (idx 0) + lam (idx 1) = 2 ∧ lam (idx 0) * lam (idx 1) = 0 := by
      generalize idx 0 = u at *
      generalize idx 1 = v at *
      fin_cases u <;> fin_cases v <;> simp at b ⊢
      · exact ⟨ht, by simpa using hdt⟩
      · refine ⟨by linarith, ?_⟩
        have : lam 1 * lam 0 = 0 := by linarith
        simpa using this
    obtain ⟨s1, s2⟩ := hsum
    rcases mul_eq_zero.mp s2 with c | c <;> linarith
  · refine ⟨fun _ => 1, fun c => ?_, ?_⟩
    · have := congrFun c 0
      simp at this
    · funext i
      fin_cases i <;> simp [Matrix.mulVec, dotProduct, Fin.sum_univ_two]

/-- **C178.**  The number of clusters that is chosen leaves the largest gap between the values kept and the next one, if `argmax` is right. -/
theorem spectral_count_spec [LinearOrder K] {l : Nat} (ev : Fin (l + 1) → K) {t : Fin l} (ht : ∀ i, spectralGaps ev i ≤ spectralGaps ev t) (i : Fin l) :
    spectralCount none t = t + 1 ∧ ev i.succ - ev i.castSucc ≤ ev ⟨spectralCount none t, by show (t : Nat) + 1 < l + 1; omega⟩ - ev ⟨spectralCount none t - 1, by show (t : Nat) + 1 - 1 < l + 1; omega⟩ :=
  ⟨rfl, ht i⟩

/-! ## Cases -/

/-- Already diagonal matrices. -/
example : ∃ (L T V W : Matrix (Fin 2) (Fin 2) ℚ) (lam : Fin 2 → ℚ), Vᵀ * V = 1 ∧ L * V = V * T ∧ T * W = W * diagonal lam ∧ W.det ≠ 0 ∧ lam 0 < lam 1 :=
  ⟨diagonal ![0, 2], diagonal ![0, 2], 1, 1, ![0, 2], by simp, by simp, by simp, by simp, by simp⟩

example : ∃ (lam : Fin 2 → ℝ) (W : Matrix (Fin 2) (Fin 2) ℝ), Wᵀ * W = 1 ∧ reighSmall (⟨2, 1⟩ : Σ j : Nat, Matrix (Fin 2) (Fin j) ℝ) !![1, -1; -1, 1] = W * diagonal lam * Wᵀ := by
  have h : (√2 : ℝ) * √2 = 2 := Real.mul_self_sqrt (by norm_num)
  have h' : (√2 : ℝ)⁻¹ * (√2)⁻¹ = 1 / 2 := by
    rw [← mul_inv, h]
    norm_num
  refine ⟨![0, 2], !![(√2)⁻¹, (√2)⁻¹; (√2)⁻¹, -(√2)⁻¹], ?_, ?_⟩
  · ext i j
    rw [Matrix.mul_apply, Fin.sum_univ_two]
    fin_cases i <;> fin_cases j <;> simp [h'] <;> norm_num
  · have : reighSmall (⟨2, 1⟩ : Σ j : Nat, Matrix (Fin 2) (Fin j) ℝ) !![1, -1; -1, 1] = !![1, -1; -1, 1] := by
      unfold reighSmall
      simp
    rw [this]
    show (!![1, -1; -1, 1] : Matrix (Fin 2) (Fin 2) ℝ) = _
    ext i j
    rw [Matrix.mul_apply, Fin.sum_univ_two, Matrix.mul_diagonal, Matrix.mul_diagonal]
    fin_cases i <;> fin_cases j <;> simp <;> nlinarith [h']

end Heat
