import Verif.Model.Qr
import Mathlib.Analysis.InnerProductSpace.GramSchmidtOrtho
import Mathlib.Analysis.InnerProductSpace.PiL2
import Verif.Props.Qr
/-!
# Every real matrix has a reduced QR decomposition: the hypothesis of C122 can be met
-/
namespace Heat
open Spec Finset

/-- Column `j` of a matrix as a vector. -/
noncomputable def dmCol (A : DMat ℝ) (j : Nat) : EuclideanSpace ℝ (Fin A.rows.length) := WithLp.toLp 2 (fun i => A.at i j)

/-- The orthonormal basis of Gram and Schmidt for the columns. -/
noncomputable def dmBasis (A : DMat ℝ) : OrthonormalBasis (Fin A.rows.length) ℝ (EuclideanSpace ℝ (Fin A.rows.length)) :=
  InnerProductSpace.gramSchmidtOrthonormalBasis (by simp) (fun j => dmCol A j)

/-- A reduced QR decomposition of a real matrix. -/
noncomputable def realQr (A : DMat ℝ) : DMat ℝ × DMat ℝ :=
  (⟨min A.rows.length A.width, (List.range A.rows.length).map (fun i t => if h : t < A.rows.length then (if h' : i < A.rows.length then dmBasis A ⟨t, h⟩ ⟨i, h'⟩ else 0) else 0)⟩,
   ⟨A.width, (List.range (min A.rows.length A.width)).map (fun t j => if h : t < A.rows.length then inner ℝ (dmBasis A ⟨t, h⟩) (dmCol A j) else 0)⟩)

theorem realQr_q (A : DMat ℝ) (i t : Fin A.rows.length) : (realQr A).1.at i t = dmBasis A t i := by
  unfold realQr DMat.at
  simp [List.getD]

theorem realQr_r (A : DMat ℝ) {t j : Nat} (ht : t < min A.rows.length A.width) : (realQr A).2.at t j = inner ℝ (dmBasis A ⟨t, by omega⟩) (dmCol A j) := by
  unfold realQr DMat.at
  have h2 : t < A.rows.length := by omega
  simp [List.getD, ht, h2]

theorem realQr_tri (A : DMat ℝ) {i j : Nat} (hi : i < A.rows.length) (hj : j < i) : inner ℝ (dmBasis A ⟨i, hi⟩) (dmCol A j) = 0 := by
  have := InnerProductSpace.gramSchmidtOrthonormalBasis_inv_triangular (𝕜 := ℝ) (E := EuclideanSpace ℝ (Fin A.rows.length)) (ι := Fin A.rows.length) (by simp) (fun j => dmCol A j) (i := ⟨j, by omega⟩) (j := ⟨i, hi⟩) hj
  exact this

/-- **C122**: the hypothesis on the decomposition of one process can be met: a reduced QR decomposition exists for every real matrix. -/
theorem realQr_ok (n : Nat) (A : DMat ℝ) (hw : A.width = n) : QrOk n A (realQr A).1 (realQr A).2 := by
  subst hw
  constructor
  · simp [realQr]
  · rfl
  · simp [realQr]
  · rfl
  · intro i hi j hj
    have e : ∑ t ∈ range (min A.rows.length A.width), (realQr A).1.at i t * (realQr A).2.at t j = ∑ t ∈ range A.rows.length, (if h : t < A.rows.length then inner ℝ (dmBasis A ⟨t, h⟩) (dmCol A j) * dmBasis A ⟨t, h⟩ ⟨i, hi⟩ else 0) := by
      rw [← sum_subset (range_mono (Nat.min_le_left A.rows.length A.width))]
      · apply sum_congr rfl
        intro t ht
        rw [mem_range] at ht
        have h2 : t < A.rows.length := by omega
        rw [dif_pos h2, realQr_r A ht, realQr_q A ⟨i, hi⟩ ⟨t, h2⟩, mul_comm]
      · intro t ht hn
        rw [mem_range] at ht hn
        rw [dif_pos ht, realQr_tri A ht (by omega), zero_mul]
    rw [e, sum_range]
    have := (dmBasis A).sum_repr (dmCol A j)
    have h2 := congrArg (fun v => v.ofLp ⟨i, hi⟩) this
    simp only [OrthonormalBasis.repr_apply_apply] at h2
    rw [WithLp.ofLp_sum, Finset.sum_apply] at h2
    have h3 : (dmCol A j).ofLp ⟨i, hi⟩ = A.at i j := rfl
    rw [h3] at h2
    rw [← h2]
    apply sum_congr rfl
    intro t _
    rw [dif_pos t.2]
    rfl
  · intro a ha b hb
    have ha' : a < A.rows.length := by omega
    have hb' : b < A.rows.length := by omega
    have := (orthonormal_iff_ite.1 (dmBasis A).orthonormal) ⟨a, ha'⟩ ⟨b, hb'⟩
    rw [EuclideanSpace.inner_eq_star_dotProduct] at this
    rw [sum_range]
    have e : ∀ i : Fin A.rows.length, star ((realQr A).1.at i a) * (realQr A).1.at i b = dmBasis A ⟨b, hb'⟩ i * dmBasis A ⟨a, ha'⟩ i := by
      intro i
      rw [realQr_q A i ⟨a, ha'⟩, realQr_q A i ⟨b, hb'⟩, mul_comm]
      rfl
    rw [sum_congr rfl (fun i _ => e i)]
    simp only [Fin.mk.injEq] at this
    rw [← this]
    rfl
  · intro i hi j _ hj
    rw [realQr_r A hi, realQr_tri A (by omega) hj]

/-- Three processes with two rows each, two columns: all hypotheses are met. -/
example : ∃ Q R, tsqr realQr 2 2 3 (fun r => ⟨2, [fun _ => 1, fun j => j + r]⟩) = some (Q, R) ∧ R.rows.length = 2 := by
  obtain ⟨Q, R, h1, h2, _⟩ := tsqr_balanced (K := ℝ) realQr (n := 2) (m := 2) (P := 3) (N := 6) (by decide) (by decide) (fun r => ⟨2, [fun _ => 1, fun j => j + r]⟩) (realQr_ok 2) (fun _ _ => rfl) (by intro r hr; show 2 = _; unfold evenSize; simp) ⟨0, by decide, by decide⟩
  exact ⟨Q, R, h1, h2⟩

end Heat
