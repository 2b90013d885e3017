import Verif.Model.Cg
import Mathlib.LinearAlgebra.Dimension.Constructions
import Mathlib.LinearAlgebra.Dimension.StrongRankCondition
import Mathlib.Tactic.Linarith
import Mathlib.Tactic.FinCases
import Mathlib.LinearAlgebra.Matrix.Notation
import Mathlib.LinearAlgebra.Dimension.Finite
import Mathlib.LinearAlgebra.Dimension.Free
import Mathlib.Tactic.FieldSimp
/-!
# Conjugate gradients (C126)
-/
namespace Heat
open Matrix

/-- More than `n` vectors of length `n`, pairwise orthogonal, are not all different from zero. -/
theorem orth_count {n : Nat} (v : Nat → Fin n → ℝ) (ho : ∀ i ≤ n, ∀ j < i, v i ⬝ᵥ v j = 0) (hz : ∀ i ≤ n, v i ⬝ᵥ v i ≠ 0) : False := by
  have li : LinearIndependent ℝ (fun i : Fin (n + 1) => v i) := by
    rw [Fintype.linearIndependent_iff]
    intro g hg i
    have h := congrArg (fun w => w ⬝ᵥ v i) hg
    simp only [zero_dotProduct] at h
    rw [sum_dotProduct] at h
    rw [Finset.sum_eq_single i] at h
    · rw [smul_dotProduct, smul_eq_mul] at h
      rcases mul_eq_zero.1 h with h | h
      · exact h
      · exact absurd h (hz i (by omega))
    · intro j _ hj
      rw [smul_dotProduct, smul_eq_mul]
      rcases Nat.lt_trichotomy (j : Nat) i with h1 | h1 | h1
      · rw [dotProduct_comm, ho i (by omega) j h1, mul_zero]
      · exact absurd (Fin.ext h1) hj
      · rw [ho j (by omega) i h1, mul_zero]
    · intro h
      exact absurd (Finset.mem_univ i) h
  have := li.fintype_card_le_finrank
  rw [Module.finrank_fin_fun, Fintype.card_fin] at this
  omega

/-- The vectors of conjugate gradients: solution, residual, direction. -/
noncomputable def cgSeq {n : Nat} (A : Matrix (Fin n) (Fin n) ℝ) (b x0 : Fin n → ℝ) : Nat → (Fin n → ℝ) × (Fin n → ℝ) × (Fin n → ℝ)
  | 0 => (x0, b - A *ᵥ x0, b - A *ᵥ x0)
  | k + 1 =>
    let s := cgSeq A b x0 k
    let alpha := (s.2.1 ⬝ᵥ s.2.1) / (s.2.2 ⬝ᵥ (A *ᵥ s.2.2))
    let r' := s.2.1 - alpha • (A *ᵥ s.2.2)
    (s.1 + alpha • s.2.2, r', r' + ((r' ⬝ᵥ r') / (s.2.1 ⬝ᵥ s.2.1)) • s.2.2)

/-- The solution vectors. -/
noncomputable def cgX {n : Nat} (A : Matrix (Fin n) (Fin n) ℝ) (b x0 : Fin n → ℝ) (k : Nat) : Fin n → ℝ := (cgSeq A b x0 k).1
/-- The residuals. -/
noncomputable def cgR {n : Nat} (A : Matrix (Fin n) (Fin n) ℝ) (b x0 : Fin n → ℝ) (k : Nat) : Fin n → ℝ := (cgSeq A b x0 k).2.1
/-- The directions. -/
noncomputable def cgD {n : Nat} (A : Matrix (Fin n) (Fin n) ℝ) (b x0 : Fin n → ℝ) (k : Nat) : Fin n → ℝ := (cgSeq A b x0 k).2.2

section
variable {n : Nat} (A : Matrix (Fin n) (Fin n) ℝ) (b x0 : Fin n → ℝ)

local notation "X" => cgX A b x0
local notation "R" => cgR A b x0
local notation "D" => cgD A b x0

theorem cgSeq_residual (k : Nat) : R k = b - A *ᵥ X k := by
  induction k with
  | zero => rfl
  | succ k ih =>
    show R k - _ • (A *ᵥ D k) = b - A *ᵥ (X k + _ • D k)
    rw [ih, mulVec_add, mulVec_smul]
    abel

theorem dot_self_pos {v : Fin n → ℝ} (h : v ⬝ᵥ v ≠ 0) : 0 < v ⬝ᵥ v := by
  have : 0 ≤ v ⬝ᵥ v := Finset.sum_nonneg fun i _ => mul_self_nonneg _
  exact lt_of_le_of_ne this (Ne.symm h)

variable (hs : Aᵀ = A) (hpos : ∀ v : Fin n → ℝ, v ≠ 0 → 0 < v ⬝ᵥ (A *ᵥ v))
include hs

theorem cg_symm (u v : Fin n → ℝ) : u ⬝ᵥ (A *ᵥ v) = v ⬝ᵥ (A *ᵥ u) := by
  rw [dotProduct_mulVec, ← mulVec_transpose, hs, dotProduct_comm]

include hpos

/-- While no residual vanishes, the residuals are orthogonal and the directions conjugate. -/
theorem cgSeq_orth (k : Nat) (hz : ∀ i ≤ k, R i ⬝ᵥ R i ≠ 0) :
    (∀ j < k, R k ⬝ᵥ D j = 0) ∧ (∀ j < k, D k ⬝ᵥ (A *ᵥ D j) = 0) ∧ (∀ j < k, R k ⬝ᵥ R j = 0) ∧ R k ⬝ᵥ D k = R k ⬝ᵥ R k := by
  induction k using Nat.strong_induction_on with
  | _ k ih =>
    rcases Nat.eq_zero_or_pos k with h0 | h0
    · subst h0
      exact ⟨fun j hj => by omega, fun j hj => by omega, fun j hj => by omega, rfl⟩
    · obtain ⟨k, rfl⟩ : ∃ k', k = k' + 1 := ⟨k - 1, by omega⟩
      obtain ⟨a, c, o, d⟩ := ih k (by omega) (fun i hi => hz i (by omega))
      have hall : ∀ i ≤ k, R i ⬝ᵥ D i = R i ⬝ᵥ R i := fun i hi => (ih i (by omega) (fun i' hi' => hz i' (by omega))).2.2.2
      have hcur : ∀ i ≤ k, 0 < D i ⬝ᵥ (A *ᵥ D i) := by
        intro i hi
        apply hpos
        intro h
        have := hall i hi
        rw [show D i = 0 from h, dotProduct_zero] at this
        exact hz i (by omega) this.symm
      obtain ⟨al, hal⟩ : ∃ al : Nat → ℝ, al = fun i => (R i ⬝ᵥ R i) / (D i ⬝ᵥ (A *ᵥ D i)) := ⟨_, rfl⟩
      have hal0 : ∀ i ≤ k, al i ≠ 0 := by
        intro i hi
        rw [hal]
        exact div_ne_zero (hz i (by omega)) (hcur i hi).ne'
      have rs : ∀ i, R (i + 1) = R i - al i • (A *ᵥ D i) := by
        intro i
        rw [hal]
        rfl
      have ds : ∀ i, D (i + 1) = R (i + 1) + ((R (i + 1) ⬝ᵥ R (i + 1)) / (R i ⬝ᵥ R i)) • D i := fun i => rfl
      have aD : ∀ j < k + 1, R (k + 1) ⬝ᵥ D j = 0 := by
        intro j hj
        rw [rs k, sub_dotProduct, smul_dotProduct, smul_eq_mul, dotProduct_comm (A *ᵥ D k), cg_symm A hs]
        rcases Nat.lt_or_ge j k with h | h
        · rw [a j h, c j h]
          simp
        · have : j = k := by omega
          subst this
          rw [d, hal]
          dsimp only
          rw [div_mul_cancel₀ _ (hcur j (Nat.le_refl _)).ne', sub_self]
      have oR : ∀ j < k + 1, R (k + 1) ⬝ᵥ R j = 0 := by
        intro j hj
        rcases Nat.eq_zero_or_pos j with h | h
        · subst h
          exact aD 0 hj
        · obtain ⟨j, rfl⟩ : ∃ j', j = j' + 1 := ⟨j - 1, by omega⟩
          have e : R (j + 1) = D (j + 1) - ((R (j + 1) ⬝ᵥ R (j + 1)) / (R j ⬝ᵥ R j)) • D j := by
            rw [ds j]
            abel
          rw [e, dotProduct_sub, dotProduct_smul, aD (j + 1) hj, aD j (by omega)]
          simp
      have Ap : ∀ j ≤ k, ∀ w : Fin n → ℝ, w ⬝ᵥ (A *ᵥ D j) = (w ⬝ᵥ R j - w ⬝ᵥ R (j + 1)) / al j := by
        intro j hj w
        rw [rs j, dotProduct_sub, dotProduct_smul, smul_eq_mul]
        field_simp [hal0 j hj]
        ring
      refine ⟨aD, ?_, oR, ?_⟩
      · intro j hj
        rw [ds k, add_dotProduct, smul_dotProduct, smul_eq_mul]
        rcases Nat.lt_or_ge j k with h | h
        · rw [c j h, mul_zero, add_zero, Ap j (by omega), oR j hj, oR (j + 1) (by omega), sub_self, zero_div]
        · have : j = k := by omega
          subst this
          rw [Ap j (Nat.le_refl _), oR j hj, hal]
          dsimp only
          have h1 := hz j (by omega)
          have h2 := (hcur j (Nat.le_refl _)).ne'
          field_simp
          ring
      · rw [ds k, dotProduct_add, dotProduct_smul, aD k (by omega)]
        simp

theorem cgLoop_seq (m k : Nat) (hz : ∀ i ≤ k, R i ⬝ᵥ R i ≠ 0) :
    (∃ x, cgLoop A m (X k) (R k) (D k) (R k ⬝ᵥ R k) = some x ∧ Real.sqrt ((b - A *ᵥ x) ⬝ᵥ (b - A *ᵥ x)) < 1 / 10 ^ 10) ∨ ∀ i ≤ k + m, R i ⬝ᵥ R i ≠ 0 := by
  induction m generalizing k with
  | zero => exact Or.inr hz
  | succ m ih =>
    have hd := (cgSeq_orth A b x0 hs hpos k hz).2.2.2
    have hcur : D k ⬝ᵥ (A *ᵥ D k) ≠ 0 := by
      refine (hpos _ fun h => ?_).ne'
      rw [show D k = 0 from h, dotProduct_zero] at hd
      exact hz k (Nat.le_refl _) hd.symm
    have e : cgLoop A (m + 1) (X k) (R k) (D k) (R k ⬝ᵥ R k) =
        if Real.sqrt (R (k + 1) ⬝ᵥ R (k + 1)) < 1 / 10 ^ 10 then some (X (k + 1)) else cgLoop A m (X (k + 1)) (R (k + 1)) (D (k + 1)) (R (k + 1) ⬝ᵥ R (k + 1)) := by
      rw [cgLoop, if_neg hcur]
      rfl
    rw [e]
    by_cases h : Real.sqrt (R (k + 1) ⬝ᵥ R (k + 1)) < 1 / 10 ^ 10
    · rw [if_pos h]
      refine Or.inl ⟨_, rfl, ?_⟩
      rw [← cgSeq_residual A b x0 (k + 1)]
      exact h
    · rw [if_neg h]
      have hz' : ∀ i ≤ k + 1, R i ⬝ᵥ R i ≠ 0 := by
        intro i hi
        rcases Nat.lt_or_ge i (k + 1) with h1 | h1
        · exact hz i (by omega)
        · have : i = k + 1 := by omega
          subst this
          intro h0
          rw [h0, Real.sqrt_zero] at h
          exact h (by positivity)
      rcases ih (k + 1) hz' with h1 | h1
      · exact Or.inl h1
      · exact Or.inr fun i hi => h1 i (by omega)

end

/-- **C126** (`_partial`: the starting vector is not the solution): for a symmetric positive definite matrix `cg` returns a vector whose residual is below the tolerance; `len(b)` passes are enough. -/
theorem cg_partial {n : Nat} (A : Matrix (Fin n) (Fin n) ℝ) (hs : Aᵀ = A) (hpos : ∀ v : Fin n → ℝ, v ≠ 0 → 0 < v ⬝ᵥ (A *ᵥ v)) (b x0 : Fin n → ℝ) (hne : A *ᵥ x0 ≠ b) :
    ∃ x, cg A b x0 = some x ∧ Real.sqrt ((b - A *ᵥ x) ⬝ᵥ (b - A *ᵥ x)) < 1 / 10 ^ 10 := by
  have h0 : ∀ i ≤ 0, cgR A b x0 i ⬝ᵥ cgR A b x0 i ≠ 0 := by
    intro i hi
    rw [Nat.le_zero.1 hi]
    intro h
    have := dotProduct_self_eq_zero.1 h
    exact hne (sub_eq_zero.1 this).symm
  rcases cgLoop_seq A b x0 hs hpos n 0 h0 with h | h
  · exact h
  · exfalso
    rw [Nat.zero_add] at h
    exact orth_count (fun i => cgR A b x0 i) (fun i hi j hj => (cgSeq_orth A b x0 hs hpos i (fun i' hi' => h i' (by omega))).2.2.1 j hj) h

/-- **C126** is violated when the starting vector is the solution (for example `b = 0` and `x0 = 0`): the result is not a number. -/
theorem cg_start_violated {n : Nat} (A : Matrix (Fin (n + 1)) (Fin (n + 1)) ℝ) (x0 : Fin (n + 1) → ℝ) : cg A (A *ᵥ x0) x0 = none := by
  unfold cg
  dsimp only
  rw [sub_self, cgLoop, if_pos (by simp)]

/-- The hypotheses are met by a diagonal matrix with two different eigenvalues. -/
example : ∃ x, cg !![2, 0; 0, 3] ![1, 1] 0 = some x := by
  obtain ⟨x, e, -⟩ := cg_partial !![2, 0; 0, 3] (by ext i j; fin_cases i <;> fin_cases j <;> rfl) (by
    intro v hv
    simp [dotProduct, Fin.sum_univ_two, mulVec]
    have : v 0 ≠ 0 ∨ v 1 ≠ 0 := by
      by_contra h
      push Not at h
      exact hv (by ext i; fin_cases i <;> simp [h.1, h.2])
    rcases this with h | h
    · have := mul_self_pos.2 h
      nlinarith [mul_self_nonneg (v 1)]
    · have := mul_self_pos.2 h
      nlinarith [mul_self_nonneg (v 0)]) ![1, 1] 0 (by
    rw [mulVec_zero]
    intro h
    have := congrFun h 0
    simp at this)
  exact ⟨x, e⟩

end Heat
