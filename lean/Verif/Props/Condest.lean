import Verif.Model.Condest
import Mathlib.Tactic.Linarith
import Mathlib.Tactic.Ring
import Mathlib.Tactic.FinCases
import Mathlib.Tactic.NormNum
import Mathlib.Tactic.Positivity
/-!
# C191: `condest` is an upper estimate of the condition number
-/
namespace Heat
open Matrix

/-- The squared Euclidean norm of a vector. -/
def vecSq {m : Nat} (v : Fin m → ℝ) : ℝ := ∑ i, v i ^ 2

/-- `c` is an upper bound of the condition number of `A` with respect to the Euclidean norm: of the quotient of the largest and the smallest stretching of a vector. -/
def CondBound {m n : Nat} (A : Matrix (Fin m) (Fin n) ℝ) (c : ℝ) : Prop :=
  ∀ v w : Fin n → ℝ, Real.sqrt (vecSq (A *ᵥ v)) * Real.sqrt (vecSq w) ≤ c * (Real.sqrt (vecSq (A *ᵥ w)) * Real.sqrt (vecSq v))

theorem vecSq_eq {m : Nat} (v : Fin m → ℝ) : vecSq v = v ⬝ᵥ v := by
  unfold vecSq dotProduct
  exact Finset.sum_congr rfl fun i _ => by ring

theorem vecSq_nonneg {m : Nat} (v : Fin m → ℝ) : 0 ≤ vecSq v := Finset.sum_nonneg fun i _ => sq_nonneg _

theorem frobSq_nonneg {m n : Nat} (M : Matrix (Fin m) (Fin n) ℝ) : 0 ≤ frobSq M := Finset.sum_nonneg fun i _ => Finset.sum_nonneg fun j _ => sq_nonneg _

theorem condest_frobSq_trace {m n : Nat} (M : Matrix (Fin m) (Fin n) ℝ) : frobSq M = (M * Mᵀ).trace := by
  unfold frobSq trace
  refine Finset.sum_congr rfl fun i _ => ?_
  rw [diag_apply, mul_apply]
  exact Finset.sum_congr rfl fun j _ => by rw [transpose_apply]; ring

/-- A matrix with orthonormal columns keeps lengths. -/
theorem vecSq_orth {m n : Nat} (Q : Matrix (Fin m) (Fin n) ℝ) (h : Qᵀ * Q = 1) (v : Fin n → ℝ) : vecSq (Q *ᵥ v) = vecSq v := by
  rw [vecSq_eq, vecSq_eq, dotProduct_mulVec, vecMul_mulVec, h, vecMul_one]

/-- The Frobenius norm bounds the stretching. -/
theorem vecSq_mulVec_le {m n : Nat} (M : Matrix (Fin m) (Fin n) ℝ) (v : Fin n → ℝ) : vecSq (M *ᵥ v) ≤ frobSq M * vecSq v := by
  unfold frobSq
  rw [Finset.sum_mul]
  unfold vecSq
  refine Finset.sum_le_sum fun i _ => ?_
  exact Finset.sum_mul_sq_le_sq_mul_sq Finset.univ (fun j => M i j) v

theorem sqrt_stretch {m n : Nat} (M : Matrix (Fin m) (Fin n) ℝ) (v : Fin n → ℝ) : Real.sqrt (vecSq (M *ᵥ v)) ≤ Real.sqrt (frobSq M) * Real.sqrt (vecSq v) := by
  rw [← Real.sqrt_mul (frobSq_nonneg M)]
  exact Real.sqrt_le_sqrt (vecSq_mulVec_le M v)

/-- A square matrix of samples: multiplication with it keeps the Frobenius norm. -/
theorem frobSq_mul_orth {m n k : Nat} (M : Matrix (Fin m) (Fin n) ℝ) (Q : Matrix (Fin n) (Fin k) ℝ) (h : Q * Qᵀ = 1) : frobSq (M * Q) = frobSq M := by
  rw [condest_frobSq_trace, condest_frobSq_trace, transpose_mul, Matrix.mul_assoc, ← Matrix.mul_assoc Q, h, Matrix.one_mul]

/-- **C191, partial:** if there are at least as many samples as columns and at most as many as rows, every run returns an upper bound of the condition number.
Missing: fewer samples than columns and more samples than rows (`condest_sample_violated`, `condest_small_violated`). -/
theorem condest_upper_partial {m n ns : Nat} (A : Matrix (Fin m) (Fin n) ℝ) (c : CondestRun A ns) (h1 : n ≤ ns) (h2 : ns ≤ m) (h0 : 0 < ns) : CondBound A c.est := by
  have hk : min n ns = n := Nat.min_eq_left h1
  obtain ⟨Q0, R, Q, X, fact, orth, samples, solve⟩ := c
  unfold CondestRun.est
  dsimp only
  have hQQ : Q * Qᵀ = 1 := by
    have hc : Fintype.card (Fin (min n ns)) = Fintype.card (Fin n) := by simp [hk]
    exact (Matrix.mul_eq_one_comm_of_card_eq _ _ _ hc).1 samples
  have hXQ : R * (X * Qᵀ) = 1 := by rw [← Matrix.mul_assoc, solve, hQQ]
  have hinv : (X * Qᵀ) * R = 1 := mul_eq_one_comm.1 hXQ
  have hA : ∀ v, vecSq (A *ᵥ v) = vecSq (R *ᵥ v) := by
    intro v
    rw [fact, ← mulVec_mulVec, vecSq_orth Q0 orth]
  have hfX : frobSq (X * Qᵀ) = frobSq X := frobSq_mul_orth X Qᵀ (by rw [transpose_transpose]; exact samples)
  have hfR : frobSq (R * Q) = frobSq R := frobSq_mul_orth R Q hQQ
  have hs : 1 ≤ Real.sqrt ((m : ℝ) / ns) := by
    rw [Real.one_le_sqrt, le_div_iff₀ (by exact_mod_cast h0), one_mul]
    exact_mod_cast h2
  intro v w
  rw [hA v, hA w]
  have a1 := sqrt_stretch R v
  have a2 : Real.sqrt (vecSq w) ≤ Real.sqrt (frobSq X) * Real.sqrt (vecSq (R *ᵥ w)) := by
    have := sqrt_stretch (X * Qᵀ) (R *ᵥ w)
    rwa [mulVec_mulVec, hinv, one_mulVec, hfX] at this
  unfold condestValue
  rw [hfR]
  have p1 := Real.sqrt_nonneg (frobSq R)
  have p2 := Real.sqrt_nonneg (vecSq v)
  have p3 := Real.sqrt_nonneg (frobSq X)
  have p4 := Real.sqrt_nonneg (vecSq (R *ᵥ w))
  have p5 := Real.sqrt_nonneg (vecSq w)
  calc Real.sqrt (vecSq (R *ᵥ v)) * Real.sqrt (vecSq w)
      ≤ (Real.sqrt (frobSq R) * Real.sqrt (vecSq v)) * (Real.sqrt (frobSq X) * Real.sqrt (vecSq (R *ᵥ w))) := mul_le_mul a1 a2 p5 (mul_nonneg p1 p2)
    _ = Real.sqrt (frobSq R) * 1 * Real.sqrt (frobSq X) * (Real.sqrt (vecSq (R *ᵥ w)) * Real.sqrt (vecSq v)) := by ring
    _ ≤ Real.sqrt (frobSq R) * Real.sqrt ((m : ℝ) / ns) * Real.sqrt (frobSq X) * (Real.sqrt (vecSq (R *ᵥ w)) * Real.sqrt (vecSq v)) := by
        refine mul_le_mul_of_nonneg_right (mul_le_mul_of_nonneg_right (mul_le_mul_of_nonneg_left hs p1) p3) (mul_nonneg p4 p2)

/-- A bound below 1 bounds no condition number. -/
theorem condBound_ge_one {m n : Nat} (A : Matrix (Fin m) (Fin n) ℝ) (c : ℝ) (h : CondBound A c) (v : Fin n → ℝ) (hv : 0 < vecSq v) (hA : 0 < vecSq (A *ᵥ v)) : 1 ≤ c := by
  have := h v v
  by_contra hc
  have p := mul_pos (Real.sqrt_pos.2 hA) (Real.sqrt_pos.2 hv)
  nlinarith

/-- **C191 violated:** for a matrix with one column that is not zero and with fewer rows than samples (10 by default), every run returns the square root of `m / nsamples`, less than 1. -/
theorem condest_small_violated {m ns : Nat} (A : Matrix (Fin m) (Fin 1) ℝ) (c : CondestRun A ns) (h : m < ns) (hA : A ≠ 0) : c.est = Real.sqrt ((m : ℝ) / ns) ∧ ¬ CondBound A c.est := by
  have hk : min 1 ns = 1 := by omega
  obtain ⟨Q0, R, Q, X, fact, orth, samples, solve⟩ := c
  have hQQ : Q * Qᵀ = 1 := by
    have hc : Fintype.card (Fin (min 1 ns)) = Fintype.card (Fin 1) := by simp [hk]
    exact (Matrix.mul_eq_one_comm_of_card_eq _ _ _ hc).1 samples
  have hXQ : R * (X * Qᵀ) = 1 := by rw [← Matrix.mul_assoc, solve, hQQ]
  have hfX : frobSq (X * Qᵀ) = frobSq X := frobSq_mul_orth X Qᵀ (by rw [transpose_transpose]; exact samples)
  have hfR : frobSq (R * Q) = frobSq R := frobSq_mul_orth R Q hQQ
  have hmul : R 0 0 * (X * Qᵀ) 0 0 = 1 := by
    have := congrFun (congrFun hXQ 0) 0
    rw [mul_apply] at this
    simpa using this
  have he : condestValue m ns R Q X = Real.sqrt ((m : ℝ) / ns) := by
    unfold condestValue
    rw [hfR, ← hfX, mul_right_comm, ← Real.sqrt_mul (frobSq_nonneg R)]
    have : frobSq R * frobSq (X * Qᵀ) = 1 := by
      simp only [frobSq, Fin.sum_univ_one, Fin.isValue]
      rw [← mul_pow, hmul, one_pow]
    rw [this, Real.sqrt_one, one_mul]
  refine ⟨he, fun hb => ?_⟩
  unfold CondestRun.est at hb
  dsimp only at hb
  rw [he] at hb
  have hv : vecSq (fun _ : Fin 1 => (1 : ℝ)) = 1 := by simp [vecSq]
  have hAv : 0 < vecSq (A *ᵥ fun _ => 1) := by
    by_contra hn
    apply hA
    have h0 : vecSq (A *ᵥ fun _ => (1 : ℝ)) = 0 := le_antisymm (not_lt.1 hn) (vecSq_nonneg _)
    unfold vecSq at h0
    rw [Finset.sum_eq_zero_iff_of_nonneg fun i _ => sq_nonneg _] at h0
    ext i j
    have := h0 i (Finset.mem_univ _)
    rw [mulVec, dotProduct] at this
    fin_cases j
    simpa using this
  have h1 := condBound_ge_one A _ hb _ (by rw [hv]; norm_num) hAv
  have hns : (0 : ℝ) < ns := by exact_mod_cast (by omega : 0 < ns)
  rw [Real.one_le_sqrt, le_div_iff₀ hns, one_mul] at h1
  have : ns ≤ m := by exact_mod_cast h1
  omega

/-- A run for the 2 × 2 matrix `[[1, -7/12], [0, -1]]` with one sample, `(4/5, 3/5)`. -/
noncomputable def badRun : CondestRun (!![1, -7/12; 0, -1] : Matrix (Fin 2) (Fin 2) ℝ) 1 where
  Q0 := 1
  R := !![1, -7/12; 0, -1]
  Q := Matrix.of fun i _ => if i = 0 then 4/5 else 3/5
  X := Matrix.of fun i _ => if i = 0 then 9/20 else -3/5
  fact := (Matrix.one_mul _).symm
  orth := by simp
  samples := by
    ext i j
    have hi : i = j := by
      apply Fin.ext
      have := i.2
      have := j.2
      omega
    subst hi
    simp [mul_apply, Fin.sum_univ_two]
    norm_num
  solve := by
    ext i j
    fin_cases i <;> simp [mul_apply, Fin.sum_univ_two] <;> norm_num

/-- **C191 violated:** with fewer samples than columns the result can be less than 1, and so less than any condition number: `81/128` is the square of the result of the run above. -/
theorem condest_sample_violated : badRun.est ^ 2 = 81 / 128 ∧ ¬ CondBound (!![1, -7/12; 0, -1] : Matrix (Fin 2) (Fin 2) ℝ) badRun.est := by
  have e1 : frobSq (badRun.R * badRun.Q) = 9 / 16 := by
    simp [badRun, frobSq, mul_apply, Fin.sum_univ_two]
    norm_num
  have e2 : frobSq badRun.X = 9 / 16 := by
    simp [badRun, frobSq, Fin.sum_univ_two]
    norm_num
  have e : badRun.est ^ 2 = 81 / 128 := by
    unfold CondestRun.est condestValue
    rw [e1, e2, mul_pow, mul_pow, Real.sq_sqrt (by norm_num), Real.sq_sqrt (by norm_num)]
    norm_num
  refine ⟨e, fun hb => ?_⟩
  have h1 := condBound_ge_one _ _ hb (fun i => if i = 0 then 1 else 0) (by simp [vecSq, Fin.sum_univ_two]) (by simp [vecSq, mulVec, dotProduct, Fin.sum_univ_two])
  nlinarith

/-- A run that meets the hypotheses of `condest_upper_partial`: the identity. -/
noncomputable def idRun : CondestRun (1 : Matrix (Fin 2) (Fin 2) ℝ) 2 where
  Q0 := 1
  R := 1
  Q := (1 : Matrix (Fin 2) (Fin 2) ℝ)
  X := (1 : Matrix (Fin 2) (Fin 2) ℝ)
  fact := (Matrix.one_mul _).symm
  orth := by simp
  samples := by
    show (1 : Matrix (Fin 2) (Fin 2) ℝ)ᵀ * (1 : Matrix (Fin 2) (Fin 2) ℝ) = 1
    simp
  solve := Matrix.one_mul _

example : CondBound (1 : Matrix (Fin 2) (Fin 2) ℝ) idRun.est := condest_upper_partial _ idRun (by decide) (by decide) (by decide)

/-- **C191, parameters:** exactly the Euclidean norm, the randomized algorithm and positive numbers of samples are accepted; 10 samples by default. -/
theorem condest_params (p : Option Int) (rnd : Bool) (ns : Option Int) (k : Int) :
    condestParams p rnd ns = .ok k ↔ (p = none ∨ p = some 2) ∧ rnd = true ∧ (ns = none ∧ k = 10 ∨ ns = some k ∧ 0 < k) := by
  unfold condestParams
  cases p with
  | none =>
    cases rnd with
    | false => simp
    | true =>
      cases ns with
      | none => simp; exact ⟨fun h => h.symm, fun h => h.symm⟩
      | some s =>
        by_cases h : s ≤ 0
        · simp [h]; intro e; omega
        · simp [h]; intro e; omega
  | some q =>
    by_cases hq : q = 2
    · subst hq
      cases rnd with
      | false => simp
      | true =>
        cases ns with
        | none => simp; exact ⟨fun h => h.symm, fun h => h.symm⟩
        | some s =>
          by_cases h : s ≤ 0
          · simp [h]; intro e; omega
          · simp [h]; intro e; omega
    · simp [hq]

end Heat
