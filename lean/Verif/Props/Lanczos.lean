import Verif.Model.Lanczos
import Mathlib.LinearAlgebra.Matrix.Notation
import Mathlib.Tactic.Linarith
import Mathlib.Tactic.FieldSimp
import Mathlib.Tactic.FinCases
/-!
# The Lanczos algorithm (C127)
-/
namespace Heat
open Matrix

variable {n : Nat}

theorem lzOrth_zero {c : ℝ} {V : Nat → Fin n → ℝ} {i : Nat} {u : Fin n → ℝ} (h : ∀ j < i, u ⬝ᵥ V j = 0) : lzOrth c V i u = u := by
  induction i with
  | zero => rfl
  | succ i ih =>
    unfold lzOrth at ih ⊢
    rw [List.range_succ, List.foldl_append, ih (fun j hj => h j (by omega))]
    simp [h i (by omega)]

theorem lzOrth_dot {c : ℝ} (hc : c ≠ 0) {V : Nat → Fin n → ℝ} {i : Nat} (hV : ∀ a < i, ∀ b < i, V a ⬝ᵥ V b = if a = b then 1 else 0) (u : Fin n → ℝ) : ∀ j < i, lzOrth c V i u ⬝ᵥ V j = 0 := by
  induction i with
  | zero => intro j hj; omega
  | succ i ih =>
    intro j hj
    have e : lzOrth c V (i + 1) u = lzOrth c V i u - ((c * (lzOrth c V i u ⬝ᵥ V i)) / (c * (V i ⬝ᵥ V i))) • V i := by
      unfold lzOrth
      rw [List.range_succ, List.foldl_append]
      rfl
    have h1 := ih (fun a ha b hb => hV a (by omega) b (by omega))
    rw [e, sub_dotProduct, smul_dotProduct, smul_eq_mul, hV i (by omega) i (by omega), if_pos rfl, mul_one, mul_comm c, mul_div_assoc, div_self hc, mul_one]
    rcases Nat.lt_or_ge j i with h | h
    · rw [h1 j h, hV i (by omega) j hj, if_neg (by omega)]
      ring
    · have : j = i := by omega
      subst this
      rw [hV j hj j hj, if_pos rfl]
      ring

theorem lz_nonneg (v : Fin n → ℝ) : 0 ≤ v ⬝ᵥ v := Finset.sum_nonneg fun i _ => mul_self_nonneg _

theorem lz_unit {v : Fin n → ℝ} (h : Real.sqrt (v ⬝ᵥ v) ≠ 0) : ((1 / Real.sqrt (v ⬝ᵥ v)) • v) ⬝ᵥ ((1 / Real.sqrt (v ⬝ᵥ v)) • v) = 1 := by
  rw [smul_dotProduct, dotProduct_smul, smul_eq_mul, smul_eq_mul]
  have e := Real.mul_self_sqrt (lz_nonneg v)
  field_simp
  nlinarith

/-- What always holds of a state with `i + 1` vectors. -/
structure LzInv (i : Nat) (st : LzState n) : Prop where
  orth : ∀ a ≤ i, ∀ b ≤ i, st.V a ⬝ᵥ st.V b = if a = b then 1 else 0
  symm : ∀ a b, st.T a b = st.T b a
  tri : ∀ a b, a + 2 ≤ b → st.T a b = 0
  out : ∀ a b, i < b → st.T a b = 0

theorem lzStep_inv {A : Matrix (Fin n) (Fin n) ℝ} {rnd : Nat → Fin n → ℝ} {c : ℝ} (hc : c ≠ 0) {i : Nat} {st st' : LzState n} (inv : LzInv i st) (h : lzStep A rnd c st (i + 1) = some st') : LzInv (i + 1) st' := by
  unfold lzStep at h
  dsimp only at h
  generalize hvr : lzOrth c st.V (i + 1) (if |Real.sqrt (st.w ⬝ᵥ st.w)| < 1 / 10 ^ 10 then rnd (i + 1) else st.w) = vr at h
  split at h
  · cases h
  · rename_i hz
    simp only [Option.some.injEq] at h
    subst h
    have hd : ∀ j ≤ i, vr ⬝ᵥ st.V j = 0 := by
      intro j hj
      rw [← hvr]
      exact lzOrth_dot hc (fun a ha b hb => inv.orth a (by omega) b (by omega)) _ j (by omega)
    constructor
    · intro a ha b hb
      dsimp only
      by_cases h1 : a = i + 1
      · rw [if_pos h1]
        by_cases h2 : b = i + 1
        · rw [if_pos h2, if_pos (by omega), lz_unit hz]
        · rw [if_neg h2, if_neg (by omega), smul_dotProduct, hd b (by omega), smul_zero]
      · rw [if_neg h1]
        by_cases h2 : b = i + 1
        · rw [if_pos h2, if_neg (by omega), dotProduct_smul, dotProduct_comm (st.V a), hd a (by omega), smul_zero]
        · rw [if_neg h2]
          exact inv.orth a (by omega) b (by omega)
    · intro a b
      dsimp only
      by_cases h1 : a = i + 1 ∧ b = i + 1
      · rw [if_pos h1, if_pos ⟨h1.2, h1.1⟩]
      · have h1' : ¬ (b = i + 1 ∧ a = i + 1) := by omega
        by_cases h2 : (a + 1 = i + 1 ∧ b = i + 1) ∨ (a = i + 1 ∧ b + 1 = i + 1)
        · have h2' : (b + 1 = i + 1 ∧ a = i + 1) ∨ (b = i + 1 ∧ a + 1 = i + 1) := by omega
          rw [if_neg h1, if_pos h2, if_neg h1', if_pos h2']
        · have h2' : ¬ ((b + 1 = i + 1 ∧ a = i + 1) ∨ (b = i + 1 ∧ a + 1 = i + 1)) := by omega
          rw [if_neg h1, if_neg h2, if_neg h1', if_neg h2']
          exact inv.symm a b
    · intro a b hab
      dsimp only
      rw [if_neg (by omega), if_neg (by omega)]
      exact inv.tri a b hab
    · intro a b hb
      dsimp only
      rw [if_neg (by omega), if_neg (by omega)]
      exact inv.out a b (by omega)

theorem lzRun_inv {A : Matrix (Fin n) (Fin n) ℝ} {rnd : Nat → Fin n → ℝ} {c : ℝ} (hc : c ≠ 0) {v0 : Fin n → ℝ} (h0 : v0 ⬝ᵥ v0 = 1) (m : Nat) (st : LzState n) (h : lzRun A rnd c v0 m = some st) : LzInv m st := by
  induction m generalizing st with
  | zero =>
    simp only [lzRun, Option.some.injEq] at h
    subst h
    constructor
    · intro a ha b hb
      rw [if_pos (by omega)]
      exact h0
    · intro a b
      simp [lzInit, and_comm]
    · intro a b hab
      simp [lzInit]
      omega
    · intro a b hb
      simp [lzInit]
      omega
  | succ m ih =>
    rw [lzRun] at h
    obtain ⟨st1, e1, e2⟩ := Option.bind_eq_some_iff.1 h
    exact lzStep_inv hc (ih st1 e1) e2

/-- **C127**: whenever `lanczos` returns numbers, the columns of `V` are orthonormal and `T` is symmetric and tridiagonal, for every matrix and all random vectors, whether the data is distributed or not. -/
theorem lanczos_orthonormal (A : Matrix (Fin n) (Fin n) ℝ) (rnd : Nat → Fin n → ℝ) {c : ℝ} (hc : c ≠ 0) (v0 : Fin n → ℝ) (h0 : v0 ⬝ᵥ v0 = 1) (m : Nat) (st : LzState n) (h : lzRun A rnd c v0 m = some st) :
    (∀ a ≤ m, ∀ b ≤ m, st.V a ⬝ᵥ st.V b = if a = b then 1 else 0) ∧ (∀ a b, st.T a b = st.T b a) ∧ (∀ a b, a + 2 ≤ b → st.T a b = 0) := by
  have inv := lzRun_inv hc h0 m st h
  exact ⟨inv.orth, inv.symm, inv.tri⟩

/-- What holds of a state with `i + 1` vectors when the breakdowns are exact. -/
structure LzRel (A : Matrix (Fin n) (Fin n) ℝ) (i : Nat) (st : LzState n) : Prop where
  rel : ∀ j < i, A *ᵥ st.V j = st.T j (j + 1) • st.V (j + 1) + st.T j j • st.V j + (if j = 0 then 0 else st.T (j - 1) j • st.V (j - 1))
  last : A *ᵥ st.V i = st.w + st.T i i • st.V i + (if i = 0 then 0 else st.T (i - 1) i • st.V (i - 1))
  wdot : ∀ j ≤ i, st.w ⬝ᵥ st.V j = 0

theorem lzRun_rel {A : Matrix (Fin n) (Fin n) ℝ} (hs : Aᵀ = A) {rnd : Nat → Fin n → ℝ} {c : ℝ} (hc : c ≠ 0) {v0 : Fin n → ℝ} (h0 : v0 ⬝ᵥ v0 = 1) (m : Nat) (st : LzState n) (h : lzRun A rnd c v0 m = some st)
    (hb : ∀ i < m, st.T i (i + 1) < 1 / 10 ^ 10 → st.T i (i + 1) = 0) : LzRel A m st := by
  induction m generalizing st with
  | zero =>
    simp only [lzRun, Option.some.injEq] at h
    subst h
    constructor
    · intro j hj; omega
    · simp [lzInit]
    · intro j hj
      simp only [lzInit]
      rw [sub_dotProduct, smul_dotProduct, h0]
      simp
  | succ m ih =>
    rw [lzRun] at h
    obtain ⟨st1, e1, h⟩ := Option.bind_eq_some_iff.1 h
    have inv := lzRun_inv hc h0 m st1 e1
    unfold lzStep at h
    dsimp only at h
    generalize hvr : lzOrth c st1.V (m + 1) (if |Real.sqrt (st1.w ⬝ᵥ st1.w)| < 1 / 10 ^ 10 then rnd (m + 1) else st1.w) = vr at h
    split at h
    · cases h
    rename_i hz
    simp only [Option.some.injEq] at h
    subst h
    dsimp only at hb
    have Told : ∀ a ≤ m, ∀ b ≤ m, (if a = m + 1 ∧ b = m + 1 then (A *ᵥ ((1 / Real.sqrt (vr ⬝ᵥ vr)) • vr)) ⬝ᵥ ((1 / Real.sqrt (vr ⬝ᵥ vr)) • vr) else if (a + 1 = m + 1 ∧ b = m + 1) ∨ (a = m + 1 ∧ b + 1 = m + 1) then Real.sqrt (st1.w ⬝ᵥ st1.w) else st1.T a b) = st1.T a b := by
      intro a ha b hb
      rw [if_neg (by omega), if_neg (by omega)]
    have rel1 := ih st1 e1 (by
      intro i hi
      have := hb i (by omega)
      rwa [Told i (by omega) (i + 1) (by omega)] at this)
    have hbeta := hb m (by omega)
    rw [if_neg (by omega), if_pos (Or.inl ⟨rfl, rfl⟩)] at hbeta
    obtain ⟨be, hbe⟩ : ∃ be, be = Real.sqrt (st1.w ⬝ᵥ st1.w) := ⟨_, rfl⟩
    rw [← hbe] at hbeta hvr
    have hbe0 : 0 ≤ be := by rw [hbe]; exact Real.sqrt_nonneg _
    obtain ⟨vi, hvi⟩ : ∃ vi, vi = (1 / Real.sqrt (vr ⬝ᵥ vr)) • vr := ⟨_, rfl⟩
    have hw : st1.w = be • vi := by
      by_cases hlt : be < 1 / 10 ^ 10
      · have hz0 := hbeta hlt
        rw [hz0, zero_smul]
        rw [hz0] at hbe
        exact dotProduct_self_eq_zero.1 ((Real.sqrt_eq_zero (lz_nonneg _)).1 hbe.symm)
      · rw [abs_of_nonneg hbe0, if_neg hlt, lzOrth_zero (fun j hj => rel1.wdot j (by omega))] at hvr
        have hpos : 0 < be := lt_of_lt_of_le (by positivity) (not_lt.1 hlt)
        rw [hvi, ← hvr, ← hbe, smul_smul, mul_one_div_cancel hpos.ne', one_smul]
    have hdv : ∀ j ≤ m, vi ⬝ᵥ st1.V j = 0 := by
      intro j hj
      rw [hvi, ← hvr, smul_dotProduct, lzOrth_dot hc (fun a ha b hb => inv.orth a (by omega) b (by omega)) _ j (by omega), smul_zero]
    have hvv : vi ⬝ᵥ vi = 1 := by rw [hvi]; exact lz_unit hz
    rw [← hbe, ← hvi] at *
    have Vold : ∀ j ≤ m, (if j = m + 1 then vi else st1.V j) = st1.V j := by
      intro j hj
      rw [if_neg (by omega)]
    constructor
    · intro j hj
      dsimp only
      rw [Vold j (by omega), if_neg (show ¬ (j = m + 1 ∧ j + 1 = m + 1) by omega), if_neg (show ¬ (j = m + 1 ∧ j = m + 1) by omega), if_neg (show ¬ ((j + 1 = m + 1 ∧ j = m + 1) ∨ (j = m + 1 ∧ j + 1 = m + 1)) by omega)]
      have h3 : (if j = 0 then (0 : Fin n → ℝ) else (if j - 1 = m + 1 ∧ j = m + 1 then (A *ᵥ vi) ⬝ᵥ vi else if (j - 1 + 1 = m + 1 ∧ j = m + 1) ∨ (j - 1 = m + 1 ∧ j + 1 = m + 1) then be else st1.T (j - 1) j) • (if j - 1 = m + 1 then vi else st1.V (j - 1))) =
          if j = 0 then 0 else st1.T (j - 1) j • st1.V (j - 1) := by
        by_cases hj0 : j = 0
        · rw [if_pos hj0, if_pos hj0]
        · rw [if_neg hj0, if_neg hj0, if_neg (by omega), if_neg (by omega), if_neg (by omega)]
      rw [h3]
      rcases Nat.lt_or_ge j m with h1 | h1
      · rw [if_neg (by omega), if_neg (by omega)]
        exact rel1.rel j h1
      · have : j = m := by omega
        subst this
        rw [if_pos (by omega), if_pos rfl, rel1.last, hw]
    · dsimp only
      rw [if_pos rfl, if_pos ⟨rfl, rfl⟩, if_neg (by omega), if_neg (by omega), if_pos (by omega), if_neg (by omega), Nat.add_sub_cancel]
      abel
    · intro j hj
      dsimp only
      rw [Nat.add_sub_cancel, sub_dotProduct, sub_dotProduct, smul_dotProduct, smul_dotProduct]
      by_cases hjm : j = m + 1
      · rw [if_pos hjm, hvv, dotProduct_comm (st1.V m), hdv m (Nat.le_refl _)]
        simp
      · rw [if_neg hjm, hdv j (by omega)]
        have hsym : (A *ᵥ vi) ⬝ᵥ st1.V j = vi ⬝ᵥ (A *ᵥ st1.V j) := by
          rw [dotProduct_mulVec, ← mulVec_transpose, hs]
        rw [hsym]
        have hif : ∀ k, k ≤ m + 1 → vi ⬝ᵥ (if k = 0 then (0 : Fin n → ℝ) else st1.T (k - 1) k • st1.V (k - 1)) = 0 := by
          intro k hk
          split
          · simp
          · rw [dotProduct_smul, hdv (k - 1) (by omega), smul_zero]
        rcases Nat.lt_or_ge j m with h1 | h1
        · rw [rel1.rel j h1, dotProduct_add, dotProduct_add, hif j (by omega), dotProduct_smul, dotProduct_smul, hdv (j + 1) (by omega), hdv j (by omega), inv.orth m (Nat.le_refl _) j (by omega), if_neg (by omega)]
          simp
        · have : j = m := by omega
          subst this
          rw [rel1.last, dotProduct_add, dotProduct_add, hif j (by omega), hw, dotProduct_smul, dotProduct_smul, hvv, hdv j (by omega), inv.orth j (Nat.le_refl _) j (by omega), if_pos rfl]
          simp

/-- **C127** (`_partial`: a breakdown happens only with residual exactly zero): for a symmetric matrix `T` is the matrix of `A` on the columns of `V`: `Vᵀ A V = T`. -/
theorem lanczos_projection_partial (A : Matrix (Fin n) (Fin n) ℝ) (hs : Aᵀ = A) (rnd : Nat → Fin n → ℝ) {c : ℝ} (hc : c ≠ 0) (v0 : Fin n → ℝ) (h0 : v0 ⬝ᵥ v0 = 1) (m : Nat) (st : LzState n) (h : lzRun A rnd c v0 m = some st)
    (hb : ∀ i < m, st.T i (i + 1) < 1 / 10 ^ 10 → st.T i (i + 1) = 0) : ∀ a ≤ m, ∀ b ≤ m, st.V a ⬝ᵥ (A *ᵥ st.V b) = st.T a b := by
  have inv := lzRun_inv hc h0 m st h
  have rel := lzRun_rel hs hc h0 m st h hb
  have key : ∀ a ≤ m, ∀ b ≤ m, ∀ u : Fin n → ℝ, u ⬝ᵥ st.V a = (if a = b + 1 then st.T b (b + 1) else 0) →
      A *ᵥ st.V b = u + st.T b b • st.V b + (if b = 0 then 0 else st.T (b - 1) b • st.V (b - 1)) → st.V a ⬝ᵥ (A *ᵥ st.V b) = st.T a b := by
    intro a ha b hb u hu e
    rw [e, dotProduct_add, dotProduct_add, dotProduct_comm _ u, hu, dotProduct_smul, inv.orth a ha b hb]
    have h3 : st.V a ⬝ᵥ (if b = 0 then (0 : Fin n → ℝ) else st.T (b - 1) b • st.V (b - 1)) = if a + 1 = b then st.T a b else 0 := by
      by_cases hb0 : b = 0
      · rw [if_pos hb0, if_neg (by omega), dotProduct_zero]
      · rw [if_neg hb0, dotProduct_smul, inv.orth a ha (b - 1) (by omega)]
        by_cases h4 : a + 1 = b
        · rw [if_pos h4, if_pos (by omega), ← h4]
          simp
        · rw [if_neg h4, if_neg (by omega)]
          simp
    rw [h3]
    rcases Nat.lt_trichotomy a b with h1 | h1 | h1
    · rw [if_neg (by omega), if_neg (by omega)]
      by_cases h4 : a + 1 = b
      · rw [if_pos h4]; simp
      · rw [if_neg h4, inv.tri a b (by omega)]; simp
    · subst h1
      rw [if_neg (by omega), if_pos rfl, if_neg (by omega)]
      simp
    · rw [if_neg (show ¬ a = b by omega), if_neg (show ¬ a + 1 = b by omega)]
      by_cases h4 : a = b + 1
      · rw [if_pos h4, h4, inv.symm (b + 1) b]
        simp
      · rw [if_neg h4, inv.symm a b, inv.tri b a (by omega)]
        simp
  intro a ha b hb
  rcases Nat.lt_or_ge b m with h1 | h1
  · refine key a ha b hb (st.T b (b + 1) • st.V (b + 1)) ?_ (rel.rel b h1)
    rw [smul_dotProduct, inv.orth (b + 1) (by omega) a ha]
    by_cases h4 : a = b + 1
    · rw [if_pos h4, if_pos h4.symm]; simp
    · rw [if_neg h4, if_neg (Ne.symm h4)]; simp
  · have : b = m := by omega
    subst this
    refine key a ha b hb st.w ?_ rel.last
    rw [rel.wdot a ha, if_neg (by omega)]

/-- Two vectors for the matrix that swaps the coordinates: the hypotheses are met, on three processes with copies of the data. -/
example : ∃ st, lzRun !![0, 1; 1, 0] (fun _ => 0) 3 ![1, 0] 1 = some st ∧ st.T 0 1 = 1 := by
  have hw : (lzInit !![0, 1; 1, 0] ![1, 0]).w = ![0, 1] := by
    ext i
    fin_cases i <;> simp [lzInit, mulVec, dotProduct]
  have hd : (![0, 1] : Fin 2 → ℝ) ⬝ᵥ ![0, 1] = 1 := by simp [dotProduct]
  have ho : lzOrth 3 (lzInit !![0, 1; 1, 0] ![1, 0]).V 1 ![0, 1] = ![0, 1] := by
    apply lzOrth_zero
    intro j hj
    simp [lzInit, dotProduct]
  have e : lzStep !![0, 1; 1, 0] (fun _ => 0) 3 (lzInit !![0, 1; 1, 0] ![1, 0]) 1 ≠ none ∧ ∀ st, lzStep !![0, 1; 1, 0] (fun _ => 0) 3 (lzInit !![0, 1; 1, 0] ![1, 0]) 1 = some st → st.T 0 1 = 1 := by
    unfold lzStep
    dsimp only
    have hlt : ¬ |(1:ℝ)| < 1 / 10 ^ 10 := by rw [abs_one]; norm_num
    rw [hw, hd, Real.sqrt_one]
    simp only [if_neg hlt]
    rw [ho, hd, Real.sqrt_one, if_neg one_ne_zero]
    refine ⟨by simp, fun st h => ?_⟩
    simp only [Option.some.injEq] at h
    subst h
    simp
  obtain ⟨st, hst⟩ := Option.ne_none_iff_exists'.1 e.1
  exact ⟨st, by simp [lzRun, hst], e.2 st hst⟩

end Heat
