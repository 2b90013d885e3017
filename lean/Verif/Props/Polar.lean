import Verif.Model.Polar
import Verif.Props.Eigh
import Verif.Props.Hdf5
import Mathlib.LinearAlgebra.Lagrange
import Mathlib.Algebra.Polynomial.BigOperators
import Mathlib.Tactic.FieldSimp
import Mathlib.Tactic.Positivity
/-!
# C156: polar decomposition
-/
namespace Heat
open Matrix

/-- **C156, choice of r**: with at least two processes there always is one, and it is the largest admissible one. -/
theorem polarR_spec (P rmax : ℕ) (hP : 2 ≤ P) (hr : 1 ≤ rmax) :
    ∃ r, polarR P rmax = some r ∧ 1 ≤ r ∧ r ≤ rmax ∧ r ∣ P ∧ r < P ∧ ∀ r', 1 ≤ r' → r' ≤ rmax → r' ∣ P → r' < P → r' ≤ r := by
  unfold polarR
  induction rmax with
  | zero => omega
  | succ k ih =>
    rw [List.range_succ, List.reverse_append, List.reverse_singleton, List.singleton_append, List.map_cons, List.find?_cons]
    by_cases h : (P % (k + 1) == 0 && decide (P / (k + 1) > 1)) = true
    · rw [h]
      simp only [Bool.and_eq_true, beq_iff_eq, decide_eq_true_eq] at h
      refine ⟨k + 1, rfl, by omega, by omega, Nat.dvd_of_mod_eq_zero h.1, ?_, fun r' _ h2 _ _ => h2⟩
      by_contra hc
      have : P / (k + 1) ≤ 1 := by
        rw [Nat.div_le_iff_le_mul_add_pred (by omega)]; omega
      omega
    · have hf : (P % (k + 1) == 0 && decide (P / (k + 1) > 1)) = false := by simpa using h
      rw [hf]
      have hk : 1 ≤ k := by
        by_contra hk
        have : k = 0 := by omega
        subst this
        apply h
        simp; omega
      obtain ⟨r, e, a1, a2, a3, a4, a5⟩ := ih hk
      refine ⟨r, e, a1, by omega, a3, a4, ?_⟩
      intro r' b1 b2 b3 b4
      by_cases hr' : r' = k + 1
      · subst hr'
        exfalso; apply h
        simp only [Bool.and_eq_true, beq_iff_eq, decide_eq_true_eq]
        refine ⟨Nat.mod_eq_zero_of_dvd b3, ?_⟩
        obtain ⟨c, rfl⟩ := b3
        rw [Nat.mul_div_cancel_left _ (by omega)]
        by_contra hc
        have : c ≤ 1 := by omega
        have : (k + 1) * c ≤ (k + 1) * 1 := Nat.mul_le_mul_left _ this
        omega
      · exact a5 r' b1 (by omega) b3 b4

example : polarR 12 8 = some 6 ∧ polarR 7 8 = some 1 := by decide

theorem flatten_groups {α : Type} (loc : ℕ → List α) (V r : ℕ) :
    ((List.range V).map fun v => ((List.range r).map fun h => loc (v * r + h)).flatten).flatten = ((List.range (V * r)).map loc).flatten := by
  induction V with
  | zero => simp
  | succ V ih =>
    rw [List.range_succ, List.map_append, List.flatten_append, ih, Nat.succ_mul, List.range_add, List.map_append, List.flatten_append, List.map_map]
    congr 1
    simp
    rfl

/-- **C156, copies**: every vertical communicator carries the whole matrix, in the order of the slabs. -/
theorem polar_copy {α : Type} (P r : ℕ) (hr : r ∣ P) (hr0 : 0 < r) (loc : ℕ → List α) (rank : ℕ) :
    polarCopy P r loc rank = ((List.range P).map loc).flatten := by
  obtain ⟨V, rfl⟩ := hr
  unfold polarCopy polarCollected
  rw [Nat.mul_div_cancel_left _ hr0, Nat.mul_comm r V, ← flatten_groups]
  congr 1
  refine List.map_congr_left fun v _ => ?_
  have : (v * r + rank % r) / r = v := by
    rw [Nat.mul_comm, Nat.mul_add_div hr0, Nat.div_eq_of_lt (Nat.mod_lt _ hr0), Nat.add_zero]
  rw [this]

theorem slice_concat {α : Type} (part : List α) (r : ℕ) (m : ℕ) :
    ((List.range m).map fun h => (part.drop (polarDispl part.length r h)).take (polarCount part.length r h)).flatten =
      part.take (polarDispl part.length r m) := by
  induction m with
  | zero => simp [polarDispl]
  | succ m ih =>
    rw [List.range_succ, List.map_append, List.flatten_append, ih]
    have : polarDispl part.length r (m + 1) = polarDispl part.length r m + polarCount part.length r m := by
      unfold polarDispl; rw [List.range_succ, List.map_append, List.sum_append]; simp
    rw [this, List.take_add]
    simp

/-- **C156, result**: the slices taken by the processes make up the result, in the order of the ranks. -/
theorem polar_result {α : Type} (P r : ℕ) (hr : r ∣ P) (hr0 : 0 < r) (hP : 0 < P) (X : List α) :
    ((List.range P).map (polarSlice P r X)).flatten = X := by
  obtain ⟨V, rfl⟩ := hr
  have hV : 0 < V := Nat.pos_of_mul_pos_left (by rwa [Nat.mul_comm] at hP) |> fun h => by
    rcases Nat.eq_zero_or_pos V with h0 | h0
    · subst h0; simp at hP
    · exact h0
  unfold polarSlice
  rw [Nat.mul_div_cancel_left _ hr0, Nat.mul_comm r V]
  have := flatten_groups (fun rank => (polarSlice (r * V) r X rank)) V r
  unfold polarSlice at this
  rw [Nat.mul_div_cancel_left _ hr0] at this
  rw [← this]
  have e : ∀ v, ((List.range r).map fun h =>
      let part := (X.take (chunkRange X.length ((v * r + h) / r) V).2).drop (chunkRange X.length ((v * r + h) / r) V).1
      (part.drop (polarDispl part.length r ((v * r + h) % r))).take (polarCount part.length r ((v * r + h) % r))).flatten =
      (X.take (chunkRange X.length v V).2).drop (chunkRange X.length v V).1 := by
    intro v
    set part := (X.take (chunkRange X.length v V).2).drop (chunkRange X.length v V).1 with hpart
    have e1 : ((List.range r).map fun h =>
        let part := (X.take (chunkRange X.length ((v * r + h) / r) V).2).drop (chunkRange X.length ((v * r + h) / r) V).1
        (part.drop (polarDispl part.length r ((v * r + h) % r))).take (polarCount part.length r ((v * r + h) % r))) =
        (List.range r).map fun h => (part.drop (polarDispl part.length r h)).take (polarCount part.length r h) := by
      refine List.map_congr_left fun h hh => ?_
      have hh := List.mem_range.1 hh
      have d1 : (v * r + h) / r = v := by rw [Nat.mul_comm, Nat.mul_add_div hr0, Nat.div_eq_of_lt hh, Nat.add_zero]
      have d2 : (v * r + h) % r = h := by rw [Nat.mul_comm, Nat.mul_add_mod, Nat.mod_eq_of_lt hh]
      rw [d1, d2]
    rw [e1, slice_concat]
    apply List.take_of_length_le
    unfold polarDispl polarCount
    exact (share_sum part.length r hr0).ge
  have e2 := List.map_congr_left (l := List.range V) (fun v _ => e v)
  rw [e2]
  have hc := content_chunkParts X V hV V (Nat.le_refl _)
  rw [chunkRange_at_P _ _ hV, List.take_length] at hc
  exact hc

example : (List.range 4).map (polarSlice 4 2 [0, 1, 2, 3, 4, 5, 6]) = [[0, 1], [2, 3], [4, 5], [6]] := by decide

/-- **C156, counterexample**: the number of iterations does not grow with the condition number. -/
theorem zolo_its_violated : zoloIts 1 1000 < zoloIts 1 100 := by decide

/-- **C156, partial fractions**: the coefficients `a` are those for which the sum of the parts is the product. -/
theorem zolo_fractions (r : ℕ) (b d : ℕ → ℝ) (hd : ∀ i < r, ∀ j < r, d i = d j → i = j) (x : ℝ) (hx : ∀ j < r, x + d j ≠ 0) :
    1 + ∑ j ∈ Finset.range r, zoloA r b d j / (x + d j) = ∏ j ∈ Finset.range r, (x + b j) / (x + d j) := by
  classical
  let p : Polynomial ℝ := ∏ k ∈ Finset.range r, (Polynomial.X - Polynomial.C (-b k))
  let q : Polynomial ℝ := ∏ k ∈ Finset.range r, (Polynomial.X - Polynomial.C (-d k))
  have hinj : Set.InjOn (fun j => -d j) (Finset.range r : Set ℕ) := by
    intro i hi j hj h
    exact hd i (by simpa using hi) j (by simpa using hj) (neg_injective h)
  have hpm : p.Monic := Polynomial.monic_prod_of_monic _ _ fun _ _ => Polynomial.monic_X_sub_C _
  have hqm : q.Monic := Polynomial.monic_prod_of_monic _ _ fun _ _ => Polynomial.monic_X_sub_C _
  have hpd : p.degree = r := by rw [Polynomial.degree_prod]; simp
  have hqd : q.degree = r := by rw [Polynomial.degree_prod]; simp
  have hdeg : (p - q).degree < (Finset.range r).card := by
    rw [Finset.card_range, ← hpd]
    exact Polynomial.degree_sub_lt_left (by rw [hpd, hqd]) hpm.ne_zero (by rw [hpm.leadingCoeff, hqm.leadingCoeff])
  have hint := Lagrange.eq_interpolate hinj hdeg
  have hev := congrArg (Polynomial.eval x) hint
  rw [Lagrange.interpolate_apply, Polynomial.eval_finsetSum] at hev
  have hp : ∀ y, p.eval y = ∏ k ∈ Finset.range r, (y + b k) := by intro y; simp [p, Polynomial.eval_prod]
  have hq : ∀ y, q.eval y = ∏ k ∈ Finset.range r, (y + d k) := by intro y; simp [q, Polynomial.eval_prod]
  have hq0 : (∏ k ∈ Finset.range r, (x + d k)) ≠ 0 := Finset.prod_ne_zero_iff.2 fun k hk => hx k (Finset.mem_range.1 hk)
  rw [Finset.prod_div_distrib, eq_div_iff hq0, add_mul, one_mul, Finset.sum_mul]
  rw [Polynomial.eval_sub, hp, hq] at hev
  rw [eq_comm, ← sub_eq_iff_eq_add']
  rw [hev]
  refine Finset.sum_congr rfl fun j hj => ?_
  have hjr := Finset.mem_range.1 hj
  rw [Polynomial.eval_mul, Polynomial.eval_C, Polynomial.eval_sub, hp, hq]
  have z : ∏ k ∈ Finset.range r, (-d j + d k) = 0 := Finset.prod_eq_zero hj (by ring)
  rw [z, sub_zero, Lagrange.basis, Polynomial.eval_prod]
  have hb : ∀ k, (Lagrange.basisDivisor (-d j) (-d k)).eval x = (d k - d j)⁻¹ * (x + d k) := by
    intro k
    rw [Lagrange.basisDivisor, Polynomial.eval_mul, Polynomial.eval_C, Polynomial.eval_sub, Polynomial.eval_X, Polynomial.eval_C]
    congr 1 <;> ring
  simp only [hb]
  rw [Finset.prod_mul_distrib]
  have hsplit := Finset.mul_prod_erase (Finset.range r) (fun k => x + d k) hj
  rw [← hsplit]
  unfold zoloA
  have hcard : ((Finset.range r).erase j).card = r - 1 := by rw [Finset.card_erase_of_mem hj, Finset.card_range]
  have s1 : ∏ k ∈ Finset.range r, (-d j + b k) = (-1) ^ r * ∏ k ∈ Finset.range r, (d j - b k) := by
    rw [← Finset.card_range r, ← Finset.prod_const, Finset.card_range, ← Finset.prod_mul_distrib]
    exact Finset.prod_congr rfl fun k _ => by ring
  have s2 : ∏ k ∈ (Finset.range r).erase j, (d k - d j)⁻¹ = (-1) ^ (r - 1) * (∏ k ∈ (Finset.range r).erase j, (d j - d k))⁻¹ := by
    rw [← hcard, ← Finset.prod_const, ← Finset.prod_inv_distrib, ← Finset.prod_mul_distrib]
    refine Finset.prod_congr rfl fun k _ => ?_
    rw [show d k - d j = -(d j - d k) by ring, inv_neg]; ring
  rw [s1, s2]
  have hpow : (-1 : ℝ) ^ r * (-1) ^ (r - 1) = -1 := by
    rw [← pow_add]
    have : r + (r - 1) = 2 * (r - 1) + 1 := by omega
    rw [this, pow_succ, pow_mul]; norm_num
  have hxj := hx j hjr
  set E1 := ∏ k ∈ Finset.range r, (d j - b k)
  set E2 := ∏ k ∈ (Finset.range r).erase j, (d j - d k)
  set E3 := ∏ k ∈ (Finset.range r).erase j, (x + d k)
  have lhs : (-1 : ℝ) ^ r * E1 * ((-1) ^ (r - 1) * E2⁻¹ * E3) = -1 * (E1 * E2⁻¹ * E3) := by
    calc (-1 : ℝ) ^ r * E1 * ((-1) ^ (r - 1) * E2⁻¹ * E3) = ((-1 : ℝ) ^ r * (-1) ^ (r - 1)) * (E1 * E2⁻¹ * E3) := by ring
      _ = _ := by rw [hpow]
  rw [lhs]
  have : -E1 / E2 / (x + d j) * ((x + d j) * E3) = -1 * (E1 * E2⁻¹ * E3) := by
    calc -E1 / E2 / (x + d j) * ((x + d j) * E3) = -E1 / E2 * E3 * ((x + d j) * (x + d j)⁻¹) := by ring
      _ = _ := by rw [mul_inv_cancel₀ hxj]; ring
  rw [this]

section step
variable {m n : ℕ}

/-- One QR factorisation gives the resolvent. -/
theorem zolo_qr (X Q1 : Matrix (Fin m) (Fin n) ℝ) (Q2 R : RMat n) (c : ℝ) (hc : 0 < c) (h1 : X = Q1 * R)
    (h2 : Real.sqrt c • (1 : RMat n) = Q2 * R) (h3 : Q1ᵀ * Q1 + Q2ᵀ * Q2 = 1) :
    IsUnit (Xᵀ * X + c • (1 : RMat n)).det ∧ Q1 * Q2ᵀ = Real.sqrt c • (X * (Xᵀ * X + c • (1 : RMat n))⁻¹) := by
  have hs : 0 < Real.sqrt c := Real.sqrt_pos.2 hc
  have hG : Rᵀ * R = Xᵀ * X + c • (1 : RMat n) := by
    calc Rᵀ * R = Rᵀ * (Q1ᵀ * Q1 + Q2ᵀ * Q2) * R := by rw [h3, Matrix.mul_one]
      _ = (Q1 * R)ᵀ * (Q1 * R) + (Q2 * R)ᵀ * (Q2 * R) := by
        rw [transpose_mul, transpose_mul, Matrix.mul_add, Matrix.add_mul]; simp only [Matrix.mul_assoc]
      _ = Xᵀ * X + c • 1 := by
        rw [← h1, ← h2, transpose_smul, transpose_one, Matrix.smul_mul, Matrix.mul_smul, Matrix.one_mul, smul_smul, Real.mul_self_sqrt hc.le]
  have hi : ((Real.sqrt c)⁻¹ • Q2) * R = 1 := by
    rw [Matrix.smul_mul, ← h2, smul_smul, inv_mul_cancel₀ hs.ne', one_smul]
  have hi' : R * ((Real.sqrt c)⁻¹ • Q2) = 1 := mul_eq_one_comm.mp hi
  have hRQ : R * Q2 = Real.sqrt c • (1 : RMat n) := by
    rw [Matrix.mul_smul] at hi'
    rw [← hi', smul_smul, mul_inv_cancel₀ hs.ne', one_smul]
  have hdet : IsUnit R.det := by
    have := congrArg Matrix.det hi
    rw [det_mul, det_one] at this
    exact IsUnit.of_mul_eq_one _ (by rw [mul_comm]; exact this)
  have hdG : IsUnit (Xᵀ * X + c • (1 : RMat n)).det := by
    rw [← hG, det_mul, det_transpose]; exact hdet.mul hdet
  refine ⟨hdG, ?_⟩
  have e : Q1 * Q2ᵀ * (Xᵀ * X + c • (1 : RMat n)) = Real.sqrt c • X := by
    rw [← hG]
    calc Q1 * Q2ᵀ * (Rᵀ * R) = Q1 * (R * Q2)ᵀ * R := by rw [transpose_mul]; simp only [Matrix.mul_assoc]
      _ = _ := by rw [hRQ, transpose_smul, transpose_one, Matrix.mul_smul, Matrix.mul_one, Matrix.smul_mul, ← h1]
  calc Q1 * Q2ᵀ = Q1 * Q2ᵀ * ((Xᵀ * X + c • (1 : RMat n)) * (Xᵀ * X + c • (1 : RMat n))⁻¹) := by rw [mul_nonsing_inv _ hdG, Matrix.mul_one]
    _ = _ := by rw [← Matrix.mul_assoc, e, Matrix.smul_mul]

/-- **C156, one iteration** is the rational function of Zolotarev, the sum over the processes of a horizontal communicator. -/
theorem zolo_step (r : ℕ) (hr : 0 < r) (b d : ℕ → ℝ) (hd : ∀ j < r, 0 < d j) (X : Matrix (Fin m) (Fin n) ℝ) (Q1 : ℕ → Matrix (Fin m) (Fin n) ℝ)
    (Q2 R : ℕ → RMat n) (h1 : ∀ j < r, X = Q1 j * R j) (h2 : ∀ j < r, Real.sqrt (d j) • (1 : RMat n) = Q2 j * R j)
    (h3 : ∀ j < r, (Q1 j)ᵀ * Q1 j + (Q2 j)ᵀ * Q2 j = 1) :
    zoloStep r b d X Q1 Q2 = zoloM r b d • (X + ∑ j ∈ Finset.range r, zoloA r b d j • (X * (Xᵀ * X + d j • (1 : RMat n))⁻¹)) := by
  unfold zoloStep zoloPart
  rw [← Finset.smul_sum, Finset.sum_add_distrib, Finset.sum_const, Finset.card_range]
  congr 2
  · rw [← Nat.cast_smul_eq_nsmul ℝ, smul_smul, mul_one_div_cancel (by exact_mod_cast hr.ne'), one_smul]
  · refine Finset.sum_congr rfl fun j hj => ?_
    have hj := Finset.mem_range.1 hj
    rw [(zolo_qr X (Q1 j) (Q2 j) (R j) (d j) (hd j hj) (h1 j hj) (h2 j hj) (h3 j hj)).2, smul_smul,
      div_mul_cancel₀ _ (Real.sqrt_pos.2 (hd j hj)).ne']

theorem svd_gram (W : Matrix (Fin m) (Fin n) ℝ) (Z : RMat n) (s : Fin n → ℝ) (hW : Wᵀ * W = 1) (hZ : Zᵀ * Z = 1) (c : ℝ) :
    (W * Matrix.diagonal s * Zᵀ)ᵀ * (W * Matrix.diagonal s * Zᵀ) + c • (1 : RMat n) = Z * Matrix.diagonal (fun i => s i ^ 2 + c) * Zᵀ := by
  have hZ' : Z * Zᵀ = 1 := mul_eq_one_comm.mp hZ
  have e1 : (W * Matrix.diagonal s * Zᵀ)ᵀ * (W * Matrix.diagonal s * Zᵀ) = Z * Matrix.diagonal (fun i => s i ^ 2) * Zᵀ := by
    rw [transpose_mul, transpose_mul, transpose_transpose, diagonal_transpose]
    calc Z * (Matrix.diagonal s * Wᵀ) * (W * Matrix.diagonal s * Zᵀ) = Z * Matrix.diagonal s * (Wᵀ * W) * Matrix.diagonal s * Zᵀ := by simp only [Matrix.mul_assoc]
      _ = Z * (Matrix.diagonal s * Matrix.diagonal s) * Zᵀ := by rw [hW, Matrix.mul_one]; simp only [Matrix.mul_assoc]
      _ = _ := by rw [diagonal_mul_diagonal]; simp only [sq]
  have e2 : c • (1 : RMat n) = Z * Matrix.diagonal (fun _ => c) * Zᵀ := by
    have : Matrix.diagonal (fun _ : Fin n => c) = c • (1 : RMat n) := by ext i j; by_cases h : i = j <;> simp [h, one_apply]
    rw [this, Matrix.mul_smul, Matrix.mul_one, Matrix.smul_mul, hZ']
  rw [e1, e2, ← Matrix.add_mul, ← Matrix.mul_add, diagonal_add]

/-- **C156**: one iteration keeps the singular vectors and applies to the singular values the function by which `ell` is updated. -/
theorem zolo_svd (r : ℕ) (hr : 0 < r) (b d : ℕ → ℝ) (hd : ∀ j < r, 0 < d j) (hinj : ∀ i < r, ∀ j < r, d i = d j → i = j)
    (W : Matrix (Fin m) (Fin n) ℝ) (Z : RMat n) (s : Fin n → ℝ) (hW : Wᵀ * W = 1) (hZ : Zᵀ * Z = 1) (Q1 : ℕ → Matrix (Fin m) (Fin n) ℝ)
    (Q2 R : ℕ → RMat n) (h1 : ∀ j < r, W * Matrix.diagonal s * Zᵀ = Q1 j * R j) (h2 : ∀ j < r, Real.sqrt (d j) • (1 : RMat n) = Q2 j * R j)
    (h3 : ∀ j < r, (Q1 j)ᵀ * Q1 j + (Q2 j)ᵀ * Q2 j = 1) :
    zoloStep r b d (W * Matrix.diagonal s * Zᵀ) Q1 Q2 = W * Matrix.diagonal (fun i => zoloEll r b d (s i)) * Zᵀ := by
  have hZ' : Z * Zᵀ = 1 := mul_eq_one_comm.mp hZ
  rw [zolo_step r hr b d hd _ Q1 Q2 R h1 h2 h3]
  have hinv : ∀ j < r, (W * Matrix.diagonal s * Zᵀ) * ((W * Matrix.diagonal s * Zᵀ)ᵀ * (W * Matrix.diagonal s * Zᵀ) + d j • (1 : RMat n))⁻¹ =
      W * Matrix.diagonal (fun i => s i / (s i ^ 2 + d j)) * Zᵀ := by
    intro j hj
    have hpos : ∀ i, s i ^ 2 + d j ≠ 0 := fun i => by have := hd j hj; positivity
    have : (Z * Matrix.diagonal (fun i => s i ^ 2 + d j) * Zᵀ)⁻¹ = Z * Matrix.diagonal (fun i => (s i ^ 2 + d j)⁻¹) * Zᵀ := by
      apply inv_eq_right_inv
      calc Z * Matrix.diagonal (fun i => s i ^ 2 + d j) * Zᵀ * (Z * Matrix.diagonal (fun i => (s i ^ 2 + d j)⁻¹) * Zᵀ) =
          Z * (Matrix.diagonal (fun i => s i ^ 2 + d j) * (Zᵀ * Z) * Matrix.diagonal (fun i => (s i ^ 2 + d j)⁻¹)) * Zᵀ := by simp only [Matrix.mul_assoc]
        _ = 1 := by
          rw [hZ, Matrix.mul_one, diagonal_mul_diagonal]
          simp only [mul_inv_cancel₀ (hpos _)]
          rw [diagonal_one, Matrix.mul_one, hZ']
    rw [svd_gram W Z s hW hZ, this]
    calc W * Matrix.diagonal s * Zᵀ * (Z * Matrix.diagonal (fun i => (s i ^ 2 + d j)⁻¹) * Zᵀ) = W * (Matrix.diagonal s * (Zᵀ * Z) * Matrix.diagonal (fun i => (s i ^ 2 + d j)⁻¹)) * Zᵀ := by
          simp only [Matrix.mul_assoc]
      _ = _ := by rw [hZ, Matrix.mul_one, diagonal_mul_diagonal]; simp only [div_eq_mul_inv]
  have hsum : ∑ j ∈ Finset.range r, zoloA r b d j • ((W * Matrix.diagonal s * Zᵀ) * ((W * Matrix.diagonal s * Zᵀ)ᵀ * (W * Matrix.diagonal s * Zᵀ) + d j • (1 : RMat n))⁻¹) =
      W * Matrix.diagonal (fun i => s i * ∑ j ∈ Finset.range r, zoloA r b d j / (s i ^ 2 + d j)) * Zᵀ := by
    rw [Finset.sum_congr rfl fun j hj => by rw [hinv j (Finset.mem_range.1 hj)]]
    have : Matrix.diagonal (fun i => s i * ∑ j ∈ Finset.range r, zoloA r b d j / (s i ^ 2 + d j)) =
        ∑ j ∈ Finset.range r, zoloA r b d j • Matrix.diagonal (fun i => s i / (s i ^ 2 + d j)) := by
      ext i k
      rw [Matrix.sum_apply]
      by_cases hik : i = k
      · subst hik
        simp only [diagonal_apply_eq, Matrix.smul_apply, smul_eq_mul, Finset.mul_sum]
        exact Finset.sum_congr rfl fun j _ => by ring
      · simp [hik]
    rw [this, Matrix.mul_sum, Matrix.sum_mul]
    exact Finset.sum_congr rfl fun j _ => by rw [Matrix.mul_smul, Matrix.smul_mul]
  rw [hsum, ← Matrix.add_mul, ← Matrix.mul_add, diagonal_add, ← Matrix.smul_mul, ← Matrix.mul_smul, ← diagonal_smul]
  congr 3
  funext i
  simp only [Pi.smul_apply, smul_eq_mul]
  unfold zoloEll
  rw [← zolo_fractions r b d hinj (s i ^ 2) (fun j hj => by have := hd j hj; positivity)]
  ring

/-- The function that is applied to the singular values in the whole loop. -/
noncomputable def zoloAll (r : ℕ) (cs : List ((ℕ → ℝ) × (ℕ → ℝ))) (s : ℝ) : ℝ := cs.foldl (fun t c => zoloEll r c.1 c.2 t) s

theorem zolo_run (r : ℕ) (hr : 0 < r) (cs : List ((ℕ → ℝ) × (ℕ → ℝ))) (hd : ∀ c ∈ cs, ∀ j < r, 0 < c.2 j)
    (hinj : ∀ c ∈ cs, ∀ i < r, ∀ j < r, c.2 i = c.2 j → i = j) (W : Matrix (Fin m) (Fin n) ℝ) (Z : RMat n) (hW : Wᵀ * W = 1) (hZ : Zᵀ * Z = 1)
    (s : Fin n → ℝ) (Y : Matrix (Fin m) (Fin n) ℝ) (h : ZoloRun r cs (W * Matrix.diagonal s * Zᵀ) Y) : Y = W * Matrix.diagonal (fun i => zoloAll r cs (s i)) * Zᵀ := by
  induction cs generalizing s with
  | nil => cases h; rfl
  | cons c cs ih =>
    cases h with
    | step b d _ _ _ Q1 Q2 R h1 h2 h3 h4 =>
      rw [zolo_svd r hr b d (hd _ List.mem_cons_self) (hinj _ List.mem_cons_self) W Z s hW hZ Q1 Q2 R h1 h2 h3] at h4
      exact ih (fun c hc => hd c (List.mem_cons_of_mem _ hc)) (fun c hc => hinj c (List.mem_cons_of_mem _ hc)) _ h4

/-- 1 is a fixed point: orthogonal matrices are not changed. -/
theorem zolo_one (r : ℕ) (b d : ℕ → ℝ) (hb : ∀ j < r, 0 < b j) (hd : ∀ j < r, 0 < d j) : zoloEll r b d 1 = 1 := by
  unfold zoloEll zoloM
  rw [mul_one, ← Finset.prod_mul_distrib]
  refine Finset.prod_eq_one fun j hj => ?_
  have h1 := hb j (Finset.mem_range.1 hj)
  have h2 := hd j (Finset.mem_range.1 hj)
  field_simp

theorem zolo_pos (r : ℕ) (b d : ℕ → ℝ) (hb : ∀ j < r, 0 < b j) (hd : ∀ j < r, 0 < d j) (s : ℝ) (hs : 0 < s) : 0 < zoloEll r b d s := by
  unfold zoloEll zoloM
  refine mul_pos (Finset.prod_pos fun j hj => ?_) (mul_pos (Finset.prod_pos fun j hj => ?_) hs)
  · have h1 := hb j (Finset.mem_range.1 hj); have h2 := hd j (Finset.mem_range.1 hj); positivity
  · have h1 := hb j (Finset.mem_range.1 hj); have h2 := hd j (Finset.mem_range.1 hj); positivity

theorem zoloAll_pos (r : ℕ) (cs : List ((ℕ → ℝ) × (ℕ → ℝ))) (hb : ∀ c ∈ cs, ∀ j < r, 0 < c.1 j) (hd : ∀ c ∈ cs, ∀ j < r, 0 < c.2 j) (s : ℝ)
    (hs : 0 < s) : 0 < zoloAll r cs s := by
  induction cs generalizing s with
  | nil => exact hs
  | cons c cs ih =>
    exact ih (fun c hc => hb c (List.mem_cons_of_mem _ hc)) (fun c hc => hd c (List.mem_cons_of_mem _ hc)) _
      (zolo_pos r c.1 c.2 (hb _ List.mem_cons_self) (hd _ List.mem_cons_self) s hs)

/-- **C156, polar decomposition.**  For every matrix `A = W diag(s) Zᵀ` with positive singular values, every number of processes and iterations:
`polar` returns `U = W diag(t) Zᵀ`, where `t` are the images of the scaled singular values; `H` is symmetric, positive semidefinite and equal to
`Uᵀ A`; and if the iterations have carried all singular values to 1 then `U` has orthonormal columns and `A = U H`. -/
theorem polar_partial (r : ℕ) (hr : 0 < r) (cs : List ((ℕ → ℝ) × (ℕ → ℝ))) (hb : ∀ c ∈ cs, ∀ j < r, 0 < c.1 j) (hd : ∀ c ∈ cs, ∀ j < r, 0 < c.2 j)
    (hinj : ∀ c ∈ cs, ∀ i < r, ∀ j < r, c.2 i = c.2 j → i = j) (W : Matrix (Fin m) (Fin n) ℝ) (Z : RMat n) (hW : Wᵀ * W = 1) (hZ : Zᵀ * Z = 1)
    (s : Fin n → ℝ) (hs : ∀ i, 0 < s i) (alpha : ℝ) (ha : 0 < alpha) (U : Matrix (Fin m) (Fin n) ℝ)
    (h : ZoloRun r cs ((1 / alpha) • (W * Matrix.diagonal s * Zᵀ)) U) :
    U = W * Matrix.diagonal (fun i => zoloAll r cs (s i / alpha)) * Zᵀ ∧ (polarH U (W * Matrix.diagonal s * Zᵀ)).PosSemidef ∧
    polarH U (W * Matrix.diagonal s * Zᵀ) = Uᵀ * (W * Matrix.diagonal s * Zᵀ) ∧
    ((∀ i, zoloAll r cs (s i / alpha) = 1) → Uᵀ * U = 1 ∧ W * Matrix.diagonal s * Zᵀ = U * polarH U (W * Matrix.diagonal s * Zᵀ)) := by
  have hZ' : Z * Zᵀ = 1 := mul_eq_one_comm.mp hZ
  have e0 : (1 / alpha) • (W * Matrix.diagonal s * Zᵀ) = W * Matrix.diagonal (fun i => s i / alpha) * Zᵀ := by
    rw [← Matrix.smul_mul, ← Matrix.mul_smul, ← diagonal_smul]
    congr 3
    funext i; simp only [Pi.smul_apply, smul_eq_mul]; ring
  rw [e0] at h
  have hU := zolo_run r hr cs hd hinj W Z hW hZ _ U h
  set t := fun i => zoloAll r cs (s i / alpha) with ht
  have hUA : Uᵀ * (W * Matrix.diagonal s * Zᵀ) = Z * Matrix.diagonal (fun i => t i * s i) * Zᵀ := by
    rw [hU, transpose_mul, transpose_mul, transpose_transpose, diagonal_transpose]
    calc Z * (Matrix.diagonal t * Wᵀ) * (W * Matrix.diagonal s * Zᵀ) = Z * (Matrix.diagonal t * (Wᵀ * W) * Matrix.diagonal s) * Zᵀ := by simp only [Matrix.mul_assoc]
      _ = _ := by rw [hW, Matrix.mul_one, diagonal_mul_diagonal]
  have hsym : (Uᵀ * (W * Matrix.diagonal s * Zᵀ))ᵀ = Uᵀ * (W * Matrix.diagonal s * Zᵀ) := by
    rw [hUA, transpose_mul, transpose_mul, transpose_transpose, diagonal_transpose, Matrix.mul_assoc]
  have hH : polarH U (W * Matrix.diagonal s * Zᵀ) = Uᵀ * (W * Matrix.diagonal s * Zᵀ) := by
    unfold polarH
    rw [hsym, ← two_smul ℝ, smul_smul]; norm_num
  refine ⟨hU, ?_, hH, ?_⟩
  · rw [hH, hUA]
    have hp : (Matrix.diagonal (fun i => t i * s i)).PosSemidef := PosSemidef.diagonal fun i =>
      (mul_pos (zoloAll_pos r cs hb hd _ (div_pos (hs i) ha)) (hs i)).le
    have := hp.mul_mul_conjTranspose_same Z
    rwa [ct_eq] at this
  · intro h1
    have ht1 : t = fun _ => 1 := funext h1
    have hU1 : U = W * Zᵀ := by
      rw [hU, ht1, diagonal_one, Matrix.mul_one]
    refine ⟨?_, ?_⟩
    · rw [hU1, transpose_mul, transpose_transpose]
      calc Z * Wᵀ * (W * Zᵀ) = Z * (Wᵀ * W) * Zᵀ := by simp only [Matrix.mul_assoc]
        _ = 1 := by rw [hW, Matrix.mul_one, hZ']
    · rw [hH, hUA, hU1, ht1]
      simp only [one_mul]
      calc W * Matrix.diagonal s * Zᵀ = W * (Zᵀ * Z) * Matrix.diagonal s * Zᵀ := by rw [hZ, Matrix.mul_one]
        _ = _ := by simp only [Matrix.mul_assoc]

end step

/-- **C156 and C155**: a converged `polar` keeps the promise on which `eigh` relies. -/
theorem polar_factor_partial {n : ℕ} (r : ℕ) (hr : 0 < r) (cs : List ((ℕ → ℝ) × (ℕ → ℝ))) (hb : ∀ c ∈ cs, ∀ j < r, 0 < c.1 j)
    (hd : ∀ c ∈ cs, ∀ j < r, 0 < c.2 j) (hinj : ∀ c ∈ cs, ∀ i < r, ∀ j < r, c.2 i = c.2 j → i = j) (B W Z : RMat n) (hW : Wᵀ * W = 1)
    (hZ : Zᵀ * Z = 1) (s : Fin n → ℝ) (hs : ∀ i, 0 < s i) (hB : B = W * Matrix.diagonal s * Zᵀ) (alpha : ℝ) (ha : 0 < alpha) (U : RMat n)
    (h : ZoloRun r cs ((1 / alpha) • B) U) (h1 : ∀ i, zoloAll r cs (s i / alpha) = 1) : PolarFactor U B := by
  subst hB
  obtain ⟨_, p, e, g⟩ := polar_partial r hr cs hb hd hinj W Z hW hZ s hs alpha ha U h
  exact ⟨(g h1).1, by rw [← e]; exact p⟩

/-- The hypotheses are met, with an iteration that is not the identity on all singular values. -/
example : ∃ U : RMat 1, ZoloRun 1 [(fun _ => 1, fun _ => 16 / 9)] ((1 / 2 : ℝ) • ((1 : RMat 1) * Matrix.diagonal (fun _ => 2) * (1 : RMat 1)ᵀ)) U ∧
    zoloAll 1 [(fun _ => 1, fun _ => 16 / 9)] (2 / 2) = 1 ∧ zoloAll 1 [(fun _ => 1, fun _ => 16 / 9)] (1 / 2) ≠ 1 / 2 := by
  have e : (1 / 2 : ℝ) • ((1 : RMat 1) * Matrix.diagonal (fun _ => 2) * (1 : RMat 1)ᵀ) = 1 := by
    ext i j; fin_cases i; fin_cases j; simp
  have hs : Real.sqrt (16 / 9) = 4 / 3 := by
    rw [show (16 / 9 : ℝ) = (4 / 3) ^ 2 by norm_num]; exact Real.sqrt_sq (by norm_num)
  refine ⟨_, ZoloRun.step (fun _ => 1) (fun _ => 16 / 9) [] _ _ (fun _ => (3 / 5 : ℝ) • 1) (fun _ => (4 / 5 : ℝ) • 1) (fun _ => (5 / 3 : ℝ) • 1)
    ?_ ?_ ?_ (ZoloRun.done _), ?_, ?_⟩
  · intro j _; rw [e]; ext i j; fin_cases i; fin_cases j; simp
  · intro j _; rw [hs]; ext i j; fin_cases i; fin_cases j; simp
  · intro j _; ext i j; fin_cases i; fin_cases j; simp; norm_num
  · rw [show (2 / 2 : ℝ) = 1 by norm_num]
    exact zolo_one 1 _ _ (fun _ _ => by norm_num) (fun _ _ => by norm_num)
  · simp [zoloAll, zoloEll, zoloM]; norm_num

end Heat
