import Verif.Model.Lasso
import Verif.Props.KCluster
import Mathlib.Data.List.FinRange
import Mathlib.Algebra.Order.Ring.Abs
import Mathlib.Algebra.BigOperators.Field
/-!
# C109: Lasso
-/
namespace Heat
open Heat.Spec
variable {𝕜 : Type} [Field 𝕜] [LinearOrder 𝕜] [IsStrictOrderedRing 𝕜] {n : Nat}

/-- Feature `j` is normalised: the mean of its squares is 1. -/
def Normalised (samples : List ((Fin n → 𝕜) × 𝕜)) (j : Fin n) : Prop := (samples.map fun s => s.1 j ^ 2).sum = (samples.length : 𝕜)

theorem lassoRho_eq (P : Nat) (d : Nat → List ((Fin n → 𝕜) × 𝕜)) (theta : Fin n → 𝕜) (j : Fin n) :
    lassoRho P d theta j = ((content P d).map fun s => s.1 j * (s.2 - innerProd s.1 theta + theta j * s.1 j)).sum / ((content P d).length : 𝕜) := by
  unfold lassoRho
  rw [sum_content (fun s : (Fin n → 𝕜) × 𝕜 => s.1 j * (s.2 - innerProd s.1 theta + theta j * s.1 j)), ← content_length_sum]

/-- The soft threshold minimises the one-dimensional problem. -/
theorem softThreshold_min (lam rho t : 𝕜) (hlam : 0 ≤ lam) :
    softThreshold lam rho ^ 2 / 2 - softThreshold lam rho * rho + lam * |softThreshold lam rho| ≤ t ^ 2 / 2 - t * rho + lam * |t| := by
  unfold softThreshold
  split
  · rename_i h
    have h1 : |rho + lam| = -(rho + lam) := abs_of_neg (by linarith)
    have h2 : lam * (-t) ≤ lam * |t| := mul_le_mul_of_nonneg_left (neg_le_abs t) hlam
    rw [h1]
    nlinarith [sq_nonneg (t - (rho + lam))]
  · split
    · rename_i h
      have h1 : |rho - lam| = rho - lam := abs_of_pos (by linarith)
      have h2 : lam * t ≤ lam * |t| := mul_le_mul_of_nonneg_left (le_abs_self t) hlam
      rw [h1]
      nlinarith [sq_nonneg (t - (rho - lam))]
    · rename_i h1 h2
      have h3 : t * rho ≤ |t| * |rho| := by rw [← abs_mul]; exact le_abs_self _
      have h4 : |rho| ≤ lam := abs_le.2 ⟨by linarith, by linarith⟩
      have h5 : |t| * |rho| ≤ |t| * lam := mul_le_mul_of_nonneg_left h4 (abs_nonneg t)
      have h6 := sq_nonneg t
      simp only [abs_zero]
      nlinarith

/-- `w` with coordinate `j` replaced. -/
def setCoord (w : Fin n → 𝕜) (j : Fin n) (t : 𝕜) : Fin n → 𝕜 := fun i => if i = j then t else w i

theorem innerProd_setCoord (x w : Fin n → 𝕜) (j : Fin n) (t : 𝕜) : innerProd x (setCoord w j t) = innerProd x w - w j * x j + t * x j := by
  unfold innerProd setCoord
  have h1 : (∑ i, x i * (if i = j then t else w i)) = ∑ i, (x i * w i + if i = j then x j * (t - w j) else 0) := by
    refine Finset.sum_congr rfl fun i _ => ?_
    by_cases h : i = j
    · subst h; simp; ring
    · simp [h]
  rw [h1, Finset.sum_add_distrib, Finset.sum_ite_eq' Finset.univ j, if_pos (Finset.mem_univ j)]
  ring

theorem penalty_setCoord (w : Fin n → 𝕜) (j : Fin n) (t : 𝕜) :
    (∑ i : Fin n, if i.val = 0 then 0 else |setCoord w j t i|) = (∑ i : Fin n, if i.val = 0 then 0 else |w i|) + (if j.val = 0 then 0 else |t| - |w j|) := by
  have h1 : (∑ i : Fin n, if i.val = 0 then (0 : 𝕜) else |setCoord w j t i|) = ∑ i : Fin n, ((if i.val = 0 then 0 else |w i|) + if i = j then (if j.val = 0 then 0 else |t| - |w j|) else 0) := by
    refine Finset.sum_congr rfl fun i _ => ?_
    unfold setCoord
    by_cases h : i = j
    · subst h; by_cases h0 : i.val = 0 <;> simp [h0]
    · simp [h]
  rw [h1, Finset.sum_add_distrib, Finset.sum_ite_eq' Finset.univ j, if_pos (Finset.mem_univ j)]

/-- The objective as a function of one normalised coordinate. -/
theorem objective_coord (lam : 𝕜) (P : Nat) (d : Nat → List ((Fin n → 𝕜) × 𝕜)) (hne : content P d ≠ []) (w : Fin n → 𝕜) (j : Fin n) (hj : Normalised (content P d) j) :
    ∃ C : 𝕜, ∀ t, lassoObjective lam (content P d) (setCoord w j t) = C + (t ^ 2 / 2 - t * lassoRho P d w j + (if j.val = 0 then 0 else lam) * |t|) := by
  have hm : ((content P d).length : 𝕜) ≠ 0 := by
    rw [Nat.cast_ne_zero]; exact fun h => hne (List.length_eq_zero_iff.1 h)
  refine ⟨((content P d).map fun s => (s.2 - innerProd s.1 w + w j * s.1 j) ^ 2).sum / (2 * ((content P d).length : 𝕜)) + lam * ((∑ i : Fin n, if i.val = 0 then 0 else |w i|) - if j.val = 0 then 0 else |w j|), fun t => ?_⟩
  have hsum : ((content P d).map fun s => (s.2 - innerProd s.1 (setCoord w j t)) ^ 2).sum = ((content P d).map fun s => (s.2 - innerProd s.1 w + w j * s.1 j) ^ 2).sum
      - 2 * t * ((content P d).map fun s => s.1 j * (s.2 - innerProd s.1 w + w j * s.1 j)).sum + t ^ 2 * ((content P d).map fun s => s.1 j ^ 2).sum := by
    simp only [innerProd_setCoord]
    generalize content P d = l
    induction l with
    | nil => simp
    | cons s u ih => simp only [List.map_cons, List.sum_cons, ih]; ring
  unfold lassoObjective
  rw [hsum, hj, penalty_setCoord, lassoRho_eq]
  by_cases h0 : j.val = 0
  · simp only [h0, if_true]
    field_simp
    ring
  · simp only [h0, if_false]
    field_simp
    ring

theorem lassoCoord_eq (lam : 𝕜) (P : Nat) (d : Nat → List ((Fin n → 𝕜) × 𝕜)) (w : Fin n → 𝕜) (j : Fin n) :
    lassoCoord lam P d w j = setCoord w j (if j.val = 0 then lassoRho P d w j else softThreshold lam (lassoRho P d w j)) := rfl

/-- C109, one coordinate: for a normalised feature the update minimises the objective along that coordinate. -/
theorem lasso_coordinate_partial (lam : 𝕜) (hlam : 0 ≤ lam) (P : Nat) (d : Nat → List ((Fin n → 𝕜) × 𝕜)) (hne : content P d ≠ []) (w : Fin n → 𝕜) (j : Fin n) (hj : Normalised (content P d) j) (t : 𝕜) :
    lassoObjective lam (content P d) (lassoCoord lam P d w j) ≤ lassoObjective lam (content P d) (setCoord w j t) := by
  obtain ⟨C, hC⟩ := objective_coord lam P d hne w j hj
  rw [lassoCoord_eq, hC, hC]
  refine add_le_add (le_refl _) ?_
  by_cases h0 : j.val = 0
  · simp only [h0, if_true, zero_mul, add_zero]
    nlinarith [sq_nonneg (t - lassoRho P d w j)]
  · simp only [h0, if_false]
    exact softThreshold_min lam _ t hlam

theorem setCoord_self (w : Fin n → 𝕜) (j : Fin n) : setCoord w j (w j) = w := by
  funext i; unfold setCoord; split <;> simp_all

theorem lassoSweep_le (lam : 𝕜) (hlam : 0 ≤ lam) (P : Nat) (d : Nat → List ((Fin n → 𝕜) × 𝕜)) (hne : content P d ≠ []) (hn : ∀ j, Normalised (content P d) j) (w : Fin n → 𝕜) :
    lassoObjective lam (content P d) (lassoSweep lam P d w) ≤ lassoObjective lam (content P d) w := by
  unfold lassoSweep
  generalize List.finRange n = js
  induction js generalizing w with
  | nil => exact le_refl _
  | cons j t ih =>
    rw [List.foldl_cons]
    refine le_trans (ih _) ?_
    have := lasso_coordinate_partial lam hlam P d hne w j (hn j) (w j)
    rwa [setCoord_self] at this

theorem lassoLoop_le (lam : 𝕜) (hlam : 0 ≤ lam) (small : (Fin n → 𝕜) → (Fin n → 𝕜) → Bool) (P : Nat) (d : Nat → List ((Fin n → 𝕜) × 𝕜)) (hne : content P d ≠ []) (hn : ∀ j, Normalised (content P d) j) :
    ∀ (k : Nat) (w : Fin n → 𝕜) (i : Nat), lassoObjective lam (content P d) (lassoLoop lam small P d k w i).1 ≤ lassoObjective lam (content P d) w ∧ (lassoLoop lam small P d k w i).2 ≤ i + k ∧
      ((lassoLoop lam small P d k w i).2 < i + k → ∃ old, (lassoLoop lam small P d k w i).1 = lassoSweep lam P d old ∧ small (lassoLoop lam small P d k w i).1 old = true)
  | 0, w, i => ⟨le_refl _, Nat.le_refl _, fun h => absurd h (Nat.lt_irrefl _)⟩
  | k + 1, w, i => by
    unfold lassoLoop
    dsimp only
    have hs := lassoSweep_le lam hlam P d hne hn w
    split
    · rename_i h
      exact ⟨hs, by omega, fun _ => ⟨w, rfl, h⟩⟩
    · obtain ⟨h1, h2, h3⟩ := lassoLoop_le lam hlam small P d hne hn k (lassoSweep lam P d w) (i + 1)
      exact ⟨le_trans h1 hs, by omega, fun h => h3 (by omega)⟩

/-- C109, `fit` on normalised features: the objective of the result is not larger than that of zero coefficients, and it stops after at most `max_iter` iterations, earlier only if the test says that the last sweep changed the coefficients by less than the tolerance. -/
theorem lasso_fit_partial (lam : 𝕜) (hlam : 0 ≤ lam) (small : (Fin n → 𝕜) → (Fin n → 𝕜) → Bool) (maxIter P : Nat) (d : Nat → List ((Fin n → 𝕜) × 𝕜)) (hne : content P d ≠ [])
    (hn : ∀ j, Normalised (content P d) j) :
    lassoObjective lam (content P d) (lassoFit lam small maxIter P d).1 ≤ lassoObjective lam (content P d) 0 ∧ (lassoFit lam small maxIter P d).2 ≤ maxIter ∧
      ((lassoFit lam small maxIter P d).2 < maxIter → ∃ old, (lassoFit lam small maxIter P d).1 = lassoSweep lam P d old ∧ small (lassoFit lam small maxIter P d).1 old = true) := by
  have := lassoLoop_le lam hlam small P d hne hn maxIter 0 0
  simpa [lassoFit] using this

/-- A sweep that changes nothing changes no coordinate. -/
theorem sweep_fixed (lam : 𝕜) (P : Nat) (d : Nat → List ((Fin n → 𝕜) × 𝕜)) (w : Fin n → 𝕜) (h : lassoSweep lam P d w = w) (j : Fin n) : lassoCoord lam P d w j = w := by
  have key : ∀ (js : List (Fin n)), js.Nodup → js.foldl (lassoCoord lam P d) w = w → ∀ j ∈ js, lassoCoord lam P d w j = w := by
    intro js
    induction js with
    | nil => intro _ _ j hj; exact absurd hj (List.not_mem_nil)
    | cons a t ih =>
      intro hnd hf j hj
      rw [List.foldl_cons] at hf
      have hkeep : ∀ (l : List (Fin n)) (v : Fin n → 𝕜), a ∉ l → l.foldl (lassoCoord lam P d) v a = v a := by
        intro l
        induction l with
        | nil => intro v _; rfl
        | cons b u ihu =>
          intro v hv
          rw [List.foldl_cons, ihu _ (fun hx => hv (List.mem_cons_of_mem _ hx)), lassoCoord_eq]
          unfold setCoord
          rw [if_neg (fun e => hv (by rw [e]; exact List.mem_cons_self))]
      have hnd' := List.nodup_cons.1 hnd
      have ha : lassoCoord lam P d w a a = w a := by
        rw [← hkeep t (lassoCoord lam P d w a) hnd'.1, hf]
      have hwa : lassoCoord lam P d w a = w := by
        funext i
        by_cases hi : i = a
        · rw [hi]; exact ha
        · rw [lassoCoord_eq]; unfold setCoord; rw [if_neg hi]
      rw [hwa] at hf
      rcases List.mem_cons.1 hj with e | e
      · rw [e]; exact hwa
      · exact ih hnd'.2 hf j e
  exact key (List.finRange n) (List.nodup_finRange n) h j (List.mem_finRange j)

theorem soft_subgradient (lam rho w : 𝕜) (hlam : 0 ≤ lam) :
    0 ≤ -(rho - softThreshold lam rho) * (w - softThreshold lam rho) + lam * (|w| - |softThreshold lam rho|) := by
  unfold softThreshold
  split
  · rename_i h
    have h1 : |rho + lam| = -(rho + lam) := abs_of_neg (by linarith)
    have h2 : lam * (-w) ≤ lam * |w| := mul_le_mul_of_nonneg_left (neg_le_abs w) hlam
    rw [h1]
    nlinarith
  · split
    · rename_i h
      have h1 : |rho - lam| = rho - lam := abs_of_pos (by linarith)
      have h2 : lam * w ≤ lam * |w| := mul_le_mul_of_nonneg_left (le_abs_self w) hlam
      rw [h1]
      nlinarith
    · rename_i h1 h2
      have h3 : w * rho ≤ |w| * |rho| := by rw [← abs_mul]; exact le_abs_self _
      have h4 : |rho| ≤ lam := abs_le.2 ⟨by linarith, by linarith⟩
      have h5 : |w| * |rho| ≤ |w| * lam := mul_le_mul_of_nonneg_left h4 (abs_nonneg w)
      simp only [abs_zero]
      nlinarith

/-- C109, optimum: on normalised features coefficients that a sweep does not change minimise the objective over all coefficients. -/
theorem lasso_optimal_partial (lam : 𝕜) (hlam : 0 ≤ lam) (P : Nat) (d : Nat → List ((Fin n → 𝕜) × 𝕜)) (hne : content P d ≠ []) (hn : ∀ j, Normalised (content P d) j) (theta : Fin n → 𝕜)
    (hfix : lassoSweep lam P d theta = theta) (w : Fin n → 𝕜) : lassoObjective lam (content P d) theta ≤ lassoObjective lam (content P d) w := by
  have hpos : (0 : 𝕜) < ((content P d).length : 𝕜) := by exact_mod_cast List.length_pos_iff.2 hne
  -- gradient
  have hg : ∀ j, ((content P d).map fun s => s.1 j * (s.2 - innerProd s.1 theta)).sum / ((content P d).length : 𝕜) = lassoRho P d theta j - theta j := by
    intro j
    rw [lassoRho_eq]
    have : ((content P d).map fun s => s.1 j * (s.2 - innerProd s.1 theta + theta j * s.1 j)).sum = ((content P d).map fun s => s.1 j * (s.2 - innerProd s.1 theta)).sum + theta j * ((content P d).map fun s => s.1 j ^ 2).sum := by
      generalize content P d = l
      induction l with
      | nil => simp
      | cons s u ih => simp only [List.map_cons, List.sum_cons, ih]; ring
    rw [this, hn j]
    field_simp
    ring
  have hfixj : ∀ j, theta j = if j.val = 0 then lassoRho P d theta j else softThreshold lam (lassoRho P d theta j) := by
    intro j
    have := congrFun (sweep_fixed lam P d theta hfix j) j
    rw [lassoCoord_eq] at this
    unfold setCoord at this
    rw [if_pos rfl] at this
    exact this.symm
  -- smooth part
  have hsm : ((content P d).map fun s => (s.2 - innerProd s.1 theta) ^ 2).sum - 2 * ∑ j, (w j - theta j) * ((content P d).map fun s => s.1 j * (s.2 - innerProd s.1 theta)).sum ≤ ((content P d).map fun s => (s.2 - innerProd s.1 w) ^ 2).sum := by
    generalize content P d = l
    induction l with
    | nil => simp
    | cons s u ih =>
      simp only [List.map_cons, List.sum_cons]
      have h1 : (∑ j, (w j - theta j) * (s.1 j * (s.2 - innerProd s.1 theta) + (u.map fun s => s.1 j * (s.2 - innerProd s.1 theta)).sum)) =
          (s.2 - innerProd s.1 theta) * (innerProd s.1 w - innerProd s.1 theta) + ∑ j, (w j - theta j) * (u.map fun s => s.1 j * (s.2 - innerProd s.1 theta)).sum := by
        have h2 : innerProd s.1 w - innerProd s.1 theta = ∑ j, s.1 j * (w j - theta j) := by
          unfold innerProd
          rw [← Finset.sum_sub_distrib]
          exact Finset.sum_congr rfl fun j _ => by ring
        rw [h2, Finset.mul_sum, ← Finset.sum_add_distrib]
        exact Finset.sum_congr rfl fun j _ => by ring
      rw [h1]
      nlinarith [sq_nonneg (innerProd s.1 w - innerProd s.1 theta)]
  unfold lassoObjective
  have hdiv : ((content P d).map fun s => (s.2 - innerProd s.1 theta) ^ 2).sum / (2 * ((content P d).length : 𝕜)) - ∑ j, (w j - theta j) * (lassoRho P d theta j - theta j) ≤
      ((content P d).map fun s => (s.2 - innerProd s.1 w) ^ 2).sum / (2 * ((content P d).length : 𝕜)) := by
    have h3 : ∑ j, (w j - theta j) * (lassoRho P d theta j - theta j) = (2 * ∑ j, (w j - theta j) * ((content P d).map fun s => s.1 j * (s.2 - innerProd s.1 theta)).sum) / (2 * ((content P d).length : 𝕜)) := by
      rw [mul_div_mul_left _ _ (two_ne_zero), Finset.sum_div]
      refine Finset.sum_congr rfl fun j _ => ?_
      rw [← hg j]
      ring
    rw [h3, ← sub_div]
    exact div_le_div_of_nonneg_right hsm (by linarith)
  have hpen : ∑ j, (w j - theta j) * (lassoRho P d theta j - theta j) ≤ lam * (∑ j : Fin n, if j.val = 0 then 0 else |w j|) - lam * ∑ j : Fin n, if j.val = 0 then 0 else |theta j| := by
    rw [Finset.mul_sum, Finset.mul_sum, ← Finset.sum_sub_distrib]
    refine Finset.sum_le_sum fun j _ => ?_
    have hj := hfixj j
    by_cases h0 : j.val = 0
    · simp only [h0, if_true] at hj ⊢
      rw [← hj]; simp
    · simp only [h0, if_false] at hj ⊢
      have := soft_subgradient lam (lassoRho P d theta j) (w j) hlam
      rw [← hj] at this
      linarith
  linarith

/-- Normalised data on two ranks with a fixed point that is not zero: one constant column and one column of ±1. -/
example : let d : Nat → List ((Fin 2 → ℚ) × ℚ) := fun r => if r = 0 then [(fun _ => 1, 5)] else [(fun j => if j = 0 then 1 else -1, 1)]
    (∀ j, Normalised (content 2 d) j) ∧ lassoSweep 1 2 d (fun j => if j = 0 then 3 else 1) = (fun j => if j = 0 then 3 else 1) := by
  refine ⟨?_, ?_⟩
  · unfold Normalised; decide +kernel
  · decide +kernel

/-- C109 fails for features that are not normalised: the update is not divided by the mean of the squares, and the result is worse than zero coefficients.  One sample with target 2, one feature with value 2: the objective after no, one, two and three iterations (the optimum is 0 at coefficient 1). -/
theorem lasso_unnormalised_violated : let d : Nat → List ((Fin 1 → ℚ) × ℚ) := fun _ => [(fun _ => 2, 2)]
    (List.range 4).map (fun k => lassoObjective 0 (content 1 d) (lassoFit 0 (fun _ _ => false) k 1 d).1) = [2, 18, 18, 18] := by decide +kernel

/-- C109 fails for replicated data of at least two rows on several processes: the column `X_j` has `P` times as many rows as `y`, and broadcasting raises. -/
theorem lasso_replicated_violated (m P : Nat) (hm : 2 ≤ m) (hP : 2 ≤ P) : broadcastRows (lassoReplicatedRows m P).2 (lassoReplicatedRows m P).1 = .error .valueError := by
  have h : (lassoReplicatedRows m P).1 = P * m := by unfold lassoReplicatedRows; simp
  have h2 : 2 * m ≤ P * m := Nat.mul_le_mul_right m hP
  have h3 : (lassoReplicatedRows m P).2 = m := rfl
  rw [h, h3]
  unfold broadcastRows
  rw [if_neg (by omega), if_neg (by omega), if_neg (by omega)]

end Heat
