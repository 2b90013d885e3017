import Verif.Model.Plateau
import Verif.Spec.Plateau
import Mathlib.Algebra.Order.Ring.Abs
import Mathlib.Tactic.Linarith
import Mathlib.Tactic.Ring
/-!
# C115: detection of plateaus
-/
namespace Heat
open Heat.Spec

/-- `is_better` is the documented comparison, except for metrics to be maximised in relative mode whose best value is negative. -/
theorem isBetter_spec_partial (s : Plateau) (a b : Rat) (hb : s.best = some b) (hneg : s.maximise = true → s.relative = true → 0 ≤ b) :
    s.isBetter a = true ↔ Improves s.maximise s.relative s.threshold a b := by
  unfold Plateau.isBetter Improves
  rw [hb]
  cases hm : s.maximise <;> cases hr : s.relative
  · simp
  · by_cases h0 : 0 ≤ b
    · simp [h0, abs_of_nonneg h0, mul_sub, mul_comm]
    · have h1 : b * (1 + s.threshold) = b - s.threshold * |b| := by rw [abs_of_neg (lt_of_not_ge h0)]; ring
      simp [h0, h1]
  · simp
  · have h0 := hneg hm hr
    have h1 : b * (s.threshold + 1) = b + s.threshold * |b| := by rw [abs_of_nonneg h0]; ring
    simp [h1]

/-- The first metric counts as better, in relative mode to be minimised only for thresholds below 1. -/
theorem isBetter_first (s : Plateau) (a : Rat) (hb : s.best = none) (ht : s.threshold < 1) : s.isBetter a = true := by
  unfold Plateau.isBetter
  rw [hb]
  simp [ht]

/-- The parts of one test. -/
theorem test_fields (s : Plateau) (a : Rat) :
    (s.test a).2.best = (if s.isBetter a then some a else s.best) ∧ (s.test a).2.lastEpoch = s.lastEpoch + 1 ∧
    (s.test a).2.maximise = s.maximise ∧ (s.test a).2.relative = s.relative ∧ (s.test a).2.threshold = s.threshold ∧ (s.test a).2.patience = s.patience ∧ (s.test a).2.cooldown = s.cooldown ∧
    ((s.test a).1 = true ↔ s.isBetter a = false ∧ s.cooldownCounter = 0 ∧ s.patience < s.badEpochs + 1) ∧
    ((s.test a).1 = true → (s.test a).2.badEpochs = 0 ∧ (s.test a).2.cooldownCounter = s.cooldown) ∧
    ((s.test a).1 = false → (s.test a).2.cooldownCounter = s.cooldownCounter - 1 ∧ (s.test a).2.badEpochs = if s.isBetter a = true ∨ 0 < s.cooldownCounter then 0 else s.badEpochs + 1) := by
  unfold Plateau.test
  cases hb : s.isBetter a <;> by_cases hc : 0 < s.cooldownCounter <;> by_cases hp : s.patience < s.badEpochs + 1 <;> simp [hc, hp] <;> omega

/-- **C115, best value.**  After metrics with an improvement the best value is one of them, and it never gets worse: a smaller one is never replaced by a larger one if the metric is to be minimised (with `threshold ≥ 0`), and vice versa. -/
theorem plateau_best_partial (s : Plateau) (hthr : 0 ≤ s.threshold) (a b : Rat) (hb : s.best = some b) (hneg : s.maximise = true → s.relative = true → 0 ≤ b) :
    ∃ b', (s.test a).2.best = some b' ∧ (b' = b ∨ b' = a) ∧ if s.maximise then b ≤ b' else b' ≤ b := by
  rw [(test_fields s a).1]
  cases h : s.isBetter a
  · exact ⟨b, by simp [hb], .inl rfl, by split <;> exact le_refl _⟩
  · refine ⟨a, by simp, .inr rfl, ?_⟩
    have h1 := (isBetter_spec_partial s a b hb hneg).1 h
    unfold Improves at h1
    have hmar : 0 ≤ if s.relative = true then s.threshold * |b| else s.threshold := by
      split
      · exact mul_nonneg hthr (abs_nonneg b)
      · exact hthr
    dsimp only at h1
    split
    · rename_i hm
      rw [if_pos hm] at h1
      linarith
    · rename_i hm
      rw [if_neg hm] at h1
      linarith

/-- `l` brings no improvement over the best value of `s`. -/
def NoImprovement (s : Plateau) (l : List Rat) : Prop := ∀ a ∈ l, s.isBetter a = false

theorem isBetter_congr (s t : Plateau) (h1 : s.best = t.best) (h2 : s.relative = t.relative) (h3 : s.maximise = t.maximise) (h4 : s.threshold = t.threshold) (a : Rat) : s.isBetter a = t.isBetter a := by
  unfold Plateau.isBetter
  rw [h1, h2, h3, h4]

/-- **C115, plateau.**  Outside the cooldown a plateau is reported exactly at the end of `patience + 1` consecutive metrics without improvement (counted from the last improvement or report), and the counting starts anew. -/
theorem plateau_streak (s : Plateau) (l : List Rat) (hcool : s.cooldownCounter = 0) (hl : NoImprovement s l) (hb : s.badEpochs ≤ s.patience) (hlen : l.length + s.badEpochs = s.patience + 1) :
    (s.run l).1 = List.replicate (l.length - 1) false ++ [true] ∧ (s.run l).2.badEpochs = 0 ∧ (s.run l).2.cooldownCounter = s.cooldown ∧ (s.run l).2.best = s.best := by
  induction l generalizing s with
  | nil => simp at hlen; omega
  | cons a t ih =>
    have ha : s.isBetter a = false := hl a List.mem_cons_self
    obtain ⟨h1, _, h3, h4, h5, h6, h7, h8, h9, h10⟩ := test_fields s a
    rw [ha] at h1 h8 h10
    simp only [Bool.false_eq_true, if_false] at h1
    unfold Plateau.run
    dsimp only
    by_cases ht : t = []
    · subst ht
      have htrue : (s.test a).1 = true := h8.2 ⟨rfl, hcool, by simp at hlen; omega⟩
      unfold Plateau.run
      dsimp only
      rw [htrue]
      exact ⟨by simp, (h9 htrue).1, (h9 htrue).2, h1⟩
    · have htl : 0 < t.length := List.length_pos_iff.2 ht
      have hfalse : (s.test a).1 = false := by
        cases hx : (s.test a).1
        · rfl
        · have := (h8.1 hx).2.2
          simp only [List.length_cons] at hlen
          omega
      obtain ⟨c1, c2⟩ := h10 hfalse
      simp only [Bool.false_eq_true, false_or, hcool, Nat.lt_irrefl, if_false] at c2
      obtain ⟨i1, i2, i3, i4⟩ := ih (s.test a).2 (by omega)
        (fun b hb' => by rw [isBetter_congr (s.test a).2 s h1 h4 h3 h5 b]; exact hl b (List.mem_cons_of_mem _ hb'))
        (by simp only [List.length_cons] at hlen; omega) (by simp only [List.length_cons] at hlen; omega)
      refine ⟨?_, i2, by rw [i3, h7], by rw [i4, h1]⟩
      rw [i1, hfalse, List.length_cons, show t.length + 1 - 1 = (t.length - 1) + 1 by omega, List.replicate_succ, List.cons_append]

/-- Fewer metrics without improvement: nothing is reported, and they are counted. -/
theorem plateau_quiet (s : Plateau) (l : List Rat) (hcool : s.cooldownCounter = 0) (hl : NoImprovement s l) (hlen : l.length + s.badEpochs ≤ s.patience) :
    (s.run l).1 = List.replicate l.length false ∧ (s.run l).2.badEpochs = s.badEpochs + l.length ∧ (s.run l).2.cooldownCounter = 0 ∧ (s.run l).2.best = s.best := by
  induction l generalizing s with
  | nil => exact ⟨rfl, rfl, hcool, rfl⟩
  | cons a t ih =>
    have ha : s.isBetter a = false := hl a List.mem_cons_self
    obtain ⟨h1, _, h3, h4, h5, h6, h7, h8, h9, h10⟩ := test_fields s a
    rw [ha] at h1 h8 h10
    simp only [Bool.false_eq_true, if_false] at h1
    simp only [List.length_cons] at hlen
    have hfalse : (s.test a).1 = false := by
      cases hx : (s.test a).1
      · rfl
      · have := (h8.1 hx).2.2
        omega
    obtain ⟨c1, c2⟩ := h10 hfalse
    simp only [Bool.false_eq_true, false_or, hcool, Nat.lt_irrefl, if_false] at c2
    obtain ⟨i1, i2, i3, i4⟩ := ih (s.test a).2 (by omega)
      (fun b hb' => by rw [isBetter_congr (s.test a).2 s h1 h4 h3 h5 b]; exact hl b (List.mem_cons_of_mem _ hb')) (by omega)
    unfold Plateau.run
    dsimp only
    refine ⟨by rw [i1, hfalse, List.length_cons, List.replicate_succ], by rw [i2, List.length_cons]; omega, i3, by rw [i4, h1]⟩

/-- An improvement is remembered, is never reported as a plateau, and restarts the counting. -/
theorem plateau_improvement (s : Plateau) (a : Rat) (h : s.isBetter a = true) : (s.test a).1 = false ∧ (s.test a).2.best = some a ∧ (s.test a).2.badEpochs = 0 := by
  obtain ⟨h1, _, _, _, _, _, _, h8, _, h10⟩ := test_fields s a
  have hf : (s.test a).1 = false := by
    cases hx : (s.test a).1
    · rfl
    · have := (h8.1 hx).1; rw [h] at this; cases this
  refine ⟨hf, by rw [h1, if_pos h], ?_⟩
  rw [(h10 hf).2, if_pos (.inl h)]

/-- **C115, cooldown.**  During the `cooldown` metrics after a report nothing is reported, whatever the metrics are. -/
theorem plateau_cooldown (s : Plateau) (l : List Rat) (hlen : l.length = s.cooldownCounter) (hb : s.badEpochs = 0) :
    (s.run l).1 = List.replicate l.length false ∧ (s.run l).2.badEpochs = 0 ∧ (s.run l).2.cooldownCounter = 0 := by
  induction l generalizing s with
  | nil => exact ⟨rfl, hb, hlen.symm⟩
  | cons a t ih =>
    simp only [List.length_cons] at hlen
    obtain ⟨_, _, _, _, _, _, _, h8, _, h10⟩ := test_fields s a
    have hf : (s.test a).1 = false := by
      cases hx : (s.test a).1
      · rfl
      · have := (h8.1 hx).2.1; omega
    obtain ⟨c1, c2⟩ := h10 hf
    rw [if_pos (.inr (by omega))] at c2
    obtain ⟨i1, i2, i3⟩ := ih (s.test a).2 (by omega) c2
    unfold Plateau.run
    dsimp only
    exact ⟨by rw [i1, hf, List.length_cons, List.replicate_succ], i2, i3⟩

/-- **C115, checkpoints.**  A detector that loads the state of another one gives the same answers for all later metrics, whatever it was before. -/
theorem plateau_checkpoint (s t : Plateau) (l : List Rat) : (t.setState s.getState).run l = s.run l := rfl

/-- The number of bad epochs never exceeds the patience, for every sequence of metrics and resets. -/
theorem plateau_bounded (s : Plateau) (l : List Rat) (h : s.badEpochs ≤ s.patience) : (s.run l).2.badEpochs ≤ (s.run l).2.patience := by
  induction l generalizing s with
  | nil => exact h
  | cons a t ih =>
    unfold Plateau.run
    dsimp only
    apply ih
    obtain ⟨_, _, _, _, _, h6, _, h8, h9, h10⟩ := test_fields s a
    rw [h6]
    cases hx : (s.test a).1
    · rw [(h10 hx).2]
      split
      · exact Nat.zero_le _
      · rename_i hn
        simp only [not_or, Bool.not_eq_true, Nat.not_lt] at hn
        by_contra hc
        rw [h8.2 ⟨hn.1, by omega, by omega⟩] at hx
        cases hx
    · rw [(h9 hx).1]; exact Nat.zero_le _

/-- C115 fails for metrics to be maximised in relative mode with a negative best value: a worse metric counts as better and becomes the best value. -/
theorem plateau_negative_violated : let s : Plateau := { Plateau.new true true (1/10) 2 0 with best := some (-10) }
    s.isBetter (-21/2) = true ∧ (s.test (-21/2)).2.best = some (-21/2) ∧ ¬ Improves true true (1/10) (-21/2) (-10) := by
  refine ⟨by decide +kernel, by decide +kernel, ?_⟩
  unfold Improves
  simp only [if_true]
  rw [show |(-10 : Rat)| = 10 by rw [abs_of_neg] <;> norm_num]
  norm_num

/-- C115 fails for the documented return value ("True if the metrics are better than the best"): improvements return False and a plateau returns True. -/
theorem plateau_return_violated : ((Plateau.new false true (1/10) 1 0).run [10, 5, 5, 5]).1 = [false, false, false, true] := by decide +kernel

/-- A detector with patience 2 that has seen 10: 9.5 and 9.6 are within 10 percent. -/
example : let s := ((Plateau.new false true (1/10) 2 0).run [10]).2
    s.cooldownCounter = 0 ∧ NoImprovement s [19/2, 48/5, 10] ∧ [(19/2 : Rat), 48/5, 10].length + s.badEpochs = s.patience + 1 := by
  refine ⟨by decide +kernel, ?_, by decide +kernel⟩
  unfold NoImprovement
  decide +kernel

end Heat
