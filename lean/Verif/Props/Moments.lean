import Verif.Model.Moments
import Verif.Spec.Dist
import Verif.Proof.Dist
import Verif.Proof.StrideTricks
import Mathlib.Algebra.Field.Rat
import Mathlib.Algebra.Order.Field.Rat
import Mathlib.Tactic.FieldSimp
import Mathlib.Tactic.Ring
import Mathlib.Tactic.Linarith
/-!
# C62: mean and variance of distributed arrays
-/
namespace Heat
open Spec

/-! ### Algebra -/

/-- Sum of squares. -/
def sumSq (l : List ℚ) : ℚ := (l.map fun x => x * x).sum

theorem sum_shift (c : ℚ) : ∀ l : List ℚ, (l.map fun x => (x - c) * (x - c)).sum = sumSq l - 2 * c * l.sum + l.length * (c * c)
  | [] => by simp [sumSq]
  | a :: l => by
    rw [List.map_cons, List.sum_cons, sum_shift c l]
    simp only [sumSq, List.map_cons, List.sum_cons, List.length_cons, Nat.cast_add, Nat.cast_one]
    ring

theorem sqdev_eq (l : List ℚ) : sqdev l = sumSq l - l.sum * l.sum / l.length := by
  unfold sqdev
  rw [sum_shift]
  by_cases h : (l.length : ℚ) = 0
  · have : l = [] := List.length_eq_zero_iff.1 (by exact_mod_cast h)
    subst this; simp [sumSq]
  · field_simp
    ring

theorem sumSq_append (a b : List ℚ) : sumSq (a ++ b) = sumSq a + sumSq b := by
  unfold sumSq; rw [List.map_append, List.sum_append]

/-- Mean of two lists from the means of the parts, whose lengths are `k * m`. -/
theorem mean_append (a b : List ℚ) (k m1 m2 : ℚ) (ha : (a.length : ℚ) = k * m1) (hb : (b.length : ℚ) = k * m2) (hk : k ≠ 0) (hm : m1 + m2 ≠ 0) :
    a.sum / a.length + m2 * ((b.sum / b.length - a.sum / a.length) / (m1 + m2)) = (a ++ b).sum / (a ++ b).length := by
  have hn : ((a ++ b).length : ℚ) = k * (m1 + m2) := by rw [List.length_append]; push_cast; rw [ha, hb]; ring
  rw [hn, List.sum_append, ha, hb]
  by_cases h1 : m1 = 0
  · have : a = [] := List.length_eq_zero_iff.1 (by rw [h1, mul_zero] at ha; exact_mod_cast ha)
    subst this
    subst h1
    have h2 : m2 ≠ 0 := by simpa using hm
    simp
    field_simp
  · by_cases h2 : m2 = 0
    · have : b = [] := List.length_eq_zero_iff.1 (by rw [h2, mul_zero] at hb; exact_mod_cast hb)
      subst this
      subst h2
      simp
    · field_simp
      ring

/-- Squared distances of two lists from those of the parts. -/
theorem sqdev_append (a b : List ℚ) (k m1 m2 : ℚ) (ha : (a.length : ℚ) = k * m1) (hb : (b.length : ℚ) = k * m2) (hk : k ≠ 0) (hm : m1 + m2 ≠ 0) :
    sqdev (a ++ b) = sqdev a + sqdev b +
      k * ((b.sum / b.length - a.sum / a.length) * (b.sum / b.length - a.sum / a.length) * m1 * m2 / (m1 + m2)) := by
  have hn : ((a ++ b).length : ℚ) = k * (m1 + m2) := by rw [List.length_append]; push_cast; rw [ha, hb]; ring
  rw [sqdev_eq, sqdev_eq, sqdev_eq, hn, List.sum_append, ha, hb, sumSq_append]
  by_cases h1 : m1 = 0
  · have : a = [] := List.length_eq_zero_iff.1 (by rw [h1, mul_zero] at ha; exact_mod_cast ha)
    subst this
    subst h1
    simp [sumSq]
  · by_cases h2 : m2 = 0
    · have : b = [] := List.length_eq_zero_iff.1 (by rw [h2, mul_zero] at hb; exact_mod_cast hb)
      subst this
      subst h2
      simp [sumSq]
    · field_simp
      ring

/-! ### Means -/

/-- The number the code uses as the mean of a part: 0 for no elements. -/
def mean0 (l : List ℚ) : ℚ := l.sum / l.length

theorem mean_of_pos {l : List ℚ} (h : 0 < l.length) : mean l = some (mean0 l) := by
  unfold mean mean0; rw [if_neg (by omega)]

theorem nanTo0_mean (l : List ℚ) : nanTo0 (torchMean l) = some (mean0 l) := by
  unfold torchMean
  by_cases h : l.length = 0
  · have : l = [] := List.length_eq_zero_iff.1 h
    subst this; simp [mean, mean0, nanTo0]
  · rw [mean_of_pos (by omega)]; rfl

theorem storeMean_id (m : FNum × FNum) : storeMean (fun x => x) m = m := by
  unfold storeMean; rcases m with ⟨_ | a, _ | b⟩ <;> rfl

theorem range_foldl_succ {β : Type} (f : β → Nat → β) (z : β) (n : Nat) : (List.range (n + 1)).foldl f z = f ((List.range n).foldl f z) n := by
  rw [List.range_succ, List.foldl_append]; rfl

theorem mergeMean_some (a b : List ℚ) (k : ℚ) (m1 m2 : Nat) (ha : (a.length : ℚ) = k * m1) (hb : (b.length : ℚ) = k * m2) (hk : k ≠ 0) (hm : 0 < m1 + m2) :
    mergeMean (some (mean0 a), some (m1 : ℚ)) (some (mean0 b), some (m2 : ℚ)) = (some (mean0 (a ++ b)), some ((m1 + m2 : Nat) : ℚ)) := by
  have hne : (m1 : ℚ) + m2 ≠ 0 := by
    have : ((m1 + m2 : Nat) : ℚ) ≠ 0 := by exact_mod_cast Nat.pos_iff_ne_zero.1 hm
    simpa using this
  unfold mergeMean
  simp only [fadd, fsub, fmul, fdiv]
  rw [if_neg hne]
  dsimp only
  unfold mean0
  rw [mean_append a b k m1 m2 ha hb hk hne]
  push_cast
  rfl

/-- The loop over the ranks: it computes the mean of everything if the first two ranks are not both empty. -/
theorem foldMean_eq (P : Nat) (d : Nat → List ℚ) (m : Nat → Nat) (k : Nat) (hk : 0 < k) (hd : ∀ r < P, (d r).length = k * m r) (hP : 0 < P)
    (h01 : 1 < P → 0 < m 0 + m 1) (c : Nat → FNum × FNum) (hc : ∀ r < P, c r = (some (mean0 (d r)), some (m r : ℚ))) :
    ∃ n : Nat, foldMean (fun x => x) P c = (some (mean0 (content P d)), some (n : ℚ)) := by
  have main : ∀ i, i < P → (List.range i).foldl (fun acc j => mergeMean acc (c (j + 1))) (c 0) =
      (some (mean0 (content (i + 1) d)), some (((List.range (i + 1)).foldl (fun s r => s + m r) 0 : Nat) : ℚ)) ∧
      ((content (i + 1) d).length = k * (List.range (i + 1)).foldl (fun s r => s + m r) 0) ∧ m 0 + (if i = 0 then 0 else m 1) ≤ (List.range (i + 1)).foldl (fun s r => s + m r) 0 := by
    intro i
    induction i with
    | zero =>
      intro _
      refine ⟨?_, ?_, ?_⟩
      · rw [List.range_zero, List.foldl_nil, hc 0 hP]; simp [content_succ, content_zero]
      · simp [content_succ, content_zero, hd 0 hP]
      · simp
    | succ i ih =>
      intro hi
      obtain ⟨h1, h2, h3⟩ := ih (by omega)
      rw [range_foldl_succ, h1, hc (i + 1) hi, range_foldl_succ (fun s r => s + m r) 0 (i + 1)]
      have hm01 := h01 (by omega)
      have hpos : 0 < (List.range (i + 1)).foldl (fun s r => s + m r) 0 + m (i + 1) := by
        by_cases hi0 : i = 0
        · subst hi0; simp at h3 ⊢; omega
        · rw [if_neg hi0] at h3; omega
      refine ⟨?_, ?_, ?_⟩
      · rw [content_succ (k := i + 1)]
        exact mergeMean_some _ _ k _ _ (by rw [h2]; push_cast; ring) (by rw [hd _ hi]; push_cast; ring) (by exact_mod_cast Nat.pos_iff_ne_zero.1 hk) hpos
      · rw [content_succ (k := i + 1), List.length_append, h2, hd _ hi, Nat.mul_add]
      · rw [if_neg (by omega)]
        by_cases hi0 : i = 0
        · subst hi0; simp
        · rw [if_neg hi0] at h3; omega
  obtain ⟨h1, _, _⟩ := main (P - 1) (by omega)
  rw [show P - 1 + 1 = P by omega] at h1
  refine ⟨(List.range P).foldl (fun s r => s + m r) 0, ?_⟩
  unfold foldMean
  simp only [storeMean_id]
  exact h1

theorem foldMean_nan_of (P : Nat) (c : Nat → FNum × FNum) (i : Nat) (hi : i + 1 < P)
    (h : ((List.range (i + 1)).foldl (fun acc j => mergeMean acc (c (j + 1))) (c 0)).1 = none) : (foldMean (fun x => x) P c).1 = none := by
  unfold foldMean
  simp only [storeMean_id]
  have hp : ∀ (l : List Nat) (s : FNum × FNum), s.1 = none → (l.foldl (fun acc j => mergeMean acc (c (j + 1))) s).1 = none := by
    intro l
    induction l with
    | nil => intro s hs; exact hs
    | cons a l ih =>
      intro s hs
      rw [List.foldl_cons]
      apply ih
      unfold mergeMean; rw [hs]; rfl
  obtain ⟨j, hj⟩ : ∃ j, P - 1 = (i + 1) + j := ⟨P - 1 - (i + 1), by omega⟩
  rw [hj, List.range_add, List.foldl_append]
  exact hp _ _ h

/-- **C62 (mean over the whole array, all distributions).** In exact arithmetic `mean(x)` is the mean of all elements - unless the first two ranks are empty while
others are not; then it is NaN. -/
theorem mean_all_spec (P : Nat) (hP : 0 < P) (d : Nat → List ℚ) :
    meanAll (fun x => x) P d = if 1 < P ∧ d 0 = [] ∧ d 1 = [] then none else mean (content P d) := by
  unfold meanAll
  by_cases h1 : P = 1
  · subst h1
    rw [if_pos rfl, if_neg (by omega)]
    simp [content_succ, content_zero, torchMean]
  · rw [if_neg h1]
    simp only [nanTo0_mean]
    by_cases h : 1 < P ∧ d 0 = [] ∧ d 1 = []
    · rw [if_pos h]
      apply foldMean_nan_of P _ 0 (by omega)
      simp [mergeMean, h.2.1, h.2.2, mean0, fadd, fsub, fmul, fdiv]
    · rw [if_neg h]
      have hne : 0 < (d 0).length + (d 1).length := by
        apply Nat.pos_of_ne_zero
        intro hz
        exact h ⟨by omega, List.length_eq_zero_iff.1 (by omega), List.length_eq_zero_iff.1 (by omega)⟩
      obtain ⟨n, hf⟩ := foldMean_eq P d (fun r => (d r).length) 1 (by omega) (fun r _ => by omega) hP (fun _ => hne) _ (fun r _ => rfl)
      rw [hf, mean_of_pos]
      have h2 : startOf d 2 ≤ startOf d P := startOf_mono d (by omega)
      have e : startOf d 2 = (d 0).length + (d 1).length := by unfold startOf; simp [content_succ, content_zero]
      have : (content P d).length = startOf d P := rfl
      omega

/-- **C62 (mean along axes with the split axis).** `m r` is the local extent of the split axis, `k > 0` the number of elements per slab that are reduced into a position.
Unless the first two ranks are empty while others are not, the result is the mean. (A single rank without elements yields 0 instead of NaN.) -/
theorem mean_axis_spec_partial (P : Nat) (hP : 0 < P) (d : Nat → List ℚ) (m : Nat → Nat) (k : Nat) (hk : 0 < k) (hd : ∀ r < P, (d r).length = k * m r)
    (h01 : 0 < m 0 ∨ (1 < P ∧ 0 < m 1)) : meanAxis (fun x => x) P m d = mean (content P d) := by
  unfold meanAxis
  have hc : ∀ r < P, (if m r ≠ 0 then torchMean (d r) else some 0, some (m r : ℚ)) = (some (mean0 (d r)), some (m r : ℚ)) := by
    intro r hr
    by_cases h : m r = 0
    · rw [if_neg (by simpa using h)]
      have : d r = [] := List.length_eq_zero_iff.1 (by rw [hd r hr, h, Nat.mul_zero])
      rw [this]; simp [mean0]
    · rw [if_pos h]
      unfold torchMean
      rw [mean_of_pos (by rw [hd r hr]; exact Nat.mul_pos hk (by omega))]
  obtain ⟨n, hf⟩ := foldMean_eq P d m k hk hd hP (fun _ => by omega) _ hc
  rw [hf, mean_of_pos]
  rcases h01 with h | ⟨h1, h⟩
  · have h2 : startOf d 1 ≤ startOf d P := startOf_mono d (by omega)
    have e : startOf d 1 = (d 0).length := by unfold startOf; simp [content_succ, content_zero]
    have e2 : (content P d).length = startOf d P := rfl
    have := Nat.mul_pos hk h
    rw [hd 0 hP] at e; omega
  · have h2 : startOf d 2 ≤ startOf d P := startOf_mono d (by omega)
    have e : startOf d 2 = (d 0).length + (d 1).length := by unfold startOf; simp [content_succ, content_zero]
    have e2 : (content P d).length = startOf d P := rfl
    have := Nat.mul_pos hk h
    rw [hd 1 h1] at e; omega

theorem mean_axis_nan (P : Nat) (hP : 1 < P) (d : Nat → List ℚ) (m : Nat → Nat) (h0 : m 0 = 0) (h1 : m 1 = 0) : meanAxis (fun x => x) P m d = none := by
  unfold meanAxis
  apply foldMean_nan_of P _ 0 (by omega)
  simp [mergeMean, h0, h1, fadd, fsub, fmul, fdiv]

/-! ### Variances -/

/-- The number the code uses as the variance of a part of `k * m` elements: 0 if it has too few elements. -/
def var0 (c : Nat) (l : List ℚ) : ℚ := if l.length ≤ c then 0 else sqdev l / (l.length - c : Nat)

theorem variance_of_gt {c : Nat} {l : List ℚ} (h : c < l.length) : variance c l = some (var0 c l) := by
  unfold variance var0; rw [if_neg (by omega), if_neg (by omega)]

theorem nanTo0_var (corr : Bool) (l : List ℚ) : nanTo0 (torchVar corr l) = some (var0 (if corr then 1 else 0) l) := by
  unfold torchVar variance var0
  by_cases h : l.length ≤ (if corr then 1 else 0)
  · rw [if_pos h, if_pos h]; rfl
  · rw [if_neg h, if_neg h]; rfl

theorem sqdev_le_one {l : List ℚ} (h : l.length ≤ 1) : sqdev l = 0 := by
  match l, h with
  | [], _ => rfl
  | [x], _ => simp [sqdev]

/-- Two parts of `k * m1` and `k * m2` elements. -/
theorem mergeVar_some (corr : Bool) (a b : List ℚ) (k m1 m2 : Nat) (ha : a.length = k * m1) (hb : b.length = k * m2) (hk : 0 < k) (hck : corr = true → k = 1)
    (hm : (if corr then 1 else 0) < m1 + m2) :
    mergeVar corr (some (var0 (if corr then 1 else 0) a), some (mean0 a), some (m1 : ℚ)) (some (var0 (if corr then 1 else 0) b), some (mean0 b), some (m2 : ℚ)) =
      (some (var0 (if corr then 1 else 0) (a ++ b)), some (mean0 (a ++ b)), some ((m1 + m2 : Nat) : ℚ)) := by
  have hk0 : (k : ℚ) ≠ 0 := by exact_mod_cast Nat.pos_iff_ne_zero.1 hk
  have hne : (m1 : ℚ) + m2 ≠ 0 := by
    have : ((m1 + m2 : Nat) : ℚ) ≠ 0 := by
      have : m1 + m2 ≠ 0 := by omega
      exact_mod_cast this
    simpa using this
  have haq : (a.length : ℚ) = k * m1 := by rw [ha]; push_cast; ring
  have hbq : (b.length : ℚ) = k * m2 := by rw [hb]; push_cast; ring
  have hmean := mean_append a b k m1 m2 haq hbq hk0 hne
  have hsq := sqdev_append a b k m1 m2 haq hbq hk0 hne
  have hmm : mergeMean (some (mean0 a), some (m1 : ℚ)) (some (mean0 b), some (m2 : ℚ)) = (some (mean0 (a ++ b)), some ((m1 + m2 : Nat) : ℚ)) :=
    mergeMean_some a b k m1 m2 haq hbq hk0 (by omega)
  have hpair : ∀ (v1 v2 : FNum), (mergeVar corr (v1, some (mean0 a), some (m1 : ℚ)) (v2, some (mean0 b), some (m2 : ℚ))).2 =
      (some (mean0 (a ++ b)), some ((m1 + m2 : Nat) : ℚ)) := fun _ _ => hmm
  refine Prod.ext ?_ (hpair _ _)
  cases corr with
  | false =>
    simp only [mergeVar, fadd, fsub, fmul, fdiv, if_neg hne, Bool.false_eq_true, if_false]
    have hv : ∀ (l : List ℚ) (m : Nat), l.length = k * m → var0 0 l * m = sqdev l / k := by
      intro l m hl
      unfold var0
      by_cases h : l.length ≤ 0
      · rw [if_pos h, sqdev_le_one (by omega)]; simp
      · rw [if_neg h, Nat.sub_zero, hl]
        have : (m : ℚ) ≠ 0 := by
          have : m ≠ 0 := by rintro rfl; omega
          exact_mod_cast this
        push_cast
        field_simp
    rw [hv a m1 ha, hv b m2 hb]
    congr 1
    unfold var0
    rw [if_neg (by rw [List.length_append, ha, hb, ← Nat.mul_add]; simp; constructor <;> omega), Nat.sub_zero, hsq]
    have hl : ((a ++ b).length : ℚ) = k * (m1 + m2) := by rw [List.length_append, ha, hb]; push_cast; ring
    rw [hl]
    unfold mean0
    field_simp
  | true =>
    have hk1 : k = 1 := hck rfl
    subst hk1
    have hm : 1 < m1 + m2 := by simpa using hm
    have hne1 : (m1 : ℚ) + m2 - 1 ≠ 0 := by
      have : ((m1 + m2 : Nat) : ℚ) ≠ ((1 : Nat) : ℚ) := by
        have : m1 + m2 ≠ 1 := by omega
        exact_mod_cast this
      push_cast at this
      intro h
      exact this (by linarith)
    simp only [mergeVar, fadd, fsub, fmul, fdiv, if_neg hne, if_true, if_neg hne1]
    have hv : ∀ (l : List ℚ) (m : Nat), l.length = 1 * m → var0 1 l * ((m : ℚ) - 1) = sqdev l := by
      intro l m hl
      unfold var0
      by_cases h : l.length ≤ 1
      · rw [if_pos h, sqdev_le_one (by omega)]; simp
      · rw [if_neg h, hl, Nat.one_mul]
        have h2 : ((m - 1 : Nat) : ℚ) = (m : ℚ) - 1 := by rw [Nat.cast_sub (by omega)]; simp
        have h3 : (m : ℚ) - 1 ≠ 0 := by
          rw [← h2]
          have : m - 1 ≠ 0 := by omega
          exact_mod_cast this
        rw [h2]
        field_simp
    rw [hv a m1 ha, hv b m2 hb]
    congr 1
    unfold var0
    have hl : (a ++ b).length = m1 + m2 := by rw [List.length_append, ha, hb]; omega
    rw [hl, if_neg (by omega), hsq, Nat.cast_sub (by omega)]
    push_cast
    unfold mean0
    rw [one_mul]

/-- The loop over the ranks, if after every merge there are more than `ddof` elements. -/
theorem foldVar_eq (corr : Bool) (P : Nat) (d : Nat → List ℚ) (m : Nat → Nat) (k : Nat) (hk : 0 < k) (hck : corr = true → k = 1) (hd : ∀ r < P, (d r).length = k * m r)
    (hP : 0 < P) (hpre : ∀ i, 0 < i → i < P → k * (if corr then 1 else 0) < (content (i + 1) d).length) (c : Nat → FNum × FNum × FNum)
    (hc : ∀ r < P, c r = (some (var0 (if corr then 1 else 0) (d r)), some (mean0 (d r)), some (m r : ℚ))) :
    (foldVar corr P c).1 = some (var0 (if corr then 1 else 0) (content P d)) := by
  have main : ∀ i, i < P → ∃ n : Nat, (List.range i).foldl (fun acc j => mergeVar corr acc (c (j + 1))) (c 0) =
      (some (var0 (if corr then 1 else 0) (content (i + 1) d)), some (mean0 (content (i + 1) d)), some (n : ℚ)) ∧
      (content (i + 1) d).length = k * n := by
    intro i
    induction i with
    | zero =>
      intro _
      refine ⟨m 0, ?_, ?_⟩
      · rw [List.range_zero, List.foldl_nil, hc 0 hP]; simp [content_succ, content_zero]
      · simp [content_succ, content_zero, hd 0 hP]
    | succ i ih =>
      intro hi
      obtain ⟨n, h1, h2⟩ := ih (by omega)
      have hlen : (content (i + 1 + 1) d).length = k * (n + m (i + 1)) := by
        rw [content_succ (k := i + 1), List.length_append, h2, hd _ hi, Nat.mul_add]
      have hp := hpre (i + 1) (by omega) hi
      rw [hlen] at hp
      refine ⟨n + m (i + 1), ?_, hlen⟩
      rw [range_foldl_succ, h1, hc (i + 1) hi, content_succ (k := i + 1)]
      exact mergeVar_some corr _ _ k _ _ h2 (hd _ hi) hk hck (Nat.lt_of_mul_lt_mul_left hp)
  obtain ⟨n, h1, _⟩ := main (P - 1) (by omega)
  rw [show P - 1 + 1 = P by omega] at h1
  unfold foldVar
  rw [h1]

/-- A NaN among the variances makes the result NaN. -/
theorem foldVar_nan (corr : Bool) (P : Nat) (c : Nat → FNum × FNum × FNum) (r : Nat) (hr : r < P) (h : (c r).1 = none) : (foldVar corr P c).1 = none := by
  have hl : ∀ s t : FNum × FNum × FNum, s.1 = none ∨ t.1 = none → (mergeVar corr s t).1 = none := by
    intro s t hst
    cases corr <;> (unfold mergeVar; dsimp only; rcases hst with hst | hst <;> rw [hst])
    · simp [fmul, fadd, fdiv]
    · simp only [Bool.false_eq_true, if_false]
      cases fmul s.1 s.2.2 <;> simp [fmul, fadd, fdiv]
    · simp [fmul, fadd, fdiv]
    · simp only [if_true]
      cases fmul s.1 (fsub s.2.2 (some 1)) <;> simp [fmul, fadd, fdiv]
  have hp : ∀ (l : List Nat) (s : FNum × FNum × FNum), s.1 = none → (l.foldl (fun acc j => mergeVar corr acc (c (j + 1))) s).1 = none := by
    intro l
    induction l with
    | nil => intro s hs; exact hs
    | cons a l ih => intro s hs; rw [List.foldl_cons]; exact ih _ (hl _ _ (.inl hs))
  unfold foldVar
  by_cases h0 : r = 0
  · subst h0; exact hp _ _ h
  · obtain ⟨j, hj⟩ : ∃ j, P - 1 = r + j := ⟨P - 1 - r, by omega⟩
    rw [hj, List.range_add, List.foldl_append]
    apply hp
    obtain ⟨q, rfl⟩ : ∃ q, r = q + 1 := ⟨r - 1, by omega⟩
    rw [range_foldl_succ]
    exact hl _ _ (.inr h)

/-- **C62 (variance of the whole array).** In exact arithmetic, for every distribution in which ranks `0..i` together hold more than `ddof` elements for every `i ≥ 1`, `var(x, ddof)` is the
variance of all elements. -/
theorem var_all_spec_partial (corr : Bool) (P : Nat) (hP : 0 < P) (d : Nat → List ℚ)
    (hpre : ∀ i, 0 < i → i < P → (if corr then 1 else 0) < (content (i + 1) d).length) :
    varAll corr P d = variance (if corr then 1 else 0) (content P d) := by
  unfold varAll
  by_cases h1 : P = 1
  · subst h1
    rw [if_pos rfl]
    simp [content_succ, content_zero, torchVar]
  · rw [if_neg h1]
    simp only [nanTo0_var, nanTo0_mean]
    rw [foldVar_eq corr P d (fun r => (d r).length) 1 (by omega) (fun _ => rfl) (fun r _ => by omega) hP (fun i h0 hi => by rw [Nat.one_mul]; exact hpre i h0 hi) _ (fun r _ => rfl),
      variance_of_gt]
    have := hpre (P - 1) (by omega) (by omega)
    rwa [show P - 1 + 1 = P by omega] at this

/-- Canonical distributions with more than `ddof` elements meet the condition if there is at least one element more than `ddof` on the first two ranks; they always do. -/
theorem var_all_canonical (corr : Bool) (P : Nat) (hP : 0 < P) (d : Nat → List ℚ) (hb : Balanced P d) (hn : (if corr then 1 else 0) < (content P d).length) :
    varAll corr P d = variance (if corr then 1 else 0) (content P d) := by
  apply var_all_spec_partial corr P hP d
  intro i h0 hi
  have h2 : startOf d 2 ≤ startOf d (i + 1) := startOf_mono d (by omega)
  have e : startOf d 2 = (d 0).length + (d 1).length := by unfold startOf; simp [content_succ, content_zero]
  have e2 : (content (i + 1) d).length = startOf d (i + 1) := rfl
  rw [hb 0 hP, hb 1 (by omega)] at e
  rw [e2]
  generalize (content P d).length = n at *
  unfold evenSize at e
  have hdm := Nat.div_add_mod n P
  have hml := Nat.mod_lt n hP
  by_cases hq : n / P = 0
  · rw [hq] at e hdm
    have hnm : n % P = n := by simpa using hdm
    rw [hnm] at e
    cases corr
    · simp only [Bool.false_eq_true, if_false] at hn ⊢
      rw [if_pos (by omega)] at e; omega
    · simp only [if_true] at hn ⊢
      rw [if_pos (by omega), if_pos (by omega)] at e; omega
  · have hc : (if corr then 1 else 0) ≤ 1 := by cases corr <;> simp
    have hq1 : 1 ≤ n / P := Nat.pos_of_ne_zero hq
    generalize n / P = q at *
    omega

/-- **C62 (variance along axes with the split axis, ddof = 0).** Any number `k` of elements per slab. -/
theorem var_axis_spec_partial (P : Nat) (hP : 0 < P) (d : Nat → List ℚ) (m : Nat → Nat) (k : Nat) (hk : 0 < k) (hd : ∀ r < P, (d r).length = k * m r)
    (h01 : 0 < m 0 ∨ (1 < P ∧ 0 < m 1)) : varAxis false P m d = variance 0 (content P d) := by
  unfold varAxis
  have hc : ∀ r < P, (if m r ≠ 0 then (torchVar false (d r), torchMean (d r), some (m r : ℚ)) else (some 0, some 0, some (m r : ℚ))) =
      (some (var0 (if false then 1 else 0) (d r)), some (mean0 (d r)), some (m r : ℚ)) := by
    intro r hr
    by_cases h : m r = 0
    · rw [if_neg (by simpa using h)]
      have : d r = [] := List.length_eq_zero_iff.1 (by rw [hd r hr, h, Nat.mul_zero])
      rw [this]; simp [mean0, var0]
    · rw [if_pos h]
      have hl : 0 < (d r).length := by rw [hd r hr]; exact Nat.mul_pos hk (by omega)
      unfold torchMean torchVar
      rw [mean_of_pos hl, variance_of_gt (by simpa using hl)]
  have hpos : ∀ i, (i = 0 → 0 < m 0) → i < P → 0 < (content (i + 1) d).length := by
    intro i hi0 hi
    have e2 : (content (i + 1) d).length = startOf d (i + 1) := rfl
    rcases h01 with h | ⟨h1, h⟩
    · have h2 : startOf d 1 ≤ startOf d (i + 1) := startOf_mono d (by omega)
      have e : startOf d 1 = (d 0).length := by unfold startOf; simp [content_succ, content_zero]
      have := Nat.mul_pos hk h
      rw [hd 0 hP] at e; omega
    · by_cases h0 : i = 0
      · have h2 : startOf d 1 ≤ startOf d (i + 1) := startOf_mono d (by omega)
        have e : startOf d 1 = (d 0).length := by unfold startOf; simp [content_succ, content_zero]
        have := Nat.mul_pos hk (hi0 h0)
        rw [hd 0 hP] at e; omega
      · have h2 : startOf d 2 ≤ startOf d (i + 1) := startOf_mono d (by omega)
        have e : startOf d 2 = (d 0).length + (d 1).length := by unfold startOf; simp [content_succ, content_zero]
        have := Nat.mul_pos hk h
        rw [hd 1 h1] at e; omega
  rw [foldVar_eq false P d m k hk (by simp) hd hP (fun i h0 hi => by simpa using hpos i (by omega) hi) _ hc]
  simp only [Bool.false_eq_true, if_false]
  rw [variance_of_gt]
  have := hpos (P - 1) (fun h => by rcases h01 with h' | ⟨h', _⟩ <;> omega) (by omega)
  rwa [show P - 1 + 1 = P by omega] at this

/-- **C62 (variance along the split axis, ddof = 1).** One element per slab, no rank with exactly one slab. -/
theorem var_axis_ddof1_partial (P : Nat) (hP : 0 < P) (d : Nat → List ℚ) (h1 : ∀ r < P, (d r).length ≠ 1) (h01 : 0 < (d 0).length ∨ (1 < P ∧ 0 < (d 1).length)) :
    varAxis true P (fun r => (d r).length) d = variance 1 (content P d) := by
  unfold varAxis
  have hc : ∀ r < P, (if (d r).length ≠ 0 then (torchVar true (d r), torchMean (d r), some ((d r).length : ℚ)) else (some 0, some 0, some ((d r).length : ℚ))) =
      (some (var0 (if true then 1 else 0) (d r)), some (mean0 (d r)), some ((d r).length : ℚ)) := by
    intro r hr
    by_cases h : (d r).length = 0
    · rw [if_neg (by simpa using h)]
      have : d r = [] := List.length_eq_zero_iff.1 h
      rw [this]; simp [mean0, var0]
    · rw [if_pos h]
      have := h1 r hr
      unfold torchMean torchVar
      rw [mean_of_pos (by omega), variance_of_gt (by simp; omega)]
  have hpos : ∀ i, (i = 0 → 0 < (d 0).length) → i < P → 1 < (content (i + 1) d).length := by
    intro i hi0 hi
    have e2 : (content (i + 1) d).length = startOf d (i + 1) := rfl
    have h2 : startOf d 1 ≤ startOf d (i + 1) := startOf_mono d (by omega)
    have e : startOf d 1 = (d 0).length := by unfold startOf; simp [content_succ, content_zero]
    have := h1 0 hP
    rcases h01 with h | ⟨hp, h⟩
    · omega
    · by_cases h0 : i = 0
      · have := hi0 h0; omega
      · have h2 : startOf d 2 ≤ startOf d (i + 1) := startOf_mono d (by omega)
        have e : startOf d 2 = (d 0).length + (d 1).length := by unfold startOf; simp [content_succ, content_zero]
        have := h1 1 hp
        omega
  rw [foldVar_eq true P d (fun r => (d r).length) 1 (by omega) (fun _ => rfl) (fun r _ => by omega) hP (fun i h0 hi => by simpa using hpos i (by omega) hi) _ hc]
  simp only [if_true]
  rw [variance_of_gt]
  have := hpos (P - 1) (fun h => by rcases h01 with h' | ⟨h', _⟩ <;> omega) (by omega)
  rwa [show P - 1 + 1 = P by omega] at this

/-! ### Where the claim fails -/

/-- The whole array sits on the last rank: the mean is NaN. -/
theorem mean_unbalanced_violated : ∃ (P : Nat) (d : Nat → List ℚ), meanAll (fun x => x) P d ≠ mean (content P d) := by
  refine ⟨3, fun r => if r = 2 then [1, 2] else [], ?_⟩
  rw [mean_all_spec 3 (by omega)]
  simp [mean, content_succ, content_zero]

/-- `var(x, axis=split, ddof=1)`: every rank with exactly one slab makes the result NaN, for all data and also for canonical distributions. -/
theorem var_axis_single_slab_violated (P : Nat) (d : Nat → List ℚ) (m : Nat → Nat) (r : Nat) (hr : r < P) (h : m r = 1) (hd : (d r).length = 1) : varAxis true P m d = none := by
  unfold varAxis
  apply foldVar_nan true P _ r hr
  rw [if_pos (by omega)]
  show torchVar true (d r) = none
  unfold torchVar variance
  rw [if_pos (by simp [hd])]

/-- A canonical distribution: three rows on two ranks. -/
theorem var_axis_ddof1_violated : ∃ (P : Nat) (d : Nat → List ℚ), Balanced P d ∧ varAxis true P (fun r => (d r).length) d = none ∧ variance 1 (content P d) ≠ none := by
  refine ⟨2, fun r => if r = 0 then [1, 2] else [3], ?_, var_axis_single_slab_violated 2 _ _ 1 (by omega) rfl rfl, ?_⟩
  · intro r hr
    rcases r with _ | _ | r
    · simp [content_succ, content_zero, evenSize]
    · simp [content_succ, content_zero, evenSize]
    · omega
  · simp [content_succ, content_zero, variance]

/-- `var(x, axis=(0, 1), ddof=1)`: the number of slabs is used where the number of elements is needed. The array [[1, 2], [3, 4], [5, 6], [7, 9]] on two ranks. -/
theorem var_axes_ddof1_violated : ∃ (P k : Nat) (d : Nat → List ℚ) (m : Nat → Nat), (∀ r < P, (d r).length = k * m r ∧ 2 ≤ m r) ∧
    varAxis true P m d ≠ variance 1 (content P d) := by
  refine ⟨2, 2, fun r => if r = 0 then [1, 2, 3, 4] else [5, 6, 7, 9], fun _ => 2, ?_, ?_⟩
  · intro r _; dsimp only; split <;> simp
  · have e1 : content 2 (fun r => if r = 0 then [1, 2, 3, 4] else ([5, 6, 7, 9] : List ℚ)) = [1, 2, 3, 4, 5, 6, 7, 9] := rfl
    rw [e1]
    have e2 : variance 1 ([1, 2, 3, 4, 5, 6, 7, 9] : List ℚ) = some (sqdev [1, 2, 3, 4, 5, 6, 7, 9] / 7) := by
      unfold variance; rw [if_neg (by simp)]; norm_num
    rw [e2]
    unfold varAxis foldVar torchVar torchMean
    simp only [List.range_succ, List.range_zero, List.nil_append, List.foldl_cons, List.foldl_nil, show (2 : Nat) - 1 = 1 from rfl]
    simp only [variance, mean, mergeVar, fadd, fsub, fmul, fdiv, sqdev]
    norm_num [fadd, fsub, fmul, fdiv]

/-- Rounding to float32 (of natural numbers). -/
def conv32 (q : ℚ) : ℚ := (f32 q.num.toNat : ℚ)

/-- The buffer is float32 although the data are float64: the mean of a constant array of 16777217 is 16777216. -/
theorem mean_float32_violated : ∃ (P : Nat) (d : Nat → List ℚ), Balanced P d ∧ mean (content P d) = some 16777217 ∧ meanAll conv32 P d = some 16777216 := by
  refine ⟨2, fun _ => [16777217], ?_, ?_, ?_⟩
  · intro r hr
    rcases r with _ | _ | r
    · simp [content_succ, content_zero, evenSize]
    · simp [content_succ, content_zero, evenSize]
    · omega
  · norm_num [mean, content_succ, content_zero]
  · have e1 : conv32 16777217 = 16777216 := by unfold conv32; rw [show ((16777217 : ℚ).num.toNat) = 16777217 from rfl, show f32 16777217 = 16777216 by decide +kernel]; norm_num
    have e2 : conv32 16777216 = 16777216 := by unfold conv32; rw [show ((16777216 : ℚ).num.toNat) = 16777216 from rfl, show f32 16777216 = 16777216 by decide +kernel]; norm_num
    have e3 : conv32 1 = 1 := by unfold conv32; norm_num [f32]
    have e5 : torchMean [16777217] = some 16777217 := by norm_num [torchMean, mean]
    unfold meanAll
    rw [if_neg (by omega)]
    simp only [e5]
    unfold foldMean
    simp only [List.range_succ, List.range_zero, List.nil_append, List.foldl_cons, List.foldl_nil, show (2 : Nat) - 1 = 1 from rfl, storeMean, nanTo0, Option.map, List.length_cons, List.length_nil, e1]
    norm_num [mergeMean, fadd, fsub, fmul, fdiv, e2, e3]

/-! ### Shape, split axis, branches -/

/-- **C62 (shape).** If the split axis is reduced, the result has the right shape unless it has exactly one element but at least one axis. -/
theorem moment_shape (out : List Nat) : momentShape out = out ↔ (out = [] ∨ out.foldl (· * ·) 1 ≠ 1) := by
  unfold momentShape
  by_cases h : out = []
  · subst h; simp
  · simp only [h, if_false, false_or]
    by_cases h1 : out.foldl (· * ·) 1 = 1
    · rw [if_pos h1]
      simp only [h1, ne_eq, not_true_eq_false, iff_false]
      intro hd
      have := congrArg List.length hd
      rw [List.length_drop] at this
      have : 0 < out.length := List.length_pos_iff.2 h
      omega
    · rw [if_neg h1]; simp [h1]

/-- **C62 (split axis), one axis.** -/
theorem moment_split1 (axis split : Nat) (h : axis ≠ split) : momentSplit1 axis split = splitAfter [axis] split := by
  unfold momentSplit1 splitAfter
  have key : ∀ n, ((List.range n).filter fun i => !([axis] : List Nat).contains i).length = if axis < n then n - 1 else n := by
    intro n
    induction n with
    | zero => simp
    | succ n ih =>
      rw [List.range_succ, List.filter_append, List.length_append, ih]
      by_cases e : n = axis
      · subst e; simp
      · have : (!([axis] : List Nat).contains n) = true := by simp [e]
        rw [List.filter_cons, if_pos this]
        simp only [List.filter_nil, List.length_cons, List.length_nil]
        split <;> split <;> omega
  rw [key]
  split <;> split <;> omega

/-- **C62 (split axis), several axes.** The axis named as split axis of the result is right iff no axis in front of the split axis is reduced or all axes behind
it are. -/
theorem moment_splitN (ndim : Nat) (axes : List Nat) (split : Nat) (hs : split < ndim) (hsa : split ∉ axes) :
    momentSplitN ndim axes split = splitAfter axes split ↔ ((∀ a < split, a ∉ axes) ∨ ∀ a, split < a → a < ndim → a ∈ axes) := by
  obtain ⟨j, rfl⟩ : ∃ j, ndim = (split + 1) + j := ⟨ndim - (split + 1), by omega⟩
  have hlen : ((List.range (split + 1 + j)).filter fun i => !axes.contains i).length =
      splitAfter axes split + 1 + (((List.range j).map (split + 1 + ·)).filter fun i => !axes.contains i).length := by
    have : (!axes.contains split) = true := by simp [hsa]
    rw [List.range_add, List.range_succ, List.filter_append, List.filter_append, List.length_append, List.length_append, List.filter_cons, if_pos this]
    rfl
  have hle : splitAfter axes split ≤ split := by
    unfold splitAfter
    exact Nat.le_trans (List.length_filter_le ..) (by simp)
  have hpre : splitAfter axes split = split ↔ ∀ a < split, a ∉ axes := by
    have h0 : splitAfter axes split = split ↔ ((List.range split).filter fun i => !axes.contains i).length = (List.range split).length := by
      unfold splitAfter; rw [List.length_range]
    rw [h0, List.length_filter_eq_length_iff]
    simp
  have hpost : (((List.range j).map (split + 1 + ·)).filter fun i => !axes.contains i).length = 0 ↔ ∀ a, split < a → a < split + 1 + j → a ∈ axes := by
    rw [List.length_eq_zero_iff, List.filter_eq_nil_iff]
    simp only [List.mem_map, List.mem_range, Bool.not_eq_true, Bool.not_eq_false', List.contains_eq_mem, decide_eq_true_eq]
    constructor
    · intro h a h1 h2
      exact h a ⟨a - (split + 1), by omega, by omega⟩
    · rintro h a ⟨i, hi, rfl⟩
      exact h _ (by omega) (by omega)
  unfold momentSplitN
  dsimp only
  rw [hlen, ← hpre, ← hpost]
  split <;> omega

/-- With an axis in front of the split axis the tuple form may name the wrong axis: shape (a, b, c, d), split=1, axis=(0, 2) leaves (b, d), distributed along 0, not 1. -/
theorem moment_splitN_violated : ∃ (ndim : Nat) (axes : List Nat) (split : Nat), split < ndim ∧ (∀ a ∈ axes, a < ndim) ∧ split ∉ axes ∧
    momentSplitN ndim axes split ≠ splitAfter axes split := ⟨4, [0, 2], 1, by decide, by decide, by decide, by decide⟩

/-- `var` accepts exactly `ddof` 0 and 1. -/
theorem var_ddof (ddof : Int) : varCorrection ddof none = if ddof = 0 then .ok false else if ddof = 1 then .ok true else if ddof > 1 then .error .notImplemented else .error .valueError := by
  unfold varCorrection
  by_cases h : ddof > 1
  · rw [if_pos h, if_neg (by omega), if_neg (by omega), if_pos h]
  · rw [if_neg h]
    by_cases h2 : ddof < 0
    · rw [if_pos h2, if_neg (by omega), if_neg (by omega), if_neg h]
    · rw [if_neg h2]
      by_cases h3 : ddof = 0
      · subst h3; simp
      · have : ddof = 1 := by omega
        subst this; simp

/-- **C62 (axis of skew and kurtosis).** An axis counted from the back raises exactly if it is the split axis; the same axis counted from the front does not. -/
theorem skew_axis (ndim : Nat) (split : Option Nat) (axis : Int) (h : 0 < ndim) (ha : -(ndim : Int) ≤ axis ∧ axis < ndim) :
    skewPath ndim split axis = if axis < 0 then (if split = some (axis + ndim).toNat then .error .typeError else .ok .perPosition)
      else if split = some axis.toNat then .ok .global else .ok .perPosition := by
  unfold skewPath
  by_cases hn : axis < 0
  · rw [if_neg (by cases split <;> simp; omega), if_neg (by omega), sanitizeAxis_some _ _ h, if_pos ha, if_pos hn, if_pos hn]
  · rw [if_neg hn]
    by_cases hs : split = some axis.toNat
    · rw [if_pos (by rw [hs]; simp; omega), if_pos hs]
    · rw [if_neg, if_neg (by omega), sanitizeAxis_some _ _ h, if_pos ha, if_neg hn, if_neg hs]
      · dsimp only; rw [if_neg hs]
      · cases split with
        | none => simp
        | some s =>
          simp only [Option.map_some, Option.some.injEq]
          intro he
          apply hs
          rw [← he]; simp

theorem skew_axis_violated : ∃ (ndim : Nat) (s : Nat), s < ndim ∧ skewPath ndim (some s) s = .ok .global ∧ skewPath ndim (some s) ((s : Int) - ndim) = .error .typeError :=
  ⟨2, 1, by decide, by decide +kernel, by decide +kernel⟩

/-- `var` of an integer array works undistributed and raises distributed. -/
theorem var_int_violated : varIntRaises true false = none ∧ varIntRaises true true = some .runtimeError := ⟨rfl, rfl⟩

/-! ### The hypotheses are met -/

example : meanAll (fun x => x) 3 (fun r => if r = 0 then [1, 2] else if r = 1 then [] else [6]) = some 3 := by
  rw [mean_all_spec 3 (by omega), if_neg (by intro h; cases h.2.1)]
  norm_num [content_succ, content_zero, mean]

/-- [1, 2], [4], [] on three ranks, ddof = 1: 7/3. -/
example : varAll true 3 (fun r => if r = 0 then [1, 2] else if r = 1 then [4] else []) = some (7 / 3) := by
  rw [var_all_spec_partial true 3 (by omega)]
  · norm_num [content_succ, content_zero, variance, sqdev]
  · intro i h0 hi
    have : i = 1 ∨ i = 2 := by omega
    rcases this with rfl | rfl <;> simp [content_succ, content_zero]

example : varAxis false 2 (fun r => 2 - r) (fun r => if r = 0 then [1, 2, 3, 4] else [6, 8]) = variance 0 [1, 2, 3, 4, 6, 8] :=
  var_axis_spec_partial 2 (by omega) _ _ 2 (by omega) (fun r hr => by
    rcases r with _ | _ | r
    · rfl
    · rfl
    · omega) (.inl (by decide))

end Heat
