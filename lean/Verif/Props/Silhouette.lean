import Verif.Model.Silhouette
import Mathlib.Algebra.BigOperators.Ring.Finset
import Mathlib.Algebra.Order.BigOperators.Group.Finset
import Mathlib.Algebra.Order.Ring.Rat
import Mathlib.Algebra.Order.Field.Rat
import Mathlib.Algebra.Field.Rat
import Mathlib.Tactic.Linarith
import Mathlib.Tactic.Ring
import Mathlib.Tactic.NormNum
/-!
# C148: silhouette coefficients
-/
namespace Heat
open scoped BigOperators

variable {K : Type} [Field K] [LinearOrder K]

namespace Spec
/-- The samples `j < n` in cluster `c`. -/
def members (n : Nat) (lab : Nat → Int) (c : Int) : Finset Nat := (Finset.range n).filter fun j => lab j = c

/-- `v` is the silhouette coefficient of sample `i`: 0 if it is alone in its cluster or if there is no other cluster; otherwise
`(b - a) / max(a, b)`, with the mean distance `a` to the other members of its cluster and the smallest mean distance `b` to the members of
another cluster (0 if both are zero). -/
def IsSilhouette (n : Nat) (lab : Nat → Int) (D : Nat → Nat → K) (i : Nat) (v : K) : Prop :=
  ((∀ j < n, j ≠ i → lab j ≠ lab i) → v = 0) ∧
  ((∀ j < n, lab j = lab i) → v = 0) ∧
  (∀ a b : K,
    (∃ j < n, j ≠ i ∧ lab j = lab i) →
    a = (∑ j ∈ (members n lab (lab i)).erase i, D i j) / (((members n lab (lab i)).erase i).card : K) →
    (∃ k < n, lab k ≠ lab i ∧ b = (∑ j ∈ members n lab (lab k), D i j) / ((members n lab (lab k)).card : K)) →
    (∀ k < n, lab k ≠ lab i → b ≤ (∑ j ∈ members n lab (lab k), D i j) / ((members n lab (lab k)).card : K)) →
    v = if max a b = 0 then 0 else (b - a) / max a b)
end Spec
open Heat.Spec

theorem silFreq_eq (n : Nat) (lab : Nat → Int) (c : Int) : silFreq n lab c = (members n lab c).card := by
  induction n with
  | zero => rfl
  | succ n ih =>
    unfold silFreq members at *
    rw [List.range_succ, List.map_append, List.count_append, ih, Finset.range_add_one, Finset.filter_insert]
    by_cases h : lab n = c
    · rw [if_pos h, Finset.card_insert_of_notMem (by simp)]; simp [h]
    · rw [if_neg h]; simp [h]

theorem silClust_eq (n : Nat) (lab : Nat → Int) (D : Nat → Nat → K) (i : Nat) (c : Int) :
    silClust n lab D i c = ∑ j ∈ members n lab c, D i j := by
  unfold silClust silMask members
  rw [Finset.sum_filter]
  refine Finset.sum_congr rfl fun j _ => ?_
  split_ifs <;> simp

theorem mem_silUnique (n : Nat) (lab : Nat → Int) (c : Int) : c ∈ silUnique n lab ↔ ∃ k < n, lab k = c := by
  unfold silUnique; simp

theorem sum_single_nodup (l : List Int) (hl : l.Nodup) (c : Int) (hc : c ∈ l) (f : Int → K) : (l.map fun d => f d * (if c = d then 1 else 0)).sum = f c := by
  induction l with
  | nil => simp at hc
  | cons x t ih =>
    rw [List.nodup_cons] at hl
    rw [List.map_cons, List.sum_cons]
    by_cases h : c = x
    · subst h
      have : (t.map fun d => f d * (if c = d then (1 : K) else 0)).sum = 0 := by
        apply List.sum_eq_zero
        intro y hy
        obtain ⟨d, hd, rfl⟩ := List.mem_map.1 hy
        rw [if_neg (fun e : c = d => hl.1 (by rw [e]; exact hd)), mul_zero]
      rw [this, if_pos rfl]; ring
    · rw [if_neg h, ih hl.2 (by rcases List.mem_cons.1 hc with e | e; exact absurd e h; exact e)]; ring

theorem silA_eq (n : Nat) (lab : Nat → Int) (D : Nat → Nat → K) (i : Nat) (hi : i < n) (h0 : D i i = 0) (hf : 1 < silFreq n lab (lab i)) :
    silA n lab D i = (∑ j ∈ (members n lab (lab i)).erase i, D i j) / (((members n lab (lab i)).erase i).card : K) := by
  have hm : i ∈ members n lab (lab i) := by unfold members; simp [hi]
  unfold silA
  rw [if_pos (by omega)]
  have h1 : ((silUnique n lab).map fun c => silClust n lab D i c * silMask lab i c).sum = silClust n lab D i (lab i) :=
    sum_single_nodup (silUnique n lab) (List.nodup_dedup _) (lab i) ((mem_silUnique n lab _).2 ⟨i, hi, rfl⟩) (silClust n lab D i)
  rw [h1, silClust_eq, Finset.card_erase_of_mem hm, silFreq_eq, ← Finset.add_sum_erase _ _ hm, h0, zero_add]

omit [Field K] in
theorem silMin_foldr (l : List (Option K)) :
    (l.foldr silMin none = none ↔ ∀ x ∈ l, x = none) ∧
    (∀ b, l.foldr silMin none = some b → some b ∈ l ∧ ∀ x, some x ∈ l → b ≤ x) := by
  induction l with
  | nil => simp
  | cons y t ih =>
    rw [List.foldr_cons]
    generalize ht : t.foldr silMin none = m at ih
    cases y with
    | none =>
      simp only [silMin, List.mem_cons]
      refine ⟨?_, ?_⟩
      · rw [ih.1]; simp
      · intro b hb
        obtain ⟨h1, h2⟩ := ih.2 b hb
        exact ⟨Or.inr h1, fun x hx => by rcases hx with e | e; · cases e
                                         · exact h2 x e⟩
    | some y =>
      cases m with
      | none =>
        simp only [silMin, List.mem_cons]
        refine ⟨by simp, ?_⟩
        intro b hb
        rw [Option.some.injEq] at hb
        subst hb
        refine ⟨Or.inl rfl, fun x hx => ?_⟩
        rcases hx with e | e
        · rw [Option.some.injEq] at e; exact e ▸ le_refl _
        · exact absurd (ih.1.1 rfl _ e) (by simp)
      | some z =>
        obtain ⟨h1, h2⟩ := ih.2 z rfl
        simp only [silMin, List.mem_cons]
        refine ⟨by simp, ?_⟩
        intro b hb
        rw [Option.some.injEq] at hb
        subst hb
        constructor
        · rcases le_total y z with h | h
          · rw [min_eq_left h]; exact Or.inl rfl
          · rw [min_eq_right h]; exact Or.inr h1
        · intro x hx
          rcases hx with e | e
          · rw [Option.some.injEq] at e; exact e ▸ min_le_left _ _
          · exact le_trans (min_le_right _ _) (h2 x e)

/-- `b` is finite exactly if there is another cluster, and then the smallest mean distance to another cluster. -/
theorem silB_spec (n : Nat) (lab : Nat → Int) (D : Nat → Nat → K) (i : Nat) :
    (silB n lab D i = none ↔ ∀ k < n, lab k = lab i) ∧
    (∀ b, silB n lab D i = some b →
      (∃ k < n, lab k ≠ lab i ∧ b = (∑ j ∈ members n lab (lab k), D i j) / ((members n lab (lab k)).card : K)) ∧
      (∀ k < n, lab k ≠ lab i → b ≤ (∑ j ∈ members n lab (lab k), D i j) / ((members n lab (lab k)).card : K))) := by
  obtain ⟨h1, h2⟩ := silMin_foldr ((silUnique n lab).map fun c => if lab i = c then none else some (silClust n lab D i c / (silFreq n lab c : K)))
  unfold silB
  constructor
  · rw [h1]
    constructor
    · intro h k hk
      by_contra hne
      have := h _ (List.mem_map.2 ⟨lab k, (mem_silUnique n lab _).2 ⟨k, hk, rfl⟩, rfl⟩)
      rw [if_neg (fun e => hne e.symm)] at this
      cases this
    · intro h x hx
      obtain ⟨c, hc, rfl⟩ := List.mem_map.1 hx
      obtain ⟨k, hk, rfl⟩ := (mem_silUnique n lab _).1 hc
      rw [if_pos (h k hk).symm]
  · intro b hb
    obtain ⟨h3, h4⟩ := h2 b hb
    constructor
    · obtain ⟨c, hc, e⟩ := List.mem_map.1 h3
      obtain ⟨k, hk, rfl⟩ := (mem_silUnique n lab _).1 hc
      by_cases h : lab i = lab k
      · rw [if_pos h] at e; cases e
      · rw [if_neg h, Option.some.injEq, silClust_eq, silFreq_eq] at e
        exact ⟨k, hk, fun e => h e.symm, e.symm⟩
    · intro k hk hne
      have := h4 _ (List.mem_map.2 ⟨lab k, (mem_silUnique n lab _).2 ⟨k, hk, rfl⟩, if_neg (fun e => hne e.symm)⟩)
      rwa [silClust_eq, silFreq_eq] at this

/-- The sample is alone exactly if its label occurs once. -/
theorem silFreq_alone (n : Nat) (lab : Nat → Int) (i : Nat) (hi : i < n) : silFreq n lab (lab i) > 1 ↔ ∃ j < n, j ≠ i ∧ lab j = lab i := by
  have hm : i ∈ members n lab (lab i) := by unfold members; simp [hi]
  rw [silFreq_eq, gt_iff_lt, Finset.one_lt_card]
  have hmem : ∀ j, j ∈ members n lab (lab i) ↔ j < n ∧ lab j = lab i := by intro j; unfold members; simp
  constructor
  · rintro ⟨j, h1, k, h2, h3⟩
    rw [hmem] at h1 h2
    by_cases e : j = i
    · exact ⟨k, h2.1, fun e' => h3 (e.trans e'.symm), h2.2⟩
    · exact ⟨j, h1.1, e, h1.2⟩
  · rintro ⟨j, h1, h3, h2⟩
    exact ⟨j, (hmem j).2 ⟨h1, h2⟩, i, hm, h3⟩

/-- **C148.**  For every labelling and every distance matrix with zero diagonal, every sample gets its silhouette coefficient. -/
theorem silhouette_spec (n : Nat) (lab : Nat → Int) (D : Nat → Nat → K) (i : Nat) (hi : i < n) (h0 : D i i = 0) :
    IsSilhouette n lab D i (silSample n lab D i) := by
  unfold IsSilhouette
  have hal := silFreq_alone n lab i hi
  obtain ⟨hb1, hb2⟩ := silB_spec n lab D i
  refine ⟨?_, ?_, ?_⟩
  · intro h
    unfold silSample
    rw [if_neg]
    rw [hal]
    rintro ⟨j, h1, h2, h3⟩
    exact h j h1 h2 h3
  · intro h
    unfold silSample
    rw [hb1.2 h]
    split_ifs <;> rfl
  · intro a b hj ha hb hmin
    have hf := hal.2 hj
    unfold silSample
    rw [if_pos hf]
    obtain ⟨k, hk, hne, hbk⟩ := hb
    cases hB : silB n lab D i with
    | none => exact absurd (hb1.1 hB k hk) hne
    | some b' =>
      obtain ⟨⟨k', hk', hne', hbk'⟩, hmin'⟩ := hb2 b' hB
      have e : b' = b := le_antisymm (hbk ▸ hmin' k hk hne) (hbk' ▸ hmin k' hk' hne')
      rw [silA_eq n lab D i hi h0 hf, ← ha, e]

/-- The specification determines the value. -/
theorem silhouette_unique (n : Nat) (lab : Nat → Int) (D : Nat → Nat → K) (i : Nat) (v w : K)
    (hv : IsSilhouette n lab D i v) (hw : IsSilhouette n lab D i w) : v = w := by
  by_cases h1 : ∃ j < n, j ≠ i ∧ lab j = lab i
  · by_cases h2 : ∀ j < n, lab j = lab i
    · rw [hv.2.1 h2, hw.2.1 h2]
    · obtain ⟨hb1, hb2⟩ := silB_spec n lab D i
      cases hB : silB n lab D i with
      | none => exact absurd (hb1.1 hB) h2
      | some b =>
        obtain ⟨h3, h4⟩ := hb2 b hB
        rw [hv.2.2 _ b h1 rfl h3 h4, hw.2.2 _ b h1 rfl h3 h4]
  · have h : ∀ j < n, j ≠ i → lab j ≠ lab i := fun j hj hne e => h1 ⟨j, hj, hne, e⟩
    rw [hv.1 h, hw.1 h]

variable [IsStrictOrderedRing K]

/-- **C148.**  With non-negative distances every coefficient, and the score, is between -1 and 1. -/
theorem silhouette_bound (n : Nat) (lab : Nat → Int) (D : Nat → Nat → K) (i : Nat) (hD : ∀ i j, 0 ≤ D i j) :
    -1 ≤ silSample n lab D i ∧ silSample n lab D i ≤ 1 := by
  have ha : 0 ≤ silA n lab D i := by
    unfold silA
    apply div_nonneg
    · apply List.sum_nonneg
      intro x hx
      obtain ⟨c, _, rfl⟩ := List.mem_map.1 hx
      rw [silClust_eq]
      refine mul_nonneg (Finset.sum_nonneg fun j _ => hD i j) ?_
      unfold silMask; split_ifs <;> simp
    · split_ifs
      · exact Nat.cast_nonneg _
      · exact zero_le_one
  unfold silSample
  split_ifs with hf
  · cases hB : silB n lab D i with
    | none => simp
    | some b =>
      obtain ⟨⟨k, hk, hne, hb⟩, _⟩ := (silB_spec n lab D i).2 b hB
      have hb0 : 0 ≤ b := by
        rw [hb]
        exact div_nonneg (Finset.sum_nonneg fun j _ => hD i j) (Nat.cast_nonneg _)
      dsimp only
      split_ifs with hz
      · simp
      · have hm : 0 < max (silA n lab D i) b := lt_of_le_of_ne (le_trans ha (le_max_left _ _)) (Ne.symm hz)
        rw [le_div_iff₀ hm, div_le_iff₀ hm]
        have := le_max_left (silA n lab D i) b
        have := le_max_right (silA n lab D i) b
        constructor <;> linarith
  · simp

/-- The score of a non-empty data set is the mean of the coefficients and between -1 and 1. -/
theorem silhouette_score_bound (n : Nat) (hn : 0 < n) (lab : Nat → Int) (D : Nat → Nat → K) (hD : ∀ i j, 0 ≤ D i j) :
    (n : K) * silScore n lab D = ∑ i ∈ Finset.range n, silSample n lab D i ∧ -1 ≤ silScore n lab D ∧ silScore n lab D ≤ 1 := by
  have hn' : (0 : K) < (n : K) := Nat.cast_pos.2 hn
  unfold silScore
  refine ⟨mul_div_cancel₀ _ hn'.ne', ?_⟩
  rw [le_div_iff₀ hn', div_le_iff₀ hn']
  constructor
  · have := Finset.sum_le_sum (s := Finset.range n) (f := fun _ => (-1 : K)) fun i _ => (silhouette_bound n lab D i hD).1
    simpa using this
  · have := Finset.sum_le_sum (s := Finset.range n) (g := fun _ => (1 : K)) fun i _ => (silhouette_bound n lab D i hD).2
    simpa using this

omit [IsStrictOrderedRing K] in
/-- The value 1 - a/b for a sample that is closer to its own cluster: the formula of the documentation in the usual case. -/
theorem silhouette_close (n : Nat) (lab : Nat → Int) (D : Nat → Nat → K) (i : Nat) (b : K) (hf : silFreq n lab (lab i) > 1)
    (hB : silB n lab D i = some b) (hb : 0 < b) (hab : silA n lab D i ≤ b) : silSample n lab D i = 1 - silA n lab D i / b := by
  unfold silSample
  rw [if_pos hf, hB]
  dsimp only
  rw [max_eq_right hab, if_neg hb.ne', sub_div, div_self hb.ne']

/-- Concrete case: positions 0, 1, 4, 6 with the labels 0, 0, 7, 7. -/
example : silSample 4 (fun i => if i < 2 then 0 else 7) (fun i j => |([0, 1, 4, 6] : List ℚ).getD i 0 - ([0, 1, 4, 6] : List ℚ).getD j 0|) 0 = 4 / 5 := by
  decide +kernel

end Heat
