import Verif.Model.Pad
import Verif.Props.Dist
import Verif.Props.Reshape
/-!
# C94: pad
-/
namespace Heat
open Spec
variable {σ τ : Type}

/-- Parts before, at and after a rank. -/
theorem content_cut {α : Type} (d : Nat → List α) {P : Nat} (k : Nat) (hk : k < P) (hafter : ∀ r, k < r → r < P → d r = []) : content P d = content k d ++ d k := by
  induction P with
  | zero => omega
  | succ P ih =>
    rw [content_succ]
    rcases Nat.lt_or_ge k P with h | h
    · rw [hafter P h (by omega), List.append_nil, ih h fun r h1 h2 => hafter r h1 (by omega)]
    · have : k = P := by omega
      subst this; rfl

theorem content_map_fun {α γ : Type} (f : α → γ) (d : Nat → List α) (P : Nat) : content P (fun r => (d r).map f) = (content P d).map f := by
  induction P with
  | zero => rfl
  | succ P ih => rw [content_succ, content_succ, ih, List.map_append]

/-- The local padding is right if rank 0 has data, the rank that the code takes for the last one with data is the last one with data, and it is not rank 0 (unless there is only
one rank). -/
theorem padLocal_content {P n before after : Nat} (f : σ → τ) (zb za : τ) (d : Nat → List σ) (h0 : d 0 ≠ []) (hlast : d (padLast P n) ≠ []) (hlt : padLast P n < P)
    (hafter : ∀ r, padLast P n < r → r < P → d r = []) (hne : P = 1 ∨ padLast P n ≠ 0) :
    content P (padLocal P n before after f zb za d) = List.replicate before zb ++ (content P d).map f ++ List.replicate after za := by
  by_cases hP1 : P = 1
  · subst hP1
    rw [content_succ, content_zero, content_succ, content_zero, List.nil_append, List.nil_append]
    unfold padLocal
    rw [if_neg h0, if_pos rfl]
  have hl0 : padLast P n ≠ 0 := hne.resolve_left hP1
  -- up to the last rank only the beginning is padded
  have hpre : ∀ k, 0 < k → k ≤ padLast P n → content k (padLocal P n before after f zb za d) = List.replicate before zb ++ (content k d).map f := by
    intro k hk
    induction k with
    | zero => omega
    | succ k ih =>
      intro hle
      rw [content_succ, content_succ]
      by_cases hk0 : k = 0
      · subst hk0
        rw [content_zero, content_zero, List.nil_append, List.nil_append]
        unfold padLocal
        rw [if_neg h0, if_neg hP1, if_pos rfl]
      · rw [ih (by omega) (by omega), List.map_append, List.append_assoc]
        congr 2
        unfold padLocal
        by_cases hd : d k = []
        · rw [if_pos hd, hd]; rfl
        · rw [if_neg hd, if_neg hP1, if_neg hk0, if_neg (by omega)]
  rw [content_cut _ (padLast P n) hlt (fun r h1 h2 => by unfold padLocal; rw [if_pos (hafter r h1 h2)]), hpre _ (by omega) (Nat.le_refl _),
    content_cut d (padLast P n) hlt hafter, List.map_append]
  have : padLocal P n before after f zb za d (padLast P n) = (d (padLast P n)).map f ++ List.replicate after za := by
    unfold padLocal
    rw [if_neg hlast, if_neg hP1, if_neg hl0, if_pos rfl]
  rw [this]
  simp only [List.append_assoc]

/-- C94.  `pad` along the split axis: if the array is balanced and has at least two slabs (or there is one rank), the result is the global array with the padding at both ends, and it
is balanced. -/
theorem pad_spec_partial {P : Nat} (hP : 0 < P) (before after : Nat) (f : σ → τ) (zb za : τ) (d : Nat → List σ) (hb : Balanced P d)
    (hn : 2 ≤ (content P d).length ∨ (P = 1 ∧ content P d ≠ [])) :
    ∃ d', padSplit P before after f zb za (content P d).length d = .ok d' ∧ Balanced P d' ∧
      content P d' = List.replicate before zb ++ (content P d).map f ++ List.replicate after za := by
  have hn1 : 1 ≤ (content P d).length := by
    rcases hn with h | ⟨_, h⟩
    · omega
    · exact List.length_pos_iff.mpr h
  have hempty : ∀ r < P, (d r = [] ↔ (content P d).length ≤ r) := by
    intro r hr
    have h := hb r hr
    rw [← List.length_eq_zero_iff, h]
    unfold evenSize
    rcases Nat.lt_or_ge (content P d).length P with hlt | hge
    · rw [Nat.div_eq_of_lt hlt, Nat.mod_eq_of_lt hlt]
      split <;> omega
    · have : 0 < (content P d).length / P := Nat.div_pos hge hP
      constructor
      · intro h; omega
      · intro h; omega
  have hll : padLast P (content P d).length < P ∧ padLast P (content P d).length < (content P d).length ∧
      ∀ r, padLast P (content P d).length < r → r < P → (content P d).length ≤ r := by
    unfold padLast
    split
    · refine ⟨by omega, by omega, fun r h1 h2 => by omega⟩
    · refine ⟨by omega, by omega, fun r h1 h2 => by omega⟩
  have hcont := padLocal_content (P := P) (n := (content P d).length) (before := before) (after := after) f zb za d
    (by rw [Ne, hempty 0 hP]; omega) (by rw [Ne, hempty _ hll.1]; omega) hll.1 (fun r h1 h2 => (hempty r h2).mpr (hll.2.2 r h1 h2)) (by
      rcases hn with h | ⟨h, _⟩
      · by_cases h1 : P = 1
        · exact .inl h1
        · refine .inr ?_
          unfold padLast
          split <;> omega
      · exact .inl h)
  unfold padSplit
  dsimp only
  rw [← content_length_sum]
  obtain ⟨d', h1, h2, h3, _⟩ := balance_spec P hP (padLocal P (content P d).length before after f zb za d) 2 (Nat.le_refl 2)
  exact ⟨d', h1, h3, by rw [h2, hcont]⟩

/-- C94.  Padding the axes that are not split acts on every slab. -/
theorem pad_other_spec {P : Nat} (hP : 0 < P) (f : σ → τ) (d : Nat → List σ) : ∃ d', padOther P f d = .ok d' ∧ Balanced P d' ∧ content P d' = (content P d).map f := by
  unfold padOther
  dsimp only
  rw [← content_length_sum P (fun r => (d r).map f)]
  obtain ⟨d', h1, h2, h3, _⟩ := balance_spec P hP (fun r => (d r).map f) 2 (Nat.le_refl 2)
  exact ⟨d', h1, h3, by rw [h2, content_map_fun]⟩

/-- The hypotheses are met: five elements on three ranks, padded with one zero in front and two behind. -/
example : ∃ d', padSplit 3 1 2 id 0 0 5 (fun r => [[1, 2], [3, 4], [5]].getD r []) = .ok d' ∧ content 3 d' = [0, 1, 2, 3, 4, 5, 0, 0] := by
  obtain ⟨d', h1, _, h2⟩ := pad_spec_partial (P := 3) (by decide) 1 2 id 0 0 (fun r => [[1, 2], [3, 4], [5]].getD r []) (by
    intro r hr
    have : r = 0 ∨ r = 1 ∨ r = 2 := by omega
    rcases this with rfl | rfl | rfl <;> decide) (.inl (by decide))
  exact ⟨d', h1, by rw [h2]; decide⟩

/-- C94 is false of the code for an array with one slab on several ranks: the end is not padded. -/
theorem pad_single_violated : ∃ d', padSplit 2 1 1 id 0 0 1 (fun r => [[7], []].getD r []) = .ok d' ∧ content 2 d' = [0, 7] := ⟨_, rfl, by decide⟩

/-- ... and for an array whose last rank has no data (the last `1` of the padding is missing) or whose first rank has none. -/
theorem pad_unbalanced_violated : (∃ d', padSplit 2 1 1 id 0 0 3 (fun r => [[7, 8, 9], []].getD r []) = .ok d' ∧ content 2 d' = [0, 7, 8, 9]) ∧
    (∃ d', padSplit 2 1 1 id 0 0 3 (fun r => [[], [7, 8, 9]].getD r []) = .ok d' ∧ content 2 d' = [7, 8, 9, 0]) := ⟨⟨_, rfl, by decide⟩, ⟨_, rfl, by decide⟩⟩

end Heat
