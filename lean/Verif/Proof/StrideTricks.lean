import Verif.Model.StrideTricks
import Verif.Spec.Broadcast
namespace Heat
open Heat.Spec

theorem sanitizeAxis_some (ndim : Nat) (a : Int) (h : 0 < ndim) :
    sanitizeAxis ndim (some a) =
      if -(ndim : Int) ≤ a ∧ a < ndim then .ok (some (if a < 0 then (a + ndim).toNat else a.toNat))
      else .error .valueError := by
  unfold sanitizeAxis
  rw [if_neg (by omega)]
  simp only
  by_cases h1 : 0 ≤ a ∧ a < ndim
  · rw [if_pos h1, if_pos (by omega), if_neg (by omega)]
  · rw [if_neg h1]
    by_cases h2 : a < 0
    · simp only [h2, if_true]
      by_cases h3 : -(ndim : Int) ≤ a
      · rw [if_neg (by omega), if_pos (by omega)]
      · rw [if_pos (by omega), if_neg (by omega)]
    · simp only [h2, if_false]
      rw [if_pos (by omega), if_neg (by omega)]

theorem sanitizeAxis_nat (ndim s : Nat) (h : s < ndim) :
    sanitizeAxis ndim (some (s : Int)) = .ok (some s) := by
  rw [sanitizeAxis_some _ _ (by omega), if_pos (by omega), if_neg (by omega)]; simp

/-- right-aligned dimension of a reversed shape -/
def dr (s : List Nat) (i : Nat) : Nat := (s[i]?).getD 1

theorem dr_nil (i : Nat) : dr [] i = 1 := by simp [dr]

/-- pointwise broadcast of dimensions -/
def bd (x y : Nat) : Nat := if x = 1 then y else x

theorem broadcastRev_iff (a b c : List Nat) :
    broadcastRev a b = some c ↔ c.length = max a.length b.length ∧
      ∀ i, (dr a i = dr b i ∨ dr a i = 1 ∨ dr b i = 1) ∧ dr c i = bd (dr a i) (dr b i) := by
  induction a generalizing b c with
  | nil =>
    simp only [broadcastRev, Option.some.injEq]
    constructor
    · rintro rfl; simp [dr, bd]
    · rintro ⟨h1, h2⟩
      apply List.ext_getElem?
      intro i
      have := (h2 i).2
      simp only [List.length_nil, Nat.zero_max] at h1
      by_cases hi : i < b.length
      · have hc : i < c.length := by omega
        simp [dr, bd, hi, hc] at this ⊢; exact this.symm
      · rw [List.getElem?_eq_none (by omega), List.getElem?_eq_none (by omega)]
  | cons x a ih =>
    cases b with
    | nil =>
      simp only [broadcastRev, Option.some.injEq]
      constructor
      · rintro rfl; simp [dr, bd]
      · rintro ⟨h1, h2⟩
        apply List.ext_getElem?
        intro i
        have := (h2 i).2
        simp only [List.length_nil, Nat.max_zero] at h1
        by_cases hi : i < (x :: a).length
        · have hc : i < c.length := by omega
          simp only [dr, bd, List.getElem?_eq_getElem hi, List.getElem?_eq_getElem hc] at this ⊢
          simp at this
          rw [this]; split <;> simp_all
        · rw [List.getElem?_eq_none (by omega), List.getElem?_eq_none (by omega)]
    | cons y b =>
      have step : ∀ z, z = bd x y → (x = y ∨ x = 1 ∨ y = 1) →
          ((broadcastRev a b).map (z :: ·) = some c ↔
            c.length = max (x :: a).length (y :: b).length ∧
            ∀ i, (dr (x :: a) i = dr (y :: b) i ∨ dr (x :: a) i = 1 ∨ dr (y :: b) i = 1) ∧
              dr c i = bd (dr (x :: a) i) (dr (y :: b) i)) := by
        intro z hz hc
        rw [Option.map_eq_some_iff]
        constructor
        · rintro ⟨c', h1, rfl⟩
          obtain ⟨h2, h3⟩ := (ih b c').1 h1
          refine ⟨by simp [h2], ?_⟩
          intro i
          cases i with
          | zero => simp [dr, hz]; exact hc
          | succ i => simpa [dr] using h3 i
        · rintro ⟨h1, h2⟩
          cases c with
          | nil => simp at h1
          | cons w c =>
            have h0 := (h2 0).2
            simp [dr] at h0
            refine ⟨c, (ih b c).2 ⟨by simp at h1; omega, fun i => ?_⟩, by rw [h0, hz]⟩
            simpa [dr] using h2 (i + 1)
      simp only [broadcastRev]
      by_cases h1 : x = y
      · rw [if_pos h1]; exact step x (by simp [bd, h1]) (Or.inl h1)
      · rw [if_neg h1]
        by_cases h2 : x = 1
        · rw [if_pos h2]; exact step y (by simp [bd, h2]) (Or.inr (Or.inl h2))
        · rw [if_neg h2]
          by_cases h3 : y = 1
          · rw [if_pos h3]; exact step x (by simp [bd, h2]) (Or.inr (Or.inr h3))
          · rw [if_neg h3]
            constructor
            · intro h; cases h
            · rintro ⟨_, h⟩; have := (h 0).1; simp [dr] at this; omega

theorem broadcastRev_none_iff (a b : List Nat) :
    broadcastRev a b = none ↔ ∃ i, dr a i ≠ dr b i ∧ dr a i ≠ 1 ∧ dr b i ≠ 1 := by
  constructor
  · intro h
    induction a generalizing b with
    | nil => simp [broadcastRev] at h
    | cons x a ih =>
      cases b with
      | nil => simp [broadcastRev] at h
      | cons y b =>
        simp only [broadcastRev] at h
        by_cases hc : x = y ∨ x = 1 ∨ y = 1
        · have : broadcastRev a b = none := by
            split at h
            · simpa using h
            · split at h
              · simpa using h
              · split at h
                · simpa using h
                · omega
          obtain ⟨i, hi⟩ := ih b this
          exact ⟨i + 1, by simpa [dr] using hi⟩
        · exact ⟨0, by simp [dr]; omega⟩
  · rintro ⟨i, h1, h2, h3⟩
    cases hh : broadcastRev a b with
    | none => rfl
    | some c =>
      have := ((broadcastRev_iff a b c).1 hh).2 i
      omega

theorem dimR_eq (s : List Nat) (i : Nat) : dimR s i = dr s.reverse i := rfl

theorem bd_comm {x y : Nat} (h : x = y ∨ x = 1 ∨ y = 1) : bd x y = bd y x := by
  unfold bd; split <;> split <;> omega

/-- reversed version of `IsBroadcast` -/
def IsB (ss : List (List Nat)) (c : List Nat) : Prop :=
  (∀ s ∈ ss, s.length ≤ c.length) ∧ (c = [] ∨ ∃ s ∈ ss, s.length = c.length) ∧
  ∀ i, (∀ s ∈ ss, dr s i = 1 ∨ dr s i = dr c i) ∧ (dr c i = 1 ∨ ∃ s ∈ ss, dr s i = dr c i)

theorem IsB_unique {ss c d} (h : IsB ss c) (h' : IsB ss d) : c = d := by
  obtain ⟨h1, h2, h3⟩ := h
  obtain ⟨h1', h2', h3'⟩ := h'
  have hlen : c.length = d.length := by
    have a : c.length ≤ d.length := by
      rcases h2 with rfl | ⟨s, hs, e⟩
      · simp
      · rw [← e]; exact h1' s hs
    have b : d.length ≤ c.length := by
      rcases h2' with rfl | ⟨s, hs, e⟩
      · simp
      · rw [← e]; exact h1 s hs
    omega
  apply List.ext_getElem hlen
  intro i hi hi'
  have hd : dr c i = dr d i := by
    rcases (h3 i).2 with h | ⟨s, hs, e⟩
    · rcases (h3' i).2 with g | ⟨s, hs, e⟩
      · omega
      · rcases (h3 i).1 s hs with k | k <;> omega
    · rcases (h3' i).1 s hs with k | k
      · rcases (h3' i).2 with g | ⟨t, ht, e'⟩
        · omega
        · rcases (h3 i).1 t ht with m | m <;> omega
      · omega
  simpa [dr, hi, hi'] using hd

theorem IsB_snoc {ss c s d} (h : IsB ss c) (hb : broadcastRev c s = some d) : IsB (ss ++ [s]) d := by
  obtain ⟨h1, h2, h3⟩ := h
  obtain ⟨hl, hi⟩ := (broadcastRev_iff _ _ _).1 hb
  refine ⟨?_, ?_, ?_⟩
  · intro t ht
    rcases List.mem_append.1 ht with ht | ht
    · have := h1 t ht; omega
    · simp at ht; subst ht; omega
  · by_cases hcs : s.length ≤ c.length
    · rcases h2 with rfl | ⟨t, ht, e⟩
      · left; apply List.eq_nil_of_length_eq_zero; simp at hcs hl; simp [hl, hcs]
      · right; exact ⟨t, by simp [ht], by omega⟩
    · right; exact ⟨s, by simp, by omega⟩
  · intro i
    obtain ⟨hc, hd⟩ := hi i
    constructor
    · intro t ht
      rcases List.mem_append.1 ht with ht | ht
      · rcases (h3 i).1 t ht with k | k
        · left; exact k
        · rw [hd]; unfold bd; split <;> omega
      · simp at ht; subst ht; rw [hd]; unfold bd; split <;> omega
    · rw [hd]
      unfold bd
      split
      · right; exact ⟨s, by simp, rfl⟩
      · rcases (h3 i).2 with k | ⟨t, ht, e⟩
        · left; exact k
        · right; exact ⟨t, by simp [ht], e⟩

/-- what the fold of `broadcastShapes` computes -/
theorem fold_some (ss : List (List Nat)) (pre : List (List Nat)) (c d : List Nat) (h : IsB pre c)
    (hf : ss.foldl (fun acc s => acc.bind fun r => broadcastRev r s) (some c) = some d) :
    IsB (pre ++ ss) d := by
  induction ss generalizing pre c with
  | nil => simp at hf; subst hf; simpa using h
  | cons s ss ih =>
    simp only [List.foldl_cons, Option.bind_some] at hf
    cases hb : broadcastRev c s with
    | none =>
      rw [hb] at hf
      exfalso
      have : ∀ l : List (List Nat),
        l.foldl (fun acc s => acc.bind fun r => broadcastRev r s) (none : Option (List Nat)) = none := by
          intro l; induction l with
          | nil => rfl
          | cons _ _ ih => simpa using ih
      rw [this] at hf; cases hf
    | some c' =>
      rw [hb] at hf
      have := ih (pre ++ [s]) c' (IsB_snoc h hb) hf
      simpa using this

theorem fold_none (ss : List (List Nat)) (pre : List (List Nat)) (c : List Nat) (h : IsB pre c)
    (hf : ss.foldl (fun acc s => acc.bind fun r => broadcastRev r s) (some c) = none) :
    ∃ i, ∃ s ∈ pre ++ ss, ∃ t ∈ pre ++ ss, dr s i ≠ dr t i ∧ dr s i ≠ 1 ∧ dr t i ≠ 1 := by
  induction ss generalizing pre c with
  | nil => simp at hf
  | cons s ss ih =>
    simp only [List.foldl_cons, Option.bind_some] at hf
    cases hb : broadcastRev c s with
    | none =>
      obtain ⟨i, h1, h2, h3⟩ := (broadcastRev_none_iff _ _).1 hb
      rcases (h.2.2 i).2 with k | ⟨t, ht, e⟩
      · omega
      · exact ⟨i, t, by simp [ht], s, by simp, by omega, by omega, h3⟩
    | some c' =>
      rw [hb] at hf
      have := ih (pre ++ [s]) c' (IsB_snoc h hb) hf
      simpa using this

theorem IsB_nil : IsB [] [] := by simp [IsB, dr]

theorem exists_reverse_mem (ss : List (List Nat)) (p : List Nat → Prop) :
    (∃ s, (∃ a, a ∈ ss ∧ a.reverse = s) ∧ p s) ↔ ∃ a, a ∈ ss ∧ p a.reverse :=
  ⟨fun ⟨_, ⟨a, ha, e⟩, hp⟩ => ⟨a, ha, e ▸ hp⟩, fun ⟨a, ha, hp⟩ => ⟨_, ⟨a, ha, rfl⟩, hp⟩⟩

theorem isBroadcast_iff (ss c) : IsBroadcast ss c ↔ IsB (ss.map List.reverse) c.reverse := by
  unfold IsBroadcast IsB
  simp only [List.mem_map, forall_exists_index, and_imp, forall_apply_eq_imp_iff₂, List.length_reverse,
    exists_reverse_mem, dimR_eq, List.reverse_eq_nil_iff]

theorem fold_map (ss : List (List Nat)) (c : Option (List Nat)) :
    ss.foldl (fun acc s => acc.bind fun r => broadcastRev r s.reverse) c =
    (ss.map List.reverse).foldl (fun acc s => acc.bind fun r => broadcastRev r s) c := by
  rw [List.foldl_map]

end Heat
