import Verif.Model.Halo
import Verif.Props.Indexing
/-!
# C19: halos
-/
namespace Heat
open Heat.Spec
variable {α : Type}

/-- The slabs with global index in `[lo, hi)`. -/
def Spec.window (l : List α) (lo hi : Nat) : List α := (l.take hi).drop lo

theorem getD_get {l : List Nat} {i : Nat} {a : Nat} (h : i < l.length) : l.getD i a = l[i] := by
  simp [List.getD, List.getElem?_eq_getElem h]

theorem mem_populated {P : Nat} {c : Nat → Nat} {r : Nat} : r ∈ populated P c ↔ r < P ∧ c r ≠ 0 := by
  simp [populated]

theorem populated_sorted (P : Nat) (c : Nat → Nat) : (populated P c).Pairwise (· < ·) :=
  List.Pairwise.filter _ List.pairwise_lt_range

theorem sorted_lt {l : List Nat} (h : l.Pairwise (· < ·)) {i j : Nat} (hij : i < j) (hj : j < l.length) :
    l[i] < l[j] := List.pairwise_iff_getElem.1 h i j (by omega) hj hij

theorem idxOf_of_get {l : List Nat} (h : l.Pairwise (· < ·)) {i : Nat} (hi : i < l.length) : l.idxOf l[i] = i := by
  have h1 : l.idxOf l[i] < l.length := List.idxOf_lt_length_of_mem (List.getElem_mem hi)
  have h2 : l[l.idxOf l[i]] = l[i] := List.getElem_idxOf h1
  rcases Nat.lt_trichotomy (l.idxOf l[i]) i with hlt | heq | hgt
  · have := sorted_lt h hlt hi; omega
  · exact heq
  · have := sorted_lt h hgt h1; omega

/-- consecutive populated ranks: all ranks in between are empty -/
theorem gap_aux {d : Nat → List α} {P : Nat} {pop : List Nat} (hs : pop.Pairwise (· < ·))
    (hmem : ∀ q, q ∈ pop ↔ q < P ∧ (d q).length ≠ 0) {i : Nat} (hi : i + 1 < pop.length) :
    startOf d pop[i + 1] = startOf d pop[i] + (d pop[i]).length := by
  have hlt : pop[i] < pop[i + 1] := sorted_lt hs (by omega) hi
  have hm : pop[i + 1] < P := ((hmem _).1 (List.getElem_mem hi)).1
  rw [← startOf_succ]
  have hemp : ∀ q, pop[i] + 1 ≤ q → q < pop[i + 1] → d q = [] := by
    intro q h1 h2
    apply List.eq_nil_of_length_eq_zero
    apply Nat.eq_zero_of_not_pos
    intro hpos
    have hq : q ∈ pop := (hmem q).2 ⟨by omega, by omega⟩
    obtain ⟨j, hj, e⟩ := List.getElem_of_mem hq
    rcases Nat.lt_or_ge i j with hij | hij
    · rcases Nat.lt_or_ge (i + 1) j with hij2 | hij2
      · have := sorted_lt hs hij2 hj; omega
      · have : j = i + 1 := by omega
        subst this; omega
    · rcases Nat.lt_or_ge j i with hji | hji
      · have := sorted_lt hs hji (by omega); omega
      · have : j = i := by omega
        subst this; omega
  have := content_all_empty d (pop[i] + 1) pop[i + 1] (by omega) hemp
  unfold startOf; rw [this]

theorem populated_gap {P : Nat} {d : Nat → List α} {i : Nat}
    (hi : i + 1 < (populated P fun r => (d r).length).length) :
    startOf d ((populated P fun r => (d r).length)[i + 1]) =
      startOf d ((populated P fun r => (d r).length)[i]) + (d (populated P fun r => (d r).length)[i]).length :=
  gap_aux (populated_sorted P _) (fun _ => mem_populated) hi

theorem head_iff {l : List Nat} (h : l.Pairwise (· < ·)) {i : Nat} (hi : i < l.length) :
    l.head? = some l[i] ↔ i = 0 := by
  constructor
  · intro e
    apply Nat.eq_zero_of_not_pos
    intro hpos
    have := sorted_lt h hpos hi
    rw [List.head?_eq_getElem?, List.getElem?_eq_getElem (by omega)] at e
    simp at e; omega
  · intro e; subst e; rw [List.head?_eq_getElem?, List.getElem?_eq_getElem hi]

theorem last_iff {l : List Nat} (h : l.Pairwise (· < ·)) {i : Nat} (hi : i < l.length) :
    l.getLast? = some l[i] ↔ i + 1 = l.length := by
  rw [List.getLast?_eq_getElem?, List.getElem?_eq_getElem (by omega)]
  constructor
  · intro e
    simp at e
    apply Nat.le_antisymm (by omega)
    apply Nat.le_of_not_lt
    intro hlt
    have := sorted_lt h (show i < l.length - 1 by omega) (by omega); omega
  · intro e; congr 2; omega

/-- the plan of the `i`-th populated rank -/
theorem getHalo_get {P : Nat} {d : Nat → List α} {h : Nat} (prev next : Bool)
    (h2 : (populated P fun r => (d r).length).length ≠ 1)
    (hsmall : ∀ r < P, (d r) ≠ [] → h ≤ (d r).length) {i : Nat}
    (hi : i < (populated P fun r => (d r).length).length) :
    getHalo P d h prev next (populated P fun r => (d r).length)[i] = .ok (some {
        sends := (if prev ∧ i + 1 < (populated P fun r => (d r).length).length then
                    [((populated P fun r => (d r).length).getD (i + 1) 0,
                      (d (populated P fun r => (d r).length)[i]).drop ((d (populated P fun r => (d r).length)[i]).length - h))]
                  else []) ++
                 (if next ∧ 0 < i then [((populated P fun r => (d r).length).getD (i - 1) 0,
                      (d (populated P fun r => (d r).length)[i]).take h)] else [])
        recvPrev := if prev ∧ 0 < i then some ((populated P fun r => (d r).length).getD (i - 1) 0) else none
        recvNext := if next ∧ i + 1 < (populated P fun r => (d r).length).length then
          some ((populated P fun r => (d r).length).getD (i + 1) 0) else none }) := by
  have hs := populated_sorted P fun r => (d r).length
  have hany : ((populated P fun r => (d r).length).any fun q => decide (h > (d q).length)) = false := by
    rw [List.any_eq_false]
    intro q hq
    rw [mem_populated] at hq
    have := hsmall q hq.1 (by intro e; rw [e] at hq; simp at hq)
    simp; omega
  unfold getHalo
  simp only
  rw [if_neg h2, if_pos (List.getElem_mem hi), hany, idxOf_of_get hs hi]
  simp only [Bool.false_eq_true, if_false, head_iff hs hi, last_iff hs hi]
  have e1 : (¬ i = 0) ↔ 0 < i := by omega
  have e2 : (¬ i + 1 = (populated P fun r => (d r).length).length) ↔
    i + 1 < (populated P fun r => (d r).length).length := by omega
  simp only [e1, e2]

theorem window_mid (d : Nat → List α) (P r : Nat) (hr : r < P) :
    (content P d).take (startOf d (r + 1)) = content (r + 1) d := by
  have : ∀ k, r + 1 ≤ k → (content k d).take (startOf d (r + 1)) = content (r + 1) d := by
    intro k hk
    induction hk with
    | refl => unfold startOf; exact List.take_length
    | step hm ih =>
      rw [content_succ, List.take_append_of_le_length, ih]
      exact content_length_mono d hm
  exact this P hr

/-- windows of the global array that lie in one chunk -/
theorem window_chunk (d : Nat → List α) (P r a b : Nat) (hr : r < P) (hb : b ≤ (d r).length) :
    window (content P d) (startOf d r + a) (startOf d r + b) = ((d r).take b).drop a := by
  unfold window
  have h1 := window_mid d P r hr
  have e : (content P d).take (startOf d r + b) = ((content P d).take (startOf d (r + 1))).take (startOf d r + b) := by
    rw [List.take_take, Nat.min_eq_left]; rw [startOf_succ]; omega
  rw [e, h1, content_succ]
  unfold startOf
  rw [List.take_append, List.take_of_length_le (by omega), Nat.add_sub_cancel_left, List.drop_append,
    List.drop_eq_nil_of_le (by omega), Nat.add_sub_cancel_left]
  rfl

theorem window_append (l : List α) (a b c : Nat) (h1 : a ≤ b) (h2 : b ≤ c) :
    window l a b ++ window l b c = window l a c := by
  unfold window
  have : l.take b = (l.take c).take b := by rw [List.take_take, Nat.min_eq_left h2]
  rw [this]
  generalize l.take c = m
  apply List.ext_getElem
  · simp; omega
  · intro i h3 h4
    simp [List.getElem_append]
    split
    · simp
    · next h5 =>
      have : b ≤ m.length := by simp at h4 h5; omega
      have : b + (i - (min b m.length - a)) = a + i := by simp at h5; omega
      simp [this]

/-- **C19, contents.** For every distribution with at least two populated ranks and every `h ≥ 1` no larger than the
smallest populated chunk, `array_with_halos` on every populated rank is the contiguous window of the global array
that extends the local chunk by `h` slabs to the left (if requested and if there are slabs to the left) and by `h` slabs to
the right (if requested and if there are slabs to the right). -/
theorem halo_window_partial (P : Nat) (d : Nat → List α) (h : Nat) (prev next : Bool)
    (h2 : 2 ≤ (populated P fun r => (d r).length).length)
    (hsmall : ∀ r < P, (d r) ≠ [] → h ≤ (d r).length) (r : Nat) (hr : r < P) (hne : d r ≠ []) :
    withHalos P d h prev next r = .ok (window (content P d)
      (startOf d r - (if prev ∧ 0 < startOf d r then h else 0))
      (startOf d r + (d r).length + (if next ∧ startOf d r + (d r).length < (content P d).length then h else 0))) := by
  have hmem : r ∈ populated P fun r => (d r).length := by
    rw [mem_populated]; refine ⟨hr, ?_⟩
    intro e; exact hne (List.eq_nil_of_length_eq_zero e)
  obtain ⟨i, hi, e⟩ := List.getElem_of_mem hmem
  have hget := getHalo_get (h := h) prev next (by omega) hsmall hi
  have hs := populated_sorted P fun r => (d r).length
  -- neighbours
  have hprev : 0 < i → ∃ hp : i - 1 < (populated P fun r => (d r).length).length,
      startOf d r = startOf d (populated P fun r => (d r).length)[i - 1] + (d (populated P fun r => (d r).length)[i - 1]).length := by
    intro hpos
    obtain ⟨k, rfl⟩ : ∃ k, i = k + 1 := ⟨i - 1, by omega⟩
    refine ⟨by omega, ?_⟩
    rw [← e]; exact populated_gap hi
  have hnext : i + 1 < (populated P fun r => (d r).length).length → ∃ hp : i + 1 < (populated P fun r => (d r).length).length,
      startOf d (populated P fun r => (d r).length)[i + 1] = startOf d r + (d r).length := by
    intro hlt
    refine ⟨hlt, ?_⟩
    rw [populated_gap hlt, e]
  have hpop : ∀ k (hk : k < (populated P fun r => (d r).length).length),
      (populated P fun r => (d r).length)[k] < P ∧ d (populated P fun r => (d r).length)[k] ≠ [] := by
    intro k hk
    have := List.getElem_mem hk
    rw [mem_populated] at this
    exact ⟨this.1, by intro e; rw [e] at this; simp at this⟩
  have hfirst : 0 < startOf d r ↔ 0 < i := by
    constructor
    · intro hpos
      apply Nat.pos_of_ne_zero
      intro hi0
      subst hi0
      have hemp : ∀ q, 0 ≤ q → q < r → d q = [] := by
        intro q _ hq
        apply Classical.byContradiction
        intro hqne
        have : q ∈ populated P fun r => (d r).length := by
          rw [mem_populated]; exact ⟨by omega, fun e => hqne (List.eq_nil_of_length_eq_zero e)⟩
        obtain ⟨j, hj, e'⟩ := List.getElem_of_mem this
        rcases Nat.eq_zero_or_pos j with h0 | h0
        · subst h0; omega
        · have := sorted_lt hs h0 hj; omega
      have := content_all_empty d 0 r (by omega) hemp
      unfold startOf at hpos; rw [this] at hpos; simp [content_zero] at hpos
    · intro hpos
      obtain ⟨hp, e1⟩ := hprev hpos
      have := (hpop _ hp).2
      have : 0 < (d (populated P fun r => (d r).length)[i - 1]).length := List.length_pos_iff.2 this
      omega
  have hlast : startOf d r + (d r).length < (content P d).length ↔ i + 1 < (populated P fun r => (d r).length).length := by
    constructor
    · intro hlt
      apply Nat.lt_of_le_of_ne (by omega)
      intro heq
      have hemp : ∀ q, r + 1 ≤ q → q < P → d q = [] := by
        intro q hq1 hq2
        apply Classical.byContradiction
        intro hqne
        have : q ∈ populated P fun r => (d r).length := by
          rw [mem_populated]; exact ⟨by omega, fun e => hqne (List.eq_nil_of_length_eq_zero e)⟩
        obtain ⟨j, hj, e'⟩ := List.getElem_of_mem this
        rcases Nat.lt_or_ge j i with h0 | h0
        · have := sorted_lt hs h0 hi; omega
        · have : j = i := by omega
          subst this; omega
      have := content_all_empty d (r + 1) P (by omega) hemp
      rw [this] at hlt
      rw [← startOf_succ] at hlt; unfold startOf at hlt; omega
    · intro hlt
      obtain ⟨hp, e1⟩ := hnext hlt
      have h1 := (hpop _ hp).2
      have h1 : 0 < (d (populated P fun r => (d r).length)[i + 1]).length := List.length_pos_iff.2 h1
      have h3 := startOf_mono d (show (populated P fun r => (d r).length)[i + 1] + 1 ≤ P from (hpop _ hp).1)
      rw [startOf_succ] at h3
      unfold startOf at *; omega
  unfold withHalos
  rw [← e, hget]
  simp only
  rw [e]
  congr 1
  -- left part
  have hleft : haloGot P d h prev next r (if (prev : Prop) ∧ 0 < i then some ((populated P fun r => (d r).length).getD (i - 1) 0) else none : Option Nat) =
      window (content P d) (startOf d r - (if prev ∧ 0 < startOf d r then h else 0)) (startOf d r) := by
    simp only [hfirst]
    by_cases hc : (prev : Prop) ∧ 0 < i
    · obtain ⟨hp, e1⟩ := hprev hc.2
      rw [if_pos hc, if_pos hc]
      unfold haloGot
      simp only
      have hlen := hsmall _ (hpop _ hp).1 (hpop _ hp).2
      have hg := getHalo_get (h := h) prev next (by omega) hsmall hp
      rw [getD_get hp]
      unfold haloSent
      rw [hg]
      simp only
      have hidx : i - 1 + 1 = i := by omega
      rw [hidx, if_pos ⟨hc.1, hi⟩, getD_get hi, e]
      simp only [List.cons_append, List.filter_cons, decide_true, if_true, List.map_cons, List.headD_cons, List.nil_append]
      generalize hq : (populated P fun r => (d r).length)[i - 1] = q at *
      have w := window_chunk d P q ((d q).length - h) (d q).length (hpop _ hp |>.1 |> fun x => hq ▸ x) (Nat.le_refl _)
      rw [List.take_of_length_le (Nat.le_refl _)] at w
      rw [← w, e1]
      congr 1
      omega
    · rw [if_neg hc, if_neg hc]
      simp [haloGot, window]
  have hright : haloGot P d h prev next r (if (next : Prop) ∧ i + 1 < (populated P fun r => (d r).length).length then
        some ((populated P fun r => (d r).length).getD (i + 1) 0) else none : Option Nat) =
      window (content P d) (startOf d r + (d r).length)
        (startOf d r + (d r).length + (if next ∧ startOf d r + (d r).length < (content P d).length then h else 0)) := by
    simp only [hlast]
    by_cases hc : (next : Prop) ∧ i + 1 < (populated P fun r => (d r).length).length
    · obtain ⟨hp, e1⟩ := hnext hc.2
      rw [if_pos hc, if_pos hc]
      unfold haloGot
      simp only
      have hlen := hsmall _ (hpop _ hp).1 (hpop _ hp).2
      have hg := getHalo_get (h := h) prev next (by omega) hsmall hp
      rw [getD_get hp]
      unfold haloSent
      rw [hg]
      simp only
      rw [Nat.add_sub_cancel, if_pos (⟨hc.1, by omega⟩ : (next : Prop) ∧ 0 < i + 1), getD_get hi, e]
      have hfil : ((if (prev : Prop) ∧ i + 1 + 1 < (populated P fun r => (d r).length).length then
          [((populated P fun r => (d r).length).getD (i + 1 + 1) 0,
            (d (populated P fun r => (d r).length)[i + 1]).drop ((d (populated P fun r => (d r).length)[i + 1]).length - h))]
          else []).filter fun m => decide (m.1 = r)) = [] := by
        split
        · next hcc =>
          rw [getD_get hcc.2]
          have := sorted_lt hs (show i < i + 1 + 1 by omega) hcc.2
          rw [List.filter_cons_of_neg]
          · rfl
          · simp; omega
        · rfl
      rw [List.filter_append, hfil]
      simp only [List.filter_cons, decide_true, if_true, List.map_cons, List.headD_cons, List.nil_append]
      generalize hq : (populated P fun r => (d r).length)[i + 1] = q at *
      have w := window_chunk d P q 0 h (hpop _ hp |>.1 |> fun x => hq ▸ x) hlen
      rw [List.drop_zero] at w
      rw [← w, e1]
      rfl
    · rw [if_neg hc, if_neg hc]
      simp [haloGot, window]
  rw [hleft, hright]
  have hmid : d r = window (content P d) (startOf d r) (startOf d r + (d r).length) := by
    have w := window_chunk d P r 0 (d r).length hr (Nat.le_refl _)
    rw [List.take_of_length_le (Nat.le_refl _), List.drop_zero] at w
    rw [Nat.add_zero] at w; exact w.symm
  have hmid2 := congrArg (fun x => window (content P d) (startOf d r - (if prev ∧ 0 < startOf d r then h else 0)) (startOf d r) ++ x ++
    window (content P d) (startOf d r + (d r).length)
        (startOf d r + (d r).length + (if next ∧ startOf d r + (d r).length < (content P d).length then h else 0))) hmid
  rw [hmid2, window_append _ _ _ _ (by omega) (by omega), window_append _ _ _ _ (by omega) (by omega)]

/-- **C19, matching.** Every rank posts exactly as many receives from a source as that source sends to it: no message is left
unmatched and no receive waits for ever. -/
theorem halo_matched_partial (P : Nat) (d : Nat → List α) (h : Nat) (prev next : Bool)
    (h2 : 2 ≤ (populated P fun r => (d r).length).length)
    (hsmall : ∀ r < P, (d r) ≠ [] → h ≤ (d r).length) (s r : Nat) :
    (haloSent P d h prev next s r).length = ((haloRecvs P d h prev next r).filter fun x => x = s).length := by
  have hs := populated_sorted P fun r => (d r).length
  have hnot : ∀ q, q ∉ (populated P fun r => (d r).length) → getHalo P d h prev next q = .ok none := by
    intro q hq
    unfold getHalo
    simp only
    rw [if_neg (by omega), if_neg hq]
  have hinj : ∀ {i j : Nat} (hi : i < (populated P fun r => (d r).length).length)
      (hj : j < (populated P fun r => (d r).length).length),
      ((populated P fun r => (d r).length)[i] = (populated P fun r => (d r).length)[j]) ↔ i = j := by
    intro i j hi hj
    constructor
    · intro e; rw [← idxOf_of_get hs hi, e, idxOf_of_get hs hj]
    · intro e; subst e; rfl
  have hout : ∀ {i : Nat} (hi : i < (populated P fun r => (d r).length).length) {q : Nat},
      q ∉ (populated P fun r => (d r).length) → ¬ (populated P fun r => (d r).length)[i] = q := by
    intro i hi q hq e; exact hq (e ▸ List.getElem_mem hi)
  unfold haloSent haloRecvs
  by_cases hsm : s ∈ (populated P fun r => (d r).length)
  · obtain ⟨i, hi, rfl⟩ := List.getElem_of_mem hsm
    rw [getHalo_get (h := h) prev next (by omega) hsmall hi]
    by_cases hrm : r ∈ (populated P fun r => (d r).length)
    · obtain ⟨j, hj, rfl⟩ := List.getElem_of_mem hrm
      rw [getHalo_get (h := h) prev next (by omega) hsmall hj]
      simp only [List.length_map, List.filter_append, List.length_append]
      rw [Nat.add_comm]
      -- sends to the left match receives from the right and vice versa
      have A : ((if (next : Prop) ∧ 0 < i then [((populated P fun r => (d r).length).getD (i - 1) 0,
          (d (populated P fun r => (d r).length)[i]).take h)] else []).filter
            fun m => decide (m.1 = (populated P fun r => (d r).length)[j])).length =
          ((if (next : Prop) ∧ j + 1 < (populated P fun r => (d r).length).length then
          some ((populated P fun r => (d r).length).getD (j + 1) 0) else none : Option Nat).toList.filter
            fun x => decide (x = (populated P fun r => (d r).length)[i])).length := by
        by_cases hc : (next : Prop) ∧ i = j + 1
        · obtain ⟨hc1, rfl⟩ := hc
          rw [if_pos ⟨hc1, by omega⟩, if_pos ⟨hc1, hi⟩, Nat.add_sub_cancel, getD_get hj,
            getD_get hi]
          simp
        · have e1 : ((if (next : Prop) ∧ 0 < i then [((populated P fun r => (d r).length).getD (i - 1) 0,
              (d (populated P fun r => (d r).length)[i]).take h)] else []).filter
                fun m => decide (m.1 = (populated P fun r => (d r).length)[j])) = [] := by
            split
            · next hcc =>
              rw [getD_get (show i - 1 < _ by omega), List.filter_cons_of_neg]
              · rfl
              · rw [decide_eq_true_eq, hinj (by omega) hj]
                intro e; exact hc ⟨hcc.1, by omega⟩
            · rfl
          have e2 : ((if (next : Prop) ∧ j + 1 < (populated P fun r => (d r).length).length then
              some ((populated P fun r => (d r).length).getD (j + 1) 0) else none : Option Nat).toList.filter
                fun x => decide (x = (populated P fun r => (d r).length)[i])) = [] := by
            split
            · next hcc =>
              rw [getD_get hcc.2, Option.toList_some, List.filter_cons_of_neg]
              · rfl
              · rw [decide_eq_true_eq, hinj hcc.2 hi]
                intro e; exact hc ⟨hcc.1, by omega⟩
            · rfl
          rw [e1, e2]; rfl
      have B : ((if (prev : Prop) ∧ i + 1 < (populated P fun r => (d r).length).length then
          [((populated P fun r => (d r).length).getD (i + 1) 0,
            (d (populated P fun r => (d r).length)[i]).drop ((d (populated P fun r => (d r).length)[i]).length - h))]
          else []).filter fun m => decide (m.1 = (populated P fun r => (d r).length)[j])).length =
          ((if (prev : Prop) ∧ 0 < j then some ((populated P fun r => (d r).length).getD (j - 1) 0) else none : Option Nat).toList.filter
            fun x => decide (x = (populated P fun r => (d r).length)[i])).length := by
        by_cases hc : (prev : Prop) ∧ j = i + 1
        · obtain ⟨hc1, rfl⟩ := hc
          rw [if_pos ⟨hc1, hj⟩, if_pos ⟨hc1, by omega⟩, Nat.add_sub_cancel, getD_get hj,
            getD_get hi]
          simp
        · have e1 : ((if (prev : Prop) ∧ i + 1 < (populated P fun r => (d r).length).length then
              [((populated P fun r => (d r).length).getD (i + 1) 0,
                (d (populated P fun r => (d r).length)[i]).drop ((d (populated P fun r => (d r).length)[i]).length - h))]
              else []).filter fun m => decide (m.1 = (populated P fun r => (d r).length)[j])) = [] := by
            split
            · next hcc =>
              rw [getD_get hcc.2, List.filter_cons_of_neg]
              · rfl
              · rw [decide_eq_true_eq, hinj hcc.2 hj]
                intro e; exact hc ⟨hcc.1, by omega⟩
            · rfl
          have e2 : ((if (prev : Prop) ∧ 0 < j then some ((populated P fun r => (d r).length).getD (j - 1) 0) else none : Option Nat).toList.filter
                fun x => decide (x = (populated P fun r => (d r).length)[i])) = [] := by
            split
            · next hcc =>
              rw [getD_get (show j - 1 < _ by omega), Option.toList_some, List.filter_cons_of_neg]
              · rfl
              · rw [decide_eq_true_eq, hinj (by omega) hi]
                intro e; exact hc ⟨hcc.1, by omega⟩
            · rfl
          rw [e1, e2]; rfl
      rw [A, B, Nat.add_comm]
    · rw [hnot r hrm]
      simp only [List.filter_nil, List.length_nil, List.length_map]
      rw [List.length_eq_zero_iff, List.filter_eq_nil_iff]
      intro m hm
      rw [List.mem_append] at hm
      rw [decide_eq_true_eq]
      intro e
      rcases hm with hm | hm
      · split at hm
        · next hcc =>
          simp at hm
          rw [hm] at e
          simp only at e
          have hlt := hcc.2
          rw [← List.getD_eq_getElem?_getD, getD_get hlt] at e
          exact hout hlt hrm e
        · simp at hm
      · split at hm
        · next hcc =>
          simp at hm
          rw [hm] at e
          simp only at e
          have hlt : i - 1 < (populated P fun r => (d r).length).length := by omega
          rw [← List.getD_eq_getElem?_getD, getD_get hlt] at e
          exact hout hlt hrm e
        · simp at hm
  · rw [hnot s hsm]
    simp only [List.length_nil]
    symm
    rw [List.length_eq_zero_iff, List.filter_eq_nil_iff]
    intro x hx
    rw [decide_eq_true_eq]
    intro e
    by_cases hrm : r ∈ (populated P fun r => (d r).length)
    · obtain ⟨j, hj, rfl⟩ := List.getElem_of_mem hrm
      rw [getHalo_get (h := h) prev next (by omega) hsmall hj] at hx
      simp only [List.mem_append] at hx
      rcases hx with hx | hx
      · split at hx
        · next hcc =>
          rw [getD_get (show j - 1 < _ by omega)] at hx
          simp at hx
          exact hout (show j - 1 < _ by omega) hsm (by rw [← hx]; exact e)
        · simp at hx
      · split at hx
        · next hcc =>
          rw [getD_get hcc.2] at hx
          simp at hx
          exact hout hcc.2 hsm (by rw [← hx]; exact e)
        · simp at hx
    · rw [hnot r hrm] at hx; simp at hx

/-- **C19, errors.** If `h` exceeds some populated chunk (and at least two ranks are populated), every populated rank raises
ValueError, so no rank is left waiting. -/
theorem halo_too_large (P : Nat) (d : Nat → List α) (h : Nat) (prev next : Bool)
    (h2 : 2 ≤ (populated P fun r => (d r).length).length)
    (q : Nat) (hq : q < P) (hqne : d q ≠ []) (hbig : (d q).length < h) (r : Nat) (hr : r < P) (hne : d r ≠ []) :
    getHalo P d h prev next r = .error .valueError := by
  have mem : ∀ x, x < P → d x ≠ [] → x ∈ populated P fun r => (d r).length := by
    intro x hx hxn
    rw [mem_populated]; exact ⟨hx, fun e => hxn (List.eq_nil_of_length_eq_zero e)⟩
  unfold getHalo
  simp only
  rw [if_neg (by omega), if_pos (mem r hr hne), if_pos]
  rw [List.any_eq_true]
  exact ⟨q, mem q hq hqne, by simpa using hbig⟩

/-- three populated ranks and an empty one between them -/
def exHalo : Nat → List Nat := fun r => ([[0, 1, 2], [], [3, 4], [5, 6, 7]] : List (List Nat)).getD r []

example : (populated 4 fun r => (exHalo r).length) = [0, 2, 3] ∧ withHalos 4 exHalo 2 true true 2 = .ok [1, 2, 3, 4, 5, 6] ∧
    withHalos 4 exHalo 2 true false 0 = .ok [0, 1, 2] ∧ withHalos 4 exHalo 3 true true 0 = .error .valueError := by decide

/-- With exactly one populated rank `get_halo(1)` raises TypeError on every rank, although there is nothing to exchange. -/
theorem halo_single_populated_violated (P : Nat) (d : Nat → List α) (h : Nat) (prev next : Bool)
    (h1 : (populated P fun r => (d r).length).length = 1) (r : Nat) :
    getHalo P d h prev next r = .error .typeError := by
  unfold getHalo; simp only; rw [if_pos h1]

example : (populated 2 fun r => (([[0, 1], []] : List (List Nat)).getD r []).length).length = 1 := by decide

end Heat
