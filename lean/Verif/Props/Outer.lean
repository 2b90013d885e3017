import Verif.Model.Outer
import Verif.Spec.Outer
import Verif.Proof.Ring
import Verif.Props.Mpi
import Verif.Props.Concat
/-!
# C64: `outer` computes the outer product on every schedule, needs MPI to buffer, and changes its arguments
-/
namespace Heat

open Spec

variable {α β γ : Type}

/-- Rank whose block is held by rank `r` after `k` rounds. -/
def ringOrg (P r k : Nat) : Nat := if k ≤ r then r - k else r + P - k

theorem ringNext_prev {P r : Nat} (hr : r < P) : ringPrev P r < P ∧ ringNext P (ringPrev P r) = r := by
  unfold ringPrev ringNext
  by_cases h : r = 0
  · subst h; simp; omega
  · simp only [h, ne_eq, not_false_eq_true, if_true]
    refine ⟨by omega, ?_⟩
    rw [if_pos (by omega)]; omega

theorem ringPrev_next {P r : Nat} (hr : r < P) : ringNext P r < P ∧ ringPrev P (ringNext P r) = r := by
  unfold ringPrev ringNext
  by_cases h : r = P - 1
  · subst h; simp; omega
  · simp only [h, ne_eq, not_false_eq_true, if_true]
    refine ⟨by omega, ?_⟩
    rw [if_pos (by omega)]; omega

theorem ringOrigin_eq {P r p : Nat} (hr : r < P) (hp : p + 1 < P) : ringOrigin P r p = ringOrg P r (p + 1) ∧ ringOrg P (ringPrev P r) p = ringOrg P r (p + 1) ∧ ringOrg P r (p + 1) < P := by
  unfold ringOrigin ringOrg ringPrev
  by_cases h : r = 0
  · subst h
    simp only [ne_eq, not_true_eq_false, if_false]
    by_cases h1 : P - 1 < p
    · omega
    · rw [if_neg h1, if_pos (show p ≤ P - 1 by omega), if_neg (show ¬ p + 1 ≤ 0 by omega)]; omega
  · simp only [h, ne_eq, not_false_eq_true, if_true]
    by_cases h1 : r - 1 < p
    · rw [if_pos h1, if_neg (by omega), if_neg (by omega)]; omega
    · rw [if_neg h1, if_pos (by omega), if_pos (by omega)]; omega

theorem slice_get {δ : Type} (L new : List δ) (lo hi : Nat) (h1 : lo ≤ hi) (h2 : hi ≤ L.length) (hn : new.length = hi - lo) (j : Nat) :
    (L.take lo ++ new ++ L.drop hi)[j]? = if lo ≤ j ∧ j < hi then new[j - lo]? else L[j]? := by
  have hl : (L.take lo).length = lo := by rw [List.length_take]; omega
  by_cases a : j < lo
  · rw [if_neg (by omega), List.append_assoc, List.getElem?_append_left (by omega), List.getElem?_take, if_pos a]
  · by_cases b : j < hi
    · rw [if_pos ⟨by omega, b⟩, List.append_assoc, List.getElem?_append_right (by omega), hl, List.getElem?_append_left (by omega)]
    · rw [if_neg (by omega), List.getElem?_append_right (by rw [List.length_append]; omega), List.length_append, hl, hn, List.getElem?_drop]
      congr 1; omega

theorem chunk_bounds (n P r : Nat) (hr : r < P) : (chunkRange n r P).1 ≤ (chunkRange n r P).2 ∧ (chunkRange n r P).2 ≤ n := by
  have h1 := chunkRange_mono n P (show r ≤ r + 1 by omega)
  have h2 := chunkRange_succ n r P
  have h3 := chunkRange_mono n P (show r + 1 ≤ P by omega)
  have h4 := chunkRange_at_P n P (by omega)
  omega

/-- What is known about rank `r` after `k` rounds if the travelling operand is distributed canonically. -/
structure OuterInv (f : α → β → γ) (n P : Nat) (fixed : List α) (trav : Nat → List β) (r k : Nat) (st : RingLoc β γ) : Prop where
  cur : st.cur = trav (ringOrg P r k)
  run : st.run.length = (trav 0).length
  lines : ∃ L, st.lines = some L ∧ L.length = n ∧ ∀ i ≤ k, ∀ t, (ht : t < (trav (ringOrg P r i)).length) →
    L[(chunkRange n (ringOrg P r i) P).1 + t]? = some (fixed.map fun x => f x (trav (ringOrg P r i))[t])

theorem assign_even (f : α → β → γ) (n P : Nat) (fixed : List α) (trav : Nat → List β) (L : List (List γ)) (q : Nat) (hq : q < P) (hL : L.length = n)
    (hlen : (trav q).length = evenSize n P q) :
    ∃ L', assignLines L (chunkRange n q P).1 (chunkRange n q P).2 (einsumLines f fixed (trav q)) = some L' ∧ L'.length = n ∧
      (∀ t, (ht : t < (trav q).length) → L'[(chunkRange n q P).1 + t]? = some (fixed.map fun x => f x (trav q)[t])) ∧
      ∀ j, ¬ ((chunkRange n q P).1 ≤ j ∧ j < (chunkRange n q P).2) → L'[j]? = L[j]? := by
  have hb := chunk_bounds n P q hq
  have hs := chunkRange_size n q P
  have hnew : (einsumLines f fixed (trav q)).length = (chunkRange n q P).2 - (chunkRange n q P).1 := by
    rw [hs, ← hlen]; simp [einsumLines]
  refine ⟨L.take (chunkRange n q P).1 ++ einsumLines f fixed (trav q) ++ L.drop (chunkRange n q P).2, ?_, ?_, ?_, ?_⟩
  · unfold assignLines; rw [if_pos hnew]
  · simp only [List.length_append, List.length_take, List.length_drop, hnew, hL]; omega
  · intro t ht
    rw [slice_get _ _ _ _ hb.1 (by omega) hnew, if_pos (by omega), show (chunkRange n q P).1 + t - (chunkRange n q P).1 = t by omega]
    simp [einsumLines, ht]
  · intro j hj
    rw [slice_get _ _ _ _ hb.1 (by omega) hnew, if_neg hj]

theorem chunk_disjoint (n P : Nat) {q o t : Nat} (hqo : q ≠ o) (ht : t < evenSize n P q) :
    ¬ ((chunkRange n o P).1 ≤ (chunkRange n q P).1 + t ∧ (chunkRange n q P).1 + t < (chunkRange n o P).2) := by
  rintro ⟨h1, h2⟩
  have hsq := chunkRange_size n q P
  have hso := chunkRange_size n o P
  have eq := chunkRange_succ n q P
  have eo := chunkRange_succ n o P
  rcases Nat.lt_or_gt_of_ne hqo with h | h
  · have := chunkRange_mono n P (show q + 1 ≤ o by omega)
    omega
  · have := chunkRange_mono n P (show o + 1 ≤ q by omega)
    omega

theorem evenSize_le_zero (n P r : Nat) : evenSize n P r ≤ evenSize n P 0 := by
  unfold evenSize; by_cases h : r < n % P
  · rw [if_pos h, if_pos (by omega)]; omega
  · rw [if_neg h]; omega

theorem outer_inv_start (f : α → β → γ) (zero : γ) (n P : Nat) (fixed : List α) (trav : Nat → List β) (junk : Nat → β) (hb : ∀ r < P, (trav r).length = evenSize n P r) (r : Nat) (hr : r < P) :
    OuterInv f n P fixed trav r 0 (outerStart f zero n P fixed trav junk r) := by
  refine ⟨by simp [outerStart, ringOrg], by simp [outerStart], ?_⟩
  by_cases h0 : (trav r).length = 0
  · refine ⟨List.replicate n (List.replicate fixed.length zero), by simp [outerStart, h0], by simp, ?_⟩
    intro i hi t ht
    obtain rfl : i = 0 := by omega
    exfalso
    simp only [ringOrg, Nat.zero_le, if_true, Nat.sub_zero] at ht
    omega
  · obtain ⟨L', h1, h2, h3, -⟩ := assign_even f n P fixed trav (List.replicate n (List.replicate fixed.length zero)) r hr (by simp) (hb r hr)
    refine ⟨L', by simp only [outerStart]; rw [if_neg h0]; exact h1, h2, ?_⟩
    intro i hi t ht
    obtain rfl : i = 0 := by omega
    have e : ringOrg P r 0 = r := by simp [ringOrg]
    simp only [e] at ht ⊢
    exact h3 t ht

theorem outer_inv_step (f : α → β → γ) (n P : Nat) (fixed : List α) (trav : Nat → List β) (hb : ∀ r < P, (trav r).length = evenSize n P r) (r k : Nat) (hr : r < P) (hk : k + 1 < P)
    (st : RingLoc β γ) (hst : OuterInv f n P fixed trav r k st) (m : List β) (hm : m = trav (ringOrg P (ringPrev P r) k)) :
    OuterInv f n P fixed trav r (k + 1) (outerTake f n P fixed (fun q => (trav q).length) r k m st) := by
  obtain ⟨e1, e2, hq⟩ := ringOrigin_eq hr hk
  rw [e2] at hm
  subst hm
  have hle : (trav (ringOrg P r (k + 1))).length ≤ st.run.length := by
    rw [hst.run, hb _ hq, hb 0 (by omega)]; exact evenSize_le_zero n P _
  obtain ⟨L, hL1, hL2, hL3⟩ := hst.lines
  have hcur : (trav (ringOrg P r (k + 1)) ++ st.run.drop (trav (ringOrg P r (k + 1))).length).take (trav (ringOrigin P r k)).length = trav (ringOrg P r (k + 1)) := by
    rw [e1, List.take_left]
  refine ⟨hcur, ?_, ?_⟩
  · simp only [outerTake, List.length_append, List.length_drop]
    rw [← hst.run]; omega
  · obtain ⟨L', h1, h2, h3, h4⟩ := assign_even f n P fixed trav L (ringOrg P r (k + 1)) hq hL2 (hb _ hq)
    refine ⟨L', ?_, h2, ?_⟩
    · simp only [outerTake, hcur]
      rw [if_neg (by omega), hL1, e1]
      exact h1
    · intro i hi t ht
      by_cases hik : ringOrg P r i = ringOrg P r (k + 1)
      · simp only [hik] at ht ⊢
        exact h3 t ht
      · have hik' : i ≤ k := by
          rcases Nat.lt_or_ge k i with h | h
          · exact absurd (by rw [show i = k + 1 by omega]) hik
          · exact h
        have ho : ringOrg P r i < P := by unfold ringOrg; split <;> omega
        rw [h4 _ (chunk_disjoint n P hik (by rw [← hb _ ho]; exact ht))]
        exact hL3 i hik' t ht

/-- State of all ranks after the ring (by `kahn`, of every complete execution). -/
def outerFinal (f : α → β → γ) (zero : γ) (n P : Nat) (fixed : Nat → List α) (trav : Nat → List β) (junk : Nat → β) : Nat → RingLoc β γ :=
  ringRounds P (ringPrev P) (fun st => st.cur) (fun r p => outerTake f n P (fixed r) (fun q => (trav q).length) r p) 0 (P - 1) (fun r => outerStart f zero n P (fixed r) trav junk r)

theorem outer_exec (f : α → β → γ) (zero : γ) (n P : Nat) (fixed : Nat → List α) (trav : Nat → List β) (junk : Nat → β) :
    Steps BStep ((P - 1) * (P + P)) (outerInit f zero n P fixed trav junk) { prog := fun _ => [], loc := outerFinal f zero n P fixed trav junk, chan := fun _ _ _ => [] } := by
  have h := ring_exec P (ringNext P) (ringPrev P) (fun r hr => ringNext_prev hr) (fun r hr => ringPrev_next hr) (fun st : RingLoc β γ => st.cur)
    (fun r p => outerTake f n P (fixed r) (fun q => (trav q).length) r p) (P - 1) 0 (fun r => outerStart f zero n P (fixed r) trav junk r)
  rw [← List.range_eq_range'] at h
  exact h

theorem outer_inv (f : α → β → γ) (zero : γ) (n P : Nat) (fixed : Nat → List α) (trav : Nat → List β) (junk : Nat → β) (hb : ∀ r < P, (trav r).length = evenSize n P r) :
    ∀ k < P, ∀ r < P, OuterInv f n P (fixed r) trav r k
      (ringRounds P (ringPrev P) (fun st => st.cur) (fun r p => outerTake f n P (fixed r) (fun q => (trav q).length) r p) 0 k (fun r => outerStart f zero n P (fixed r) trav junk r) r)
  | 0, _, r, hr => outer_inv_start f zero n P (fixed r) trav junk hb r hr
  | k + 1, hk, r, hr => by
    rw [ringRounds_succ]
    simp only [hr, if_true, Nat.zero_add]
    have i1 := outer_inv f zero n P fixed trav junk hb k (by omega) r hr
    have i2 := outer_inv f zero n P fixed trav junk hb k (by omega) (ringPrev P r) (ringNext_prev hr).1
    exact outer_inv_step f n P (fixed r) trav hb r k hr hk _ i1 _ i2.cur

theorem ringOrg_onto {P r q : Nat} (hr : r < P) (hq : q < P) : ∃ i ≤ P - 1, ringOrg P r i = q := by
  unfold ringOrg
  by_cases h : q ≤ r
  · exact ⟨r - q, by omega, by rw [if_pos (by omega)]; omega⟩
  · exact ⟨r + P - q, by omega, by rw [if_neg (by omega)]; omega⟩

theorem outer_final_lines (f : α → β → γ) (zero : γ) (P : Nat) (fixed : Nat → List α) (trav : Nat → List β) (junk : Nat → β) (hb : Balanced P trav) (r : Nat) (hr : r < P) :
    (outerFinal f zero (content P trav).length P fixed trav junk r).lines = some ((content P trav).map fun y => (fixed r).map fun x => f x y) := by
  obtain ⟨L, h1, h2, h3⟩ := (outer_inv f zero (content P trav).length P fixed trav junk hb (P - 1) (by omega) r hr).lines
  unfold outerFinal
  rw [h1]
  congr 1
  apply List.ext_getElem?
  intro j
  by_cases hj : j < (content P trav).length
  · obtain ⟨q, hq, hq1, hq2⟩ := startOf_owner trav P j hj
    obtain ⟨i, hi, rfl⟩ := ringOrg_onto hr hq
    have hst := balanced_chunk_start hb (ringOrg P r i) (by omega)
    rw [startOf_succ] at hq2
    have ht : j - startOf trav (ringOrg P r i) < (trav (ringOrg P r i)).length := by omega
    have := h3 i hi (j - startOf trav (ringOrg P r i)) ht
    rw [show (chunkRange (content P trav).length (ringOrg P r i) P).1 + (j - startOf trav (ringOrg P r i)) = j by omega] at this
    rw [this, List.getElem?_map]
    have hc := content_get trav P (ringOrg P r i) (j - startOf trav (ringOrg P r i)) hq ht
    rw [show startOf trav (ringOrg P r i) + (j - startOf trav (ringOrg P r i)) = j by omega] at hc
    rw [hc]; simp [ht]
  · rw [List.getElem?_eq_none (by omega), List.getElem?_eq_none (by simp; omega)]

/-! ## Distributions that are not canonical -/

theorem lines_none_round (f : α → β → γ) (n P : Nat) (fixed : List α) (lens : Nat → Nat) (r p : Nat) (m : List β) (st : RingLoc β γ) (h : st.lines = none) :
    (outerTake f n P fixed lens r p m st).lines = none := by
  simp [outerTake, h]

theorem lines_none_rounds (f : α → β → γ) (n P : Nat) (fixed : Nat → List α) (lens : Nat → Nat) : ∀ (k p0 : Nat) (loc : Nat → RingLoc β γ) (r : Nat), (loc r).lines = none →
    (ringRounds P (ringPrev P) (fun st => st.cur) (fun r p => outerTake f n P (fixed r) lens r p) p0 k loc r).lines = none
  | 0, _, _, _, h => h
  | k + 1, p0, loc, r, h => by
    rw [ringRounds]
    apply lines_none_rounds f n P fixed lens k
    by_cases hr : r < P
    · simp only [hr, if_true]; exact lines_none_round f n P (fixed r) lens r p0 _ _ h
    · simp only [hr, if_false]; exact h

theorem assign_none {δ : Type} (L : List δ) (lo hi : Nat) (new : List δ) (h1 : new.length ≠ hi - lo) (h2 : new.length ≠ 1) : assignLines L lo hi new = none := by
  unfold assignLines
  rw [if_neg h1]
  match new, h2 with
  | [], _ => rfl
  | [x], h => simp at h
  | x :: y :: l, _ => rfl

theorem exists_bad (trav : Nat → List β) (P : Nat) (hnb : ¬ Balanced P trav) :
    ∃ q < P, (trav q).length ≠ evenSize (content P trav).length P q ∧ (trav q).length ≠ 1 := by
  refine Classical.byContradiction fun hc => hnb ?_
  have hall : ∀ q < P, (trav q).length = evenSize (content P trav).length P q ∨ (trav q).length = 1 := by
    intro q hq
    refine Classical.byContradiction fun h => hc ⟨q, hq, fun e => h (Or.inl e), fun e => h (Or.inr e)⟩
  have hP : 0 < P := by
    rcases Nat.eq_zero_or_pos P with h | h
    · subst h; exact absurd (fun r hr => by omega) hnb
    · exact h
  generalize hn : (content P trav).length = n at hall
  -- partial sums of the sizes
  have hsum : ∀ k ≤ P, (∀ q < k, (trav q).length ≤ evenSize n P q) → startOf trav k ≤ (chunkRange n k P).1 := by
    intro k hk h
    induction k with
    | zero => simp [startOf_zero]
    | succ k ih =>
      have := ih (by omega) (fun q hq => h q (by omega))
      have := h k (by omega)
      have := chunkStart_succ n P k
      rw [catChunk_eq] at this
      rw [startOf_succ]; omega
  have hsum' : ∀ k ≤ P, (∀ q < k, evenSize n P q ≤ (trav q).length) → (chunkRange n k P).1 ≤ startOf trav k := by
    intro k hk h
    induction k with
    | zero => simp [chunkRange_zero]
    | succ k ih =>
      have := ih (by omega) (fun q hq => h q (by omega))
      have := h k (by omega)
      have := chunkStart_succ n P k
      rw [catChunk_eq] at this
      rw [startOf_succ]; omega
  have hend : startOf trav P = (chunkRange n P P).1 := by rw [chunkRange_at_P n P hP]; exact hn
  intro r hr
  rw [hn]
  by_cases hbig : P ≤ n
  · -- every chunk has at least one element: sizes never exceed the chunks
    have hge : ∀ q < P, 1 ≤ evenSize n P q := by
      intro q _; unfold evenSize
      have := Nat.div_pos hbig hP
      omega
    have hle : ∀ q < P, (trav q).length ≤ evenSize n P q := by
      intro q hq
      have := hge q hq
      rcases hall q hq with h | h <;> omega
    refine Nat.le_antisymm (hle r hr) (Nat.not_lt.1 fun hlt => ?_)
    have : ∀ k, r < k → k ≤ P → startOf trav k < (chunkRange n k P).1 := by
      intro k
      induction k with
      | zero => omega
      | succ k ih =>
        intro h1 h2
        have hs := chunkStart_succ n P k
        rw [catChunk_eq] at hs
        have hl := hle k (by omega)
        rw [startOf_succ]
        by_cases e : r = k
        · subst e
          have := hsum r (by omega) (fun q hq => hle q (by omega))
          omega
        · have := ih (by omega) (by omega)
          omega
    have := this P hr (Nat.le_refl _)
    omega
  · -- every chunk has at most one element: sizes are never below the chunks
    have hle1 : ∀ q < P, evenSize n P q ≤ 1 := by
      intro q _; unfold evenSize
      rw [Nat.div_eq_of_lt (by omega)]
      split <;> omega
    have hle : ∀ q < P, evenSize n P q ≤ (trav q).length := by
      intro q hq
      have := hle1 q hq
      rcases hall q hq with h | h <;> omega
    refine Nat.le_antisymm (Nat.not_lt.1 fun hlt => ?_) (hle r hr)
    have : ∀ k, r < k → k ≤ P → (chunkRange n k P).1 < startOf trav k := by
      intro k
      induction k with
      | zero => omega
      | succ k ih =>
        intro h1 h2
        have hs := chunkStart_succ n P k
        rw [catChunk_eq] at hs
        have hl := hle k (by omega)
        rw [startOf_succ]
        by_cases e : r = k
        · subst e
          have := hsum' r (by omega) (fun q hq => hle q (by omega))
          omega
        · have := ih (by omega) (by omega)
          omega
    have := this P hr (Nat.le_refl _)
    omega

theorem balanced_one (trav : Nat → List β) : Balanced 1 trav := by
  intro r hr
  obtain rfl : r = 0 := by omega
  simp [evenSize, content_succ, content_zero, Nat.mod_one]

theorem outer_bad_lines (f : α → β → γ) (zero : γ) (P : Nat) (fixed : Nat → List α) (trav : Nat → List β) (junk : Nat → β) (hnb : ¬ Balanced P trav) :
    ∃ r < P, (outerFinal f zero (content P trav).length P fixed trav junk r).lines = none := by
  obtain ⟨q, hq, h1, h2⟩ := exists_bad trav P hnb
  generalize (content P trav).length = n at h1
  have hP1 : P ≠ 1 := by rintro rfl; exact hnb (balanced_one trav)
  have hs := chunkRange_size n q P
  by_cases h0 : (trav q).length = 0
  · refine ⟨ringNext P q, (ringPrev_next hq).1, ?_⟩
    unfold outerFinal
    obtain ⟨k, hk⟩ : ∃ k, P - 1 = k + 1 := ⟨P - 2, by omega⟩
    rw [hk, ringRounds]
    apply lines_none_rounds
    have hnx := ringPrev_next hq
    simp only [hnx.1, if_true, hnx.2]
    have ho : ringOrigin P (ringNext P q) 0 = q := by simp [ringOrigin, hnx.2]
    have hqe : trav q = [] := List.length_eq_zero_iff.1 h0
    simp only [outerTake, outerStart, ho, hqe, List.length_nil, List.take_zero, einsumLines, List.map_nil, Nat.not_lt_zero, if_false]
    have : ∀ L : List (List γ), assignLines L (chunkRange n q P).1 (chunkRange n q P).2 [] = none := by
      intro L
      apply assign_none
      · rw [hs]; simp only [List.length_nil]; omega
      · simp
    simp only [this]
    split <;> simp [Option.bind]
    split <;> rfl
  · refine ⟨q, hq, ?_⟩
    unfold outerFinal
    apply lines_none_rounds
    simp only [outerStart]
    rw [if_neg h0]
    apply assign_none
    · rw [hs]; simpa [einsumLines] using h1
    · simpa [einsumLines] using h2

/-- **C64.**  For every distribution of both operands, every schedule on which MPI buffers: no execution has more than `2 P (P - 1)` steps, one that cannot go
on has finished on every rank, and if no rank has raised then every rank holds exactly its part of the outer product (fixed operand: any distribution,
so `start = startOf fixed r`). -/
theorem outer_spec_partial (f : α → β → γ) (zero : γ) (P : Nat) (fixed : Nat → List α) (trav : Nat → List β) (junk : Nat → β) {k : Nat} {st : BState (RingLoc β γ) (List β)}
    (h : Steps BStep k (outerInit f zero (content P trav).length P fixed trav junk) st) :
    k ≤ (P - 1) * (2 * P) ∧
      (Stuck BStep st → (∀ r, st.prog r = []) ∧
        ((∀ r < P, (st.loc r).lines ≠ none) → ∀ r < P, ∃ lines, (st.loc r).lines = some lines ∧
          IsOuterPart f (content P fixed) (startOf fixed r) (fixed r).length (content P trav) lines)) := by
  have he := outer_exec f zero (content P trav).length P fixed trav junk
  have hf := empty_stuck (outerFinal f zero (content P trav).length P fixed trav junk) (fun _ _ _ => ([] : List (List β)))
  have hk := (kahn hf he h).1
  refine ⟨by rw [Nat.two_mul]; exact hk, ?_⟩
  intro hst
  obtain ⟨-, rfl⟩ := kahn_stuck hf he h hst
  refine ⟨fun _ => rfl, ?_⟩
  intro hok r hr
  have hb : Balanced P trav := by
    refine Classical.byContradiction fun hnb => ?_
    obtain ⟨q, hq, hn⟩ := outer_bad_lines f zero P fixed trav junk hnb
    exact hok q hq hn
  refine ⟨_, outer_final_lines f zero P fixed trav junk hb r hr, by simp, ?_⟩
  intro j hj
  refine ⟨(fixed r).map fun x => f x (content P trav)[j], by simp [hj], by simp, ?_⟩
  intro i hi
  exact ⟨(fixed r)[i], content_get fixed P r i hr hi, by simp [hi]⟩

/-- It does not raise if and only if the travelling operand is distributed canonically. -/
theorem outer_raises_iff (f : α → β → γ) (zero : γ) (P : Nat) (fixed : Nat → List α) (trav : Nat → List β) (junk : Nat → β) {k : Nat} {st : BState (RingLoc β γ) (List β)}
    (h : Steps BStep k (outerInit f zero (content P trav).length P fixed trav junk) st) (hst : Stuck BStep st) :
    (∀ r < P, (st.loc r).lines ≠ none) ↔ Balanced P trav := by
  have he := outer_exec f zero (content P trav).length P fixed trav junk
  have hf := empty_stuck (outerFinal f zero (content P trav).length P fixed trav junk) (fun _ _ _ => ([] : List (List β)))
  obtain ⟨-, rfl⟩ := kahn_stuck hf he h hst
  constructor
  · intro hok
    refine Classical.byContradiction fun hnb => ?_
    obtain ⟨q, hq, hn⟩ := outer_bad_lines f zero P fixed trav junk hnb
    exact hok q hq hn
  · intro hb r hr hn
    rw [outer_final_lines f zero P fixed trav junk hb r hr] at hn
    exact absurd hn (by simp)

/-- Such an execution exists. -/
theorem outer_completes (f : α → β → γ) (zero : γ) (P : Nat) (fixed : Nat → List α) (trav : Nat → List β) (junk : Nat → β) :
    ∃ k st, Steps BStep k (outerInit f zero (content P trav).length P fixed trav junk) st ∧ Stuck BStep st :=
  ⟨_, _, outer_exec f zero _ P fixed trav junk, empty_stuck _ _⟩

/-- **C64 violated (deadlock).**  On two or more ranks everybody begins with `Send`: if MPI does not buffer the messages, nobody ever gets on, whatever the data. -/
theorem outer_deadlock_violated (f : α → β → γ) (zero : γ) (n P : Nat) (hP : 2 ≤ P) (fixed : Nat → List α) (trav : Nat → List β) (junk : Nat → β) :
    ¬ MustStep (outerInit f zero n P fixed trav junk) ∧ ∀ r < P, (outerInit f zero n P fixed trav junk).prog r ≠ [] := by
  have hhead : ∀ r < P, ∃ rest, (outerInit f zero n P fixed trav junk).prog r = .send (ringNext P r) 0 (fun st => st.cur) id :: rest := by
    intro r hr
    obtain ⟨k, hk⟩ : ∃ k, P - 1 = k + 1 := ⟨P - 2, by omega⟩
    simp only [outerInit, outerProg, hr, if_true, hk, List.range_succ_eq_map, List.flatMap_cons, List.cons_append]
    exact ⟨_, rfl⟩
  have hnone : ∀ r, ¬ r < P → (outerInit f zero n P fixed trav junk).prog r = [] := by
    intro r hr; simp [outerInit, outerProg, hr]
  have norecv : ∀ (r s t : Nat) (tk : List β → RingLoc β γ → RingLoc β γ) (rest : List (BOp (RingLoc β γ) (List β))), (outerInit f zero n P fixed trav junk).prog r ≠ .recv s t tk :: rest := by
    intro r s t tk rest h
    by_cases hr : r < P
    · obtain ⟨rest', h'⟩ := hhead r hr
      rw [h'] at h; cases h
    · rw [hnone r hr] at h; cases h
  constructor
  · intro h
    cases h with
    | recv r s t tk rest m ms h hc => exact norecv _ _ _ _ _ h
    | meet r d t msg after rest tk rest' h h' => exact norecv _ _ _ _ _ h'
  · intro r hr h
    obtain ⟨rest, h'⟩ := hhead r hr
    rw [h'] at h; cases h

/-- The result's split is the one asked for, or that of `a`, or 0; it is distributed exactly if something was. -/
theorem outer_split (d : Bool) (split sa sb : Option Nat) (hs : sa = none ∨ sa = some 0) :
    (outerSplits d split sa sb).1 = if (d && split.isSome) || sa.isSome || sb.isSome then (if split.isSome then split else some 0) else none := by
  unfold outerSplits
  cases split <;> cases sa <;> cases sb <;> cases d <;> simp_all

/-- **C64 violated (arguments).**  An operand that is not split comes back split along axis 0. -/
theorem outer_arguments_violated : ∃ sa, sa = none ∧ (outerSplits true none sa (some 0)).2.1 = some 0 := ⟨none, rfl, rfl⟩

/-- non-vacuity: three ranks, `a` of sizes 0, 3, 1, `b` of sizes 2, 1, 1 -/
example : Balanced 3 (fun r => if r = 0 then [1, 2] else if r = 1 then [3] else if r = 2 then [4] else ([] : List Nat)) := by
  intro r hr
  match r, hr with
  | 0, _ => simp [content_succ, content_zero, evenSize]
  | 1, _ => simp [content_succ, content_zero, evenSize]
  | 2, _ => simp [content_succ, content_zero, evenSize]

example : ((outerFinal (· * ·) 0 4 3 (fun r => if r = 1 then [5, 6, 7] else if r = 2 then [8] else []) (fun r => if r = 0 then [1, 2] else if r = 1 then [3] else [4]) (fun _ => 9) 2).lines) =
    some [[8], [16], [24], [32]] := by decide +kernel

end Heat
