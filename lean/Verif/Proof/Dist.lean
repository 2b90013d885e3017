import Verif.Model.Dist
import Verif.Proof.Chunk
/-! Lemmas about distributions and `redistribute_`. -/
namespace Heat
open Heat.Spec
variable {α : Type}

theorem content_zero (d : Nat → List α) : content 0 d = [] := rfl

theorem content_succ (k : Nat) (d : Nat → List α) : content (k + 1) d = content k d ++ d k := by
  simp [content, List.range_succ]

theorem content_congr {k : Nat} {d d' : Nat → List α} (h : ∀ i < k, d i = d' i) :
    content k d = content k d' := by
  unfold content
  rw [List.flatMap, List.flatMap]
  congr 1
  apply List.map_congr_left
  intro i hi; exact h i (List.mem_range.1 hi)

theorem content_length_mono (d : Nat → List α) {j k : Nat} (h : j ≤ k) :
    (content j d).length ≤ (content k d).length := by
  induction k with
  | zero => simp [Nat.le_zero.1 h]
  | succ k ih =>
    by_cases h2 : j = k + 1
    · subst h2; exact Nat.le_refl _
    · have := ih (by omega); rw [content_succ]; simp; omega

theorem startOf_succ (d : Nat → List α) (r : Nat) : startOf d (r + 1) = startOf d r + (d r).length := by
  simp [startOf, content_succ]

theorem startOf_zero (d : Nat → List α) : startOf d 0 = 0 := rfl

theorem startOf_mono (d : Nat → List α) {j k : Nat} (h : j ≤ k) : startOf d j ≤ startOf d k :=
  content_length_mono d h

/-- owner of a global index -/
theorem startOf_owner (d : Nat → List α) (P g : Nat) (hg : g < startOf d P) :
    ∃ r, r < P ∧ startOf d r ≤ g ∧ g < startOf d (r + 1) := by
  induction P with
  | zero => simp [startOf_zero] at hg
  | succ k ih =>
    by_cases h : g < startOf d k
    · obtain ⟨r, h1, h2⟩ := ih h; exact ⟨r, by omega, h2⟩
    · exact ⟨k, by omega, by omega, hg⟩

theorem startOf_owner_unique (d : Nat → List α) (g r s : Nat)
    (h1 : startOf d r ≤ g) (h2 : g < startOf d (r + 1)) (h3 : startOf d s ≤ g)
    (h4 : g < startOf d (s + 1)) : r = s := by
  rcases Nat.lt_trichotomy r s with h | h | h
  · have := startOf_mono d (show r + 1 ≤ s by omega); omega
  · exact h
  · have := startOf_mono d (show s + 1 ≤ r by omega); omega

/-- the slab with global index `startOf d r + j` is the `j`-th slab of rank `r` -/
theorem content_get (d : Nat → List α) (P r j : Nat) (hr : r < P) (hj : j < (d r).length) :
    (content P d)[startOf d r + j]? = some (d r)[j] := by
  induction P with
  | zero => omega
  | succ k ih =>
    rw [content_succ]
    by_cases h : r = k
    · subst h
      rw [List.getElem?_append_right (by simp [startOf])]
      simp [startOf, hj]
    · rw [List.getElem?_append_left]
      · exact ih (by omega)
      · have := startOf_mono d (show r + 1 ≤ k by omega)
        rw [startOf_succ] at this
        simp only [startOf] at *; omega

theorem cum_eq_content (f : Nat → Int) (d : Nat → List α) (k : Nat)
    (h : ∀ i < k, f i = ((d i).length : Int)) : cum f k = ((content k d).length : Int) := by
  induction k with
  | zero => rfl
  | succ k ih =>
    rw [cum, content_succ, ih (fun i hi => h i (by omega)), h k (by omega)]; simp

theorem cum_mono (f : Nat → Int) (P : Nat) (h : ∀ i < P, 0 ≤ f i) {j k : Nat} (hjk : j ≤ k) (hk : k ≤ P) :
    cum f j ≤ cum f k := by
  induction k with
  | zero => simp [Nat.le_zero.1 hjk]
  | succ k ih =>
    by_cases h2 : j = k + 1
    · subst h2; exact Int.le_refl _
    · have := ih (by omega) (by omega); have := h k (by omega); rw [cum]; omega

theorem cum_congr {f g : Nat → Int} {k : Nat} (h : ∀ i < k, f i = g i) : cum f k = cum g k := by
  induction k with
  | zero => rfl
  | succ k ih => rw [cum, cum, ih (fun i hi => h i (by omega)), h k (by omega)]

/-! ### is_balanced, lshape_map -/

theorem flags_sum (P : Nat) (p : Nat → Prop) [DecidablePred p] :
    ((List.range P).map fun r => if p r then 1 else 0).sum ≤ P ∧
    (((List.range P).map fun r => if p r then 1 else 0).sum = P ↔ ∀ r < P, p r) := by
  induction P with
  | zero => simp
  | succ k ih =>
    obtain ⟨h1, h2⟩ := ih
    rw [List.range_succ, List.map_append, List.sum_append]
    simp only [List.map_cons, List.map_nil, List.sum_cons, List.sum_nil, Nat.add_zero]
    constructor
    · split <;> omega
    · by_cases hk : p k
      · rw [if_pos hk]
        constructor
        · intro h
          have := h2.1 (by omega)
          intro r hr
          by_cases hr' : r = k
          · subst hr'; exact hk
          · exact this r (by omega)
        · intro h
          have := h2.2 fun r hr => h r (by omega)
          omega
      · rw [if_neg hk]
        constructor
        · intro h; omega
        · intro h; exact absurd (h k (by omega)) hk

theorem chunkRange_size (n r P : Nat) : (chunkRange n r P).2 - (chunkRange n r P).1 = evenSize n P r := by
  rw [chunkRange_snd]; omega

theorem isBalancedCheck_iff (n P : Nat) (d : Nat → List α) :
    isBalancedCheck n P d = true ↔ ∀ r < P, (d r).length = evenSize n P r := by
  unfold isBalancedCheck
  simp only [chunkRange_size, beq_iff_eq]
  rw [(flags_sum P fun r => evenSize n P r = (d r).length).2]
  constructor
  · intro h r hr; exact (h r hr).symm
  · intro h r hr; exact (h r hr).symm

theorem onehot_sum (P i : Nat) (f : Nat → Int) :
    ((List.range P).map fun r => if i = r then f r else 0).sum = if i < P then f i else 0 := by
  induction P with
  | zero => simp
  | succ k ih =>
    rw [List.range_succ, List.map_append, List.sum_append, ih]
    simp only [List.map_cons, List.map_nil, List.sum_cons, List.sum_nil]
    by_cases h : i = k
    · subst h; simp
    · by_cases h2 : i < k
      · simp [h, h2, show i < k + 1 by omega]
      · simp [h, h2, show ¬ i < k + 1 by omega]

theorem lshapeMapForced_eq (n P : Nat) (d : Nat → List α) (i : Nat) (hi : i < P) :
    lshapeMapForced n P d i = ((d i).length : Int) := by
  unfold lshapeMapForced
  split
  · rename_i h
    rw [isBalancedCheck_iff] at h
    simp only [chunkRange_size, h i hi]
  · rw [onehot_sum]; simp [hi]

/-! ### redistribute_ -/

theorem upd_same {β : Type} (f : Nat → β) (i : Nat) (v : β) : upd f i v i = v := by simp [upd]
theorem upd_ne {β : Type} (f : Nat → β) {i j : Nat} (v : β) (h : j ≠ i) : upd f i v j = f j := by
  simp [upd, h]

/-- pulling from a higher rank, everything in between empty, preserves all prefixes beyond `snd` -/
theorem pull_content (d : Nat → List α) (snd rcv a : Nat) (h : rcv < snd)
    (hempty : ∀ i, rcv < i → i < snd → d i = []) (k : Nat) (hk : snd < k) :
    content k (upd (upd d snd ((d snd).drop a)) rcv (d rcv ++ (d snd).take a)) = content k d := by
  generalize hd' : upd (upd d snd ((d snd).drop a)) rcv (d rcv ++ (d snd).take a) = d'
  have e1 : d' rcv = d rcv ++ (d snd).take a := by rw [← hd', upd_same]
  have e2 : d' snd = (d snd).drop a := by rw [← hd', upd_ne _ _ (by omega), upd_same]
  have e3 : ∀ i, i ≠ rcv → i ≠ snd → d' i = d i := by
    intro i h1 h2; rw [← hd', upd_ne _ _ h1, upd_ne _ _ h2]
  have low : content rcv d' = content rcv d := content_congr fun i hi => e3 i (by omega) (by omega)
  have mid : ∀ m, rcv + 1 + m ≤ snd →
      content (rcv + 1 + m) d' = content rcv d ++ d rcv ++ (d snd).take a ∧
      content (rcv + 1 + m) d = content rcv d ++ d rcv := by
    intro m
    induction m with
    | zero => intro _; simp only [Nat.add_zero, content_succ]; rw [low, e1]; simp
    | succ m ih =>
      intro hm
      obtain ⟨h1, h2⟩ := ih (by omega)
      have he := hempty (rcv + 1 + m) (by omega) (by omega)
      rw [← Nat.add_assoc, content_succ, content_succ, h1, h2, e3 (rcv + 1 + m) (by omega) (by omega), he]
      simp
  have high : ∀ m, content (snd + 1 + m) d' = content (snd + 1 + m) d := by
    intro m
    induction m with
    | zero =>
      obtain ⟨h1, h2⟩ := mid (snd - (rcv + 1)) (by omega)
      rw [show rcv + 1 + (snd - (rcv + 1)) = snd by omega] at h1 h2
      simp only [Nat.add_zero, content_succ]
      rw [h1, h2, e2]; simp
    | succ m ih => rw [← Nat.add_assoc, content_succ, content_succ, ih, e3 _ (by omega) (by omega)]
  have := high (k - (snd + 1))
  rwa [show snd + 1 + (k - (snd + 1)) = k by omega] at this

/-- pushing to the next rank preserves all prefixes beyond it -/
theorem push_content (d : Nat → List α) (r b : Nat) (k : Nat) (hk : r + 1 < k) :
    content k (upd (upd d r ((d r).take b)) (r + 1) ((d r).drop b ++ d (r + 1))) = content k d := by
  generalize hd' : upd (upd d r ((d r).take b)) (r + 1) ((d r).drop b ++ d (r + 1)) = d'
  have e1 : d' (r + 1) = (d r).drop b ++ d (r + 1) := by rw [← hd', upd_same]
  have e2 : d' r = (d r).take b := by rw [← hd', upd_ne _ _ (by omega), upd_same]
  have e3 : ∀ i, i ≠ r + 1 → i ≠ r → d' i = d i := by
    intro i h1 h2; rw [← hd', upd_ne _ _ h1, upd_ne _ _ h2]
  have low : content r d' = content r d := content_congr fun i hi => e3 i (by omega) (by omega)
  have high : ∀ m, content (r + 2 + m) d' = content (r + 2 + m) d := by
    intro m
    induction m with
    | zero =>
      simp only [Nat.add_zero, content_succ]
      rw [low, e1, e2, List.append_assoc, ← List.append_assoc ((d r).take b), List.take_append_drop]
      simp
    | succ m ih => rw [← Nat.add_assoc, content_succ, content_succ, ih, e3 _ (by omega) (by omega)]
  have := high (k - (r + 2))
  rwa [show r + 2 + (k - (r + 2)) = k by omega] at this

/-- the lshape map is the truth -/
def Sync (P : Nat) (s : RState α) : Prop := ∀ i < P, s.lmap i = ((s.parts i).length : Int)

/-- Invariant of the inner loop: `s0` the state before it, about to handle `snd`. -/
structure PullInv (P : Nat) (T : Int) (rcv : Nat) (s0 s : RState α) (snd : Nat) : Prop where
  sync : Sync P s
  done : T ≤ s.lmap rcv ∨ ∀ i, rcv < i → i < snd → i < P → s.parts i = []
  tot : ∀ k, snd ≤ k → rcv < k → content k s.parts = content k s0.parts
  low : ∀ i < rcv, s.lmap i = s0.lmap i ∧ s.parts i = s0.parts i
  dec : ∀ i < P, i ≠ rcv → s.lmap i ≤ s0.lmap i
  rcvLe : s.lmap rcv ≤ max T (s0.lmap rcv)
  csumLe : ∀ i < P, rcv < i → s.csum i ≤ s0.csum i
  prefLe : ∀ k, (content k s0.parts).length ≤ (content k s.parts).length ∨ k ≤ rcv

theorem pull_step {P : Nat} {T st sp : Int} {rcv : Nat} {s0 s : RState α} {snd : Nat}
    (hT : sp - st = T) (hrcv : rcv < P) (hsnd : snd < P) (hle : rcv ≤ snd)
    (h : PullInv P T rcv s0 s snd) :
    ∃ s', redistPull P st sp rcv s snd = .ok s' ∧ PullInv P T rcv s0 s' (snd + 1) := by
  unfold redistPull
  rw [if_neg (by omega)]
  simp only
  rw [hT]
  by_cases hz : T ≤ s.lmap rcv ∨ snd = rcv
  · rw [if_pos hz]
    simp only [ne_eq, not_true_eq_false, if_false]
    have el : ∀ (f : Nat → Int), upd (upd f rcv (f rcv + 0)) snd ((upd f rcv (f rcv + 0)) snd - 0) = f := by
      intro f; funext i; unfold upd; split <;> split <;> simp_all
    have ec : ∀ (f : Nat → Int), upd (upd f snd (f snd - 0)) rcv ((upd f snd (f snd - 0)) rcv + 0) = f := by
      intro f; funext i; unfold upd; split <;> split <;> simp_all
    refine ⟨_, rfl, ?_⟩
    simp only [el, ec]
    exact
      { sync := h.sync
        done := by
          rcases hz with hz | hz
          · exact Or.inl hz
          · right; intro i h1 h2; omega
        tot := fun k h1 h2 => h.tot k (by omega) h2
        low := h.low
        dec := h.dec
        rcvLe := h.rcvLe
        csumLe := h.csumLe
        prefLe := h.prefLe }
  · have hz1 : s.lmap rcv < T := by omega
    have hz2 : snd ≠ rcv := by omega
    rw [if_neg hz]
    have hs := h.sync snd hsnd
    have hempty : ∀ i, rcv < i → i < snd → s.parts i = [] := by
      rcases h.done with hd | hd
      · omega
      · intro i h1 h2; exact hd i h1 h2 (by omega)
    have hreq : ((T - s.lmap rcv).natAbs : Int) = T - s.lmap rcv := by omega
    rw [hreq]
    generalize hamt : (if T - s.lmap rcv ≤ s.lmap snd then T - s.lmap rcv else s.lmap snd) = amt
    have hamt0 : 0 ≤ amt := by rw [← hamt]; split <;> omega
    have hamt1 : amt ≤ s.lmap snd := by rw [← hamt]; split <;> omega
    have hamt2 : amt ≤ T - s.lmap rcv := by rw [← hamt]; split <;> omega
    have hamt3 : amt = T - s.lmap rcv ∨ amt = s.lmap snd := by rw [← hamt]; split <;> omega
    have hparts : (if amt ≠ 0 then redistShuffle s.parts snd amt rcv else .ok s.parts) =
        .ok (upd (upd s.parts snd ((s.parts snd).drop amt.toNat)) rcv
          (s.parts rcv ++ (s.parts snd).take amt.toNat)) := by
      split
      · unfold redistShuffle
        simp only
        rw [if_neg (by omega), if_neg (by omega), if_pos (by omega)]
      · rename_i h0
        have : amt = 0 := by simpa using h0
        subst this
        congr 1
        funext i; unfold upd; split
        · rename_i e; subst e; simp
        · split
          · rename_i e; subst e; simp
          · rfl
    rw [hparts]
    refine ⟨_, rfl, ?_⟩
    have lrcv : ∀ f : Nat → Int, upd (upd f rcv (f rcv + amt)) snd ((upd f rcv (f rcv + amt)) snd - amt) rcv
        = f rcv + amt := by
      intro f; rw [upd_ne _ _ (by omega), upd_same]
    have lsnd : ∀ f : Nat → Int, upd (upd f rcv (f rcv + amt)) snd ((upd f rcv (f rcv + amt)) snd - amt) snd
        = f snd - amt := by
      intro f; rw [upd_same, upd_ne _ _ (by omega)]
    have lother : ∀ (f : Nat → Int) i, i ≠ rcv → i ≠ snd →
        upd (upd f rcv (f rcv + amt)) snd ((upd f rcv (f rcv + amt)) snd - amt) i = f i := by
      intro f i h1 h2; rw [upd_ne _ _ h2, upd_ne _ _ h1]
    have prcv : upd (upd s.parts snd ((s.parts snd).drop amt.toNat)) rcv
          (s.parts rcv ++ (s.parts snd).take amt.toNat) rcv = s.parts rcv ++ (s.parts snd).take amt.toNat := upd_same ..
    have psnd : upd (upd s.parts snd ((s.parts snd).drop amt.toNat)) rcv
          (s.parts rcv ++ (s.parts snd).take amt.toNat) snd = (s.parts snd).drop amt.toNat := by
      rw [upd_ne _ _ (by omega), upd_same]
    have pother : ∀ i, i ≠ rcv → i ≠ snd → upd (upd s.parts snd ((s.parts snd).drop amt.toNat)) rcv
          (s.parts rcv ++ (s.parts snd).take amt.toNat) i = s.parts i := by
      intro i h1 h2; rw [upd_ne _ _ h1, upd_ne _ _ h2]
    have hsr := h.sync rcv hrcv
    exact
      { sync := by
          intro i hi
          by_cases h1 : i = rcv
          · subst h1; simp only [lrcv, prcv, List.length_append, List.length_take]; omega
          · by_cases h2 : i = snd
            · subst h2; simp only [lsnd, psnd, List.length_drop]; omega
            · simp only [lother _ _ h1 h2, pother _ h1 h2]; exact h.sync i hi
        done := by
          simp only [lrcv]
          rcases hamt3 with e | e
          · left; omega
          · right
            intro i h1 h2 h3
            by_cases hi : i = snd
            · subst hi; rw [psnd]; apply List.drop_eq_nil_of_le; omega
            · rw [pother _ (by omega) hi]; exact hempty i h1 (by omega)
        tot := by
          intro k h1 h2
          simp only
          rw [pull_content _ _ _ _ (by omega) hempty k (by omega)]
          exact h.tot k (by omega) h2
        low := by
          intro i hi
          simp only [lother _ _ (show i ≠ rcv by omega) (show i ≠ snd by omega),
            pother _ (show i ≠ rcv by omega) (show i ≠ snd by omega)]
          exact h.low i hi
        dec := by
          intro i hi h1
          by_cases h2 : i = snd
          · subst h2; simp only [lsnd]; have := h.dec i hi h1; omega
          · simp only [lother _ _ h1 h2]; exact h.dec i hi h1
        rcvLe := by simp only [lrcv]; omega
        csumLe := by
          intro i hi h1
          have := h.csumLe i hi h1
          by_cases h2 : i = snd
          · subst h2
            simp only
            rw [upd_ne _ _ (by omega), upd_same]; omega
          · simp only
            rw [upd_ne _ _ (by omega), upd_ne _ _ h2]; exact this
        prefLe := by
          intro k
          by_cases hk : k ≤ rcv
          · exact Or.inr hk
          · left
            rcases h.prefLe k with h1 | h1
            · refine Nat.le_trans h1 ?_
              by_cases hks : snd < k
              · simp only
                rw [pull_content _ _ _ _ (by omega) hempty k (by omega)]; exact Nat.le_refl _
              · -- rcv < k ≤ snd
                have aux : ∀ (d d' : Nat → List α) m, (∀ i < m, (d i).length ≤ (d' i).length) →
                    (content m d).length ≤ (content m d').length := by
                  intro d d' m
                  induction m with
                  | zero => intro _; simp [content_zero]
                  | succ m ih =>
                    intro hm
                    have := ih fun i hi => hm i (by omega)
                    have := hm m (by omega)
                    rw [content_succ, content_succ]; simp; omega
                apply aux
                intro i hi
                simp only
                by_cases hir : i = rcv
                · subst hir; rw [prcv]; simp
                · rw [pother _ hir (by omega)]; exact Nat.le_refl _
            · omega }

theorem pull_loop {P : Nat} {T st sp : Int} {rcv : Nat} {s0 : RState α}
    (hT : sp - st = T) (hrcv : rcv < P) (len : Nat) :
    ∀ (lo : Nat) (s : RState α), rcv ≤ lo → lo ≤ P → lo + len ≤ P + 1 → PullInv P T rcv s0 s lo →
    ∃ s', ((List.range' lo len).foldlM (redistPull P st sp rcv) s) = .ok s' ∧
      PullInv P T rcv s0 s' (min (lo + len) P) := by
  induction len with
  | zero =>
    intro lo s hlo hP hlen h
    refine ⟨s, rfl, ?_⟩
    rw [Nat.add_zero, Nat.min_eq_left hP]; exact h
  | succ len ih =>
    intro lo s hlo hP hlen h
    rw [List.range'_succ, List.foldlM_cons]
    by_cases hl : lo < P
    · obtain ⟨s1, e1, h1⟩ := pull_step hT hrcv hl hlo h
      rw [e1]
      obtain ⟨s2, e2, h2⟩ := ih (lo + 1) s1 (by omega) (by omega) (by omega) h1
      refine ⟨s2, e2, ?_⟩
      rwa [show lo + 1 + len = lo + (len + 1) by omega] at h2
    · have hl' : lo = P := by omega
      have hlen' : len = 0 := by omega
      subst hl'; subst hlen'
      refine ⟨s, ?_, ?_⟩
      · simp [redistPull, Bind.bind, Except.bind, Pure.pure, Except.pure]
      · rw [show min (lo + (0 + 1)) lo = lo by omega]; exact h


theorem firstFrom_some {P lo i : Nat} {p : Nat → Bool} (h : firstFrom P lo p = some i) :
    lo ≤ i ∧ i < P ∧ p i = true ∧ ∀ j, lo ≤ j → j < i → p j = false := by
  unfold firstFrom at h
  rw [List.find?_eq_some_iff_append] at h
  obtain ⟨h1, as, bs, h2, h3⟩ := h
  simp only [Bool.and_eq_true, decide_eq_true_eq] at h1
  have hlen : i = as.length := by
    have := congrArg (fun l => l[as.length]?) h2
    simp at this
    exact (List.getElem?_eq_some_iff.1 this).2.symm.trans (by simp)
  have hP : i < P := by
    have := congrArg List.length h2
    simp at this; omega
  refine ⟨h1.1, hP, h1.2, ?_⟩
  intro j hj hji
  have hmem : j ∈ as := by
    have : as[j]? = some j := by
      have e := congrArg (fun l => l[j]?) h2
      have e2 : (as ++ i :: bs)[j]? = as[j]? := List.getElem?_append_left (by omega)
      rw [← e2, ← e]
      exact List.getElem?_range (by omega)
    exact List.mem_of_getElem? this
  have := h3 j hmem
  simp [hj] at this; exact this

theorem firstFrom_none {P lo : Nat} {p : Nat → Bool} (h : firstFrom P lo p = none) :
    ∀ j, lo ≤ j → j < P → p j = false := by
  intro j h1 h2
  unfold firstFrom at h
  rw [List.find?_eq_none] at h
  have := h j (List.mem_range.2 h2)
  simp [h1] at this; exact this

theorem content_all_empty (d : Nat → List α) (lo : Nat) : ∀ k, lo ≤ k → (∀ i, lo ≤ i → i < k → d i = []) →
    content k d = content lo d := by
  intro k
  induction k with
  | zero => intro h _; simp [Nat.le_zero.1 h]
  | succ k ih =>
    intro h he
    by_cases h2 : lo = k + 1
    · subst h2; rfl
    · rw [content_succ, ih (by omega) (fun i h1 h2 => he i h1 (by omega)), he k (by omega) (by omega)]; simp

theorem content_length_le_cum (d : Nat → List α) (t : Nat → Int) (k : Nat)
    (h : ∀ i < k, ((d i).length : Int) ≤ t i) : ((content k d).length : Int) ≤ cum t k := by
  induction k with
  | zero => simp [content_zero, cum]
  | succ k ih =>
    have := ih fun i hi => h i (by omega)
    have := h k (by omega)
    rw [content_succ, cum]; simp; omega

/-- The pull part of one `rcv` iteration never fails, and afterwards the loop invariant holds at the end of
the sender range.  `hi` is the end of the range. -/
theorem rcv_pull {P : Nat} {target : Nat → Int} {s : RState α} {rcv : Nat}
    (hrcv : rcv < P) (hsync : Sync P s) (htpos : ∀ i < P, 0 ≤ target i)
    (htot : cum target P = ((content P s.parts).length : Int))
    (hlow : ∀ i < rcv, s.lmap i ≤ target i) :
    ∃ stPr spPr s' hi,
      senderRange P target s rcv =
        .ok (stPr, spPr) ∧
      ((List.range (spPr + 1)).drop stPr).foldlM
        (redistPull P (cum target rcv) (cum target (rcv + 1)) rcv) s = .ok s' ∧
      PullInv P (target rcv) rcv s s' hi ∧ hi ≤ P ∧
      (target rcv ≤ s.lmap rcv ∨ hi = min (spPr + 1) P ∨ (spPr < stPr ∧ hi = stPr)) ∧
      (target rcv ≤ s.lmap rcv ∨ spPr = (firstFrom P rcv fun i => cum target (rcv + 1) ≤ s.csum i).getD P) := by
  have hinit : ∀ lo, (target rcv ≤ s.lmap rcv ∨ ∀ i, rcv < i → i < lo → i < P → s.parts i = []) →
      PullInv P (target rcv) rcv s s lo := fun lo hd =>
    { sync := hsync, done := hd, tot := fun _ _ _ => rfl, low := fun _ _ => ⟨rfl, rfl⟩,
      dec := fun _ _ _ => Int.le_refl _, rcvLe := by omega, csumLe := fun _ _ _ => Int.le_refl _,
      prefLe := fun _ => Or.inl (Nat.le_refl _) }
  have hT : cum target (rcv + 1) - cum target rcv = target rcv := by rw [cum]; omega
  have hrange : ∀ a b, ((List.range (b + 1)).drop a) = List.range' a (b + 1 - a) := by
    intro a b
    rw [List.range_eq_range', List.drop_range']
    simp
  unfold senderRange
  by_cases hge : s.lmap rcv ≥ target rcv
  · rw [if_pos hge]
    obtain ⟨s', e, h⟩ := pull_loop hT hrcv (rcv + 1 - rcv) rcv s (Nat.le_refl _) (by omega) (by omega)
      (hinit rcv (Or.inl hge))
    refine ⟨rcv, rcv, s', _, rfl, ?_, h, by omega, Or.inl hge, Or.inl hge⟩
    rw [hrange]; exact e
  · rw [if_neg hge]
    cases hf : firstFrom P rcv fun i => s.lmap i > 0 with
    | none =>
      exfalso
      have hno := firstFrom_none hf
      have hemp : ∀ i, rcv ≤ i → i < P → s.parts i = [] := by
        intro i h1 h2
        have := hno i h1 h2
        have hs := hsync i h2
        simp at this
        apply List.eq_nil_of_length_eq_zero; omega
      have e1 := content_all_empty s.parts rcv P (by omega) hemp
      have e2 := content_length_le_cum s.parts target rcv (fun i hi => by
        rw [← hsync i (by omega)]; exact hlow i hi)
      have e3 := cum_mono target P htpos (show rcv + 1 ≤ P by omega) (Nat.le_refl _)
      have e4 := hsync rcv hrcv
      rw [e1] at htot
      rw [cum] at e3
      omega
    | some stPr =>
      obtain ⟨h1, h2, h3, h4⟩ := firstFrom_some hf
      simp only
      generalize hsp : (firstFrom P rcv fun i => cum target (rcv + 1) ≤ s.csum i).getD P = spPr
      have hspP : spPr ≤ P := by
        rw [← hsp]
        cases hg : firstFrom P rcv fun i => cum target (rcv + 1) ≤ s.csum i with
        | none => simp
        | some j => have := firstFrom_some hg; simp; omega
      obtain ⟨s', e, h⟩ := pull_loop hT hrcv (spPr + 1 - stPr) stPr s h1 (by omega) (by omega)
        (hinit stPr (Or.inr (by
          intro i hi1 hi2 hi3
          have := h4 i (by omega) hi2
          have hs := hsync i hi3
          simp at this
          apply List.eq_nil_of_length_eq_zero; omega)))
      refine ⟨stPr, spPr, s', _, rfl, ?_, h, by omega, ?_, Or.inr rfl⟩
      · rw [hrange]; exact e
      · right
        by_cases hc : stPr ≤ spPr + 1
        · left; congr 1; omega
        · right; omega

/-- First-pass invariant before iteration `rcv`. -/
structure PassInv (P : Nat) (target : Nat → Int) (orig : Nat → List α) (s : RState α) (rcv : Nat) : Prop where
  sync : Sync P s
  tot : content P s.parts = content P orig
  low : ∀ i < rcv, s.lmap i ≤ target i

theorem rcv_step {P : Nat} {target : Nat → Int} {orig : Nat → List α} {s : RState α} {rcv : Nat}
    (hrcv : rcv + 1 < P) (htpos : ∀ i < P, 0 ≤ target i)
    (htot : cum target P = ((content P orig).length : Int)) (h : PassInv P target orig s rcv) :
    ∃ s', redistRcv P target s rcv = .ok s' ∧ PassInv P target orig s' (rcv + 1) := by
  obtain ⟨stPr, spPr, s1, hi, e1, e2, hp, hhi, _, _⟩ :=
    rcv_pull (s := s) (rcv := rcv) (by omega) h.sync htpos (by rw [h.tot]; exact htot) h.low
  unfold redistRcv
  simp only
  rw [e1]
  simp only
  rw [e2]
  simp only
  have hs1 := hp.sync rcv (by omega)
  have hs2 := hp.sync (rcv + 1) (by omega)
  have ht := htpos rcv (by omega)
  have htotal : content P s1.parts = content P orig := by
    rw [hp.tot P hhi (by omega), h.tot]
  split
  · rename_i hgt
    have hsh : redistShuffle s1.parts rcv (s1.lmap rcv - target rcv) (rcv + 1) =
        .ok (upd (upd s1.parts rcv ((s1.parts rcv).take (target rcv).toNat)) (rcv + 1)
          ((s1.parts rcv).drop (target rcv).toNat ++ s1.parts (rcv + 1))) := by
      unfold redistShuffle
      simp only
      rw [if_neg (by omega), if_pos (by omega)]
      rw [show (s1.parts rcv).length - (s1.lmap rcv - target rcv).toNat = (target rcv).toNat by omega]
    rw [hsh]
    refine ⟨_, rfl, ?_, ?_, ?_⟩
    · intro i hi
      simp only
      by_cases h1 : i = rcv + 1
      · subst h1
        rw [upd_same, upd_same, upd_ne _ _ (by omega)]
        simp; omega
      · rw [upd_ne _ _ h1, upd_ne _ _ h1]
        by_cases h2 : i = rcv
        · subst h2; rw [upd_same, upd_same]; simp; omega
        · rw [upd_ne _ _ h2, upd_ne _ _ h2]; exact hp.sync i hi
    · simp only; rw [push_content _ _ _ _ hrcv, htotal]
    · intro i hi
      simp only
      rw [upd_ne _ _ (by omega)]
      by_cases h2 : i = rcv
      · subst h2; rw [upd_same]; omega
      · rw [upd_ne _ _ h2, (hp.low i (by omega)).1]; exact h.low i (by omega)
  · rename_i hgt
    refine ⟨_, rfl, hp.sync, htotal, ?_⟩
    intro i hi
    by_cases h2 : i = rcv
    · subst h2; omega
    · rw [(hp.low i (by omega)).1]; exact h.low i (by omega)

/-- Second-pass invariant: ranks before `rcv` are exactly right, nobody but the last rank has too much, and
`lshape_cumsum` never overestimates. -/
structure Pass2Inv (P : Nat) (target : Nat → Int) (orig : Nat → List α) (s : RState α) (rcv : Nat) : Prop where
  sync : Sync P s
  tot : content P s.parts = content P orig
  low : ∀ i < rcv, s.lmap i = target i
  high : ∀ i, i + 1 < P → s.lmap i ≤ target i
  cs : ∀ i < P, rcv ≤ i → s.csum i ≤ ((content (i + 1) s.parts).length : Int)

theorem cum_eq_of_eq (d : Nat → List α) (t : Nat → Int) (k : Nat)
    (h : ∀ i < k, ((d i).length : Int) = t i) : ((content k d).length : Int) = cum t k := by
  rw [cum_eq_content t d k (fun i hi => (h i hi).symm)]

theorem rcv_step2 {P : Nat} {target : Nat → Int} {orig : Nat → List α} {s : RState α} {rcv : Nat}
    (hrcv : rcv + 1 < P) (htpos : ∀ i < P, 0 ≤ target i)
    (htot : cum target P = ((content P orig).length : Int)) (h : Pass2Inv P target orig s rcv) :
    ∃ s', redistRcv P target s rcv = .ok s' ∧ Pass2Inv P target orig s' (rcv + 1) := by
  obtain ⟨stPr, spPr, s1, hi, e1, e2, hp, hhi, hrange, hsp⟩ :=
    rcv_pull (s := s) (rcv := rcv) (by omega) h.sync htpos (by rw [h.tot]; exact htot)
      (fun i hi => by rw [h.low i hi]; exact Int.le_refl _)
  unfold redistRcv
  simp only
  rw [e1]
  simp only
  rw [e2]
  simp only
  have hle := h.high rcv hrcv
  have hle1 : s1.lmap rcv ≤ target rcv := by have := hp.rcvLe; omega
  rw [if_neg (by omega)]
  have htotal : content P s1.parts = content P orig := by
    rw [hp.tot P hhi (by omega), h.tot]
  have hs1 := hp.sync rcv (by omega)
  have hpre : ((content rcv s1.parts).length : Int) = cum target rcv := by
    apply cum_eq_of_eq
    intro i hi
    rw [← hp.sync i (by omega), (hp.low i hi).1, h.low i hi]
  have hfull : s1.lmap rcv = target rcv := by
    apply Int.le_antisymm hle1
    rcases hp.done with hd | hd
    · exact hd
    · by_cases hge : target rcv ≤ s.lmap rcv
      · -- rcv's own size did not shrink below
        have hpl := hp.prefLe (rcv + 1)
        have e0 : content rcv s1.parts = content rcv s.parts := content_congr fun i hi => (hp.low i hi).2
        have hs0 := h.sync rcv (by omega)
        rw [content_succ, content_succ, e0] at hpl
        simp at hpl
        omega
      · -- the sender range was long enough
        have hsp' := hsp.resolve_left hge
        apply Int.not_lt.1
        intro hlt
        have hsp1 : cum target (rcv + 1) = cum target rcv + target rcv := rfl
        cases hg : firstFrom P rcv fun i => cum target (rcv + 1) ≤ s.csum i with
        | none =>
          rw [hg] at hsp'
          simp at hsp'
          have hhiP : hi = P := by
            rcases hrange with h1 | h1 | h1
            · exact absurd h1 hge
            · omega
            · exfalso
              -- stPr ≤ hi ≤ P = spPr < stPr
              omega
          have e := content_all_empty s1.parts (rcv + 1) P (by omega)
            (fun i h1 h2 => hd i (by omega) (by omega) h2)
          rw [htotal] at e
          rw [content_succ] at e
          have := congrArg List.length e
          simp at this
          have hm := cum_mono target P htpos (show rcv + 1 ≤ P by omega) (Nat.le_refl _)
          omega
        | some j =>
          obtain ⟨g1, g2, g3, g4⟩ := firstFrom_some hg
          rw [hg] at hsp'
          simp at hsp' g3
          have hcs := h.cs j g2 g1
          -- all ranks in (rcv, j] are empty after the loop
          have hjhi : j < hi := by
            rcases hrange with h1 | h1 | h1
            · exact absurd h1 hge
            · omega
            · omega
          have e := content_all_empty s1.parts (rcv + 1) (j + 1) (by omega)
            (fun i h1 h2 => hd i (by omega) (by omega) (by omega))
          rw [content_succ rcv] at e
          have hl := congrArg List.length e
          simp only [List.length_append] at hl
          have hpl := hp.prefLe (j + 1)
          omega
  refine ⟨_, rfl, hp.sync, htotal, ?_, ?_, ?_⟩
  · intro i hi
    by_cases h2 : i = rcv
    · subst h2; exact hfull
    · rw [(hp.low i (by omega)).1]; exact h.low i (by omega)
  · intro i hi
    by_cases h2 : i = rcv
    · subst h2; exact hle1
    · exact Int.le_trans (hp.dec i (by omega) h2) (h.high i hi)
  · intro i hi hri
    have h1 := hp.csumLe i hi (by omega)
    have h2 := h.cs i hi (by omega)
    have h3 := hp.prefLe (i + 1)
    omega

theorem pass_fold {P : Nat} {target : Nat → Int} (Inv : RState α → Nat → Prop)
    (hstep : ∀ s rcv, rcv + 1 < P → Inv s rcv → ∃ s', redistRcv P target s rcv = .ok s' ∧ Inv s' (rcv + 1))
    (s : RState α) (h0 : Inv s 0) :
    ∃ s', (List.range (P - 1)).foldlM (redistRcv P target) s = .ok s' ∧ Inv s' (P - 1) := by
  have : ∀ len lo s, lo + len = P - 1 → Inv s lo →
      ∃ s', (List.range' lo len).foldlM (redistRcv P target) s = .ok s' ∧ Inv s' (P - 1) := by
    intro len
    induction len with
    | zero => intro lo s h1 h2; exact ⟨s, rfl, by rw [← h1]; exact h2⟩
    | succ len ih =>
      intro lo s h1 h2
      obtain ⟨s1, e1, h3⟩ := hstep s lo (by omega) h2
      obtain ⟨s2, e2, h4⟩ := ih (lo + 1) s1 (by omega) h3
      refine ⟨s2, ?_, h4⟩
      rw [List.range'_succ, List.foldlM_cons, e1]; exact e2
  rw [List.range_eq_range']
  exact this _ 0 s (by omega) h0

theorem any_ne_false (P : Nat) (f g : Nat → Int) :
    ((List.range P).any fun i => f i != g i) = false ↔ ∀ i < P, f i = g i := by
  rw [List.any_eq_false]
  simp

/-- The core of C08: with a correct lshape map and a non-negative target map of matching sum, at most two passes are
needed, all local sizes become the target sizes and the content is unchanged. -/
theorem redistLoop_spec {P : Nat} (hP : 1 < P) {target lmap : Nat → Int} {parts : Nat → List α}
    (htpos : ∀ i < P, 0 ≤ target i) (htot : cum target P = ((content P parts).length : Int))
    (hsync : ∀ i < P, lmap i = ((parts i).length : Int)) (fuel : Nat) (hfuel : 2 ≤ fuel) :
    ∃ parts', redistLoop P target fuel parts lmap = .ok parts' ∧
      content P parts' = content P parts ∧ ∀ i < P, ((parts' i).length : Int) = target i := by
  obtain ⟨f, rfl⟩ := Nat.exists_eq_add_of_le' hfuel
  obtain ⟨s1, e1, h1⟩ := pass_fold (P := P) (target := target) (PassInv P target parts)
    (fun s rcv hr h => rcv_step hr htpos htot h) ⟨parts, lmap, fun i => cum lmap (i + 1)⟩
    ⟨hsync, rfl, fun i hi => by omega⟩
  rw [show f + 2 = (f + 1) + 1 from rfl, redistLoop, redistPass, e1]
  simp only
  cases hb : (List.range P).any fun i => s1.lmap i != target i with
  | false =>
    rw [any_ne_false] at hb
    refine ⟨_, rfl, h1.tot, ?_⟩
    intro i hi; rw [← h1.sync i hi]; exact hb i hi
  | true =>
    simp only [if_true]
    obtain ⟨s2, e2, h2⟩ := pass_fold (P := P) (target := target) (Pass2Inv P target parts)
      (fun s rcv hr h => rcv_step2 hr htpos htot h) ⟨s1.parts, s1.lmap, fun i => cum s1.lmap (i + 1)⟩
      ⟨h1.sync, h1.tot, fun i hi => by omega, fun i hi => h1.low i (by omega),
        fun i hi _ => by
          simp only
          rw [cum_eq_content s1.lmap s1.parts (i + 1) (fun j hj => h1.sync j (by omega))]
          exact Int.le_refl _⟩
    rw [redistLoop, redistPass, e2]
    simp only
    have hlen : ∀ i < P, s2.lmap i = target i := by
      intro i hi
      by_cases hi2 : i < P - 1
      · exact h2.low i hi2
      · have hi3 : i = P - 1 := by omega
        have hpre : ((content i s2.parts).length : Int) = cum target i := by
          apply cum_eq_of_eq
          intro j hj
          rw [← h2.sync j (by omega)]; exact h2.low j (by omega)
        have hPi : P = i + 1 := by omega
        have e := h2.tot
        rw [h2.sync i hi]
        subst hPi
        rw [content_succ] at e
        have := congrArg List.length e
        simp at this
        rw [cum] at htot
        omega
    rw [(any_ne_false P s2.lmap target).2 hlen]
    exact ⟨_, rfl, h2.tot, fun i hi => by rw [← h2.sync i hi]; exact hlen i hi⟩

end Heat
