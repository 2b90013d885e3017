import Verif.Model.Mpi
/-! # Proofs about ordered blocking transfers (C49) -/
namespace Heat
variable {S M : Type}

/-- Rank `r` takes part in the transfer. -/
def Xfer.Inv (r : Nat) (x : Xfer S M) : Prop := x.src = r ∨ x.dst = r

theorem Xfer.proj_none {r : Nat} {x : Xfer S M} : x.proj r = none ↔ ¬ x.Inv r := by
  unfold Xfer.proj Xfer.Inv
  by_cases h1 : x.src = r <;> by_cases h2 : x.dst = r <;> simp [h1, h2]

/-- State after the first `k` transfers. -/
def seqAt (T : List (Xfer S M)) (loc : Nat → S) (k : Nat) : Nat → S := runSeq (T.take k) loc

theorem seqAt_succ (T : List (Xfer S M)) (loc : Nat → S) (k : Nat) (x : Xfer S M)
    (h : T[k]? = some x) : seqAt T loc (k + 1) = x.apply (seqAt T loc k) := by
  unfold seqAt runSeq
  rw [List.take_add_one, h]
  simp

theorem seqAt_stable (T : List (Xfer S M)) (loc : Nat → S) (r p : Nat) : ∀ k, p ≤ k →
    (∀ i, p ≤ i → i < k → ∀ x, T[i]? = some x → ¬ x.Inv r) → seqAt T loc k r = seqAt T loc p r := by
  intro k hk
  induction k with
  | zero => intro _; rw [show p = 0 by omega]
  | succ k ih =>
    intro h
    by_cases hp : p = k + 1
    · rw [hp]
    · have := ih (by omega) (fun i h1 h2 => h i h1 (by omega))
      rw [← this]
      cases hx : T[k]? with
      | none =>
        unfold seqAt
        rw [List.take_add_one, hx]; simp
      | some x =>
        rw [seqAt_succ T loc k x hx]
        have hi := h k (by omega) (by omega) x hx
        unfold Xfer.Inv at hi
        unfold Xfer.apply set1
        rw [if_neg (fun e => hi (Or.inr e.symm)), if_neg (fun e => hi (Or.inl e.symm))]

theorem drop_filterMap_cons {β γ : Type} (f : β → Option γ) (T : List β) (p : Nat) (y : γ) (ys : List γ)
    (h : (T.drop p).filterMap f = y :: ys) :
    ∃ k x, p ≤ k ∧ T[k]? = some x ∧ f x = some y ∧ ys = (T.drop (k + 1)).filterMap f ∧
      ∀ i, p ≤ i → i < k → ∀ z, T[i]? = some z → f z = none := by
  generalize hn : T.length - p = n
  induction n generalizing p with
  | zero =>
    rw [List.drop_eq_nil_of_le (by omega)] at h; cases h
  | succ n ih =>
    have hp : p < T.length := by omega
    rw [List.drop_eq_getElem_cons hp] at h
    cases hf : f T[p] with
    | none =>
      rw [List.filterMap_cons_none hf] at h
      obtain ⟨k, x, h1, h2, h3, h4, h5⟩ := ih (p + 1) h (by omega)
      refine ⟨k, x, by omega, h2, h3, h4, ?_⟩
      intro i hi1 hi2 z hz
      by_cases e : i = p
      · subst e; rw [List.getElem?_eq_getElem hp] at hz; cases hz; exact hf
      · exact h5 i (by omega) hi2 z hz
    | some y' =>
      rw [List.filterMap_cons_some hf] at h
      injection h with h1 h2
      subst h1
      refine ⟨p, T[p], by omega, by simp [hp], hf, h2.symm, ?_⟩
      intro i h1 h2; omega

theorem drop_filterMap_nil {β γ : Type} (f : β → Option γ) (T : List β) (p : Nat)
    (h : (T.drop p).filterMap f = []) (i : Nat) (hi : p ≤ i) (z : β) (hz : T[i]? = some z) :
    f z = none := by
  rw [List.filterMap_eq_nil_iff] at h
  apply h
  have : (T.drop p)[i - p]? = some z := by rw [List.getElem?_drop]; rw [show p + (i - p) = i by omega]; exact hz
  exact List.mem_of_getElem? this

/-- What position `i` of the schedule contributes to the channel (s, d, t), when positions below `a`
have been received. -/
def cell (T : List (Xfer S M)) (loc : Nat → S) (s d t a i : Nat) : Option M :=
  match T[i]? with
  | some x => if a ≤ i ∧ x.src = s ∧ x.dst = d ∧ x.tag = t then some (x.msg (seqAt T loc i x.src)) else none
  | none => none

theorem cell_some {T : List (Xfer S M)} {loc : Nat → S} {s d t a i : Nat} {m : M}
    (h : cell T loc s d t a i = some m) : ∃ x, T[i]? = some x ∧ a ≤ i ∧ x.src = s ∧ x.dst = d ∧ x.tag = t ∧
      m = x.msg (seqAt T loc i x.src) := by
  unfold cell at h
  cases hx : T[i]? with
  | none => rw [hx] at h; cases h
  | some x =>
    rw [hx] at h
    simp only [] at h
    by_cases hc : a ≤ i ∧ x.src = s ∧ x.dst = d ∧ x.tag = t
    · rw [if_pos hc] at h; cases h; exact ⟨x, rfl, hc.1, hc.2.1, hc.2.2.1, hc.2.2.2, rfl⟩
    · rw [if_neg hc] at h; cases h

theorem cell_eq {T : List (Xfer S M)} {loc : Nat → S} {s d t a i : Nat} {x : Xfer S M}
    (hx : T[i]? = some x) : cell T loc s d t a i =
      if a ≤ i ∧ x.src = s ∧ x.dst = d ∧ x.tag = t then some (x.msg (seqAt T loc i x.src)) else none := by
  unfold cell; rw [hx]

/-- Content of the channel (s, d, t) when `s` is past positions `< b` and `d` past positions `< a`. -/
def seg (T : List (Xfer S M)) (loc : Nat → S) (s d t a b : Nat) : List M :=
  (List.range b).filterMap (cell T loc s d t a)

theorem seg_succ (T : List (Xfer S M)) (loc : Nat → S) (s d t a b : Nat) :
    seg T loc s d t a (b + 1) = seg T loc s d t a b ++ (cell T loc s d t a b).toList := by
  unfold seg
  rw [List.range_succ, List.filterMap_append]
  cases h : cell T loc s d t a b <;> simp [h]

theorem seg_right (T : List (Xfer S M)) (loc : Nat → S) (s d t a b : Nat) : ∀ k, b ≤ k →
    (∀ i, b ≤ i → i < k → cell T loc s d t a i = none) → seg T loc s d t a k = seg T loc s d t a b := by
  intro k hk
  induction k with
  | zero => intro _; rw [show b = 0 by omega]
  | succ k ih =>
    intro h
    by_cases e : b = k + 1
    · rw [e]
    · rw [seg_succ, h k (by omega) (by omega), ih (by omega) (fun i h1 h2 => h i h1 (by omega))]; simp

theorem seg_left (T : List (Xfer S M)) (loc : Nat → S) (s d t a a' b : Nat)
    (h : ∀ i < b, cell T loc s d t a i = cell T loc s d t a' i) :
    seg T loc s d t a b = seg T loc s d t a' b := by
  unfold seg
  have : ∀ l : List Nat, (∀ i ∈ l, i < b) → l.filterMap (cell T loc s d t a) = l.filterMap (cell T loc s d t a') := by
    intro l
    induction l with
    | nil => intro _; rfl
    | cons i l ih =>
      intro hl
      rw [List.filterMap_cons, List.filterMap_cons, h i (hl i (by simp)), ih (fun j hj => hl j (by simp [hj]))]
  exact this _ (fun i hi => List.mem_range.1 hi)

theorem seg_empty (T : List (Xfer S M)) (loc : Nat → S) (s d t a b : Nat)
    (h : ∀ i < b, cell T loc s d t a i = none) : seg T loc s d t a b = [] := by
  rw [seg_right T loc s d t a 0 b (by omega) (fun i _ hi => h i hi)]; rfl

/-- If `k` is the first position not below `a` that uses the channel, it is the head of the channel. -/
theorem seg_head (T : List (Xfer S M)) (loc : Nat → S) (s d t a k : Nat) (m : M)
    (hk : cell T loc s d t a k = some m) (hno : ∀ i < k, cell T loc s d t a i = none) : ∀ b, k < b →
    seg T loc s d t a b = m :: seg T loc s d t (k + 1) b := by
  intro b hb
  obtain ⟨x, hx, hax, -⟩ := cell_some hk
  induction b with
  | zero => omega
  | succ b ih =>
    rw [seg_succ, seg_succ]
    by_cases e : b = k
    · subst e
      rw [seg_empty T loc s d t a b hno, hk]
      have : seg T loc s d t (b + 1) b = [] := by
        apply seg_empty
        intro i hi
        cases h : cell T loc s d t (b + 1) i with
        | none => rfl
        | some m' => obtain ⟨_, _, h1, _⟩ := cell_some h; omega
      rw [this]
      have : cell T loc s d t (b + 1) b = none := by
        cases h : cell T loc s d t (b + 1) b with
        | none => rfl
        | some m' => obtain ⟨_, _, h1, _⟩ := cell_some h; omega
      rw [this]; rfl
    · rw [ih (by omega)]
      have : cell T loc s d t a b = cell T loc s d t (k + 1) b := by
        unfold cell
        cases T[b]? with
        | none => rfl
        | some y =>
          have h1 : a ≤ b := by omega
          have h2 : k + 1 ≤ b := by omega
          simp only [h1, h2, true_and]
      rw [this]; simp

structure BInv (T : List (Xfer S M)) (loc : Nat → S) (st : BState S M) (pos : Nat → Nat) : Prop where
  prog : ∀ r, st.prog r = (T.drop (pos r)).filterMap (Xfer.proj r)
  locs : ∀ r, st.loc r = seqAt T loc (pos r) r
  chan : ∀ s d t, st.chan s d t = seg T loc s d t (pos d) (pos s)
  causal : ∀ (k : Nat) (x : Xfer S M), T[k]? = some x → k < pos x.dst → k < pos x.src

theorem binv_init (T : List (Xfer S M)) (loc : Nat → S) : BInv T loc (scheduleInit T loc) (fun _ => 0) :=
  ⟨fun r => rfl, fun r => rfl, fun s d t => rfl, fun k x h h' => by omega⟩

theorem set1_same {β : Type} (f : Nat → β) (i : Nat) (v : β) : set1 f i v i = v := by simp [set1]
theorem set1_ne {β : Type} (f : Nat → β) {i j : Nat} (v : β) (h : j ≠ i) : set1 f i v j = f j := by
  simp [set1, h]

theorem binv_step {T : List (Xfer S M)} (hne : ∀ x ∈ T, x.src ≠ x.dst) {loc : Nat → S}
    {st st' : BState S M} (h : BStep st st') {pos : Nat → Nat} (inv : BInv T loc st pos) :
    ∃ pos', BInv T loc st' pos' := by
  cases h with
  | send r d t msg after rest hp =>
    rw [inv.prog r] at hp
    obtain ⟨k, x, hk, hx, hpx, hrest, hno⟩ := drop_filterMap_cons _ _ _ _ _ hp
    have hxne := hne x (List.mem_of_getElem? hx)
    have hsrc : x.src = r := by
      unfold Xfer.proj at hpx
      by_cases e : x.src = r
      · exact e
      · rw [if_neg e] at hpx; split at hpx <;> cases hpx
    unfold Xfer.proj at hpx
    rw [if_pos hsrc] at hpx
    cases hpx
    have hno' : ∀ i, pos r ≤ i → i < k → ∀ z, T[i]? = some z → ¬ z.Inv r :=
      fun i h1 h2 z hz => Xfer.proj_none.1 (hno i h1 h2 z hz)
    have hcaus : pos x.dst ≤ k := by
      rcases Nat.lt_or_ge k (pos x.dst) with h | h
      · have := inv.causal k x hx h; rw [hsrc] at this; omega
      · exact h
    have hstab : seqAt T loc k r = st.loc r := by
      rw [inv.locs r]; exact seqAt_stable T loc r (pos r) k hk hno'
    have hdr : x.dst ≠ r := by rw [← hsrc]; exact Ne.symm hxne
    refine ⟨set1 pos r (k + 1), ?_, ?_, ?_, ?_⟩
    · intro r'
      by_cases e : r' = r
      · subst e; simp only [set1_same]; exact hrest
      · simp only [set1_ne _ _ e]; exact inv.prog r'
    · intro r'
      by_cases e : r' = r
      · subst e
        simp only [set1_same]
        rw [seqAt_succ T loc k x hx]
        unfold Xfer.apply
        rw [set1_ne _ _ (Ne.symm hdr), hsrc, set1_same, hstab]
      · simp only [set1_ne _ _ e]; exact inv.locs r'
    · intro s' d' t'
      -- receiving side of `r` is unaffected
      have hleft : ∀ b, seg T loc s' d' t' (set1 pos r (k + 1) d') b = seg T loc s' d' t' (pos d') b := by
        intro b
        by_cases e : d' = r
        · subst e
          rw [set1_same]
          apply seg_left
          intro i _
          unfold cell
          cases hz : T[i]? with
          | none => rfl
          | some z =>
            simp only []
            by_cases hm : z.src = s' ∧ z.dst = d' ∧ z.tag = t'
            · have : ¬ (pos d' ≤ i ∧ i < k + 1) := by
                rintro ⟨h1, h2⟩
                by_cases e : i = k
                · subst e; rw [hx] at hz; cases hz; exact hdr hm.2.1
                · exact hno' i h1 (by omega) z hz (Or.inr hm.2.1)
              have : (k + 1 ≤ i) = (pos d' ≤ i) := by
                apply propext; constructor <;> intro _ <;> omega
              simp only [this]
            · rw [if_neg (fun h => hm h.2), if_neg (fun h => hm h.2)]
        · rw [set1_ne _ _ e]
      show setChan st.chan r x.dst x.tag (st.chan r x.dst x.tag ++ [x.msg (st.loc r)]) s' d' t' = _
      rw [hleft]
      by_cases es : s' = r
      · subst es
        rw [set1_same, seg_succ, seg_right T loc s' d' t' (pos d') (pos s') k hk]
        · unfold setChan
          by_cases hm : d' = x.dst ∧ t' = x.tag
          · obtain ⟨rfl, rfl⟩ := hm
            rw [if_pos ⟨rfl, rfl, rfl⟩, inv.chan]
            rw [cell_eq hx, if_pos ⟨hcaus, hsrc, rfl, rfl⟩, hsrc, hstab]; rfl
          · rw [if_neg (fun h => hm h.2), inv.chan, cell_eq hx,
              if_neg (fun h => hm ⟨h.2.2.1.symm, h.2.2.2.symm⟩)]; simp
        · intro i h1 h2
          cases hc : cell T loc s' d' t' (pos d') i with
          | none => rfl
          | some m =>
            obtain ⟨z, hz, _, hzs, _⟩ := cell_some hc
            exact absurd (Or.inl hzs) (hno' i h1 h2 z hz)
      · rw [set1_ne _ _ es]
        unfold setChan
        rw [if_neg (fun h => es h.1)]; exact inv.chan s' d' t'
    · intro k' z hz hk'
      have hzne := hne z (List.mem_of_getElem? hz)
      by_cases e : z.dst = r
      · rw [e, set1_same] at hk'
        have e2 : z.src ≠ r := by rw [← e]; exact hzne
        rw [set1_ne _ _ e2]
        rcases Nat.lt_or_ge k' (pos r) with h | h
        · exact inv.causal k' z hz (by rw [e]; exact h)
        · exfalso
          by_cases ek : k' = k
          · subst ek; rw [hx] at hz; cases hz; exact hdr e
          · exact hno' k' h (by omega) z hz (Or.inr e)
      · rw [set1_ne _ _ e] at hk'
        have := inv.causal k' z hz hk'
        by_cases e2 : z.src = r
        · rw [e2, set1_same]; rw [e2] at this; omega
        · rw [set1_ne _ _ e2]; exact this
  | recv r s t take rest m ms hp hc =>
    rw [inv.prog r] at hp
    obtain ⟨k, x, hk, hx, hpx, hrest, hno⟩ := drop_filterMap_cons _ _ _ _ _ hp
    have hxne := hne x (List.mem_of_getElem? hx)
    unfold Xfer.proj at hpx
    have hsr : x.src ≠ r := by
      intro e; rw [if_pos e] at hpx; cases hpx
    rw [if_neg hsr] at hpx
    have hdst : x.dst = r := by
      by_cases e : x.dst = r
      · exact e
      · rw [if_neg e] at hpx; cases hpx
    rw [if_pos hdst] at hpx
    cases hpx
    have hno' : ∀ i, pos r ≤ i → i < k → ∀ z, T[i]? = some z → ¬ z.Inv r :=
      fun i h1 h2 z hz => Xfer.proj_none.1 (hno i h1 h2 z hz)
    have hstab : seqAt T loc k r = st.loc r := by
      rw [inv.locs r]; exact seqAt_stable T loc r (pos r) k hk hno'
    have hcell : cell T loc x.src r x.tag (pos r) k = some (x.msg (seqAt T loc k x.src)) := by
      rw [cell_eq hx, if_pos ⟨hk, rfl, hdst, rfl⟩]
    have hbefore : ∀ i < k, cell T loc x.src r x.tag (pos r) i = none := by
      intro i hi
      cases hci : cell T loc x.src r x.tag (pos r) i with
      | none => rfl
      | some m' =>
        obtain ⟨z, hz, h1, _, hzd, _⟩ := cell_some hci
        exact absurd (Or.inr hzd) (hno' i h1 hi z hz)
    rw [inv.chan] at hc
    have hsent : k < pos x.src := by
      rcases Nat.lt_or_ge k (pos x.src) with h | h
      · exact h
      · rw [seg_empty] at hc
        · cases hc
        · intro i hi; exact hbefore i (by omega)
    rw [seg_head T loc x.src r x.tag (pos r) k _ hcell hbefore _ hsent] at hc
    injection hc with hm hms
    refine ⟨set1 pos r (k + 1), ?_, ?_, ?_, ?_⟩
    · intro r'
      by_cases e : r' = r
      · subst e; simp only [set1_same]; exact hrest
      · simp only [set1_ne _ _ e]; exact inv.prog r'
    · intro r'
      by_cases e : r' = r
      · subst e
        simp only [set1_same]
        rw [seqAt_succ T loc k x hx]
        unfold Xfer.apply
        rw [hdst, set1_same, hstab, hm]
      · simp only [set1_ne _ _ e]; exact inv.locs r'
    · intro s' d' t'
      have hright : ∀ a, seg T loc s' d' t' a (set1 pos r (k + 1) s') = seg T loc s' d' t' a (pos s') := by
        intro a
        by_cases e : s' = r
        · subst e
          rw [set1_same]
          apply seg_right _ _ _ _ _ _ _ _ (by omega)
          intro i h1 h2
          cases hci : cell T loc s' d' t' a i with
          | none => rfl
          | some m' =>
            obtain ⟨z, hz, _, hzs, _⟩ := cell_some hci
            exfalso
            by_cases e : i = k
            · subst e; rw [hx] at hz; cases hz; exact hsr hzs
            · exact hno' i h1 (by omega) z hz (Or.inl hzs)
        · rw [set1_ne _ _ e]
      rw [hright]
      show setChan st.chan x.src r x.tag ms s' d' t' = _
      by_cases ed : d' = r
      · subst ed
        rw [set1_same]
        unfold setChan
        by_cases hmt : s' = x.src ∧ t' = x.tag
        · obtain ⟨rfl, rfl⟩ := hmt
          rw [if_pos ⟨rfl, rfl, rfl⟩, ← hms]
        · rw [if_neg (fun h => hmt ⟨h.1, h.2.2⟩), inv.chan]
          apply seg_left
          intro i _
          unfold cell
          cases hz : T[i]? with
          | none => rfl
          | some z =>
            simp only []
            by_cases hmz : z.src = s' ∧ z.dst = d' ∧ z.tag = t'
            · have : ¬ (pos d' ≤ i ∧ i < k + 1) := by
                rintro ⟨h1, h2⟩
                by_cases e : i = k
                · subst e; rw [hx] at hz; cases hz; exact hmt ⟨hmz.1.symm, hmz.2.2.symm⟩
                · exact hno' i h1 (by omega) z hz (Or.inr hmz.2.1)
              have : (pos d' ≤ i) = (k + 1 ≤ i) := by
                apply propext; constructor <;> intro _ <;> omega
              simp only [this]
            · rw [if_neg (fun h => hmz h.2), if_neg (fun h => hmz h.2)]
      · rw [set1_ne _ _ ed]
        unfold setChan
        rw [if_neg (fun h => ed h.2.1)]; exact inv.chan s' d' t'
    · intro k' z hz hk'
      by_cases e : z.dst = r
      · rw [e, set1_same] at hk'
        have hzne := hne z (List.mem_of_getElem? hz)
        have e2 : z.src ≠ r := by rw [← e]; exact hzne
        rw [set1_ne _ _ e2]
        rcases Nat.lt_or_ge k' (pos r) with h | h
        · exact inv.causal k' z hz (by rw [e]; exact h)
        · by_cases ek : k' = k
          · subst ek; rw [hx] at hz; cases hz; exact hsent
          · exact absurd (Or.inr e) (hno' k' h (by omega) z hz)
      · rw [set1_ne _ _ e] at hk'
        have := inv.causal k' z hz hk'
        by_cases e2 : z.src = r
        · rw [e2, set1_same]; rw [e2] at this; omega
        · rw [set1_ne _ _ e2]; exact this

theorem binv_steps {T : List (Xfer S M)} (hne : ∀ x ∈ T, x.src ≠ x.dst) {loc : Nat → S} {n : Nat}
    {st : BState S M} (h : Steps BStep n (scheduleInit T loc) st) : ∃ pos, BInv T loc st pos := by
  generalize hi : scheduleInit T loc = s0 at h
  induction h with
  | refl => subst hi; exact ⟨_, binv_init T loc⟩
  | tail _ h2 ih => obtain ⟨pos, inv⟩ := ih hi; exact binv_step hne h2 inv

/-- The next operation of a rank that has not yet executed position `k`, all its earlier ones being done. -/
theorem next_op {T : List (Xfer S M)} (r p k : Nat) (x : Xfer S M) (hx : T[k]? = some x) (hpk : p ≤ k)
    (op : BOp S M) (hop : x.proj r = some op)
    (hno : ∀ i, p ≤ i → i < k → ∀ z, T[i]? = some z → ¬ z.Inv r) :
    ∃ rest, (T.drop p).filterMap (Xfer.proj r) = op :: rest := by
  cases hl : (T.drop p).filterMap (Xfer.proj r) with
  | nil => have := drop_filterMap_nil _ _ _ hl k hpk x hx; rw [this] at hop; cases hop
  | cons y ys =>
    obtain ⟨k', x', h1, h2, h3, -, h5⟩ := drop_filterMap_cons _ _ _ _ _ hl
    have : k' = k := by
      rcases Nat.lt_trichotomy k' k with h | h | h
      · have := Xfer.proj_none.2 (hno k' h1 h x' h2); rw [this] at h3; cases h3
      · exact h
      · have := h5 k hpk h x hx; rw [this] at hop; cases hop
    subst this
    rw [h2] at hx; cases hx
    rw [h3] at hop; cases hop
    exact ⟨ys, rfl⟩

theorem binv_progress {T : List (Xfer S M)} (hne : ∀ x ∈ T, x.src ≠ x.dst) {loc : Nat → S}
    {st : BState S M} {pos : Nat → Nat} (inv : BInv T loc st pos) (r : Nat) (hr : st.prog r ≠ []) :
    MustStep st := by
  -- the least position that some participant has not executed
  have hex : ∃ k x, T[k]? = some x ∧ (pos x.src ≤ k ∨ pos x.dst ≤ k) := by
    cases hl : st.prog r with
    | nil => exact absurd hl hr
    | cons y ys =>
      rw [inv.prog] at hl
      obtain ⟨k, x, h1, h2, h3, -⟩ := drop_filterMap_cons _ _ _ _ _ hl
      refine ⟨k, x, h2, ?_⟩
      have : x.Inv r := by
        by_cases h : x.Inv r
        · exact h
        · rw [Xfer.proj_none.2 h] at h3; cases h3
      rcases this with h | h
      · left; rw [h]; exact h1
      · right; rw [h]; exact h1
  have hleast : ∃ k, (∃ x, T[k]? = some x ∧ (pos x.src ≤ k ∨ pos x.dst ≤ k)) ∧
      ∀ i < k, ∀ z, T[i]? = some z → ¬ (pos z.src ≤ i ∨ pos z.dst ≤ i) := by
    obtain ⟨k, x, h⟩ := hex
    induction k using Nat.strongRecOn generalizing x with
    | ind k ih =>
      by_cases hc : ∃ i, i < k ∧ ∃ z, T[i]? = some z ∧ (pos z.src ≤ i ∨ pos z.dst ≤ i)
      · obtain ⟨i, hi, z, hz⟩ := hc
        exact ih i hi z hz
      · exact ⟨k, ⟨x, h⟩, fun i hi z hz h' => hc ⟨i, hi, z, hz, h'⟩⟩
  obtain ⟨k, ⟨x, hx, hor⟩, hmin⟩ := hleast
  have hnot : ∀ r, ∀ i, pos r ≤ i → i < k → ∀ z, T[i]? = some z → ¬ z.Inv r := by
    intro r i h1 h2 z hz hi
    apply hmin i h2 z hz
    rcases hi with h | h
    · left; rw [h]; exact h1
    · right; rw [h]; exact h1
  by_cases hs : pos x.src ≤ k
  · have hd : pos x.dst ≤ k := by
      rcases Nat.lt_or_ge k (pos x.dst) with h | h
      · have := inv.causal k x hx h; omega
      · exact h
    have hsd := hne x (List.mem_of_getElem? hx)
    · obtain ⟨rest, h1⟩ := next_op x.src (pos x.src) k x hx hs (.send x.dst x.tag x.msg x.after)
        (by simp [Xfer.proj]) (hnot _)
      obtain ⟨rest', h2⟩ := next_op x.dst (pos x.dst) k x hx hd (.recv x.src x.tag x.take)
        (by simp [Xfer.proj, hsd]) (hnot _)
      exact MustStep.meet st x.src x.dst x.tag x.msg x.after rest x.take rest' (by rw [inv.prog, h1])
        (by rw [inv.prog, h2])
  · have hd : pos x.dst ≤ k := by omega
    have hsd : x.src ≠ x.dst := by intro e; rw [e] at hs; exact hs hd
    obtain ⟨rest', h2⟩ := next_op x.dst (pos x.dst) k x hx hd (.recv x.src x.tag x.take)
      (by simp [Xfer.proj, hsd]) (hnot _)
    have hcell : cell T loc x.src x.dst x.tag (pos x.dst) k = some (x.msg (seqAt T loc k x.src)) := by
      rw [cell_eq hx, if_pos ⟨hd, rfl, rfl, rfl⟩]
    have hb : ∀ i < k, cell T loc x.src x.dst x.tag (pos x.dst) i = none := by
      intro i hi
      cases hci : cell T loc x.src x.dst x.tag (pos x.dst) i with
      | none => rfl
      | some m' =>
        obtain ⟨z, hz, h1, _, hzd, _⟩ := cell_some hci
        exact absurd (Or.inr hzd) (hnot x.dst i h1 hi z hz)
    exact MustStep.recv st x.dst x.src x.tag x.take rest' _ _ (by rw [inv.prog, h2])
      (by rw [inv.chan, seg_head T loc _ _ _ _ k _ hcell hb _ (by omega)])

theorem binv_final {T : List (Xfer S M)} {loc : Nat → S} {st : BState S M} {pos : Nat → Nat}
    (inv : BInv T loc st pos) (h : ∀ r, st.prog r = []) :
    (∀ r, st.loc r = runSeq T loc r) ∧ ∀ s d t, st.chan s d t = [] := by
  have hno : ∀ r i, pos r ≤ i → ∀ z, T[i]? = some z → ¬ z.Inv r := by
    intro r i hi z hz
    have := h r
    rw [inv.prog] at this
    exact Xfer.proj_none.1 (drop_filterMap_nil _ _ _ this i hi z hz)
  constructor
  · intro r
    rw [inv.locs]
    have hall : runSeq T loc = seqAt T loc (max (pos r) T.length) := by
      unfold seqAt; rw [List.take_of_length_le (by omega)]
    rw [hall]
    exact (seqAt_stable T loc r (pos r) _ (by omega) (fun i h1 _ z hz => hno r i h1 z hz)).symm
  · intro s d t
    rw [inv.chan]
    apply seg_empty
    intro i _
    cases hci : cell T loc s d t (pos d) i with
    | none => rfl
    | some m' =>
      obtain ⟨z, hz, h1, _, hzd, _⟩ := cell_some hci
      exact absurd (Or.inr hzd) (hno d i h1 z hz)

/-- Operations still to execute on ranks below `P`. -/
def BState.left (P : Nat) (st : BState S M) : Nat := ((List.range P).map fun r => (st.prog r).length).sum

theorem sum_map_set {f g : Nat → Nat} (P r : Nat) (hr : r < P) (h : ∀ i, i ≠ r → f i = g i)
    (h1 : f r + 1 = g r) : ((List.range P).map f).sum + 1 = ((List.range P).map g).sum := by
  have hout : ∀ Q, Q ≤ r → ((List.range Q).map f).sum = ((List.range Q).map g).sum := by
    intro Q hQ
    congr 1
    apply List.map_congr_left
    intro i hi
    have := List.mem_range.1 hi
    exact h i (by omega)
  induction P with
  | zero => omega
  | succ P ih =>
    simp only [List.range_succ, List.map_append, List.map_cons, List.map_nil, List.sum_append,
      List.sum_cons, List.sum_nil]
    by_cases e : r = P
    · subst e; rw [hout r (Nat.le_refl _)]; omega
    · have := ih (by omega)
      have := h P (Ne.symm e)
      omega

end Heat
