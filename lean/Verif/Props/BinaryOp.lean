import Verif.Model.BinaryOp
import Verif.Props.Dist
/-!
# C23 and C50: binary operations and alignment of operands
-/
namespace Heat
open Heat.Spec
variable {α β γ : Type}

/-- Element-wise operation of two undistributed arrays along one axis with broadcasting of size one. -/
def Spec.bzip (f : α → β → γ) : List α → List β → List γ
  | [x], b => b.map (f x)
  | a, [y] => a.map (f · y)
  | a, b => List.zipWith f a b

/-- The operand is a consistent DNDarray whose global content is `l`, and its `balanced` attribute does not lie. -/
def Spec.Holds (P : Nat) (a : Opnd α) (l : List α) : Prop :=
  a.n = l.length ∧ (a.dist = true → content P a.loc = l) ∧ (a.dist = false → ∀ r < P, a.loc r = l) ∧
  (a.dist = true → a.flag = some true → Balanced P a.loc)

theorem content_slices (l : List α) (b : Nat → Nat) (h0 : b 0 = 0) (P : Nat) (hm : ∀ r < P, b r ≤ b (r + 1)) :
    content P (fun r => (l.take (b (r + 1))).drop (b r)) = l.take (b P) := by
  induction P with
  | zero => simp [content_zero, h0]
  | succ k ih =>
    rw [content_succ, ih fun r hr => hm r (by omega)]
    have := hm k (by omega)
    have e : l.take (b k) = (l.take (b (k + 1))).take (b k) := by rw [List.take_take, Nat.min_eq_left this]
    rw [e, List.take_append_drop]

theorem slices_length (l : List α) (b : Nat → Nat) (r : Nat) (h : b (r + 1) ≤ l.length) :
    ((l.take (b (r + 1))).drop (b r)).length = b (r + 1) - b r := by
  simp; omega

theorem isBalanced_true {P : Nat} {a : Opnd α} {l : List α} (h : Spec.Holds P a l) (hd : a.dist = true)
    (hb : a.isBalanced P = true) : Balanced P a.loc := by
  unfold Opnd.isBalanced at hb
  simp only [hd, Bool.not_true, Bool.false_eq_true, if_false] at hb
  cases hf : a.flag with
  | some b =>
    rw [hf] at hb; simp at hb; subst hb
    exact h.2.2.2 hd hf
  | none =>
    rw [hf] at hb
    simp only [Option.getD_none] at hb
    rw [isBalancedCheck_iff] at hb
    have hc := h.2.1 hd
    intro r hr
    rw [hb r hr, h.1, hc]

/-- what `sanitize_distribution` guarantees for an operand of the same size as the target -/
def Spec.Aligned (P : Nat) (tmap : Nat → Int) (l : List α) (res : Nat → List α) : Prop :=
  content P res = l ∧ ∀ r < P, ((res r).length : Int) = tmap r

theorem cum_nonneg {t : Nat → Int} {P : Nat} (h : ∀ r < P, 0 ≤ t r) (k : Nat) (hk : k ≤ P) : 0 ≤ cum t k :=
  cum_mono t P h (Nat.zero_le k) hk

/-- core of C50 -/
theorem sanitizeDist_aligned (fuel P : Nat) (hP : 1 < P) (hfuel : 2 ≤ fuel) (tmap : Nat → Int) (n : Nat)
    (hnn : ∀ r < P, 0 ≤ tmap r) (hsum : cum tmap P = n) (tbal : Bool)
    (hbal : tbal = true → ∀ r < P, tmap r = (evenSize n P r : Int)) (arg : Opnd α) (l : List α)
    (ha : Spec.Holds P arg l) (hn : l.length = n) :
    ∃ res, sanitizeDist fuel P tmap n tbal arg = .ok res ∧ Spec.Aligned P tmap l res := by
  have hlen := ha.1
  unfold sanitizeDist
  rw [if_neg (by omega), if_neg (by omega)]
  have hrep : ∀ b : Nat → Nat, b 0 = 0 → (∀ r < P, b r ≤ b (r + 1)) → b P = n → (∀ r < P, tmap r = ((b (r + 1) - b r : Nat) : Int)) →
      ∀ loc : Nat → List α, (∀ r < P, loc r = l) → Spec.Aligned P tmap l fun r => ((loc r).take (b (r + 1))).drop (b r) := by
    intro b h0 hm hbP ht loc hloc
    have hle : ∀ k ≤ P, b k ≤ n := by
      intro k hk
      rw [← hbP]
      have : ∀ j, k ≤ j → j ≤ P → b k ≤ b j := by
        intro j hkj
        induction hkj with
        | refl => intro _; exact Nat.le_refl _
        | step hj ih => intro hjP; exact Nat.le_trans (ih (by omega)) (hm _ (by omega))
      exact this P hk (Nat.le_refl _)
    constructor
    · have : content P (fun r => ((loc r).take (b (r + 1))).drop (b r)) = content P fun r => (l.take (b (r + 1))).drop (b r) := by
        apply content_congr; intro i hi; rw [hloc i hi]
      rw [this, content_slices l b h0 P hm, hbP, ← hn, List.take_length]
    · intro r hr
      show (((((loc r).take (b (r + 1))).drop (b r)).length : Nat) : Int) = _
      rw [hloc r hr, slices_length l b r (by rw [hn]; exact hle _ (by omega)), ht r hr]
  cases hd : arg.dist with
  | false =>
    simp only [Bool.not_false, if_true]
    have hloc := ha.2.2.1 hd
    cases tbal with
    | true =>
      simp only [if_true]
      refine ⟨_, rfl, ?_⟩
      have e : arg.n = n := by omega
      rw [e]
      have := hrep (fun r => (chunkRange n r P).1) (chunkRange_zero n P)
        (fun r _ => chunkRange_mono n P (by omega)) (chunkRange_at_P n P (by omega))
        (fun r hr => by rw [hbal rfl r hr, chunkRange_succ, chunkRange_size]) arg.loc hloc
      simp only [chunkRange_succ] at this
      exact this
    | false =>
      simp only [Bool.false_eq_true, if_false]
      refine ⟨_, rfl, ?_⟩
      have hc := cum_nonneg hnn
      refine hrep (fun r => (cum tmap r).toNat) rfl ?_ ?_ ?_ arg.loc hloc
      · intro r hr
        have := cum_mono tmap P hnn (show r ≤ r + 1 by omega) (by omega)
        omega
      · show (cum tmap P).toNat = n
        rw [hsum]; simp
      · intro r hr
        have h1 := hc r (by omega)
        have h2 := hc (r + 1) (by omega)
        have h3 : cum tmap (r + 1) = cum tmap r + tmap r := rfl
        have h4 := hnn r hr
        show tmap r = (((cum tmap (r + 1)).toNat - (cum tmap r).toNat : Nat) : Int)
        omega
  | true =>
    have hcont := ha.2.1 hd
    simp only [Bool.not_true, Bool.false_eq_true, if_false]
    split
    · split
      · next hne =>
        have e : arg.n = (content P arg.loc).length := by rw [hcont]; omega
        rw [e]
        unfold redistribute
        rw [if_neg (by omega)]
        simp only
        rw [if_neg (by rw [hsum, hcont]; omega)]
        obtain ⟨q, h1, h2, h3⟩ := redistLoop_spec hP (target := tmap)
          (lmap := lshapeMapForced (content P arg.loc).length P arg.loc) (parts := arg.loc)
          hnn (by rw [hsum, hcont]; omega) (fun i hi => lshapeMapForced_eq _ _ _ _ hi) fuel hfuel
        exact ⟨q, h1, by rw [h2, hcont], h3⟩
      · next hne =>
        refine ⟨_, rfl, hcont, ?_⟩
        intro r hr
        rw [Bool.not_eq_true, List.any_eq_false] at hne
        have := hne r (List.mem_range.2 hr)
        simpa using this
    · next hbb =>
      refine ⟨_, rfl, hcont, ?_⟩
      simp only [Bool.not_eq_true', Bool.not_eq_false, Bool.and_eq_true] at hbb
      intro r hr
      rw [hbal hbb.1 r hr, isBalanced_true ha hd hbb.2 r hr, hcont, hn]

/-- **C50.** For every target distribution `t` (two or more ranks) and every operand, split along the same axis in any other way
or not split, with the same number of slabs: `sanitize_distribution` succeeds, the result has rank by rank the
size of the target's chunk, and its global content is unchanged. -/
theorem sanitize_distribution_spec (fuel P : Nat) (hP : 1 < P) (hfuel : 2 ≤ fuel) (t : Opnd α) (lt : List α)
    (ht : Spec.Holds P t lt) (htd : t.dist = true) (arg : Opnd β) (l : List β) (ha : Spec.Holds P arg l)
    (hn : l.length = lt.length) :
    ∃ res, sanitizeDist fuel P (fun r => ((t.loc r).length : Int)) t.n (t.isBalanced P) arg = .ok res ∧
      content P res = l ∧ ∀ r < P, (res r).length = (t.loc r).length := by
  obtain ⟨res, h1, h2, h3⟩ := sanitizeDist_aligned fuel P hP hfuel (fun r => ((t.loc r).length : Int)) t.n
    (fun r _ => Int.natCast_nonneg _) (by
      have := cum_eq_content (fun r => ((t.loc r).length : Int)) t.loc P (fun i _ => rfl)
      rw [this, ht.2.1 htd, ht.1]) (t.isBalanced P)
    (fun hb r hr => by rw [isBalanced_true ht htd hb r hr, ht.2.1 htd, ht.1]) arg l ha (by rw [hn, ht.1])
  exact ⟨res, h1, h2, fun r hr => by have := h3 r hr; simp only at this; omega⟩

/-- C50, broadcast operand: every rank gets the single slab. -/
theorem sanitize_distribution_broadcast (fuel P : Nat) (tmap : Nat → Int) (tsize : Int) (tbal : Bool)
    (arg : Opnd α) (x : α) (ha : Spec.Holds P arg [x]) (hn : 1 < tsize) :
    ∃ res, sanitizeDist fuel P tmap tsize tbal arg = .ok res ∧ ∀ r < P, res r = [x] := by
  unfold sanitizeDist
  have h1 : arg.n = 1 := ha.1
  rw [if_pos ⟨h1, hn⟩]
  refine ⟨_, rfl, fun r hr => ?_⟩
  cases hd : arg.dist with
  | true => simp only [if_true]; exact ha.2.1 hd
  | false => simp only [Bool.false_eq_true, if_false]; exact ha.2.2.1 hd r hr

/-- C50, errors: sizes that neither match nor broadcast raise ValueError. -/
theorem sanitize_distribution_mismatch (fuel P : Nat) (tmap : Nat → Int) (tsize : Int) (tbal : Bool) (arg : Opnd α)
    (h1 : (arg.n : Int) ≠ tsize) (h2 : ¬ (arg.n = 1 ∧ 1 < tsize)) :
    sanitizeDist fuel P tmap tsize tbal arg = .error .valueError := by
  unfold sanitizeDist; rw [if_neg h2, if_pos h1]

theorem bzip_eq (f : α → β → γ) (a : List α) (b : List β) (h : a.length = b.length) : Spec.bzip f a b = List.zipWith f a b := by
  match a, b, h with
  | [], [], _ => rfl
  | [x], [y], _ => rfl
  | x :: x' :: xs, y :: y' :: ys, _ => rfl

theorem bzip_left (f : α → β → γ) (x : α) (b : List β) : Spec.bzip f [x] b = b.map (f x) := by
  unfold Spec.bzip; rfl

theorem bzip_right (f : α → β → γ) (a : List α) (y : β) : Spec.bzip f a [y] = a.map (f · y) := by
  match a with
  | [] => rfl
  | [x] => rfl
  | x :: x' :: xs => rfl

theorem torchZip_left (f : α → β → γ) (x : α) (b : List β) : torchZip f [x] b = .ok (b.map (f x)) := rfl

theorem torchZip_right (f : α → β → γ) (a : List α) (y : β) : torchZip f a [y] = .ok (a.map (f · y)) := by
  match a with
  | [] => rfl
  | [x] => rfl
  | x :: x' :: xs => rfl

theorem torchZip_eq (f : α → β → γ) (a : List α) (b : List β) (h : a.length = b.length) :
    torchZip f a b = .ok (List.zipWith f a b) := by
  match a, b, h with
  | [], [], _ => rfl
  | [x], [y], _ => rfl
  | x :: x' :: xs, y :: y' :: ys, h => show (if _ then _ else _) = _; rw [if_pos h]

theorem content_zipWith (f : α → β → γ) (P : Nat) (d1 : Nat → List α) (d2 : Nat → List β)
    (h : ∀ r < P, (d1 r).length = (d2 r).length) :
    content P (fun r => List.zipWith f (d1 r) (d2 r)) = List.zipWith f (content P d1) (content P d2) := by
  induction P with
  | zero => rfl
  | succ k ih =>
    rw [content_succ, content_succ, content_succ, ih fun r hr => h r (by omega), List.zipWith_append]
    have : ∀ j ≤ k, (content j d1).length = (content j d2).length := by
      intro j hj
      induction j with
      | zero => rfl
      | succ j ihj => rw [content_succ, content_succ, List.length_append, List.length_append, ihj (by omega), h j (by omega)]
    exact this k (Nat.le_refl _)

theorem content_map (f : α → β) (P : Nat) (d : Nat → List α) : content P (fun r => (d r).map f) = (content P d).map f := by
  induction P with
  | zero => rfl
  | succ k ih => rw [content_succ, content_succ, ih, List.map_append]

/-- a distribution of one slab: exactly one rank has it -/
theorem one_slab {P : Nat} {d : Nat → List α} {x : α} (h : content P d = [x]) :
    ∃ i < P, d i = [x] ∧ ∀ r < P, r ≠ i → d r = [] := by
  have hlen : ∀ r < P, (d r).length ≤ 1 := by
    intro r hr
    have h1 := startOf_mono d (show r + 1 ≤ P by omega)
    rw [startOf_succ] at h1
    have : startOf d P = 1 := by unfold startOf; rw [h]; rfl
    omega
  obtain ⟨i, hi, h1, h2⟩ := startOf_owner d P 0 (by unfold startOf; rw [h]; simp)
  rw [startOf_succ] at h2
  have hi1 : (d i).length = 1 := by have := hlen i hi; omega
  have hget := content_get d P i 0 hi (by omega)
  rw [h] at hget
  have hs0 : startOf d i = 0 := by omega
  rw [hs0] at hget
  refine ⟨i, hi, ?_, ?_⟩
  · match hdi : d i, hi1 with
    | [y], _ => simp [hdi] at hget; rw [hget]
  · intro r hr hne
    apply List.eq_nil_of_length_eq_zero
    apply Nat.eq_zero_of_not_pos
    intro hpos
    apply hne
    have htot : startOf d P = 1 := by unfold startOf; rw [h]; rfl
    have h3 := startOf_mono d (show r + 1 ≤ P by omega)
    rw [startOf_succ] at h3
    exact startOf_owner_unique d 0 r i (by omega) (by rw [startOf_succ]; omega) h1 (by rw [startOf_succ]; omega)

/-- target map of a broadcast operand -/
theorem cum_bcastMap (P nout : Nat) (d : Nat → List α) (i : Nat) (hi : i < P) (h1 : (d i).length ≠ 0)
    (h2 : ∀ r < P, r ≠ i → d r = []) : cum (bcastMap nout d) P = nout := by
  have : ∀ k ≤ P, cum (bcastMap nout d) k = if i < k then (nout : Int) else 0 := by
    intro k hk
    induction k with
    | zero => rfl
    | succ k ih =>
      rw [cum, ih (by omega)]
      unfold bcastMap
      by_cases hki : k = i
      · subst hki; simp [h1]
      · rw [h2 k (by omega) hki]
        simp only [List.length_nil, ne_eq, not_true_eq_false, if_false, Int.add_zero]
        have : (i < k ↔ i < k + 1) := by omega
        simp only [this]
  rw [this P (Nat.le_refl _), if_pos hi]

theorem mapBalanced_true {P n : Nat} {t : Nat → Int} (h : mapBalanced P t n = true) : ∀ r < P, t r = (evenSize n P r : Int) := by
  intro r hr
  unfold mapBalanced at h
  rw [List.all_eq_true] at h
  have := h r (List.mem_range.2 hr)
  simpa [evenSize] using this

theorem bcastMap_nonneg (nout : Nat) (d : Nat → List α) (r : Nat) : 0 ≤ bcastMap nout d r := by
  unfold bcastMap; split <;> omega

/-- **C23.** For every slab operation `f`, every two operands (split along the same axis in any two ways, or not split), of equal
size or one of them of size one and the other not empty, and every number of processes: the operation succeeds on every
process, the result's global content is the element-wise operation with broadcasting of the global contents, the result is
split iff one of the operands is, and it has the chunk sizes of the dominant operand, i.e. the first one if it is
split and not broadcast, otherwise the second one if it is split and not broadcast. -/
theorem binaryOp_spec_partial (fuel P : Nat) (hP : 1 < P) (hfuel : 2 ≤ fuel) (f : α → β → γ) (t1 : Opnd α) (t2 : Opnd β)
    (l1 : List α) (l2 : List β) (h1 : Spec.Holds P t1 l1) (h2 : Spec.Holds P t2 l2)
    (hsize : l1.length = l2.length ∨ (l1.length = 1 ∧ 2 ≤ l2.length) ∨ (2 ≤ l1.length ∧ l2.length = 1)) :
    ∃ res, binaryOp fuel P f t1 t2 = .ok res ∧ res.dist = (t1.dist || t2.dist) ∧
      ∃ loc : Nat → List γ, (∀ r < P, res.loc r = .ok (loc r)) ∧
        (res.dist = true → content P loc = Spec.bzip f l1 l2) ∧
        (res.dist = false → ∀ r < P, loc r = Spec.bzip f l1 l2) ∧
        (t1.dist = true → l2.length ≤ l1.length → ∀ r < P, (loc r).length = (t1.loc r).length) ∧
        (t2.dist = true → l1.length ≤ l2.length → (t1.dist = true → l1.length < l2.length) →
          ∀ r < P, (loc r).length = (t2.loc r).length) := by
  have hn1 := h1.1
  have hn2 := h2.1
  unfold binaryOp
  rcases hsize with heq | ⟨he1, hbig⟩ | ⟨hbig, he2⟩
  · -- equal sizes
    have hb : bcastSize t1.n t2.n = some t1.n := by unfold bcastSize; rw [if_pos (by omega)]
    rw [hb]
    simp only [and_true]
    by_cases c1 : t1.dist = true
    · rw [if_pos c1]
      obtain ⟨res, r1, r2, r3⟩ := sanitize_distribution_spec fuel P hP hfuel t1 l1 h1 c1 t2 l2 h2 heq.symm
      rw [r1]
      refine ⟨_, rfl, by simp [c1], fun r => List.zipWith f (t1.loc r) (res r), ?_, ?_, ?_, ?_, ?_⟩
      · intro r hr; exact torchZip_eq f _ _ (r3 r hr).symm
      · intro _
        rw [content_zipWith f P _ _ fun r hr => (r3 r hr).symm, h1.2.1 c1, r2, bzip_eq f l1 l2 heq]
      · intro h; simp at h
      · intro _ _ r hr; simp [r3 r hr]
      · intro _ _ h; have := h c1; omega
    · rw [if_neg c1]
      by_cases c2 : t2.dist = true
      · rw [if_pos ⟨c2, by omega⟩]
        obtain ⟨res, r1, r2, r3⟩ := sanitize_distribution_spec fuel P hP hfuel t2 l2 h2 c2 t1 l1 h1 heq
        rw [r1]
        refine ⟨_, rfl, by simp [c2], fun r => List.zipWith f (res r) (t2.loc r), ?_, ?_, ?_, ?_, ?_⟩
        · intro r hr; exact torchZip_eq f _ _ (r3 r hr)
        · intro _
          rw [content_zipWith f P _ _ fun r hr => r3 r hr, h2.2.1 c2, r2, bzip_eq f l1 l2 heq]
        · intro h; simp at h
        · intro h; exact absurd h c1
        · intro _ _ _ r hr; simp [r3 r hr]
      · rw [if_neg (fun h => c2 h.1), if_neg c1, if_neg c2]
        refine ⟨_, rfl, by simp [c1, c2], fun _ => List.zipWith f l1 l2, ?_, ?_, ?_, fun h => absurd h c1, fun h => absurd h c2⟩
        · intro r hr
          show torchZip f (t1.loc r) (t2.loc r) = _
          rw [h1.2.2.1 (by simpa using c1) r hr, h2.2.2.1 (by simpa using c2) r hr]
          exact torchZip_eq f _ _ heq
        · intro h; simp at h
        · intro _ r _; rw [bzip_eq f l1 l2 heq]
  · -- the first operand is broadcast
    have hb : bcastSize t1.n t2.n = some t2.n := by unfold bcastSize; rw [if_neg (by omega), if_pos (by omega)]
    rw [hb]
    simp only [and_true]
    match l1, he1 with
    | [x], _ =>
    rw [if_neg (fun h => by simp at hn1; omega)]
    by_cases c2 : t2.dist = true
    · rw [if_pos c2]
      obtain ⟨res, r1, r2⟩ := sanitize_distribution_broadcast fuel P (fun r => ((t2.loc r).length : Int)) t2.n
        (t2.isBalanced P) t1 x h1 (by omega)
      rw [r1]
      refine ⟨_, rfl, by simp [c2], fun r => (t2.loc r).map (f x), ?_, ?_, ?_, ?_, ?_⟩
      · intro r hr
        show torchZip f (res r) (t2.loc r) = _
        rw [r2 r hr, torchZip_left]
      · intro _; rw [content_map, h2.2.1 c2, bzip_left]
      · intro h; simp at h
      · intro _ h; simp at h; omega
      · intro _ _ _ r hr; simp
    · rw [if_neg c2]
      by_cases c1 : t1.dist = true
      · rw [if_pos c1]
        obtain ⟨i, hi, hix, hie⟩ := one_slab (h1.2.1 c1)
        obtain ⟨res, r1, r2, r3⟩ := sanitizeDist_aligned fuel P hP hfuel (bcastMap t2.n t1.loc) t2.n
          (fun r _ => bcastMap_nonneg _ _ _)
          (cum_bcastMap P t2.n t1.loc i hi (by rw [hix]; simp) hie) _ (fun h => mapBalanced_true h) t2 l2 h2 hn2.symm
        rw [r1]
        have hemp : ∀ r < P, r ≠ i → res r = [] := by
          intro r hr hne
          have := r3 r hr
          unfold bcastMap at this
          rw [hie r hr hne] at this
          simp at this
          exact this
        refine ⟨_, rfl, by simp [c1], fun r => if r = i then (res r).map (f x) else [], ?_, ?_, ?_, ?_, ?_⟩
        · intro r hr
          show torchZip f (t1.loc r) (res r) = _
          by_cases hri : r = i
          · subst hri; rw [hix, torchZip_left]; simp
          · rw [hie r hr hri, hemp r hr hri]; simp [hri, torchZip]
        · intro _
          have : content P (fun r => if r = i then (res r).map (f x) else []) = content P fun r => (res r).map (f x) := by
            apply content_congr
            intro r hr
            split
            · rfl
            · next h => rw [hemp r hr h]; rfl
          rw [this, content_map, r2, bzip_left]
        · intro h; simp at h
        · intro _ h; simp at h; omega
        · intro h; exact absurd h c2
      · rw [if_neg c1, if_neg c2]
        refine ⟨_, rfl, by simp [c1, c2], fun _ => l2.map (f x), ?_, ?_, ?_, fun h => absurd h c1, fun h => absurd h c2⟩
        · intro r hr
          show torchZip f (t1.loc r) (t2.loc r) = _
          rw [h1.2.2.1 (by simpa using c1) r hr, h2.2.2.1 (by simpa using c2) r hr]
          rfl
        · intro h; simp at h
        · intro _ r _; rw [bzip_left]
  · -- the second operand is broadcast
    have hb : bcastSize t1.n t2.n = some t1.n := by
      unfold bcastSize; rw [if_neg (by omega), if_neg (by omega), if_pos (by omega)]
    rw [hb]
    simp only [and_true]
    match l2, he2 with
    | [y], _ =>
    by_cases c1 : t1.dist = true
    · rw [if_pos c1]
      obtain ⟨res, r1, r2⟩ := sanitize_distribution_broadcast fuel P (fun r => ((t1.loc r).length : Int)) t1.n
        (t1.isBalanced P) t2 y h2 (by omega)
      rw [r1]
      refine ⟨_, rfl, by simp [c1], fun r => (t1.loc r).map (f · y), ?_, ?_, ?_, ?_, ?_⟩
      · intro r hr
        show torchZip f (t1.loc r) (res r) = _
        rw [r2 r hr, torchZip_right]
      · intro _; rw [content_map, h1.2.1 c1, bzip_right]
      · intro h; simp at h
      · intro _ _ r hr; simp
      · intro _ h; simp at h; omega
    · rw [if_neg c1, if_neg (fun h => by simp at hn2; omega)]
      by_cases c2 : t2.dist = true
      · rw [if_neg c1, if_pos c2]
        obtain ⟨i, hi, hix, hie⟩ := one_slab (h2.2.1 c2)
        obtain ⟨res, r1, r2, r3⟩ := sanitizeDist_aligned fuel P hP hfuel (bcastMap t1.n t2.loc) t1.n
          (fun r _ => bcastMap_nonneg _ _ _)
          (cum_bcastMap P t1.n t2.loc i hi (by rw [hix]; simp) hie) _ (fun h => mapBalanced_true h) t1 l1 h1 hn1.symm
        rw [r1]
        have hemp : ∀ r < P, r ≠ i → res r = [] := by
          intro r hr hne
          have := r3 r hr
          unfold bcastMap at this
          rw [hie r hr hne] at this
          simp at this
          exact this
        refine ⟨_, rfl, by simp [c2], fun r => if r = i then (res r).map (f · y) else [], ?_, ?_, ?_, ?_, ?_⟩
        · intro r hr
          show torchZip f (res r) (t2.loc r) = _
          by_cases hri : r = i
          · subst hri; rw [hix, torchZip_right]; simp
          · rw [hie r hr hri, hemp r hr hri]; simp [hri, torchZip]
        · intro _
          have : content P (fun r => if r = i then (res r).map (f · y) else []) = content P fun r => (res r).map (f · y) := by
            apply content_congr
            intro r hr
            split
            · rfl
            · next h => rw [hemp r hr h]; rfl
          rw [this, content_map, r2, bzip_right]
        · intro h; simp at h
        · intro h; exact absurd h c1
        · intro _ h; simp at h; omega
      · rw [if_neg c1, if_neg c2]
        refine ⟨_, rfl, by simp [c1, c2], fun _ => l1.map (f · y), ?_, ?_, ?_, fun h => absurd h c1, fun h => absurd h c2⟩
        · intro r hr
          show torchZip f (t1.loc r) (t2.loc r) = _
          rw [h1.2.2.1 (by simpa using c1) r hr, h2.2.2.1 (by simpa using c2) r hr]
          exact torchZip_right _ _ _
        · intro h; simp at h
        · intro _ r _; rw [bzip_right]

theorem balanced_of_lengths {P : Nat} {d1 : Nat → List α} {d2 : Nat → List β} (h : ∀ r < P, (d1 r).length = (d2 r).length)
    (hb : Balanced P d2) : Balanced P d1 := by
  have hc : (content P d1).length = (content P d2).length := by
    clear hb
    induction P with
    | zero => rfl
    | succ k ih => rw [content_succ, content_succ, List.length_append, List.length_append, ih fun r hr => h r (by omega), h k (by omega)]
  intro r hr
  rw [h r hr, hb r hr, hc]

/-- **C23, balance attribute.** If a split operand has the size of the result, the attribute `balanced` of the result does not
lie: it is that of the dominant operand, whose chunk sizes the result has. -/
theorem binaryOp_flag_truthful (fuel P : Nat) (hP : 1 < P) (hfuel : 2 ≤ fuel) (f : α → β → γ) (t1 : Opnd α) (t2 : Opnd β)
    (l1 : List α) (l2 : List β) (h1 : Spec.Holds P t1 l1) (h2 : Spec.Holds P t2 l2)
    (hsize : l1.length = l2.length ∨ (l1.length = 1 ∧ 2 ≤ l2.length) ∨ (2 ≤ l1.length ∧ l2.length = 1))
    (hdom : (t1.dist = true ∧ l2.length ≤ l1.length) ∨ (t2.dist = true ∧ l1.length ≤ l2.length)) :
    ∃ res loc, binaryOp fuel P f t1 t2 = .ok res ∧ (∀ r < P, res.loc r = .ok (loc r)) ∧
      res.n = max l1.length l2.length ∧ (res.flag = some true → Balanced P loc) ∧
      ((t1.dist = true ∧ l2.length ≤ l1.length → res.flag = t1.flag) ∧
       (¬ (t1.dist = true ∧ l2.length ≤ l1.length) → res.flag = t2.flag)) := by
  obtain ⟨res, e, _, loc, hl, _, _, hd1, hd2⟩ := binaryOp_spec_partial fuel P hP hfuel f t1 t2 l1 l2 h1 h2 hsize
  have hn1 := h1.1
  have hn2 := h2.1
  have key : res.n = max l1.length l2.length ∧ ((t1.dist = true ∧ l2.length ≤ l1.length → res.flag = t1.flag) ∧
       (¬ (t1.dist = true ∧ l2.length ≤ l1.length) → res.flag = t2.flag)) := by
    have hb : bcastSize t1.n t2.n = some (max l1.length l2.length) := by
      unfold bcastSize
      rcases hsize with h | h | h
      · rw [if_pos (by omega)]; congr 1; omega
      · rw [if_neg (by omega), if_pos (by omega)]; congr 1; omega
      · rw [if_neg (by omega), if_neg (by omega), if_pos (by omega)]; congr 1; omega
    unfold binaryOp at e
    rw [hb] at e
    simp only at e
    by_cases c : t1.dist = true ∧ l2.length ≤ l1.length
    · rw [if_pos ⟨c.1, by omega⟩] at e
      split at e
      · simp at e
      · simp only [Except.ok.injEq] at e; subst e
        exact ⟨rfl, fun _ => rfl, fun h => absurd c h⟩
    · rw [if_neg (fun h => c ⟨h.1, by omega⟩)] at e
      have c2 := hdom.resolve_left c
      rw [if_pos ⟨c2.1, by omega⟩] at e
      split at e
      · simp at e
      · simp only [Except.ok.injEq] at e; subst e
        exact ⟨rfl, fun h => absurd h c, fun _ => rfl⟩
  refine ⟨res, loc, e, hl, key.1, ?_, key.2⟩
  intro hf
  by_cases c : t1.dist = true ∧ l2.length ≤ l1.length
  · rw [key.2.1 c] at hf
    exact balanced_of_lengths (hd1 c.1 c.2) (h1.2.2.2 c.1 hf)
  · rw [key.2.2 c] at hf
    have c2 := hdom.resolve_left c
    refine balanced_of_lengths (hd2 c2.1 c2.2 fun h => ?_) (h2.2.2.2 c2.1 hf)
    apply Nat.lt_of_not_le; intro h'; exact c ⟨h, h'⟩

/-- sizes that do not broadcast raise ValueError -/
theorem binaryOp_mismatch (fuel P : Nat) (f : α → β → γ) (t1 : Opnd α) (t2 : Opnd β)
    (h1 : t1.n ≠ t2.n) (h2 : t1.n ≠ 1) (h3 : t2.n ≠ 1) : binaryOp fuel P f t1 t2 = .error .valueError := by
  unfold binaryOp bcastSize; rw [if_neg h1, if_neg h2, if_neg h3]

/-- two differently distributed operands -/
def exA : Opnd Nat := ⟨5, true, fun r => ([[1, 2, 3], [4, 5]] : List (List Nat)).getD r [], some true⟩
/-- see `exA` -/
def exB : Opnd Nat := ⟨5, true, fun r => ([[], [10, 20, 30, 40, 50]] : List (List Nat)).getD r [], none⟩

example : Spec.Holds 2 exA [1, 2, 3, 4, 5] ∧ Spec.Holds 2 exB [10, 20, 30, 40, 50] := by
  refine ⟨⟨rfl, fun _ => rfl, fun h => by simp [exA] at h, fun _ _ => ?_⟩,
    ⟨rfl, fun _ => rfl, fun h => by simp [exB] at h, fun _ h => by simp [exB] at h⟩⟩
  unfold Balanced; decide

/-- An empty split array and a scalar (one slab): ValueError instead of an empty result. -/
theorem binaryOp_empty_scalar_violated (fuel P : Nat) (f : α → β → γ) (t1 : Opnd α) (t2 : Opnd β)
    (hd : t1.dist = true) (h1 : t1.n = 0) (h2 : t2.n = 1) : binaryOp fuel P f t1 t2 = .error .valueError := by
  unfold binaryOp bcastSize sanitizeDist; simp [hd, h1, h2]

/-- `balanced` of the result can lie: a split array with one slab (balanced) plus an unsplit array of five slabs on two ranks
leaves all five slabs on rank 0 but is marked as balanced. -/
theorem binaryOp_balanced_flag_violated :
    let a : Opnd Nat := ⟨1, true, fun r => if r = 0 then [7] else [], some true⟩
    let b : Opnd Nat := ⟨5, false, fun _ => [1, 2, 3, 4, 5], none⟩
    ∃ res, binaryOp 2 2 (· + ·) a b = .ok res ∧ res.flag = some true ∧ res.loc 0 = .ok [8, 9, 10, 11, 12] ∧
      res.loc 1 = .ok [] := by
  refine ⟨_, rfl, rfl, by decide, by decide⟩

end Heat
