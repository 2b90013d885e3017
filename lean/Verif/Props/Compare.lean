import Verif.Model.Compare
import Verif.Props.BinaryOp
import Verif.Props.Convolve
import Verif.Props.Sort
/-!
# C101 and C102: `equal`, `allclose`, `isclose`
-/
namespace Heat
open Heat.Spec
variable {α : Type}

/-- Two arrays that are distributed in the same way have the same content exactly if all local parts agree. -/
theorem content_inj (P : Nat) (a b : Nat → List α) (hl : ∀ r < P, (a r).length = (b r).length) : content P a = content P b ↔ ∀ r < P, a r = b r := by
  induction P with
  | zero => simp [content_zero]
  | succ k ih =>
    rw [content_succ, content_succ]
    have ih := ih fun r hr => hl r (by omega)
    constructor
    · intro h
      have hlen : (content k a).length = (content k b).length := by
        have h1 := congrArg List.length h
        rw [List.length_append, List.length_append, hl k (by omega)] at h1
        omega
      obtain ⟨h1, h2⟩ := List.append_inj h hlen
      intro r hr
      rcases Nat.lt_succ_iff_lt_or_eq.1 hr with hr | rfl
      · exact ih.1 h1 r hr
      · exact h2
    · intro h
      rw [ih.2 fun r hr => h r (by omega), h k (by omega)]

private theorem all_equal [DecidableEq α] (P : Nat) (a b : Nat → List α) (hl : ∀ r < P, (a r).length = (b r).length) :
    ((List.range P).all fun r => if (a r).length > 0 then decide (a r = b r) else true) = decide (content P a = content P b) := by
  rw [Bool.eq_iff_iff, List.all_eq_true, decide_eq_true_iff, content_inj P a b hl]
  constructor
  · intro h r hr
    have := h r (List.mem_range.2 hr)
    by_cases h0 : (a r).length > 0
    · rw [if_pos h0] at this
      exact of_decide_eq_true this
    · have h1 : (a r).length = 0 := by omega
      have h2 : (b r).length = 0 := by rw [← hl r hr]; exact h1
      rw [List.length_eq_zero_iff.1 h1, List.length_eq_zero_iff.1 h2]
  · intro h r hr
    have := h r (List.mem_range.1 hr)
    split
    · exact decide_eq_true this
    · rfl

private theorem sanitize_repl (fuel P : Nat) (hP : 1 < P) (hfuel : 2 ≤ fuel) (t : Opnd α) (lt : List α) (ht : Holds P t lt) (htd : t.dist = true) (x : Opnd α) (l : List α) (hx : Holds P x l)
    (hxd : x.dist = false) (hn : x.n = t.n) :
    let res := if t.isBalanced P then (fun r => let c := chunkRange x.n r P; ((x.loc r).take c.2).drop c.1) else (fun r => sliceByMap (x.loc r) (fun q => ((t.loc q).length : Int)) r)
    content P res = l ∧ ∀ r < P, (res r).length = (t.loc r).length := by
  intro res
  obtain ⟨res', h1, h2, h3⟩ := sanitize_distribution_spec fuel P hP hfuel t lt ht htd x l hx (by rw [← hx.1, ← ht.1, hn])
  have e : res' = res := by
    unfold sanitizeDist at h1
    rw [if_neg (by omega), if_neg (by omega)] at h1
    simp only [hxd, Bool.not_false, if_true] at h1
    by_cases hb : t.isBalanced P = true
    · rw [if_pos hb] at h1
      simp only [res, hb, if_true]
      exact (Except.ok.inj h1).symm
    · rw [if_neg hb] at h1
      simp only [res, hb]
      exact (Except.ok.inj h1).symm
  rw [← e]
  exact ⟨h2, h3⟩

/-- C101: `equal` is true exactly if the two arrays hold the same elements, however each of them is distributed (not at all, evenly or unevenly). -/
theorem equal_spec_partial [DecidableEq α] (fuel P : Nat) (hP : 1 < P) (hfuel : 2 ≤ fuel) (x y : Opnd α) (l m : List α) (hx : Holds P x l) (hy : Holds P y m) :
    equalArrays fuel P x y = .ok (decide (l = m)) := by
  unfold equalArrays
  by_cases hn : x.n ≠ y.n
  · rw [if_pos hn]
    have : l ≠ m := by
      rintro rfl
      exact hn (by rw [hx.1, hy.1])
    simp [this]
  rw [if_neg hn]
  have hn : x.n = y.n := by omega
  suffices h : ∃ a b, equalAlign fuel P x y = .ok (a, b) ∧
      ((List.range P).all fun r => if (a r).length > 0 then decide (a r = b r) else true) = decide (l = m) by
    obtain ⟨a, b, h1, h2⟩ := h
    rw [h1]
    dsimp only
    rw [h2]
  unfold equalAlign
  cases hxd : x.dist with
  | false =>
    have hxl := hx.2.2.1 hxd
    cases hyd : y.dist with
    | false =>
      have hyl := hy.2.2.1 hyd
      refine ⟨x.loc, y.loc, by simp, ?_⟩
      rw [Bool.eq_iff_iff, List.all_eq_true, decide_eq_true_iff]
      have hlen : l.length = m.length := by rw [← hx.1, ← hy.1, hn]
      constructor
      · intro h
        have := h 0 (List.mem_range.2 (by omega))
        rw [hxl 0 (by omega), hyl 0 (by omega)] at this
        by_cases h0 : l.length > 0
        · rw [if_pos h0] at this
          exact of_decide_eq_true this
        · rw [List.length_eq_zero_iff.1 (by omega : l.length = 0), List.length_eq_zero_iff.1 (by omega : m.length = 0)]
      · intro h r hr
        rw [hxl r (List.mem_range.1 hr), hyl r (List.mem_range.1 hr), h]
        simp
    | true =>
      obtain ⟨h1, h2⟩ := sanitize_repl fuel P hP hfuel y m hy hyd x l hx hxd hn
      refine ⟨if y.isBalanced P then (fun r => let c := chunkRange x.n r P; ((x.loc r).take c.2).drop c.1) else (fun r => sliceByMap (x.loc r) (fun q => ((y.loc q).length : Int)) r), y.loc, ?_, ?_⟩
      · simp only [Bool.not_false, Bool.not_true, Bool.and_false, Bool.false_eq_true, if_false, if_true]
        by_cases hb : y.isBalanced P = true
        · simp [hb]
        · simp [hb]
      · rw [all_equal P _ _ h2, h1, hy.2.1 hyd]
  | true =>
    cases hyd : y.dist with
    | false =>
      obtain ⟨h1, h2⟩ := sanitize_repl fuel P hP hfuel x l hx hxd y m hy hyd hn.symm
      refine ⟨x.loc, if x.isBalanced P then (fun r => let c := chunkRange y.n r P; ((y.loc r).take c.2).drop c.1) else (fun r => sliceByMap (y.loc r) (fun q => ((x.loc q).length : Int)) r), ?_, ?_⟩
      · simp only [Bool.not_false, Bool.not_true, Bool.and_true, Bool.false_eq_true, if_false, if_true]
        by_cases hb : x.isBalanced P = true
        · simp [hb]
        · simp [hb]
      · rw [all_equal P _ _ (fun r hr => (h2 r hr).symm), h1, hx.2.1 hxd]
    | true =>
      have hxc := hx.2.1 hxd
      have hyc := hy.2.1 hyd
      simp only [Bool.not_true, Bool.and_false, Bool.false_eq_true, if_false]
      by_cases hb : (x.isBalanced P && y.isBalanced P) = true
      · rw [if_neg (by simpa using hb)]
        refine ⟨x.loc, y.loc, rfl, ?_⟩
        rw [Bool.and_eq_true] at hb
        have b1 := isBalanced_true hx hxd hb.1
        have b2 := isBalanced_true hy hyd hb.2
        rw [all_equal P _ _ (fun r hr => by rw [b1 r hr, b2 r hr, hxc, hyc, ← hx.1, ← hy.1, hn]), hxc, hyc]
      · rw [if_pos (by simp only [Bool.not_eq_true] at hb; rw [hb]; rfl)]
        by_cases hd : ((List.range P).any fun r => (x.loc r).length != (y.loc r).length) = true
        · rw [if_pos hd]
          obtain ⟨a, ha, hac, hab, _⟩ := balance_spec P (by omega) x.loc fuel hfuel
          obtain ⟨b, hbb, hbc, hbbal, _⟩ := balance_spec P (by omega) y.loc fuel hfuel
          rw [hxc, ← hx.1] at ha
          rw [hyc, ← hy.1] at hbb
          rw [ha, hbb]
          refine ⟨a, b, rfl, ?_⟩
          rw [all_equal P _ _ (fun r hr => by rw [hab r hr, hbbal r hr, hac, hbc, hxc, hyc, ← hx.1, ← hy.1, hn]), hac, hbc, hxc, hyc]
        · rw [if_neg hd]
          refine ⟨x.loc, y.loc, rfl, ?_⟩
          have hl : ∀ r < P, (x.loc r).length = (y.loc r).length := by
            intro r hr
            refine Decidable.byContradiction fun hne => hd ?_
            rw [List.any_eq_true]
            exact ⟨r, List.mem_range.2 hr, by simpa using hne⟩
          rw [all_equal P _ _ hl, hxc, hyc]

/-- Two one-element arrays of type float64 with different values compare equal: they are rounded to float32 on the way. -/
theorem equal_single_violated : (2 ^ 24 + 1 ≠ 2 ^ 24) ∧ equalSingle (2 ^ 24 + 1) (2 ^ 24) = true := by decide +kernel

/-- For values that float32 represents exactly the comparison is right. -/
theorem equal_single_partial (a b : Nat) (ha : a ≤ 2 ^ 24) (hb : b ≤ 2 ^ 24) : equalSingle a b = decide (a = b) := by
  unfold equalSingle
  rw [f32_exact ha, f32_exact hb]

/-- Closeness of all corresponding elements. -/
def Spec.AllClose (close : α → α → Bool) (l m : List α) : Prop := ∀ (i : Nat) (u v : α), l[i]? = some u → m[i]? = some v → close u v = true

private theorem zip_content (close : α → α → Bool) (P : Nat) (a b : Nat → List α) (hl : ∀ r < P, (a r).length = (b r).length) :
    ((List.range P).map fun r => List.zipWith close (a r) (b r)).flatten = List.zipWith close (content P a) (content P b) := by
  induction P with
  | zero => simp [content_zero]
  | succ k ih =>
    have ih := ih fun r hr => hl r (by omega)
    have hlen : (content k a).length = (content k b).length := by
      have : ∀ j ≤ k, (content j a).length = (content j b).length := by
        intro j hj
        induction j with
        | zero => simp [content_zero]
        | succ j ihj => rw [content_succ, content_succ, List.length_append, List.length_append, ihj (by omega), hl j (by omega)]
      exact this k (le_refl k)
    rw [List.range_succ, List.map_append, List.flatten_append, ih, content_succ, content_succ, List.zipWith_append hlen]
    simp

private theorem mapM_close (close : α → α → Bool) (P : Nat) (a b : Nat → List α) (hl : ∀ r < P, (a r).length = (b r).length) :
    ((List.range P).mapM fun r => localClose close (a r) (b r)) = .ok ((List.range P).map fun r => List.zipWith close (a r) (b r)) := by
  apply mapM_range_eq
  intro r hr
  unfold localClose
  rw [if_pos (hl r hr)]

private theorem asSplit_holds (P : Nat) (hP : 1 < P) (y : Opnd α) (m : List α) (hy : Holds P y m) (hyd : y.dist = false) : Holds P (asSplit P y) m := by
  obtain ⟨res, h1, h2, h3⟩ := sanitizeDist_aligned 2 P hP (le_refl 2) (fun r => (evenSize m.length P r : Int)) m.length (fun _ _ => Int.natCast_nonneg _)
    (by
      rw [cum_evenSize]
      rw [chunkRange_at_P _ P (by omega)]) true (fun _ _ _ => rfl) y m hy rfl
  have e : res = (asSplit P y).loc := by
    unfold sanitizeDist at h1
    rw [if_neg (by rw [hy.1]; omega), if_neg (by rw [hy.1]; omega)] at h1
    simp only [hyd, Bool.not_false, if_true] at h1
    exact (Except.ok.inj h1).symm
  rw [e] at h2 h3
  refine ⟨hy.1, fun _ => h2, fun h => by simp [asSplit] at h, fun _ _ r hr => ?_⟩
  have := h3 r hr
  rw [h2]
  dsimp only at this
  omega

/-- Both operands have the same number of slabs and at most one of them is distributed, or both are distributed with the same local sizes. -/
def Spec.Comparable (P : Nat) (x y : Opnd α) : Prop := x.n = y.n ∧ (x.dist = true → y.dist = true → ∀ r < P, (x.loc r).length = (y.loc r).length)

private theorem closeAlign_spec (fuel P : Nat) (hP : 1 < P) (hfuel : 2 ≤ fuel) (x y : Opnd α) (l m : List α) (hx : Holds P x l) (hy : Holds P y m) (hc : Comparable P x y)
    (hd : x.dist = true ∨ y.dist = true) :
    ∃ a b, closeAlign fuel P x y = .ok (a, b) ∧ content P a = l ∧ content P b = m ∧ (∀ r < P, (a r).length = (b r).length) ∧
      (∀ r < P, (a r).length = if x.dist then (x.loc r).length else (y.loc r).length) := by
  unfold closeAlign
  have hlm : l.length = m.length := by rw [← hx.1, ← hy.1, hc.1]
  cases hxd : x.dist with
  | true =>
    cases hyd : y.dist with
    | true => exact ⟨x.loc, y.loc, by simp, hx.2.1 hxd, hy.2.1 hyd, hc.2 hxd hyd, by simp⟩
    | false =>
      obtain ⟨res, h1, h2, h3⟩ := sanitize_distribution_spec fuel P hP hfuel x l hx hxd (asSplit P y) m (asSplit_holds P hP y m hy hyd) hlm.symm
      refine ⟨x.loc, res, by simp [h1], hx.2.1 hxd, h2, fun r hr => (h3 r hr).symm, by simp⟩
  | false =>
    cases hyd : y.dist with
    | true =>
      obtain ⟨res, h1, h2, h3⟩ := sanitize_distribution_spec fuel P hP hfuel y m hy hyd (asSplit P x) l (asSplit_holds P hP x l hx hxd) hlm
      refine ⟨res, y.loc, by simp [h1], h2, hy.2.1 hyd, h3, by simpa using h3⟩
    | false => simp [hxd, hyd] at hd

private theorem zipAll (close : α → α → Bool) (l m : List α) : ((List.zipWith close l m).all id = true) ↔ AllClose close l m := by
  rw [List.all_eq_true]
  constructor
  · intro h i u v hu hv
    have := h (close u v) (by
      rw [List.mem_iff_getElem?]
      exact ⟨i, by rw [List.getElem?_zipWith, hu, hv]⟩)
    simpa using this
  · intro h z hz
    rw [List.mem_iff_getElem?] at hz
    obtain ⟨i, hi⟩ := hz
    rw [List.getElem?_zipWith] at hi
    rcases hu : l[i]? with _ | u
    · rw [hu] at hi; simp at hi
    rcases hv : m[i]? with _ | v
    · rw [hu, hv] at hi; simp at hi
    rw [hu, hv] at hi
    simp at hi
    have := h i u v hu hv
    simp [← hi, this]

/-- C102: if at most one operand is distributed, or both have the same local sizes, `allclose` is true exactly if all corresponding elements are close. -/
theorem allclose_partial (close : α → α → Bool) (fuel P : Nat) (hP : 1 < P) (hfuel : 2 ≤ fuel) (x y : Opnd α) (l m : List α) (hx : Holds P x l) (hy : Holds P y m) (hc : Comparable P x y) :
    ∃ b, allclose close fuel P x y = .ok b ∧ (b = true ↔ AllClose close l m) := by
  unfold allclose
  by_cases hd : x.dist = true ∨ y.dist = true
  · obtain ⟨a, b, h1, h2, h3, h4, _⟩ := closeAlign_spec fuel P hP hfuel x y l m hx hy hc hd
    rw [h1]
    dsimp only
    rw [mapM_close close P a b h4]
    refine ⟨_, rfl, ?_⟩
    rw [← zipAll, ← h2, ← h3, ← zip_content close P a b h4]
    simp [List.all_flatten]
  · have hxd : x.dist = false := by cases h : x.dist <;> simp_all
    have hyd : y.dist = false := by cases h : y.dist <;> simp_all
    have hal : closeAlign fuel P x y = .ok (x.loc, y.loc) := by simp [closeAlign, hxd, hyd]
    rw [hal]
    dsimp only
    have hl : ∀ r < P, (x.loc r).length = (y.loc r).length := fun r hr => by
      rw [hx.2.2.1 hxd r hr, hy.2.2.1 hyd r hr, ← hx.1, ← hy.1, hc.1]
    rw [mapM_close close P _ _ hl]
    refine ⟨_, rfl, ?_⟩
    rw [← zipAll, List.all_eq_true]
    constructor
    · intro h
      have := h _ (List.mem_map.2 ⟨0, List.mem_range.2 (by omega), rfl⟩)
      rwa [hx.2.2.1 hxd 0 (by omega), hy.2.2.1 hyd 0 (by omega)] at this
    · intro h z hz
      obtain ⟨r, hr, rfl⟩ := List.mem_map.1 hz
      rw [hx.2.2.1 hxd r (List.mem_range.1 hr), hy.2.2.1 hyd r (List.mem_range.1 hr)]
      exact h

/-- Two different arrays that are distributed differently are found close: `[1 | 2, 2]` and `[1, 1 | 2]` (local broadcasting). -/
theorem allclose_unaligned_violated :
    let x : Opnd Nat := ⟨3, true, fun r => if r = 0 then [1] else if r = 1 then [2, 2] else [], none⟩
    let y : Opnd Nat := ⟨3, true, fun r => if r = 0 then [1, 1] else if r = 1 then [2] else [], some true⟩
    Holds 2 x [1, 2, 2] ∧ Holds 2 y [1, 1, 2] ∧ allclose (fun a b => a == b) 2 2 x y = .ok true := by
  refine ⟨⟨rfl, fun _ => rfl, fun h => by simp at h, fun _ h => by simp at h⟩, ⟨rfl, fun _ => rfl, fun h => by simp at h, fun _ _ => ?_⟩, by decide +kernel⟩
  intro r hr
  have : r = 0 ∨ r = 1 := by omega
  rcases this with rfl | rfl <;> decide +kernel

/-- Equal arrays that are distributed differently make `allclose` raise (here on rank 1). -/
theorem allclose_unaligned_raises_violated :
    let x : Opnd Nat := ⟨5, true, fun r => if r = 0 then [1, 2] else if r = 1 then [3, 4, 5] else [], none⟩
    let y : Opnd Nat := ⟨5, true, fun r => if r = 0 then [1, 2, 3] else if r = 1 then [4, 5] else [], some true⟩
    content 2 x.loc = content 2 y.loc ∧ allclose (fun a b => a == b) 2 2 x y = .error .runtimeError := by decide +kernel

/-- `isclose` of distributed operands leaves the *whole* answer on every rank although the result is declared as split: if all local sizes are equal, the distributed result holds `P` copies of the answer. -/
theorem isclose_copies_violated (close : α → α → Bool) (fuel P k : Nat) (hP : 1 < P) (hfuel : 2 ≤ fuel) (x y : Opnd α) (l m : List α) (hx : Holds P x l) (hy : Holds P y m) (hc : Comparable P x y)
    (hd : x.dist = true ∨ y.dist = true) (hk : ∀ r < P, (if x.dist then (x.loc r).length else (y.loc r).length) = k) :
    ∃ res, isclose close fuel P x y = .ok res ∧ (∀ r, res r = List.zipWith close l m) ∧ (content P res).length = P * l.length := by
  obtain ⟨a, b, h1, h2, h3, h4, h5⟩ := closeAlign_spec fuel P hP hfuel x y l m hx hy hc hd
  have hlm : l.length = m.length := by rw [← hx.1, ← hy.1, hc.1]
  have hsz : ∀ r < P, (a r).length = k := fun r hr => by rw [h5 r hr, hk r hr]
  have hlen : l.length = P * k := by
    rw [← h2]
    have : ∀ j ≤ P, (content j a).length = j * k := by
      intro j hj
      induction j with
      | zero => simp [content_zero]
      | succ j ih => rw [content_succ, List.length_append, ih (by omega), hsz j (by omega), Nat.succ_mul]
    exact this P (le_refl P)
  have hg : gatherClose P (max x.n y.n) ((List.range P).map fun r => List.zipWith close (a r) (b r)) = .ok (List.zipWith close l m) := by
    unfold gatherClose
    have hmax : max x.n y.n = P * k := by rw [hx.1, hy.1, ← hlm, Nat.max_self, hlen]
    rw [hmax, Nat.mul_div_cancel_left _ (by omega)]
    rw [if_pos (by
      rw [List.all_eq_true]
      intro z hz
      obtain ⟨r, hr, rfl⟩ := List.mem_map.1 hz
      have hr := List.mem_range.1 hr
      rw [List.length_zipWith, ← h4 r hr, Nat.min_self, hsz r hr]
      simp)]
    rw [zip_content close P a b h4, h2, h3]
    simp [← hlm, hlen]
  refine ⟨fun _ => List.zipWith close l m, ?_, fun _ => rfl, ?_⟩
  · unfold isclose
    rw [h1]
    dsimp only
    rw [mapM_close close P a b h4]
    dsimp only
    have : (x.dist || y.dist) = true := by simpa using hd
    rw [if_pos this, hg]
  · have : ∀ j, (content j fun _ => List.zipWith close l m).length = j * l.length := by
      intro j
      induction j with
      | zero => simp [content_zero]
      | succ j ih => rw [content_succ, List.length_append, ih, List.length_zipWith, ← hlm, Nat.min_self, Nat.succ_mul]
    exact this P

/-- `isclose` fails with an MPI error if the array cannot be cut into equal parts. -/
theorem isclose_uneven_violated (close : α → α → Bool) (fuel P : Nat) (hP : 1 < P) (hfuel : 2 ≤ fuel) (x y : Opnd α) (l m : List α) (hx : Holds P x l) (hy : Holds P y m) (hc : Comparable P x y)
    (hd : x.dist = true ∨ y.dist = true) (hu : l.length % P ≠ 0) : isclose close fuel P x y = .error .runtimeError := by
  obtain ⟨a, b, h1, h2, h3, h4, h5⟩ := closeAlign_spec fuel P hP hfuel x y l m hx hy hc hd
  have hlm : l.length = m.length := by rw [← hx.1, ← hy.1, hc.1]
  unfold isclose
  rw [h1]
  dsimp only
  rw [mapM_close close P a b h4]
  dsimp only
  have : (x.dist || y.dist) = true := by simpa using hd
  rw [if_pos this]
  have hg : gatherClose P (max x.n y.n) ((List.range P).map fun r => List.zipWith close (a r) (b r)) = .error .runtimeError := by
    unfold gatherClose
    rw [if_neg]
    intro hall
    rw [List.all_eq_true] at hall
    have hsz : ∀ r < P, (a r).length = max x.n y.n / P := by
      intro r hr
      have := hall _ (List.mem_map.2 ⟨r, List.mem_range.2 hr, rfl⟩)
      rw [List.length_zipWith, ← h4 r hr, Nat.min_self] at this
      simpa using this
    apply hu
    have : ∀ j ≤ P, (content j a).length = j * (max x.n y.n / P) := by
      intro j hj
      induction j with
      | zero => simp [content_zero]
      | succ j ih => rw [content_succ, List.length_append, ih (by omega), hsz j (by omega), Nat.succ_mul]
    rw [← h2, this P (le_refl P), Nat.mul_mod_right]
  rw [hg]

/-- For replicated operands `isclose` is right on every rank. -/
theorem isclose_replicated_partial (close : α → α → Bool) (fuel P : Nat) (x y : Opnd α) (l m : List α) (hx : Holds P x l) (hy : Holds P y m) (hn : x.n = y.n)
    (hxd : x.dist = false) (hyd : y.dist = false) : ∃ res, isclose close fuel P x y = .ok res ∧ ∀ r < P, res r = List.zipWith close l m := by
  have hal : closeAlign fuel P x y = .ok (x.loc, y.loc) := by simp [closeAlign, hxd, hyd]
  have hl : ∀ r < P, (x.loc r).length = (y.loc r).length := fun r hr => by
    rw [hx.2.2.1 hxd r hr, hy.2.2.1 hyd r hr, ← hx.1, ← hy.1, hn]
  unfold isclose
  rw [hal]
  dsimp only
  rw [mapM_close close P _ _ hl]
  dsimp only
  rw [if_neg (by simp [hxd, hyd])]
  refine ⟨_, rfl, fun r hr => ?_⟩
  rw [List.getD_eq_getElem?_getD, List.getElem?_map, List.getElem?_range hr]
  simp [hx.2.2.1 hxd r hr, hy.2.2.1 hyd r hr]

private def cmpX : Opnd Nat := ⟨4, true, fun r => if r = 0 then [1, 2] else if r = 1 then [3, 4] else [], some true⟩
private def cmpY : Opnd Nat := ⟨4, true, fun r => if r = 1 then [1, 2, 3, 4] else [], none⟩
private def cmpZ : Opnd Nat := ⟨4, false, fun _ => [1, 2, 3, 5], none⟩

private theorem cmpX_holds : Holds 2 cmpX [1, 2, 3, 4] := by
  refine ⟨rfl, fun _ => rfl, fun h => by simp [cmpX] at h, fun _ _ r hr => ?_⟩
  have : r = 0 ∨ r = 1 := by omega
  rcases this with rfl | rfl <;> decide +kernel
private theorem cmpY_holds : Holds 2 cmpY [1, 2, 3, 4] := ⟨rfl, fun _ => rfl, fun h => by simp [cmpY] at h, fun _ h => by simp [cmpY] at h⟩
private theorem cmpZ_holds : Holds 2 cmpZ [1, 2, 3, 5] := ⟨rfl, fun h => by simp [cmpZ] at h, fun _ _ _ => rfl, fun h => by simp [cmpZ] at h⟩

/-- An even and an uneven distribution of the same array are equal; a replicated array that differs in one element is not. -/
example : equalArrays 2 2 cmpX cmpY = .ok true ∧ equalArrays 2 2 cmpZ cmpY = .ok false := by
  rw [equal_spec_partial 2 2 (by omega) (by omega) cmpX cmpY _ _ cmpX_holds cmpY_holds, equal_spec_partial 2 2 (by omega) (by omega) cmpZ cmpY _ _ cmpZ_holds cmpY_holds]
  exact ⟨rfl, rfl⟩

/-- The hypotheses of `allclose_partial` and `isclose_copies_violated` are met by an evenly distributed and a replicated array: the result holds eight values instead of four. -/
example : ∃ res, isclose (fun a b : Nat => a == b) 2 2 cmpX cmpZ = .ok res ∧ (content 2 res).length = 8 := by
  obtain ⟨res, h1, _, h3⟩ := isclose_copies_violated (fun a b : Nat => a == b) 2 2 2 (by omega) (by omega) cmpX cmpZ _ _ cmpX_holds cmpZ_holds ⟨rfl, fun _ h => by simp [cmpZ] at h⟩ (Or.inl rfl)
    (by
      intro r hr
      have : r = 0 ∨ r = 1 := by omega
      rcases this with rfl | rfl <;> rfl)
  exact ⟨res, h1, h3⟩

end Heat
