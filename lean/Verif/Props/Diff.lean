import Verif.Model.Diff
import Verif.Props.Indexing
import Verif.Props.Dist
import Verif.Props.Arg
import Verif.Props.Concat
import Verif.Props.Gauss
import Verif.Props.Distance
/-!
# C77: diff
-/
namespace Heat

open Spec

section
variable {α : Type} [Sub α]

/-! ## Lists -/

theorem localDiff_cons (a b : α) (t : List α) : localDiff (a :: b :: t) = (b - a) :: localDiff (b :: t) := rfl

theorem localDiff_eq (l : List α) : localDiff l = diff1 l := by
  induction l with
  | nil => rfl
  | cons a t ih =>
    cases t with
    | nil => rfl
    | cons b t => rw [localDiff_cons, diff1, ih]

theorem diff1_length (l : List α) : (diff1 l).length = l.length - 1 := by
  rw [← localDiff_eq]; unfold localDiff; simp

theorem nthDiff_length (n : Nat) (l : List α) : (nthDiff n l).length = l.length - n := by
  induction n with
  | zero => rfl
  | succ n ih => rw [nthDiff, diff1_length, ih]; omega

theorem diff1_get {l : List α} {i : Nat} {x y : α} (hx : l[i]? = some x) (hy : l[i + 1]? = some y) : (diff1 l)[i]? = some (y - x) := by
  induction l generalizing i with
  | nil => simp at hx
  | cons a t ih =>
    cases t with
    | nil => simp at hy
    | cons b t =>
      cases i with
      | zero =>
        simp at hx hy
        rw [diff1, List.getElem?_cons_zero, hx, hy]
      | succ i =>
        rw [diff1, List.getElem?_cons_succ]
        exact ih (by simpa using hx) (by simpa using hy)

theorem nthDiff_succ' (n : Nat) (l : List α) : nthDiff (n + 1) l = nthDiff n (diff1 l) := by
  induction n with
  | zero => rfl
  | succ n ih => rw [nthDiff, ih]; rfl

/-- Arrays that are not distributed. -/
theorem diff_local_spec (n : Nat) (l : List α) : diffLocal n l = nthDiff n l := by
  induction n generalizing l with
  | zero => rfl
  | succ n ih => rw [diffLocal, ih, localDiff_eq, nthDiff_succ']

theorem pick_take (p : Nat → Bool) (hi : Nat) (hp : ∀ g, p g = decide (g < hi)) (l : List α) (o : Nat) : Spec.pick p o l = l.take (hi - o) := by
  induction l generalizing o with
  | nil => simp [Spec.pick]
  | cons a t ih =>
    rw [Spec.pick, hp, ih]
    by_cases h : o < hi
    · rw [if_pos (by simpa using h), show hi - o = (hi - (o + 1)) + 1 by omega, List.take_succ_cons]
    · rw [if_neg (by simpa using h), show hi - o = 0 by omega, show hi - (o + 1) = 0 by omega]; rfl

theorem pySlice_drop_end (l : List α) (n : Nat) (h : 0 < n) : pySlice l none (some (-(n : Int))) 1 = l.take (l.length - n) := by
  unfold pySlice
  rw [pick_take _ (l.length - n), Nat.sub_zero]
  intro g
  unfold inSlice clampBound
  simp only [Option.getD_none, Option.getD_some]
  rw [if_neg (by omega), if_pos (by omega)]
  congr 1
  rw [Nat.mod_one, eq_iff_iff]
  omega

/-! ## One turn -/

/-- No empty rank is followed directly by one that is not empty. -/
def NoGap {β : Type} (P : Nat) (d : Nat → List β) : Prop := ∀ r, r + 1 < P → d r = [] → d (r + 1) = []

theorem noGap_tail {β : Type} {P : Nat} {d : Nat → List β} (h : NoGap P d) {r : Nat} (he : d r = []) : ∀ q, r ≤ q → q < P → d q = [] := by
  intro q
  induction q with
  | zero =>
    intro hq _
    rw [← Nat.le_zero.1 hq]; exact he
  | succ q ih =>
    intro hq hP
    by_cases hqe : r = q + 1
    · rw [← hqe]; exact he
    · exact h q hP (ih (by omega) (by omega))

theorem diffRound_ok (one : α) {P : Nat} {d : Nat → List α} (h : NoGap P d) (r : Nat) (hr : r < P) :
    ∃ l, diffRound one P d r = .ok l ∧ l.length = (d r).length ∧
      (∀ j, ∀ x y, (d r)[j]? = some x → (d r)[j + 1]? = some y → l[j]? = some (y - x)) ∧
      (r + 1 < P → ∀ x y, (d r).getLast? = some x → (d (r + 1)).head? = some y → l[(d r).length - 1]? = some (y - x)) := by
  have hloc : ∀ (t : List α) (j : Nat) (x y : α), (d r)[j]? = some x → (d r)[j + 1]? = some y → (localDiff (d r) ++ t)[j]? = some (y - x) := by
    intro t j x y hx hy
    rw [localDiff_eq]
    have hlt : j + 1 < (d r).length := by
      by_contra hn
      rw [List.getElem?_eq_none (by omega)] at hy
      simp at hy
    rw [List.getElem?_append_left (by rw [diff1_length]; omega)]
    exact diff1_get hx hy
  unfold diffRound
  by_cases hP : r + 1 < P
  · rw [if_pos hP]
    cases hl : (d r).getLast? with
    | none =>
      rw [List.getLast?_eq_none_iff] at hl
      rw [h r hP hl]
      exact ⟨[], rfl, by rw [hl], fun j x y hx => by rw [hl] at hx; simp at hx, fun _ x y hx => by simp at hx⟩
    | some x =>
      have hne : 0 < (d r).length := by
        cases hd : d r with
        | nil => rw [hd] at hl; simp at hl
        | cons a t => simp
      refine ⟨_, rfl, ?_, hloc _, ?_⟩
      · rw [List.length_append, localDiff_eq, diff1_length]; simp; omega
      · intro _ x' y hx hy
        rw [Option.some.inj hx.symm, hy, Option.getD_some, localDiff_eq, List.getElem?_append_right (Nat.le_of_eq (diff1_length _)), diff1_length]
        simp
  · rw [if_neg hP]
    refine ⟨_, rfl, ?_, hloc _, fun h' => absurd h' hP⟩
    rw [List.length_append, localDiff_eq, diff1_length]
    cases hd : d r with
    | nil => rfl
    | cons a t =>
      rw [List.getLast?_cons]; simp

theorem allOk_of {β : Type} {P : Nat} {f : Nat → Except Err (List β)} (h : ∀ r < P, ∃ l, f r = .ok l) :
    allOk P f = true ∧ ∀ r < P, f r = .ok (okParts f r) := by
  constructor
  · unfold allOk
    rw [List.all_eq_true]
    intro r hr
    obtain ⟨l, hl⟩ := h r (List.mem_range.1 hr)
    rw [hl]; rfl
  · intro r hr
    obtain ⟨l, hl⟩ := h r hr
    unfold okParts
    rw [hl]; rfl

theorem of_allOk {β : Type} {P : Nat} {f : Nat → Except Err (List β)} (h : allOk P f = true) : ∀ r < P, ∃ l, f r = .ok l := by
  intro r hr
  unfold allOk at h
  rw [List.all_eq_true] at h
  have := h r (List.mem_range.2 hr)
  cases hf : f r with
  | ok l => exact ⟨l, rfl⟩
  | error e => rw [hf] at this; simp [Except.isOk, Except.toBool] at this

/-- A turn on all ranks: the sizes stay, and every position but the last one holds the difference. -/
theorem diffRound_content (one : α) {P : Nat} {d : Nat → List α} (h : NoGap P d) :
    allOk P (diffRound one P d) = true ∧ (∀ r < P, (okParts (diffRound one P d) r).length = (d r).length) ∧
    ∀ i x y, (content P d)[i]? = some x → (content P d)[i + 1]? = some y → (content P (okParts (diffRound one P d)))[i]? = some (y - x) := by
  obtain ⟨h1, h2⟩ := allOk_of fun r hr => by obtain ⟨l, hl, _⟩ := diffRound_ok one h r hr; exact ⟨l, hl⟩
  have hlen : ∀ r < P, (okParts (diffRound one P d) r).length = (d r).length := by
    intro r hr
    obtain ⟨l, hl, hl2, _⟩ := diffRound_ok one h r hr
    have := h2 r hr
    rw [hl] at this
    rw [← Except.ok.inj this, hl2]
  refine ⟨h1, hlen, ?_⟩
  intro i x y hx hy
  have hi : i + 1 < (content P d).length := by
    by_contra hn
    rw [List.getElem?_eq_none (by omega)] at hy
    simp at hy
  obtain ⟨r, hr, hlo, hhi⟩ := startOf_owner d P i (show i < (content P d).length by omega)
  have hsucc := startOf_succ d r
  obtain ⟨j, rfl⟩ : ∃ j, i = startOf d r + j := ⟨i - startOf d r, by omega⟩
  have hj : j < (d r).length := by omega
  obtain ⟨l, hl, hl2, hl3, hl4⟩ := diffRound_ok one h r hr
  have he : l = okParts (diffRound one P d) r := by
    have := h2 r hr
    rw [hl] at this
    exact Except.ok.inj this
  have hst : startOf (okParts (diffRound one P d)) r = startOf d r := by
    unfold startOf
    exact content_length_congr _ _ r fun q hq => hlen q (by omega)
  have hget : (content P (okParts (diffRound one P d)))[startOf d r + j]? = l[j]? := by
    rw [← hst, content_get _ P r j hr (by rw [← he, hl2]; exact hj), List.getElem?_eq_getElem (by rw [hl2]; exact hj)]
    simp only [he]
  rw [hget]
  rw [content_get d P r j hr hj] at hx
  have hx' : (d r)[j]? = some x := by rw [List.getElem?_eq_getElem hj]; exact hx
  by_cases hlast : j + 1 < (d r).length
  · rw [show startOf d r + j + 1 = startOf d r + (j + 1) by omega, content_get d P r (j + 1) hr hlast] at hy
    exact hl3 j x y hx' (by rw [List.getElem?_eq_getElem hlast]; exact hy)
  · -- the next slab is the first one of the next rank
    have hr1 : r + 1 < P := by
      by_contra hn
      have : P = r + 1 := by omega
      subst this
      have hw : startOf d (r + 1) = (content (r + 1) d).length := rfl
      omega
    have hne : d (r + 1) ≠ [] := by
      intro hemp
      have hall := noGap_tail h hemp
      have : ∀ k, r + 1 + k ≤ P → (content (r + 1 + k) d).length = (content (r + 1) d).length := by
        intro k
        induction k with
        | zero => intro _; rfl
        | succ k ih =>
          intro hk
          rw [← Nat.add_assoc, content_succ, List.length_append, ih (by omega), hall (r + 1 + k) (by omega) (by omega)]
          rfl
      have hP := this (P - (r + 1)) (by omega)
      rw [show r + 1 + (P - (r + 1)) = P by omega] at hP
      have : startOf d (r + 1) = (content (r + 1) d).length := rfl
      omega
    have hpos : 0 < (d (r + 1)).length := List.length_pos_iff.2 hne
    rw [show startOf d r + j + 1 = startOf d (r + 1) + 0 by omega, content_get d P (r + 1) 0 hr1 hpos] at hy
    have hjl : j = (d r).length - 1 := by omega
    rw [hjl]
    refine hl4 hr1 x y ?_ ?_
    · rw [List.getLast?_eq_getElem?, ← hjl]; exact hx'
    · rw [List.head?_eq_getElem?, List.getElem?_eq_getElem hpos]; exact hy

theorem noGap_congr {β γ : Type} {P : Nat} {d : Nat → List β} {d' : Nat → List γ} (h : NoGap P d) (hl : ∀ r < P, (d' r).length = (d r).length) : NoGap P d' := by
  intro r hr he
  have h1 := hl r (by omega)
  rw [he] at h1
  have h2 := hl (r + 1) hr
  rw [h r hr (List.length_eq_zero_iff.1 h1.symm)] at h2
  exact List.length_eq_zero_iff.1 h2

/-- The work loop. -/
theorem diffLoop_spec (one : α) {P : Nat} {d : Nat → List α} (h : NoGap P d) (n : Nat) :
    ∃ d', diffLoop one P n d = .ok d' ∧ (∀ r < P, (d' r).length = (d r).length) ∧
      ∀ i, i + n < (content P d).length → (content P d')[i]? = (nthDiff n (content P d))[i]? := by
  induction n with
  | zero => exact ⟨d, rfl, fun _ _ => rfl, fun _ _ => rfl⟩
  | succ n ih =>
    obtain ⟨d', h1, h2, h3⟩ := ih
    obtain ⟨g1, g2, g3⟩ := diffRound_content one (noGap_congr h h2)
    refine ⟨okParts (diffRound one P d'), by rw [diffLoop, h1]; exact if_pos g1, fun r hr => (g2 r hr).trans (h2 r hr), ?_⟩
    intro i hi
    have e1 := h3 i (by omega)
    have e2 := h3 (i + 1) (by omega)
    have hlen := nthDiff_length n (content P d)
    rw [List.getElem?_eq_getElem (show i < (nthDiff n (content P d)).length by omega)] at e1
    rw [List.getElem?_eq_getElem (show i + 1 < (nthDiff n (content P d)).length by omega)] at e2
    rw [g3 i _ _ e1 e2, nthDiff]
    exact (diff1_get (List.getElem?_eq_getElem _) (List.getElem?_eq_getElem _)).symm

/-- **C77.**  `diff(a, n, axis)` along the split axis, `1 ≤ n ≤` extent: for every number of processes and every distribution without an empty process in front of one
that holds data it returns on every process, the processes hold exactly the `n`-th difference, and the result is balanced. -/
theorem diff_spec (one : α) (P : Nat) (hP : 0 < P) (d : Nat → List α) (h : NoGap P d) (n : Nat) (h0 : 0 < n) (hn : n ≤ (content P d).length) :
    ∃ d', heatDiff one P n (content P d).length d = .ok d' ∧ content P d' = nthDiff n (content P d) ∧ Balanced P d' := by
  obtain ⟨d', h1, h2, h3⟩ := diffLoop_spec one h n
  have hlen : (content P d').length = (content P d).length := content_length_congr _ _ P h2
  have hcut : (content P d').take ((content P d).length - n) = nthDiff n (content P d) := by
    apply List.ext_getElem?
    intro i
    rw [List.getElem?_take]
    by_cases hi : i < (content P d).length - n
    · rw [if_pos hi]; exact h3 i (by omega)
    · rw [if_neg hi, List.getElem?_eq_none (by rw [nthDiff_length]; omega)]
  obtain ⟨res, r1, r2⟩ := getitemSlice_partial P hP d' none (some (-(n : Int))) 1 (by omega) (by simp) (by simp) (by simp; omega) (by simp)
    (by unfold clampBound; simp)
  have hok := allOk_of (f := diffCut P n (content P d).length d') (P := P) fun r hr => ⟨res r, by unfold diffCut; rw [← hlen]; exact r1 r hr⟩
  have hres : content P (okParts (diffCut P n (content P d).length d')) = nthDiff n (content P d) := by
    rw [← hcut, ← hlen, ← pySlice_drop_end _ n h0, ← r2]
    refine content_congr fun r hr => ?_
    have e1 := hok.2 r hr
    have e2 := r1 r hr
    rw [hlen] at e2
    have e3 : (Except.ok (res r) : Except Err (List α)) = Except.ok (okParts (diffCut P n (content P d).length d') r) := by
      rw [← e1, ← e2]; rfl
    rw [← hlen] at e3
    exact (Except.ok.inj e3).symm
  obtain ⟨b, b1, b2, b3, _⟩ := balance_spec P hP (okParts (diffCut P n (content P d).length d')) 2 (Nat.le_refl _)
  refine ⟨b, ?_, b2.trans hres, b3⟩
  unfold heatDiff
  rw [h1]
  dsimp only
  rw [if_pos hok.1]
  exact b1

/-- A balanced array has no gap. -/
theorem noGap_of_balanced {P : Nat} {d : Nat → List α} (hb : Balanced P d) : NoGap P d := by
  intro r hr he
  have h1 := hb r (by omega)
  have h2 := hb (r + 1) hr
  rw [he] at h1
  rw [← List.length_eq_zero_iff, h2]
  unfold evenSize at h1 ⊢
  split at h1
  · simp at h1
  · rw [if_neg (by omega)]; simp at h1; omega

/-- **C77.**  It raises on the other distributions: so it is right or raises for every distribution. -/
theorem diff_gap_raises (one : α) (P : Nat) (d : Nat → List α) (h : ¬ NoGap P d) (n : Nat) (h0 : 0 < n) (N : Nat) : heatDiff one P n N d = .error .runtimeError := by
  have hloop : ∀ n, 0 < n → diffLoop one P n d = .error .runtimeError := by
    intro n hn
    induction n with
    | zero => omega
    | succ n ih =>
      rw [diffLoop]
      by_cases hz : n = 0
      · rw [hz, diffLoop]
        dsimp only
        rw [if_neg]
        intro hok
        apply h
        intro r hr he
        obtain ⟨l, hl⟩ := of_allOk hok r (by omega)
        unfold diffRound at hl
        rw [if_pos hr, he] at hl
        cases hd : d (r + 1) with
        | nil => rfl
        | cons a t => rw [hd] at hl; simp at hl
      · rw [ih (by omega)]
  unfold heatDiff
  rw [hloop n h0]

theorem diff_right_or_raises (one : α) (P : Nat) (hP : 0 < P) (d : Nat → List α) (n : Nat) (h0 : 0 < n) (hn : n ≤ (content P d).length) :
    heatDiff one P n (content P d).length d = .error .runtimeError ∨
    ∃ d', heatDiff one P n (content P d).length d = .ok d' ∧ content P d' = nthDiff n (content P d) ∧ Balanced P d' := by
  by_cases h : NoGap P d
  · exact Or.inr (diff_spec one P hP d h n h0 hn)
  · exact Or.inl (diff_gap_raises one P d h n h0 _)

/-! ## Schedules -/

theorem chain_proj {S M : Type} (X : Nat → Xfer S M) (r : Nat) (s t : BOp S M)
    (h : ∀ i, Xfer.proj r (X i) = if i + 1 = r then some s else if i = r then some t else none) (m : Nat) :
    ((List.range m).map X).filterMap (Xfer.proj r) = (if 0 < r ∧ r < m + 1 then [s] else []) ++ if r < m then [t] else [] := by
  induction m with
  | zero => rw [if_neg (by omega), if_neg (by omega)]; rfl
  | succ m ih =>
    rw [List.range_succ, List.map_append, List.filterMap_append, ih, List.map_singleton, List.filterMap_cons, h, List.filterMap_nil]
    by_cases h1 : m + 1 = r
    · rw [if_pos h1, if_neg (by omega), if_neg (by omega), if_pos (by omega), if_neg (by omega)]; rfl
    · rw [if_neg h1]
      by_cases h2 : m = r
      · rw [if_pos h2, if_neg (show ¬ r < m by omega), if_pos (show r < m + 1 by omega), List.append_nil]
        by_cases h3 : 0 < r ∧ r < m + 1
        · rw [if_pos h3, if_pos (by omega)]
        · rw [if_neg h3, if_neg (by omega)]
      · rw [if_neg h2]
        by_cases h3 : r < m
        · rw [if_pos h3, if_pos (show r < m + 1 by omega)]
          by_cases h4 : 0 < r ∧ r < m + 1
          · rw [if_pos h4, if_pos (by omega)]; rfl
          · rw [if_neg h4, if_neg (by omega)]; rfl
        · rw [if_neg h3, if_neg (show ¬ r < m + 1 by omega), if_neg (by omega), if_neg (by omega)]; rfl

/-- The transfers of a turn. -/
def diffXfer (one : α) (P i : Nat) : Xfer (List α) (Option α) :=
  { src := i + 1, dst := i, tag := i + 1, msg := List.head?, after := fun l => if i + 1 + 1 = P then localDiff l ++ l.getLast?.toList else l, take := diffTake one }

/-- The transfers of `n` turns. -/
def diffXfers (one : α) (P n : Nat) : List (Xfer (List α) (Option α)) := (List.replicate n ((List.range (P - 1)).map (diffXfer one P))).flatten

theorem diffInit_eq (one : α) (P n : Nat) (d : Nat → List α) : diffInit one P n d = scheduleInit (diffXfers one P n) d := by
  unfold diffInit scheduleInit
  congr 1
  funext r
  unfold diffXfers
  rw [List.filterMap_flatten, List.map_replicate, chain_proj _ r (diffSend P r) (diffRecv one r)]
  · unfold diffTurn
    congr 3
    · by_cases h : 0 < r ∧ r < P
      · rw [if_pos h, if_pos (by omega)]
      · rw [if_neg h, if_neg (by omega)]
    · by_cases h : r + 1 < P
      · rw [if_pos h, if_pos (by omega)]
      · rw [if_neg h, if_neg (by omega)]
  · intro i
    unfold Xfer.proj diffXfer
    dsimp only
    by_cases h : i + 1 = r
    · rw [if_pos h, if_pos h]; unfold diffSend; subst h; rfl
    · rw [if_neg h, if_neg h]
      by_cases h' : i = r
      · rw [if_pos h', if_pos h']; unfold diffRecv; subst h'; rfl
      · rw [if_neg h', if_neg h']

theorem diffRound_take (one : α) {P : Nat} {d : Nat → List α} (h : NoGap P d) (r : Nat) (hr : r + 1 < P) :
    okParts (diffRound one P d) r = diffTake one (d (r + 1)).head? (d r) := by
  unfold okParts diffRound diffTake
  rw [if_pos hr]
  cases hl : (d r).getLast? with
  | none =>
    rw [h r hr (List.getLast?_eq_none_iff.1 hl)]; rfl
  | some x => rfl

/-- One turn, transfer after transfer. -/
theorem diff_runSeq (one : α) {P : Nat} (hP : 1 < P) {d : Nat → List α} (h : NoGap P d) :
    ∀ r < P, runSeq ((List.range (P - 1)).map (diffXfer one P)) d r = okParts (diffRound one P d) r := by
  have hpre : ∀ k, k ≤ P - 1 → ∀ r, runSeq ((List.range k).map (diffXfer one P)) d r =
      if r < k ∨ (k = P - 1 ∧ r = P - 1) then okParts (diffRound one P d) r else d r := by
    intro k
    induction k with
    | zero =>
      intro _ r
      rw [if_neg (by omega)]; rfl
    | succ k ih =>
      intro hk r
      have ih := ih (by omega)
      unfold runSeq at ih ⊢
      rw [List.range_succ, List.map_append, List.foldl_append, List.map_singleton]
      generalize List.foldl Xfer.apply d (List.map (diffXfer one P) (List.range k)) = L at ih
      show Xfer.apply L (diffXfer one P k) r = _
      unfold Xfer.apply set1 diffXfer
      dsimp only
      have e1 : L (k + 1) = d (k + 1) := by rw [ih, if_neg (by omega)]
      have e2 : L k = d k := by rw [ih, if_neg (by omega)]
      by_cases h1 : r = k
      · subst h1
        rw [if_pos rfl, if_pos (Or.inl (by omega)), e1, e2, diffRound_take one h r (by omega)]
      · rw [if_neg h1]
        by_cases h2 : r = k + 1
        · subst h2
          rw [if_pos rfl, e1]
          by_cases h3 : k + 1 + 1 = P
          · rw [if_pos h3, if_pos (by omega)]
            unfold okParts diffRound
            rw [if_neg (by omega)]; rfl
          · rw [if_neg h3, if_neg (by omega)]
        · rw [if_neg h2, ih]
          by_cases h3 : r < k
          · rw [if_pos (Or.inl h3), if_pos (Or.inl (by omega))]
          · rw [if_neg (by omega), if_neg (by omega)]
  intro r hr
  rw [hpre (P - 1) (Nat.le_refl _), if_pos (by omega)]

theorem diffRound_congr (one : α) {P : Nat} {d d' : Nat → List α} (h : ∀ r < P, d r = d' r) (r : Nat) (hr : r < P) : diffRound one P d r = diffRound one P d' r := by
  unfold diffRound
  by_cases h1 : r + 1 < P
  · rw [if_pos h1, if_pos h1, h r hr, h (r + 1) h1]
  · rw [if_neg h1, if_neg h1, h r hr]

/-- All turns. -/
theorem diff_runSeq_all (one : α) {P : Nat} (hP : 1 < P) {d : Nat → List α} (h : NoGap P d) (n : Nat) :
    ∃ d', diffLoop one P n d = .ok d' ∧ NoGap P d' ∧ ∀ r < P, runSeq (diffXfers one P n) d r = d' r := by
  induction n with
  | zero => exact ⟨d, rfl, h, fun _ _ => rfl⟩
  | succ n ih =>
    obtain ⟨d', h1, h2, h3⟩ := ih
    obtain ⟨g1, g2, _⟩ := diffRound_content one h2
    refine ⟨okParts (diffRound one P d'), by rw [diffLoop, h1]; exact if_pos g1, noGap_congr h2 g2, ?_⟩
    intro r hr
    have hng : NoGap P (runSeq (diffXfers one P n) d) := noGap_congr h2 fun q hq => by rw [h3 q hq]
    have := diff_runSeq one hP hng r hr
    unfold diffXfers at this ⊢
    unfold runSeq at this ⊢
    rw [List.replicate_succ', List.flatten_append, List.foldl_append, List.flatten_singleton, this]
    unfold okParts
    have e := diffRound_congr one (d := runSeq (diffXfers one P n) d) (d' := d') h3 r hr
    unfold runSeq diffXfers at e
    rw [e]

/-- **C77 (schedules).**  Although every process waits for its send before it posts its receive, no execution gets stuck, whether MPI buffers messages or not; every
execution is finite, and when all processes are done they hold what the work loop computes. -/
theorem diff_schedule (one : α) {P : Nat} (hP : 1 < P) {d : Nat → List α} (h : NoGap P d) (n : Nat) {k : Nat} {st : BState (List α) (Option α)}
    (hs : Steps BStep k (diffInit one P n d) st) :
    (∀ r, st.prog r ≠ [] → MustStep st) ∧ k ≤ 2 * (n * (P - 1)) ∧
    ((∀ r, st.prog r = []) → (∃ d', diffLoop one P n d = .ok d' ∧ ∀ r < P, st.loc r = d' r) ∧ ∀ s d t, st.chan s d t = []) := by
  rw [diffInit_eq] at hs
  have hne : ∀ x ∈ diffXfers one P n, x.src ≠ x.dst := by
    intro x hx
    unfold diffXfers at hx
    obtain ⟨L, hL, hx⟩ := List.mem_flatten.1 hx
    rw [List.eq_of_mem_replicate hL] at hx
    obtain ⟨i, _, rfl⟩ := List.mem_map.1 hx
    show i + 1 ≠ i
    omega
  have h1 := ordered_transfers _ hne _ hs
  have h2 := ordered_transfers_terminate _ _ hs
  have hlen : (diffXfers one P n).length = n * (P - 1) := by
    unfold diffXfers
    rw [List.length_flatten, List.map_replicate, List.sum_replicate, List.length_map, List.length_range, smul_eq_mul]
  rw [hlen] at h2
  refine ⟨h1.1, h2, fun hf => ⟨?_, (h1.2 hf).2⟩⟩
  obtain ⟨d', e1, _, e3⟩ := diff_runSeq_all one hP h n
  exact ⟨d', e1, fun r hr => by rw [(h1.2 hf).1]; exact e3 r hr⟩

/-- Complete executions exist. -/
theorem diff_completes (one : α) (P n : Nat) (d : Nat → List α) : ∃ k st, Steps BStep k (diffInit one P n d) st ∧ ∀ r, st.prog r = [] := by
  rw [diffInit_eq]
  refine ordered_completes _ ?_ _
  intro x hx
  unfold diffXfers at hx
  obtain ⟨L, hL, hx⟩ := List.mem_flatten.1 hx
  rw [List.eq_of_mem_replicate hL] at hx
  obtain ⟨i, _, rfl⟩ := List.mem_map.1 hx
  show i + 1 ≠ i
  omega

end

/-! ## Another axis -/

theorem diffRoundOther_ok {w : Nat → Nat} {P N : Nat} {d : Nat → List (Nat → Int)} (hw : ∀ r, r + 1 < P → w (r + 1) ≤ w r) (hN : ∀ r < P, (d r).length = N) (r : Nat) (hr : r < P) :
    ∃ l, diffRoundOther w P d r = .ok l ∧ l.length = N ∧ ∀ j, j + 1 < N → l[j]? = (diff1 (d r))[j]? := by
  have hd := hN r hr
  have hloc : ∀ (t : List (Nat → Int)) (j : Nat), j + 1 < N → (localDiff (d r) ++ t)[j]? = (diff1 (d r))[j]? := by
    intro t j hj
    rw [localDiff_eq, List.getElem?_append_left (by rw [diff1_length]; omega)]
  have hlen : ∀ (x : Nat → Int), (d r).getLast? = some x → ∀ y : Nat → Int, (localDiff (d r) ++ [y]).length = N := by
    intro x hx y
    rw [List.length_append, localDiff_eq, diff1_length]
    cases hdr : d r with
    | nil => rw [hdr] at hx; simp at hx
    | cons a t => rw [hdr] at hd; simp at hd ⊢; omega
  unfold diffRoundOther
  by_cases h : r + 1 < P
  · rw [if_pos h]
    cases hl : (d r).getLast? with
    | none =>
      rw [List.getLast?_eq_none_iff] at hl
      rw [hl] at hd
      exact ⟨[], rfl, hd, fun j hj => by simp at hd; omega⟩
    | some x =>
      cases hh : (d (r + 1)).head? with
      | none => exact ⟨_, rfl, hlen x hl _, hloc _⟩
      | some m =>
        dsimp only
        rw [if_pos (hw r h)]
        exact ⟨_, rfl, hlen x hl _, hloc _⟩
  · rw [if_neg h]
    refine ⟨_, rfl, ?_, hloc _⟩
    rw [List.length_append, localDiff_eq, diff1_length, hd]
    cases hdr : d r with
    | nil => rw [hdr] at hd; simp at hd ⊢; omega
    | cons a t => rw [hdr] at hd; rw [List.getLast?_cons]; simp at hd ⊢; omega

theorem diffLoopOther_ok {w : Nat → Nat} {P N : Nat} {d : Nat → List (Nat → Int)} (hw : ∀ r, r + 1 < P → w (r + 1) ≤ w r) (hN : ∀ r < P, (d r).length = N) (n : Nat) :
    ∃ d', diffLoopOther w P n d = .ok d' ∧ ∀ r < P, (d' r).length = N ∧ ∀ j, j + n < N → (d' r)[j]? = (nthDiff n (d r))[j]? := by
  induction n with
  | zero => exact ⟨d, rfl, fun r hr => ⟨hN r hr, fun _ _ => rfl⟩⟩
  | succ n ih =>
    obtain ⟨d', h1, h2⟩ := ih
    have hok := allOk_of (f := diffRoundOther w P d') (P := P) fun r hr => by
      obtain ⟨l, hl, _⟩ := diffRoundOther_ok hw (fun r hr => (h2 r hr).1) r hr; exact ⟨l, hl⟩
    refine ⟨okParts (diffRoundOther w P d'), by rw [diffLoopOther, h1]; exact if_pos hok.1, ?_⟩
    intro r hr
    obtain ⟨l, hl, hl2, hl3⟩ := diffRoundOther_ok hw (fun r hr => (h2 r hr).1) r hr
    have he := hok.2 r hr
    rw [hl] at he
    rw [← Except.ok.inj he]
    refine ⟨hl2, fun j hj => ?_⟩
    rw [hl3 j (by omega), nthDiff]
    have e1 := (h2 r hr).2 j (by omega)
    have e2 := (h2 r hr).2 (j + 1) (by omega)
    have hlen := nthDiff_length n (d r)
    rw [hN r hr] at hlen
    rw [List.getElem?_eq_getElem (show j < (nthDiff n (d r)).length by omega)] at e1
    rw [List.getElem?_eq_getElem (show j + 1 < (nthDiff n (d r)).length by omega)] at e2
    rw [diff1_get e1 e2]
    exact (diff1_get (List.getElem?_eq_getElem _) (List.getElem?_eq_getElem _)).symm

/-- **C77.**  `diff` along another axis than the split one: if no process holds more than the one before it (balanced arrays), every process returns the `n`-th difference
of its part, for every `n`: the neighbour's values only reach the slabs that are cut off. -/
theorem diff_other_spec {w : Nat → Nat} {P N : Nat} {d : Nat → List (Nat → Int)} (hw : ∀ r, r + 1 < P → w (r + 1) ≤ w r) (hN : ∀ r < P, (d r).length = N) (n : Nat) :
    ∃ d', heatDiffOther w P n d = .ok d' ∧ ∀ r < P, d' r = nthDiff n (d r) := by
  obtain ⟨d', h1, h2⟩ := diffLoopOther_ok hw hN n
  refine ⟨fun r => (d' r).take ((d' r).length - n), by unfold heatDiffOther; rw [h1], ?_⟩
  intro r hr
  obtain ⟨e1, e2⟩ := h2 r hr
  show (d' r).take ((d' r).length - n) = _
  apply List.ext_getElem?
  intro i
  rw [List.getElem?_take, e1]
  by_cases hi : i < N - n
  · rw [if_pos hi]; exact e2 i (by omega)
  · rw [if_neg hi, List.getElem?_eq_none (by rw [nthDiff_length, hN r hr]; omega)]

/-! ## Examples and violations -/

/-- three ranks holding 1, 4 | 9, 16 | 25 -/
def diffEx : Nat → List Int := fun r => ([[1, 4], [9, 16], [25]] : List (List Int)).getD r []

example : NoGap 3 diffEx ∧ Balanced 3 diffEx ∧ (heatDiff 1 3 2 5 diffEx).toOption.map (content 3) = some [2, 2, 2] := by
  refine ⟨?_, by unfold Balanced; decide, by decide +kernel⟩
  intro r hr
  match r with
  | 0 => decide
  | 1 => decide
  | r + 2 => omega

/-- **C77, violated.**  One turn more than the array has elements: the process returns an element of an array that must be empty. -/
theorem diff_too_often_violated : nthDiff 6 (content 3 diffEx) = [] ∧ ∃ d', heatDiff 1 3 6 5 diffEx = .ok d' ∧ content 3 d' ≠ [] := by
  refine ⟨by decide +kernel, ?_⟩
  cases h : heatDiff 1 3 6 5 diffEx with
  | error e =>
    have : (heatDiff 1 3 6 5 diffEx).isOk = true := by decide +kernel
    rw [h] at this; simp [Except.isOk, Except.toBool] at this
  | ok d' =>
    refine ⟨d', rfl, ?_⟩
    have : (heatDiff 1 3 6 5 diffEx).toOption.map (content 3) ≠ some [] := by decide +kernel
    rw [h] at this
    intro h'
    exact this (by rw [← h']; rfl)

/-- **C77, violated.**  Along another axis, with a process that holds more than the one before it: the message does not fit into the receive buffer. -/
theorem diff_other_violated (w : Nat → Nat) (P : Nat) (d : Nat → List (Nat → Int)) (n r : Nat) (h0 : 0 < n) (hr : r + 1 < P) (hw : w r < w (r + 1))
    (h1 : d r ≠ []) (h2 : d (r + 1) ≠ []) : heatDiffOther w P n d = .error .runtimeError := by
  have hloop : ∀ n, 0 < n → diffLoopOther w P n d = .error .runtimeError := by
    intro n hn
    induction n with
    | zero => omega
    | succ n ih =>
      rw [diffLoopOther]
      by_cases hz : n = 0
      · rw [hz, diffLoopOther]
        dsimp only
        rw [if_neg]
        intro hok
        obtain ⟨l, hl⟩ := of_allOk hok r (by omega)
        unfold diffRoundOther at hl
        rw [if_pos hr] at hl
        cases hd : (d r).getLast? with
        | none => exact h1 (List.getLast?_eq_none_iff.1 hd)
        | some x =>
          cases hh : (d (r + 1)).head? with
          | none => exact h2 (List.head?_eq_none_iff.1 hh)
          | some m =>
            rw [hd, hh] at hl
            dsimp only at hl
            rw [if_neg (by omega)] at hl
            simp at hl
      · rw [ih (by omega)]
  unfold heatDiffOther
  rw [hloop n h0]

example : ∃ (w : Nat → Nat) (d : Nat → List (Nat → Int)), heatDiffOther w 2 1 d = .error .runtimeError :=
  ⟨fun r => r + 1, fun _ => [fun _ => 0], diff_other_violated _ 2 _ 1 0 (by decide) (by decide) (by decide) (by simp) (by simp)⟩

end Heat
