import Verif.Proof.Indexing
/-!
# C14 - C18: indexing and assignment along the split axis
-/
namespace Heat
open Heat.Spec
variable {α : Type}

/-- Offsets and counts every process computes for the distribution `d` (C06). -/
abbrev offs (d : Nat → List α) : Nat → Int := fun r => (startOf d r : Int)
/-- see `offs` -/
abbrev cnts (d : Nat → List α) : Nat → Int := fun r => ((d r).length : Int)

theorem clamp_getD (n : Nat) (b : Option Int) (dflt : Int) (h1 : -(n : Int) ≤ b.getD dflt) (h2 : b.getD dflt ≤ n) :
    (if b.getD dflt < 0 then b.getD dflt + (n : Int) else b.getD dflt) = (clampBound n (b.getD dflt) : Int) := by
  rw [clampBound_valid n _ h1 h2]

/-- **C14 (partial).** For every number of processes and every distribution `d` of an array of `n` slabs, and every
`start`/`stop` (possibly omitted) in `[-n, n]` that do not cross and every step `≥ 1`, slicing succeeds on every process
and the local results, in rank order, are the slice of the undistributed array.
Missing from the full property: bounds outside `[-n, n]` and crossing bounds, for which it is false
(`getitemSlice_*_violated`). -/
theorem getitemSlice_partial (P : Nat) (hP : 0 < P) (d : Nat → List α) (start stop : Option Int) (step : Nat)
    (hstep : 0 < step)
    (hs1 : -((content P d).length : Int) ≤ start.getD 0) (hs2 : start.getD 0 ≤ (content P d).length)
    (he1 : -((content P d).length : Int) ≤ stop.getD (content P d).length)
    (he2 : stop.getD (content P d).length ≤ (content P d).length)
    (hcross : clampBound (content P d).length (start.getD 0) ≤
      clampBound (content P d).length (stop.getD (content P d).length)) :
    ∃ res : Nat → List α,
      (∀ r < P, getitemSlice (content P d).length P (offs d) (cnts d) d start stop step r = .ok (res r)) ∧
      content P res = pySlice (content P d) start stop step := by
  refine ⟨fun r => pick (inSlice (content P d).length start stop step) (startOf d r) (d r), ?_, ?_⟩
  · intro r hr
    have := getitemSlice_core P hP d (clampBound (content P d).length (start.getD 0))
      (clampBound (content P d).length (stop.getD (content P d).length)) step hstep hcross
      (by unfold clampBound; split <;> omega) start stop
      (by unfold sanitizeSlice; simp only [Option.getD_some]
          rw [clamp_getD _ _ _ hs1 hs2, clamp_getD _ _ _ he1 he2]) r hr
    rw [this]; rfl
  · unfold pySlice; rw [pick_content]

/-- three ranks holding 0,1,2 | 3 | 4,5 -/
def exParts : Nat → List Nat := fun r => ([[0, 1, 2], [3], [4, 5]] : List (List Nat)).getD r []

-- the hypotheses are satisfiable with a negative start, a step and an unbalanced distribution, and the conclusion is
-- what one expects
example : (∀ r < 3, getitemSlice 6 3 (offs exParts) (cnts exParts) exParts (some (-5)) none 2 r =
    .ok (([[1], [3], [5]] : List (List Nat)).getD r [])) ∧ pySlice (content 3 exParts) (some (-5)) none 2 = [1, 3, 5] := by
  decide

/-- 6 slabs on two ranks, three each -/
def exEven : Nat → List Nat := fun r => ([[0, 1, 2], [3, 4, 5]] : List (List Nat)).getD r []

/-- A stop beyond the end, `a[0:100]`, raises on the last rank although the undistributed array clamps it. -/
theorem getitemSlice_stop_beyond_violated :
    getitemSlice 6 2 (offs exEven) (cnts exEven) exEven (some 0) (some 100) 1 1 = .error .runtimeError ∧
      pySlice (content 2 exEven) (some 0) (some 100) 1 = [0, 1, 2, 3, 4, 5] := by decide

/-- A start before the beginning, `a[-8:6]`, returns too little instead of the whole array. -/
theorem getitemSlice_start_before_violated :
    getitemSlice 6 2 (offs exEven) (cnts exEven) exEven (some (-8)) (some 6) 1 0 = .error .runtimeError ∧
      pySlice (content 2 exEven) (some (-8)) (some 6) 1 = [0, 1, 2, 3, 4, 5] := by decide

/-- Crossing bounds in one chunk, `a[2:0]`, raise instead of returning an empty array. -/
theorem getitemSlice_crossing_violated :
    getitemSlice 6 2 (offs exEven) (cnts exEven) exEven (some 2) (some 0) 1 0 = .error .runtimeError ∧
      pySlice (content 2 exEven) (some 2) (some 0) 1 = [] := by decide

/-! ## C15 -/

/-- the last rank that starts at or before a global index owns it -/
theorem lastWhere_owner (P : Nat) (d : Nat → List α) (k : Nat) (hk : k < (content P d).length) :
    ∃ r < P, startOf d r ≤ k ∧ k < startOf d r + (d r).length ∧
      lastWhere P (fun r => decide ((k : Int) ≥ (startOf d r : Int))) = some r := by
  obtain ⟨r, hr, h1, h2⟩ := startOf_owner d P k hk
  rw [startOf_succ] at h2
  refine ⟨r, hr, h1, h2, ?_⟩
  unfold lastWhere
  cases hf : (List.range P).reverse.find? (fun r => decide ((k : Int) ≥ (startOf d r : Int))) with
  | none => have := lastWhere_none hf r hr; simp at this; omega
  | some i =>
    obtain ⟨hi, h3, h4⟩ := lastWhere_some hf
    simp at h3
    congr 1
    apply Nat.le_antisymm
    · apply Nat.le_of_not_lt
      intro hlt
      have := startOf_mono d (show r + 1 ≤ i by omega)
      rw [startOf_succ] at this
      omega
    · apply Nat.le_of_not_lt
      intro hlt
      have := h4 r hlt hr
      simp at this; omega

/-- **C15.** For every distribution of `n` slabs and every integer `i`: if `-n ≤ i < n`, `a[i]` is the `i`-th slab of the
undistributed array (counted from the end if `i < 0`); otherwise it raises IndexError. -/
theorem getitemInt_spec (P : Nat) (d : Nat → List α) (i : Int) :
    (i < -((content P d).length : Int) ∨ i ≥ (content P d).length →
      getitemInt (content P d).length P (offs d) d i = .error .indexError) ∧
    (-((content P d).length : Int) ≤ i → i < (content P d).length →
      ∃ x, getitemInt (content P d).length P (offs d) d i = .ok x ∧
        (content P d)[(if i < 0 then i + (content P d).length else i).toNat]? = some x) := by
  constructor
  · intro h; unfold getitemInt; rw [if_pos h]
  · intro h1 h2
    unfold getitemInt
    rw [if_neg (by omega)]
    simp only
    generalize hk : (if i < 0 then i + ((content P d).length : Int) else i) = k
    have hk0 : 0 ≤ k := by rw [← hk]; split <;> omega
    have hkn : k < (content P d).length := by rw [← hk]; split <;> omega
    obtain ⟨r, hr, h3, h4, h5⟩ := lastWhere_owner P d k.toNat (by omega)
    have e : ((k.toNat : Nat) : Int) = k := Int.toNat_of_nonneg hk0
    rw [e] at h5
    rw [h5]
    simp only
    have hj : (k - (startOf d r : Int)).toNat < (d r).length := by omega
    rw [List.getElem?_eq_getElem hj]
    refine ⟨_, rfl, ?_⟩
    have := content_get d P r (k - (startOf d r : Int)).toNat hr hj
    rw [show startOf d r + (k - (startOf d r : Int)).toNat = k.toNat by omega] at this
    rw [this]

example : getitemInt 6 3 (offs exParts) exParts (-3) = .ok 3 ∧ getitemInt 6 3 (offs exParts) exParts 6 = .error .indexError := by
  decide

/-! ## C16 -/

/-- The slabs of `l` at the positions `inds` (negative positions count from the end), in the order of `inds`: what
`l[inds]` is for an undistributed array. -/
def Spec.takeList (l : List α) (inds : List Int) : List α :=
  inds.filterMap fun i => l[(if i < 0 then i + (l.length : Int) else i).toNat]?

theorem filterMap_congr' {β γ : Type} {l : List β} {f g : β → Option γ} (h : ∀ x ∈ l, f x = g x) :
    l.filterMap f = l.filterMap g := by
  induction l with
  | nil => rfl
  | cons x xs ih =>
    rw [List.filterMap_cons, List.filterMap_cons, h x (by simp), ih fun y hy => h y (by simp [hy])]

theorem filterMap_filter_split {β : Type} (l : List Int) (f : Int → Option β) (b : Int)
    (hsorted : l.Pairwise fun x y => y < b → x < b) :
    (l.filter fun i => decide (i < b)).filterMap f ++ (l.filter fun i => decide (b ≤ i)).filterMap f = l.filterMap f := by
  induction l with
  | nil => rfl
  | cons x xs ih =>
    rw [List.pairwise_cons] at hsorted
    by_cases hx : x < b
    · have ih' := ih hsorted.2
      rw [List.filter_cons_of_pos (by simpa using hx), List.filter_cons_of_neg (by simp; omega)]
      cases hfx : f x with
      | none => rw [List.filterMap_cons_none hfx, List.filterMap_cons_none hfx]; exact ih'
      | some y => rw [List.filterMap_cons_some hfx, List.filterMap_cons_some hfx, List.cons_append, ih']
    · have hall : ∀ y ∈ xs, b ≤ y := fun y hy => by
        have := hsorted.1 y hy; omega
      have e1 : (x :: xs).filter (fun i => decide (i < b)) = [] := by
        rw [List.filter_eq_nil_iff]; intro y hy
        rcases List.mem_cons.1 hy with rfl | h
        · simp; omega
        · have := hall y h; simp; omega
      have e2 : (x :: xs).filter (fun i => decide (b ≤ i)) = x :: xs := by
        rw [List.filter_eq_self]; intro y hy
        rcases List.mem_cons.1 hy with rfl | h
        · simp; omega
        · have := hall y h; simp; omega
      rw [e1, e2]; rfl

/-- the local pieces up to rank `k` are the selection of the indices below the start of rank `k` -/
theorem getitemList_prefix (d : Nat → List α) (P : Nat) (inds : List Int) (h0 : ∀ i ∈ inds, 0 ≤ i)
    (hsorted : inds.Pairwise fun x y => ∀ r, y < (startOf d r : Int) → x < (startOf d r : Int)) (k : Nat) (hk : k ≤ P) :
    content k (fun r => (inds.filter fun i => (startOf d r : Int) ≤ i && i < (startOf d r : Int) + ((d r).length : Int)).filterMap
      fun i => (d r)[(i - (startOf d r : Int)).toNat]?) =
    (inds.filter fun i => decide (i < (startOf d k : Int))).filterMap fun i => (content P d)[i.toNat]? := by
  induction k with
  | zero =>
    rw [content_zero, startOf_zero]
    symm
    have : inds.filter (fun i => decide (i < ((0 : Nat) : Int))) = [] := by
      rw [List.filter_eq_nil_iff]; intro y hy; have := h0 y hy; simp; omega
    rw [this]; rfl
  | succ k ih =>
    rw [content_succ, ih (by omega)]
    have hsplit := filterMap_filter_split (inds.filter fun i => decide (i < (startOf d (k + 1) : Int)))
      (fun i => (content P d)[i.toNat]?) (startOf d k : Int)
      (List.Pairwise.filter _ (hsorted.imp fun {x y} h hy => h k hy))
    rw [← hsplit]
    congr 1
    · rw [List.filter_filter]
      congr 1
      apply List.filter_congr
      intro i _
      have := startOf_succ d k
      rw [← Bool.decide_and, decide_eq_decide]
      omega
    · rw [List.filter_filter]
      have hf : ∀ i ∈ inds, (decide ((startOf d k : Int) ≤ i) && decide (i < (startOf d (k + 1) : Int))) =
          (decide ((startOf d k : Int) ≤ i) && decide (i < (startOf d k : Int) + ((d k).length : Int))) := by
        intro i _
        have := startOf_succ d k
        congr 2; rw [eq_iff_iff]; omega
      rw [List.filter_congr hf]
      apply filterMap_congr'
      intro i hi
      rw [List.mem_filter] at hi
      have h2 := hi.2
      simp at h2
      have := content_get d P k (i - (startOf d k : Int)).toNat (by omega) (by omega)
      rw [show startOf d k + (i - (startOf d k : Int)).toNat = i.toNat by omega] at this
      rw [this, List.getElem?_eq_getElem]

/-- **C16 (partial).** Indexing with a list of at least two non-negative in-range positions whose owners appear in rank
order (for instance any sorted list) returns, concatenated in rank order, the slabs in the order of the list.
Missing from the full property: negative positions, other orders and one-element lists, for which it is false
(`getitemList_*_violated`). -/
theorem getitemList_partial (P : Nat) (d : Nat → List α) (inds : List Int)
    (h0 : ∀ i ∈ inds, 0 ≤ i ∧ i < (content P d).length) (hlen : 2 ≤ inds.length)
    (hsorted : inds.Pairwise fun x y => ∀ r, y < (startOf d r : Int) → x < (startOf d r : Int)) :
    ∃ res : Nat → List α,
      (∀ r < P, getitemList (content P d).length (offs d) (cnts d) d inds r = .ok (res r)) ∧
      content P res = Spec.takeList (content P d) inds := by
  refine ⟨fun r => (inds.filter fun i => (startOf d r : Int) ≤ i && i < (startOf d r : Int) + ((d r).length : Int)).filterMap
      fun i => (d r)[(i - (startOf d r : Int)).toNat]?, ?_, ?_⟩
  · intro r _
    unfold getitemList
    rw [if_neg, if_pos (by omega)]
    simp only [List.any_eq_true, Bool.or_eq_true, decide_eq_true_eq, not_exists, not_and, not_or]
    intro i hi; have := h0 i hi; omega
  · rw [getitemList_prefix d P inds (fun i hi => (h0 i hi).1) hsorted P (Nat.le_refl _)]
    unfold Spec.takeList
    have : inds.filter (fun i => decide (i < (startOf d P : Int))) = inds := by
      rw [List.filter_eq_self]; intro i hi; have := (h0 i hi).2; unfold startOf; exact decide_eq_true this
    rw [this]
    apply filterMap_congr'
    intro i hi
    have := (h0 i hi).1
    rw [if_neg (by omega)]

/-- A sorted list of in-range positions satisfies the order hypothesis of `getitemList_partial`. -/
theorem sorted_owner_order (d : Nat → List α) (inds : List Int) (h : inds.Pairwise (· ≤ ·)) :
    inds.Pairwise fun x y => ∀ r, y < (startOf d r : Int) → x < (startOf d r : Int) :=
  h.imp fun {x y} hxy r hy => by omega

-- positions within one rank may come in any order and repeat
example : [(2 : Int), 0, 0, 3, 5].Pairwise (fun x y => ∀ r < 3, y < (startOf exParts r : Int) → x < (startOf exParts r : Int)) ∧
    Spec.takeList (content 3 exParts) [2, 0, 0, 3, 5] = [2, 0, 0, 3, 5] := by decide

/-- `a[[4, 0]]` returns slab 0 before slab 4. -/
theorem getitemList_order_violated :
    getitemList 6 (offs exEven) (cnts exEven) exEven [4, 0] 0 = .ok [0] ∧
    getitemList 6 (offs exEven) (cnts exEven) exEven [4, 0] 1 = .ok [4] ∧
    Spec.takeList (content 2 exEven) [4, 0] = [4, 0] := by decide

/-- `a[[-1, 0]]` loses the slab selected by the negative position. -/
theorem getitemList_negative_violated :
    getitemList 6 (offs exEven) (cnts exEven) exEven [-1, 0] 0 = .ok [0] ∧
    getitemList 6 (offs exEven) (cnts exEven) exEven [-1, 0] 1 = .ok [] ∧
    Spec.takeList (content 2 exEven) [-1, 0] = [5, 0] := by decide

/-- `a[[1]]` is empty on every process (for every distribution), instead of having one slab. -/
theorem getitemList_single_violated (P : Nat) (d : Nat → List α) (i : Int) (h0 : 0 ≤ i) (h1 : i < (content P d).length) :
    (∀ r, getitemList (content P d).length (offs d) (cnts d) d [i] r = .ok []) ∧
    (Spec.takeList (content P d) [i]).length = 1 := by
  constructor
  · intro r; unfold getitemList
    rw [if_neg (by simp; omega), if_neg (by simp)]
  · unfold Spec.takeList
    have : i.toNat < (content P d).length := by omega
    simp [show ¬ i < 0 by omega, List.getElem?_eq_getElem this]

/-! ## C17 -/

theorem balanced_chunk_start {P : Nat} {d : Nat → List α} (hb : Balanced P d) (r : Nat) (hr : r ≤ P) :
    startOf d r = (chunkRange (content P d).length r P).1 := by
  induction r with
  | zero => rw [startOf_zero, chunkRange_zero]
  | succ k ih =>
    rw [startOf_succ, ih (by omega), hb k (by omega), ← chunkRange_size, chunkRange_succ]
    have : (chunkRange (content P d).length k P).1 ≤ (chunkRange (content P d).length k P).2 := by
      rw [← chunkRange_succ]; exact chunkRange_mono _ _ (by omega)
    omega

theorem balanced_cum_ends {P : Nat} {d : Nat → List α} (hb : Balanced P d) (r : Nat) (hr : r ≤ P) :
    cum (fun r => (((chunkRange (content P d).length r P).2 - (chunkRange (content P d).length r P).1 : Nat) : Int)) r =
      (startOf d r : Int) := by
  apply cum_eq_content
  intro i hi
  rw [chunkRange_size, hb i (by omega)]

theorem setitemSlice_core (P : Nat) (d : Nat → List α) (hb : Balanced P d) (start stop : Option Int)
    (step : Option Nat) (c : α) (hstep : ∀ s, step = some s → 0 < s) (lo hi : Nat)
    (hlo : start.getD 0 = (lo : Int))
    (hhi : (if stop.getD (content P d).length < 0 then ((content P d).length : Int) + stop.getD (content P d).length
      else stop.getD (content P d).length) = (hi : Int))
    (r : Nat) (hr : r < P) :
    setitemSlice (content P d).length P d start stop step c r =
      overwrite (fun j => gpred lo hi (step.getD 1) (startOf d r + j)) c (d r) := by
  unfold setitemSlice
  simp only
  rw [hlo, hhi]
  have hce : ∀ r ≤ P, cum (fun r => (((chunkRange (content P d).length r P).2 -
      (chunkRange (content P d).length r P).1 : Nat) : Int)) r = (startOf d r : Int) := fun r hr => balanced_cum_ends hb r hr
  have hs : 0 < step.getD 1 := by
    cases step with
    | none => simp
    | some s => exact hstep s rfl
  generalize hst : (firstFrom P 0 fun r => decide ((lo : Int) < cum (fun r =>
    (((chunkRange (content P d).length r P).2 - (chunkRange (content P d).length r P).1 : Nat) : Int)) (r + 1))).getD P = st
  generalize hsp : (lastWhere (P + 1) fun r => decide ((hi : Int) ≥ cum (fun r =>
    (((chunkRange (content P d).length r P).2 - (chunkRange (content P d).length r P).1 : Nat) : Int)) r)).getD 0 = sp
  obtain ⟨hst1, hst2, hst3⟩ := stPr_spec P (fun r => cum (fun r =>
    (((chunkRange (content P d).length r P).2 - (chunkRange (content P d).length r P).1 : Nat) : Int)) (r + 1)) lo st hst
  obtain ⟨hsp1, hsp2, hsp3⟩ := spPr_spec (P + 1) (fun r => cum (fun r =>
    (((chunkRange (content P d).length r P).2 - (chunkRange (content P d).length r P).1 : Nat) : Int)) r) hi sp (by omega)
    (by simp [cum]) hsp
  have hend : ∀ r, startOf d (r + 1) = startOf d r + (d r).length := startOf_succ d
  by_cases hact : st ≤ r ∧ r ≤ sp
  · rw [if_pos hact]
    have hst3' := hst3 (by omega)
    rw [hce _ (by omega)] at hst3' hsp2
    have hf1 : r = st → startOf d r ≤ lo := by
      intro h
      subst h
      cases r with
      | zero => simp [startOf_zero]
      | succ k =>
        have := hst2 k (by omega)
        rw [hce _ (by omega)] at this; omega
    have hf2 : st < r → lo ≤ startOf d r := by
      intro h
      have h2 := startOf_mono d (show st + 1 ≤ r by omega)
      omega
    have hsz : (((chunkRange (content P d).length r P).2 - (chunkRange (content P d).length r P).1 : Nat) : Int) =
        ((d r).length : Int) := by rw [chunkRange_size, hb r hr]
    rw [hce r (by omega), hsz]
    have hx : xitemStart r st (if r ≠ st then 0 else (lo : Int) - (startOf d r : Int)) step
        (cum (fun r => (((chunkRange (content P d).length r P).2 -
      (chunkRange (content P d).length r P).1 : Nat) : Int)) (r - 1 + 1)) lo =
        ((lks (r == st) lo (startOf d r) (step.getD 1) : Nat) : Int) := by
      cases step with
      | none =>
        unfold xitemStart lks
        simp only [Option.getD_none, Nat.mod_one, if_true]
        by_cases h : r = st
        · subst h
          have := hf1 rfl
          simp; omega
        · simp [h]
      | some s =>
        rw [Option.getD_some]
        by_cases h : st < r
        · rw [show r - 1 + 1 = r by omega, hce r (by omega)]
          exact xitemStart_eq r st lo _ s hs hact.1 hf1 hf2
        · have hrs : r = st := by omega
          have := xitemStart_eq r st lo _ s hs hact.1 hf1 hf2
          rw [Option.getD_some] at *
          rw [← this]
          unfold xitemStart; simp [hrs]
    rw [hx]
    have hke : (if r ≠ sp then ((d r).length : Int) else (hi : Int) - (startOf d r : Int)) =
        (((if (r == sp) then hi - startOf d r else (d r).length : Nat)) : Int) := by
      by_cases h : r = sp
      · subst h; simp; omega
      · simp [h]
    rw [hke]
    have hl1 : (r == sp) = false → startOf d r + (d r).length ≤ hi := by
      intro h
      have hne : r ≠ sp := by simpa using h
      have h2 := startOf_mono d (show r + 1 ≤ sp by omega)
      have := hend r
      omega
    have hl2 : (r == sp) = true → startOf d r ≤ hi := by
      intro h
      have he : r = sp := by simpa using h
      subst he; omega
    apply overwrite_congr
    intro j hj
    exact local_pred (d r).length 0 0 lo hi (startOf d r) (step.getD 1) j hs (r == st) (r == sp)
        (fun h => hf1 (by simpa using h)) (fun h => hf2 (by have : r ≠ st := by simpa using h
                                                            omega))
        hl1 hl2 hj _ rfl (Or.inl (Nat.le_refl _))
  · rw [if_neg hact]
    symm
    apply overwrite_none
    intro j hj
    unfold gpred
    simp only [decide_eq_false_iff_not, not_and]
    intro h1 h2
    exfalso
    apply hact
    constructor
    · apply Nat.le_of_not_lt
      intro hlt
      have := hst2 r hlt
      rw [hce _ (by omega), hend] at this
      omega
    · apply Nat.le_of_not_lt
      intro hlt
      have := hsp3 r hlt (by omega)
      rw [hce _ (by omega)] at this
      omega

/-- **C17 (partial).** On a balanced array, `a[start:stop:step] = c` with `start ≥ 0` (or omitted), `stop ≥ -n` (or
omitted; it may exceed `n`) and a positive (or omitted) step overwrites exactly the slabs that the slice selects.
Missing from the full property: negative starts, `stop < -n` and unbalanced arrays, for which it is false
(`setitemSlice_*_violated`). -/
theorem setitemSlice_partial (P : Nat) (d : Nat → List α) (hb : Balanced P d) (start stop : Option Int)
    (step : Option Nat) (c : α) (hstep : ∀ s, step = some s → 0 < s)
    (hs : 0 ≤ start.getD 0) (he : -((content P d).length : Int) ≤ stop.getD (content P d).length) :
    content P (setitemSlice (content P d).length P d start stop step c) =
      overwrite (inSlice (content P d).length start stop (step.getD 1)) c (content P d) := by
  rw [overwrite_content]
  apply content_congr
  intro r hr
  generalize hhi : (if stop.getD (content P d).length < 0 then ((content P d).length : Int) + stop.getD (content P d).length
      else stop.getD (content P d).length) = hi
  have hhi0 : 0 ≤ hi := by rw [← hhi]; split <;> omega
  rw [setitemSlice_core P d hb start stop step c hstep (start.getD 0).toNat hi.toNat (by omega) (by omega) r hr]
  apply overwrite_congr
  intro j hj
  have hlt : startOf d r + j < (content P d).length := by
    have := startOf_mono d (show r + 1 ≤ P by omega)
    rw [startOf_succ] at this
    unfold startOf at *; omega
  have hclamp : clampBound (content P d).length (stop.getD (content P d).length) = min hi.toNat (content P d).length := by
    unfold clampBound; rw [← hhi]; split <;> omega
  unfold gpred inSlice
  simp only
  rw [hclamp, decide_eq_decide]
  have : clampBound (content P d).length (start.getD 0) = min (start.getD 0).toNat (content P d).length := by
    unfold clampBound; rw [if_neg (by omega)]
  rw [this]
  by_cases h : (start.getD 0).toNat ≤ (content P d).length
  · rw [Nat.min_eq_left h]
    constructor
    · rintro ⟨a, b, c⟩; exact ⟨a, by omega, c⟩
    · rintro ⟨a, b, c⟩; exact ⟨a, by omega, c⟩
  · rw [Nat.min_eq_right (a := (start.getD 0).toNat) (by omega)]
    constructor
    · rintro ⟨a, b, c⟩; omega
    · rintro ⟨a, b, c⟩; omega

theorem exEven_balanced : Balanced 2 exEven := by unfold Balanced; decide

example : content 2 (setitemSlice 6 2 exEven (some 1) (some 100) (some 2) 9) = [0, 9, 2, 9, 4, 9] := by decide

/-- `a[-1:] = 9` on a balanced array of 6 slabs on two ranks also overwrites slabs 2, 3 and 4. -/
theorem setitemSlice_negative_start_violated :
    content 2 (setitemSlice 6 2 exEven (some (-1)) none none 9) = [0, 1, 9, 9, 9, 9] ∧
    overwrite (inSlice 6 (some (-1)) none 1) 9 (content 2 exEven) = [0, 1, 2, 3, 4, 9] := by decide

/-- `a[:-7] = 9` overwrites slabs although the slice is empty. -/
theorem setitemSlice_stop_before_violated :
    content 2 (setitemSlice 6 2 exEven none (some (-7)) none 9) = [9, 9, 2, 3, 4, 5] ∧
    overwrite (inSlice 6 none (some (-7)) 1) 9 (content 2 exEven) = [0, 1, 2, 3, 4, 5] := by decide

/-- On an unbalanced array `a[4:5] = 9` overwrites the wrong slab. -/
theorem setitemSlice_unbalanced_violated :
    let d : Nat → List Nat := fun r => ([[0, 1], [2, 3, 4, 5]] : List (List Nat)).getD r []
    content 2 (setitemSlice 6 2 d (some 4) (some 5) none 9) = [0, 1, 2, 9, 4, 5] ∧
    overwrite (inSlice 6 (some 4) (some 5) 1) 9 (content 2 d) = [0, 1, 2, 3, 9, 5] := by decide

/-! ## C18 -/

theorem content_set (d : Nat → List α) (P r j : Nat) (c : α) (hr : r < P) (hj : j < (d r).length) :
    content P (fun q => if q = r then (d r).set j c else d q) = (content P d).set (startOf d r + j) c := by
  induction P with
  | zero => omega
  | succ k ih =>
    rw [content_succ, content_succ]
    by_cases hrk : r = k
    · subst hrk
      rw [if_pos rfl, List.set_append_right _ _ (by unfold startOf; omega)]
      congr 1
      · apply content_congr; intro i hi; rw [if_neg (by omega)]
      · congr 1; unfold startOf; omega
    · rw [ih (by omega), if_neg (by omega), List.set_append_left]
      have := startOf_mono d (show r + 1 ≤ k by omega)
      rw [startOf_succ] at this
      unfold startOf at *; omega

/-- **C18.** On a balanced array of `n` slabs, `a[i] = c` with `-n ≤ i < n` succeeds on every process and changes exactly
the `i`-th slab (counted from the end if `i < 0`).  (`_partial`: for unbalanced arrays it is false,
`setitemInt_unbalanced_violated`; an index out of range is ignored, `setitemInt_out_of_range`.) -/
theorem setitemInt_partial (P : Nat) (d : Nat → List α) (hb : Balanced P d) (i : Int) (c : α)
    (h1 : -((content P d).length : Int) ≤ i) (h2 : i < (content P d).length) :
    ∃ res : Nat → List α, (∀ r < P, setitemInt (content P d).length P d i c r = .ok (res r)) ∧
      content P res =
        (content P d).set (if i < 0 then i + (content P d).length else i).toNat c := by
  generalize hk : (if i < 0 then i + ((content P d).length : Int) else i) = k
  have hk0 : 0 ≤ k := by rw [← hk]; split <;> omega
  have hkn : k < (content P d).length := by rw [← hk]; split <;> omega
  obtain ⟨o, ho, h3, h4⟩ := startOf_owner d P k.toNat (by unfold startOf; omega)
  have h4' := h4
  rw [startOf_succ] at h4
  refine ⟨fun q => if q = o then (d o).set (k.toNat - startOf d o) c else d q, ?_, ?_⟩
  · intro r hr
    have e1 := balanced_chunk_start hb r (by omega)
    have e2 : startOf d (r + 1) = (chunkRange (content P d).length r P).2 := by
      rw [balanced_chunk_start hb (r + 1) (by omega), chunkRange_succ]
    unfold setitemInt
    simp only
    rw [← e1, ← e2]
    by_cases hro : r = o
    · subst hro
      rw [if_pos rfl]
      by_cases hneg : i < 0
      · rw [if_neg (by omega), if_pos hneg, if_pos (by rw [← hk, if_pos hneg] at *; omega)]
        have : (i + ((content P d).length : Int) - (startOf d r : Int)).toNat = k.toNat - startOf d r := by
          rw [← hk, if_pos hneg] at *; omega
        rw [this, if_pos (by omega)]
      · have hki : k = i := by rw [← hk, if_neg hneg]
        rw [if_pos (by omega)]
        have : (i - (startOf d r : Int)).toNat = k.toNat - startOf d r := by omega
        rw [this, if_pos (by omega)]
    · rw [if_neg hro]
      have hnot : ¬ (startOf d r ≤ k.toNat ∧ k.toNat < startOf d (r + 1)) := by
        rintro ⟨a, b⟩
        exact hro (startOf_owner_unique d k.toNat r o a b h3 h4')
      by_cases hneg : i < 0
      · have hki : k = i + (content P d).length := by rw [← hk, if_pos hneg]
        rw [if_neg (by omega), if_pos hneg, if_neg (by omega)]
      · have hki : k = i := by rw [← hk, if_neg hneg]
        rw [if_neg (by omega), if_neg hneg]
  · rw [content_set d P o _ c ho (by omega)]
    congr 1; omega

example : (∀ r < 2, setitemInt 6 2 exEven (-2) 9 r = .ok (([[0, 1, 2], [3, 9, 5]] : List (List Nat)).getD r [])) := by decide

/-- An index out of range changes nothing and raises nothing (an undistributed array raises IndexError). -/
theorem setitemInt_out_of_range (n P : Nat) (hP : 0 < P) (d : Nat → List α) (i : Int) (c : α) (r : Nat) (hr : r < P)
    (h : i < -(n : Int) ∨ i ≥ n) : setitemInt n P d i c r = .ok (d r) := by
  unfold setitemInt
  simp only
  have hle : (chunkRange n r P).2 ≤ n := by
    rw [← chunkRange_succ]
    have := chunkRange_mono n P (show r + 1 ≤ P by omega)
    rw [chunkRange_at_P n P hP] at this; exact this
  rw [if_neg (by omega)]
  split
  · rw [if_neg (by omega)]
  · rfl

/-- On an unbalanced array `a[2] = 9` raises (rank 0 thinks it owns slab 2). -/
theorem setitemInt_unbalanced_violated :
    let d : Nat → List Nat := fun r => ([[0, 1], [2, 3, 4, 5]] : List (List Nat)).getD r []
    setitemInt 6 2 d 2 9 0 = .error .indexError := by decide

/-- On an unbalanced array `a[3] = 9` silently changes slab 2 instead of slab 3. -/
theorem setitemInt_unbalanced_wrong_slab_violated :
    let d : Nat → List Nat := fun r => ([[0, 1], [2, 3, 4, 5]] : List (List Nat)).getD r []
    setitemInt 6 2 d 3 9 0 = .ok [0, 1] ∧ setitemInt 6 2 d 3 9 1 = .ok [9, 3, 4, 5] := by decide

end Heat
