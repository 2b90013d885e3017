import Verif.Model.SetValue
import Verif.Props.Indexing
import Verif.Props.Dist
import Mathlib.Data.List.Nodup
/-!
# C143, C144: assigning array values, and assigning through index tensors
-/
namespace Heat
open Heat.Spec
variable {α : Type}

theorem selBelow_add (p : Nat → Bool) (a b : Nat) : selBelow p (a + b) = selBelow p a + selBelow (fun j => p (a + j)) b := by
  unfold selBelow
  rw [List.range_add, List.countP_append, List.countP_map]
  rfl

theorem selBelow_succ (p : Nat → Bool) (a : Nat) : selBelow p (a + 1) = selBelow p a + (if p a then 1 else 0) := by
  unfold selBelow
  rw [List.range_succ, List.countP_append]
  simp [List.countP_cons]

theorem selBelow_congr {p q : Nat → Bool} {m : Nat} (h : ∀ j < m, p j = q j) : selBelow p m = selBelow q m := by
  unfold selBelow
  exact List.countP_congr fun x hx => by rw [h x (List.mem_range.1 hx)]

theorem selBelow_mono (p : Nat → Bool) {a b : Nat} (h : a ≤ b) : selBelow p a ≤ selBelow p b := by
  obtain ⟨c, rfl⟩ := Nat.exists_eq_add_of_le h
  rw [selBelow_add]; omega

theorem selBelow_lt (p : Nat → Bool) {g m : Nat} (hg : g < m) (hp : p g = true) : selBelow p g < selBelow p m := by
  have := selBelow_mono p (show g + 1 ≤ m by omega)
  rw [selBelow_succ, hp] at this
  simp at this; omega

theorem selBelow_interval (a b m : Nat) (p : Nat → Bool) (hp : ∀ j < m, p j = decide (a ≤ j ∧ j < b)) : selBelow p m = min b m - a := by
  induction m with
  | zero => simp [selBelow]
  | succ m ih =>
    rw [selBelow_succ, ih fun j hj => hp j (by omega), hp m (by omega)]
    by_cases h : a ≤ m ∧ m < b
    · rw [if_pos (by simpa using h)]; omega
    · rw [if_neg (by simpa using h)]; omega

theorem assignSel_congr {p q : Nat → Bool} {v w l : List α} (h : ∀ j < l.length, p j = q j)
    (hv : ∀ k < selBelow p l.length, v[k]? = w[k]?) : assignSel p v l = assignSel q w l := by
  unfold assignSel
  apply List.ext_getElem
  · simp
  · intro i h1 h2
    simp only [List.length_mapIdx] at h1
    simp only [List.getElem_mapIdx]
    rw [← h i h1]
    by_cases hp : p i = true
    · rw [if_pos hp, if_pos hp, List.getD_eq_getElem?_getD, List.getD_eq_getElem?_getD, hv _ (selBelow_lt p h1 hp),
        selBelow_congr (q := q) fun j hj => h j (by omega)]
    · rw [if_neg hp, if_neg hp]

theorem assignSel_append (p : Nat → Bool) (v l l' : List α) : assignSel p v (l ++ l') =
    assignSel p v l ++ assignSel (fun j => p (l.length + j)) (v.drop (selBelow p l.length)) l' := by
  unfold assignSel
  rw [List.mapIdx_append]
  congr 1
  apply List.ext_getElem
  · simp
  · intro i h1 h2
    simp only [List.getElem_mapIdx]
    rw [Nat.add_comm i, selBelow_add, List.getD_eq_getElem?_getD, List.getD_eq_getElem?_getD, List.getElem?_drop]

theorem assignSel_content (p : Nat → Bool) (v : List α) (P : Nat) (d : Nat → List α) : assignSel p v (content P d) =
    content P fun r => assignSel (fun j => p (startOf d r + j)) (v.drop (selBelow p (startOf d r))) (d r) := by
  induction P with
  | zero => rfl
  | succ k ih => rw [content_succ, content_succ, assignSel_append, ih]; rfl

theorem assignSel_nil {p : Nat → Bool} {v l : List α} (h : ∀ j < l.length, p j = false) : assignSel p v l = l := by
  unfold assignSel
  apply List.ext_getElem
  · simp
  · intro i h1 h2
    simp only [List.getElem_mapIdx]
    rw [h i h2]; rfl

theorem torchPut_eq {p q : Nat → Bool} {v w l : List α} (h : ∀ j < l.length, p j = q j) (hl : v.length = selBelow q l.length)
    (hv : ∀ k < selBelow q l.length, v[k]? = w[k]?) : torchPut p v l = .ok (assignSel q w l) := by
  unfold torchPut
  rw [if_pos (by rw [hl]; exact (selBelow_congr h).symm)]
  rw [assignSel_congr (w := w) h (by rw [selBelow_congr h]; exact hv)]

theorem pySlice_nat (v : List α) (a b : Nat) : pySlice v (some (a : Int)) (some (b : Int)) 1 = (v.drop a).take (b - a) := by
  have key : ∀ (v : List α) (o : Nat) (q : Nat → Bool), (∀ j < v.length, q (o + j) = decide (a ≤ o + j ∧ o + j < b)) →
      pick q o v = (v.drop (a - o)).take (b - max a o) := by
    intro v
    induction v with
    | nil => intro o q _; simp [pick]
    | cons x t ih =>
      intro o q hq
      have ih' := ih (o + 1) q fun j hj => by
        have := hq (j + 1) (by simpa using hj)
        rw [show o + (j + 1) = o + 1 + j by omega] at this; exact this
      have h0 := hq 0 (by simp)
      rw [Nat.add_zero] at h0
      rw [pick, ih', h0]
      by_cases h : a ≤ o ∧ o < b
      · rw [if_pos (by simpa using h), show a - o = 0 by omega, show a - (o + 1) = 0 by omega, List.drop_zero, List.drop_zero,
          show b - max a o = (b - max a (o + 1)) + 1 by omega, List.take_succ_cons]
      · rw [if_neg (by simpa using h)]
        by_cases h2 : a ≤ o
        · rw [show b - max a o = 0 by omega, show b - max a (o + 1) = 0 by omega]; simp
        · rw [show a - o = (a - (o + 1)) + 1 by omega, List.drop_succ_cons, show max a (o + 1) = max a o by omega]
  unfold pySlice
  rw [key v 0 _ fun j hj => ?_, Nat.sub_zero, show max a 0 = a by omega]
  rw [Nat.zero_add, inSlice_nat _ _ _ _ _ hj, decide_eq_decide, Nat.mod_one]
  constructor
  · rintro ⟨h1, h2, -⟩; exact ⟨h1, h2⟩
  · rintro ⟨h1, h2⟩; exact ⟨h1, h2, rfl⟩

theorem ceilDivInt_one (a : Int) : ceilDivInt a 1 = a := by unfold ceilDivInt; simp

/-- What `__setitem__` computes for rank `r` on a balanced array. -/
theorem setKey_spec (P : Nat) (d : Nat → List α) (hb : Balanced P d) (start stop : Option Int) (step : Option Nat)
    (hstep : ∀ s, step = some s → 0 < s) (lo hi : Nat) (hlo : setKeyStart start = (lo : Int))
    (hhi : setKeyStop (content P d).length stop = (hi : Int)) (r : Nat) (hr : r < P) :
    (setKey (content P d).length P start stop step r = none ∧ ∀ j < (d r).length, gpred lo hi (step.getD 1) (startOf d r + j) = false) ∨
    ∃ ks ke : Nat, setKey (content P d).length P start stop step r = some ((ks : Int), (ke : Int)) ∧
      (∀ j < (d r).length, decide (ks ≤ j ∧ j < ke ∧ (j - ks) % (step.getD 1) = 0) = gpred lo hi (step.getD 1) (startOf d r + j)) ∧
      startOf d r ≤ hi ∧ ke = min (d r).length (hi - startOf d r) ∧
      (startOf d r ≤ lo ∧ lo < startOf d r + (d r).length ∧ ks = lo - startOf d r ∨ lo ≤ startOf d r ∧ (step.getD 1 = 1 → ks = 0)) := by
  have hce : ∀ r ≤ P, cum (setEnds (content P d).length P) r = (startOf d r : Int) := fun r hr => balanced_cum_ends hb r hr
  have hs : 0 < step.getD 1 := by
    cases step with
    | none => simp
    | some s => exact hstep s rfl
  unfold setKey
  simp only
  rw [hlo, hhi]
  generalize hst : (firstFrom P 0 fun r => decide ((lo : Int) < cum (setEnds (content P d).length P) (r + 1))).getD P = st
  generalize hsp : (lastWhere (P + 1) fun r => decide ((hi : Int) ≥ cum (setEnds (content P d).length P) r)).getD 0 = sp
  obtain ⟨hst1, hst2, hst3⟩ := stPr_spec P (fun r => cum (setEnds (content P d).length P) (r + 1)) lo st hst
  obtain ⟨hsp1, hsp2, hsp3⟩ := spPr_spec (P + 1) (fun r => cum (setEnds (content P d).length P) r) hi sp (by omega) (by simp [cum]) hsp
  have hend : ∀ r, startOf d (r + 1) = startOf d r + (d r).length := startOf_succ d
  by_cases hact : st ≤ r ∧ r ≤ sp
  · right
    rw [if_pos hact]
    have hst3' := hst3 (by omega)
    rw [hce _ (by omega)] at hst3' hsp2
    have hf1 : r = st → startOf d r ≤ lo := by
      intro h
      subst h
      cases r with
      | zero => simp [startOf_zero]
      | succ k =>
        have := hst2 k (by omega)
        rw [hce _ (by omega)] at this; omega
    have hf2 : st < r → lo ≤ startOf d r := by
      intro h
      have h2 := startOf_mono d (show st + 1 ≤ r by omega)
      omega
    have hohi : startOf d r ≤ hi := by
      have h2 := startOf_mono d hact.2
      omega
    have hsz : setEnds (content P d).length P r = ((d r).length : Int) := by unfold setEnds; simp only; rw [chunkRange_size, hb r hr]
    rw [hce r (by omega), hsz]
    have hx : xitemStart r st (if r ≠ st then 0 else (lo : Int) - (startOf d r : Int)) step
        (cum (setEnds (content P d).length P) (r - 1 + 1)) lo =
        ((lks (r == st) lo (startOf d r) (step.getD 1) : Nat) : Int) := by
      cases step with
      | none =>
        unfold xitemStart lks
        simp only [Option.getD_none, Nat.mod_one, if_true]
        by_cases h : r = st
        · subst h
          have := hf1 rfl
          simp; omega
        · simp [h]
      | some s =>
        rw [Option.getD_some]
        by_cases h : st < r
        · rw [show r - 1 + 1 = r by omega, hce r (by omega)]
          exact xitemStart_eq r st lo _ s hs hact.1 hf1 hf2
        · have hrs : r = st := by omega
          have := xitemStart_eq r st lo _ s hs hact.1 hf1 hf2
          rw [Option.getD_some] at *
          rw [← this]
          unfold xitemStart; simp [hrs]
    have hke : (if r ≠ sp then ((d r).length : Int) else (hi : Int) - (startOf d r : Int)) =
        (((if (r == sp) then hi - startOf d r else (d r).length : Nat)) : Int) := by
      by_cases h : r = sp
      · subst h; simp; omega
      · simp [h]
    have hl1 : (r == sp) = false → startOf d r + (d r).length ≤ hi := by
      intro h
      have hne : r ≠ sp := by simpa using h
      have h2 := startOf_mono d (show r + 1 ≤ sp by omega)
      have := hend r
      omega
    refine ⟨lks (r == st) lo (startOf d r) (step.getD 1), if (r == sp) then hi - startOf d r else (d r).length, by rw [hx, hke], ?_, hohi, ?_, ?_⟩
    · intro j hj
      rw [← inSlice_nat _ _ _ _ _ hj]
      exact local_pred (d r).length 0 0 lo hi (startOf d r) (step.getD 1) j hs (r == st) (r == sp)
        (fun h => hf1 (by simpa using h)) (fun h => hf2 (by have : r ≠ st := by simpa using h
                                                            omega))
        hl1 (fun _ => hohi) hj _ rfl (Or.inl (Nat.le_refl _))
    · by_cases h : r = sp
      · subst h
        have := hsp3 (r + 1) (by omega) (by omega)
        rw [hce _ (by omega), hend] at this
        simp; omega
      · have := hl1 (by simpa using h)
        rw [if_neg (by simpa using h)]; omega
    · by_cases h : r = st
      · left
        subst h
        refine ⟨hf1 rfl, ?_, by simp [lks]⟩
        rw [hend] at hst3'; omega
      · right
        refine ⟨hf2 (by omega), fun h1 => ?_⟩
        unfold lks
        rw [if_neg (by simpa using h), h1, Nat.mod_one, if_pos rfl]
  · left
    rw [if_neg hact]
    refine ⟨rfl, fun j hj => ?_⟩
    unfold gpred
    simp only [decide_eq_false_iff_not, not_and]
    intro h1 h2
    exfalso
    apply hact
    constructor
    · apply Nat.le_of_not_lt
      intro hlt
      have := hst2 r hlt
      rw [hce _ (by omega), hend] at this
      omega
    · apply Nat.le_of_not_lt
      intro hlt
      have := hsp3 r hlt (by omega)
      rw [hce _ (by omega)] at this
      omega

/-- The positions a Python slice selects, in terms of the bounds `__setitem__` computes. -/
theorem inSlice_gpred (n : Nat) (start stop : Option Int) (s lo hi : Nat) (hlo : setKeyStart start = (lo : Int))
    (hhi : setKeyStop n stop = (hi : Int)) {g : Nat} (hg : g < n) : inSlice n start stop s g = gpred lo hi s g := by
  have hclamp : clampBound n (stop.getD n) = min hi n := by
    unfold clampBound; unfold setKeyStop at hhi; split at hhi
    · rw [if_pos (by assumption)]; omega
    · rw [if_neg (by assumption)]; omega
  have hclamp2 : clampBound n (start.getD 0) = min lo n := by
    unfold clampBound; unfold setKeyStart at hlo; rw [if_neg (by omega), hlo]; simp
  unfold gpred inSlice
  simp only
  rw [hclamp, hclamp2, decide_eq_decide]
  by_cases h : lo ≤ n
  · rw [Nat.min_eq_left h]
    constructor
    · rintro ⟨a, b, c⟩; exact ⟨a, by omega, c⟩
    · rintro ⟨a, b, c⟩; exact ⟨a, by omega, c⟩
  · rw [Nat.min_eq_right (a := lo) (by omega)]
    constructor
    · rintro ⟨a, b, c⟩; omega
    · rintro ⟨a, b, c⟩; omega

theorem part_le (P : Nat) (d : Nat → List α) {r : Nat} (hr : r < P) : startOf d r + (d r).length ≤ (content P d).length := by
  have := startOf_mono d (show r + 1 ≤ P by omega)
  rw [startOf_succ] at this
  unfold startOf at *; omega

theorem mod_one_and (a b c : Nat) : (a ≤ c ∧ c < b ∧ (c - a) % 1 = 0) ↔ (a ≤ c ∧ c < b) := by
  constructor
  · rintro ⟨x, y, -⟩; exact ⟨x, y⟩
  · rintro ⟨x, y⟩; exact ⟨x, y, Nat.mod_one _⟩

/-- The number of slabs selected by a slice without a step. -/
theorem sel_count (n : Nat) (start stop : Option Int) (lo hi : Nat) (hlo : setKeyStart start = (lo : Int)) (hhi : setKeyStop n stop = (hi : Int))
    {m : Nat} (hm : m ≤ n) : selBelow (inSlice n start stop 1) m = min hi m - lo := by
  apply selBelow_interval
  intro j hj
  rw [inSlice_gpred n start stop 1 lo hi hlo hhi (by omega)]
  unfold gpred
  rw [decide_eq_decide, mod_one_and]

/-- **C143 (partial), replicated value.**  On a balanced array, `a[start:stop] = v` (no step, or step 1) with `start ≥ 0`, `stop ≥ -n` and a
tensor `v` of as many slabs as the slice selects writes `v[k]` to the `k`-th selected slab, provided the slice begins at the first slab of
a process or does not reach beyond the process on which it begins.  Missing from the full property: other slices and other steps, for
which it is false (`setitemTensor_misaligned_violated`, `setitemTensor_step_violated`). -/
theorem setitemTensor_partial (P : Nat) (d : Nat → List α) (hb : Balanced P d) (start stop : Option Int) (step : Option Nat)
    (hstep : step.getD 1 = 1) (hs : 0 ≤ start.getD 0) (he : -((content P d).length : Int) ≤ stop.getD (content P d).length)
    (v : List α) (hv : v.length = selBelow (inSlice (content P d).length start stop 1) (content P d).length)
    (hal : ∀ r < P, (startOf d r : Int) < start.getD 0 → start.getD 0 < (startOf d (r + 1) : Int) →
      setKeyStop (content P d).length stop ≤ (startOf d (r + 1) : Int)) :
    ∃ d' : Nat → List α, (∀ r < P, setitemTensor (content P d).length P d start stop step v r = .ok (d' r)) ∧
      content P d' = assignSel (inSlice (content P d).length start stop 1) v (content P d) := by
  obtain ⟨lo, hlo⟩ : ∃ lo : Nat, setKeyStart start = (lo : Int) := ⟨(start.getD 0).toNat, by unfold setKeyStart; omega⟩
  obtain ⟨hi, hhi⟩ : ∃ hi : Nat, setKeyStop (content P d).length stop = (hi : Int) :=
    ⟨(setKeyStop (content P d).length stop).toNat, by unfold setKeyStop; split <;> omega⟩
  rw [show start.getD 0 = (lo : Int) from hlo, hhi] at hal
  rw [assignSel_content]
  refine ⟨_, fun r hr => ?_, rfl⟩
  have hle := part_le P d hr
  have hcnt : v.length = min hi (content P d).length - lo := by
    rw [hv, sel_count _ _ _ lo hi hlo hhi (Nat.le_refl _)]
  have hbel : selBelow (inSlice (content P d).length start stop 1) (startOf d r) = min hi (startOf d r) - lo :=
    sel_count _ _ _ lo hi hlo hhi (by omega)
  have hloc : ∀ j < (d r).length, inSlice (content P d).length start stop 1 (startOf d r + j) = gpred lo hi 1 (startOf d r + j) :=
    fun j hj => inSlice_gpred _ _ _ _ _ _ hlo hhi (by omega)
  unfold setitemTensor
  rcases setKey_spec P d hb start stop step (by rintro s rfl; simp at hstep; omega) lo hi hlo hhi r hr with ⟨hn, h0⟩ | ⟨ks, ke, hk, hp, hohi, hke, hks⟩
  · rw [hn, hstep] at *
    simp only
    rw [assignSel_nil fun j hj => by rw [hloc j hj]; exact h0 j hj]
  · rw [hk]
    simp only
    rw [hstep] at hp hks ⊢
    rw [hlo, show cum (setEnds (content P d).length P) r = (startOf d r : Int) from balanced_cum_ends hb r (by omega), ceilDivInt_one,
      show max ((startOf d r : Int) - (lo : Int)) 0 = ((startOf d r - lo : Nat) : Int) by omega,
      show ((startOf d r - lo : Nat) : Int) + (ke : Int) = ((startOf d r - lo + ke : Nat) : Int) by omega, pySlice_nat,
      show startOf d r - lo + ke - (startOf d r - lo) = ke by omega]
    have hsel : ∀ j < (d r).length, inSlice (d r).length (some (ks : Int)) (some (ke : Int)) 1 j =
        inSlice (content P d).length start stop 1 (startOf d r + j) := by
      intro j hj
      rw [inSlice_nat _ _ _ _ _ hj, hloc j hj, hp j hj]
    have hq : selBelow (fun j => inSlice (content P d).length start stop 1 (startOf d r + j)) (d r).length = ke - ks := by
      rw [← selBelow_congr hsel, selBelow_interval ks ke _ _ fun j hj => ?_]
      · rw [hke]; omega
      · rw [inSlice_nat _ _ _ _ _ hj, decide_eq_decide, mod_one_and]
    have hks' : startOf d r < lo ∧ hi ≤ startOf d r + (d r).length ∧ ks = lo - startOf d r ∨ lo ≤ startOf d r ∧ ks = 0 := by
      rcases hks with ⟨h1, h2, h3⟩ | ⟨h1, h2⟩
      · by_cases h : startOf d r = lo
        · right; omega
        · left
          have := hal r hr (by omega) (by rw [startOf_succ]; omega)
          rw [startOf_succ] at this
          omega
      · exact Or.inr ⟨h1, h2 rfl⟩
    apply torchPut_eq hsel
    · rw [hq, List.length_take, List.length_drop, hcnt]
      omega
    · rw [hq, hbel]
      intro k hk'
      rw [List.getElem?_take, if_pos (by omega), show startOf d r - lo = min hi (startOf d r) - lo by omega]

-- three slabs written from the middle of process 0 to its end; then the whole of process 1 and beyond
example : (∀ r < 2, setitemTensor 6 2 exEven (some 0) (some 5) none [10, 11, 12, 13, 14] r =
    .ok (([[10, 11, 12], [13, 14, 5]] : List (List Nat)).getD r [])) ∧
    assignSel (inSlice 6 (some 0) (some 5) 1) [10, 11, 12, 13, 14] (content 2 exEven) = [10, 11, 12, 13, 14, 5] := by decide

example : ∃ d' : Nat → List Nat, (∀ r < 2, setitemTensor 6 2 exEven (some 1) (some (-3)) none [7, 8] r = .ok (d' r)) ∧
    content 2 d' = [0, 7, 8, 3, 4, 5] :=
  setitemTensor_partial 2 exEven exEven_balanced (some 1) (some (-3)) none rfl (by decide) (by decide) [7, 8] (by decide) (by decide)

/-- Whenever a slice without step begins strictly inside the part of a process and reaches into the part of a later one, assigning a
tensor of the right size raises RuntimeError on the first process (the value handed to torch is too long by the number of slabs before
the start). -/
theorem setitemTensor_misaligned_violated (P : Nat) (d : Nat → List α) (hb : Balanced P d) (start stop : Option Int)
    (he : -((content P d).length : Int) ≤ stop.getD (content P d).length)
    (v : List α) (hv : v.length = selBelow (inSlice (content P d).length start stop 1) (content P d).length)
    (r : Nat) (hr : r < P) (h1 : (startOf d r : Int) < start.getD 0) (h2 : start.getD 0 < (startOf d (r + 1) : Int))
    (h3 : (startOf d (r + 1) : Int) < setKeyStop (content P d).length stop) (h4 : startOf d (r + 1) < (content P d).length) :
    setitemTensor (content P d).length P d start stop none v r = .error .runtimeError := by
  obtain ⟨lo, hlo⟩ : ∃ lo : Nat, setKeyStart start = (lo : Int) := ⟨(start.getD 0).toNat, by unfold setKeyStart; omega⟩
  obtain ⟨hi, hhi⟩ : ∃ hi : Nat, setKeyStop (content P d).length stop = (hi : Int) :=
    ⟨(setKeyStop (content P d).length stop).toNat, by unfold setKeyStop; split <;> omega⟩
  rw [show start.getD 0 = (lo : Int) from hlo] at h1 h2
  rw [hhi] at h3
  have hcnt : v.length = min hi (content P d).length - lo := by
    rw [hv, sel_count _ _ _ lo hi hlo hhi (Nat.le_refl _)]
  rw [startOf_succ] at h2 h3 h4
  unfold setitemTensor
  rcases setKey_spec P d hb start stop none (by simp) lo hi hlo hhi r hr with ⟨hn, h0⟩ | ⟨ks, ke, hk, hp, hohi, hke, hks⟩
  · exfalso
    have := h0 (lo - startOf d r) (by omega)
    rw [show startOf d r + (lo - startOf d r) = lo by omega] at this
    unfold gpred at this
    simp at this
    omega
  · rw [hk]
    simp only [Option.getD_none]
    rw [hlo, show cum (setEnds (content P d).length P) r = (startOf d r : Int) from balanced_cum_ends hb r (by omega), ceilDivInt_one,
      show max ((startOf d r : Int) - (lo : Int)) 0 = ((0 : Nat) : Int) by omega,
      show ((0 : Nat) : Int) + (ke : Int) = ((ke : Nat) : Int) by omega, pySlice_nat, List.drop_zero, Nat.sub_zero]
    have hq : selBelow (inSlice (d r).length (some (ks : Int)) (some (ke : Int)) 1) (d r).length = ke - ks := by
      rw [selBelow_interval ks ke _ _ fun j hj => ?_]
      · rw [hke]; omega
      · rw [inSlice_nat _ _ _ _ _ hj, decide_eq_decide, mod_one_and]
    have hks' : ks = lo - startOf d r := by
      rcases hks with ⟨_, _, h⟩ | ⟨h, _⟩ <;> omega
    have hlen : (v.take ke).length = min ke v.length := List.length_take
    unfold torchPut
    rw [hq, if_neg (by rw [hlen]; omega)]
    have : 2 ≤ (v.take ke).length := by rw [hlen]; omega
    match hm : v.take ke, this with
    | _ :: _ :: _, _ => rfl

/-- `a[1:5] = torch.tensor([7, 8, 9, 10])` on six slabs on two processes: process 0 raises, process 1 has written its part. -/
example : setitemTensor 6 2 exEven (some 1) (some 5) none [7, 8, 9, 10] 0 = .error .runtimeError ∧
    setitemTensor 6 2 exEven (some 1) (some 5) none [7, 8, 9, 10] 1 = .ok [9, 10, 5] := by decide

/-- With a step the value's slice is not scaled: `a[::3] = torch.tensor([7, 8])` raises on process 1. -/
theorem setitemTensor_step_violated :
    setitemTensor 6 2 exEven none none (some 3) [7, 8] 1 = .error .runtimeError ∧
    assignSel (inSlice 6 none none 3) [7, 8] (content 2 exEven) = [7, 1, 2, 8, 4, 5] := by decide

/-- Eight slabs on two processes, four each. -/
def exEight : Nat → List Nat := fun r => ([[0, 1, 2, 3], [4, 5, 6, 7]] : List (List Nat)).getD r []

/-- With a step the wrong values can also be written without an error: `a[1::2] = torch.tensor([10, 11, 12, 13])` on eight slabs on two
processes broadcasts the last value over process 1. -/
theorem setitemTensor_step_silent_violated :
    (∀ r < 2, setitemTensor 8 2 exEight (some 1) none (some 2) [10, 11, 12, 13] r =
      .ok (([[0, 10, 2, 11], [4, 13, 6, 13]] : List (List Nat)).getD r [])) ∧
    assignSel (inSlice 8 (some 1) none 2) [10, 11, 12, 13] (content 2 exEight) = [0, 10, 2, 11, 4, 12, 6, 13] := by decide

/-- A tensor of one slab is not broadcast over more than one process: `a[:] = torch.tensor([7])` raises on process 1. -/
theorem setitemTensor_broadcast_violated :
    setitemTensor 6 2 exEven none none none [7] 0 = .ok [7, 7, 7] ∧ setitemTensor 6 2 exEven none none none [7] 1 = .error .runtimeError := by
  decide

/-! ## Values that are distributed themselves -/

theorem setTarget_eq (P : Nat) (d : Nat → List α) (hb : Balanced P d) (start stop : Option Int) (step : Option Nat)
    (hstep : ∀ s, step = some s → 0 < s) (lo hi : Nat) (hlo : setKeyStart start = (lo : Int))
    (hhi : setKeyStop (content P d).length stop = (hi : Int)) (r : Nat) (hr : r < P) :
    setTarget (content P d).length P start stop step r =
      selBelow (fun j => inSlice (content P d).length start stop (step.getD 1) (startOf d r + j)) (d r).length := by
  have hle := part_le P d hr
  have hloc : ∀ j < (d r).length, inSlice (content P d).length start stop (step.getD 1) (startOf d r + j) =
      gpred lo hi (step.getD 1) (startOf d r + j) := fun j hj => inSlice_gpred _ _ _ _ _ _ hlo hhi (by omega)
  unfold setTarget
  rcases setKey_spec P d hb start stop step hstep lo hi hlo hhi r hr with ⟨hn, h0⟩ | ⟨ks, ke, hk, hp, hohi, hke, hks⟩
  · rw [hn]
    simp only
    rw [selBelow_interval 0 0 _ _ fun j hj => by rw [hloc j hj, h0 j hj]; simp]
    omega
  · rw [hk]
    simp only
    obtain ⟨c, hc⟩ := Nat.exists_eq_add_of_le (show (d r).length ≤ (content P d).length by omega)
    have e : selBelow (inSlice (content P d).length (some (ks : Int)) (some (ke : Int)) (step.getD 1)) (content P d).length =
        selBelow (fun j => decide (ks ≤ j ∧ j < ke ∧ (j - ks) % (step.getD 1) = 0)) (content P d).length :=
      selBelow_congr fun j hj => inSlice_nat _ _ _ _ _ hj
    rw [e, hc, selBelow_add, selBelow_interval 0 0 c _ fun j hj => by simp; intro _ h; omega]
    rw [selBelow_congr (q := fun j => inSlice (content P d).length start stop (step.getD 1) (startOf d r + j))
      fun j hj => by rw [hloc j hj]; exact hp j hj, ← hc]
    omega

theorem sum_setTarget (P : Nat) (d : Nat → List α) (hb : Balanced P d) (start stop : Option Int) (step : Option Nat)
    (hstep : ∀ s, step = some s → 0 < s) (lo hi : Nat) (hlo : setKeyStart start = (lo : Int))
    (hhi : setKeyStop (content P d).length stop = (hi : Int)) (k : Nat) (hk : k ≤ P) :
    ((List.range k).map (setTarget (content P d).length P start stop step)).sum =
      selBelow (inSlice (content P d).length start stop (step.getD 1)) (startOf d k) := by
  induction k with
  | zero => simp [startOf_zero, selBelow]
  | succ k ih =>
    rw [List.range_succ, List.map_append, List.sum_append, ih (by omega), startOf_succ, selBelow_add]
    simp [setTarget_eq P d hb start stop step hstep lo hi hlo hhi k (by omega)]

/-- **C143 (partial), distributed value.**  On a balanced array, `a[start:stop:step] = v` with `start ≥ 0`, `stop ≥ -n`, any positive step and
a value `v` split along the same axis, however it is distributed, whose extent is the number of selected slabs (and not `n`), writes `v[k]`
to the `k`-th selected slab. -/
theorem setitemDist_partial (P : Nat) (hP : 1 < P) (d : Nat → List α) (hb : Balanced P d) (start stop : Option Int) (step : Option Nat)
    (hstep : ∀ s, step = some s → 0 < s) (hs : 0 ≤ start.getD 0) (he : -((content P d).length : Int) ≤ stop.getD (content P d).length)
    (v : Nat → List α)
    (hv : (content P v).length = selBelow (inSlice (content P d).length start stop (step.getD 1)) (content P d).length)
    (fuel : Nat) (hf : 2 ≤ fuel) :
    ∃ d' : Nat → List α, (∀ r < P, setitemDist fuel (content P d).length P d start stop step (content P v).length v r = .ok (d' r)) ∧
      content P d' = assignSel (inSlice (content P d).length start stop (step.getD 1)) (content P v) (content P d) := by
  obtain ⟨lo, hlo⟩ : ∃ lo : Nat, setKeyStart start = (lo : Int) := ⟨(start.getD 0).toNat, by unfold setKeyStart; omega⟩
  obtain ⟨hi, hhi⟩ : ∃ hi : Nat, setKeyStop (content P d).length stop = (hi : Int) :=
    ⟨(setKeyStop (content P d).length stop).toNat, by unfold setKeyStop; split <;> omega⟩
  have hsum := sum_setTarget P d hb start stop step hstep lo hi hlo hhi
  obtain ⟨v', hv1, hv2, hv3⟩ := redistribute_spec P hP v (setTarget (content P d).length P start stop step)
    (by rw [hsum P (Nat.le_refl _), hv]; rfl) fuel hf
  rw [assignSel_content]
  refine ⟨_, fun r hr => ?_, rfl⟩
  unfold setitemDist
  rw [hv1]
  simp only [Except.bind]
  have hle := part_le P d hr
  have hloc : ∀ j < (d r).length, inSlice (content P d).length start stop (step.getD 1) (startOf d r + j) =
      gpred lo hi (step.getD 1) (startOf d r + j) := fun j hj => inSlice_gpred _ _ _ _ _ _ hlo hhi (by omega)
  unfold setLocal
  rcases setKey_spec P d hb start stop step hstep lo hi hlo hhi r hr with ⟨hn, h0⟩ | ⟨ks, ke, hk, hp, hohi, hke, hks⟩
  · rw [hn]
    simp only
    rw [assignSel_nil fun j hj => by rw [hloc j hj]; exact h0 j hj]
  · rw [hk]
    simp only
    have ht := setTarget_eq P d hb start stop step hstep lo hi hlo hhi r hr
    apply torchPut_eq
    · intro j hj
      rw [inSlice_nat _ _ _ _ _ hj, hloc j hj, hp j hj]
    · rw [hv3 r hr, ht]
    · rw [← ht]
      intro k hk'
      have hst : startOf v' r = selBelow (inSlice (content P d).length start stop (step.getD 1)) (startOf d r) := by
        rw [← hsum r (by omega)]
        unfold startOf
        have : ∀ q ≤ P, (content q v').length = ((List.range q).map (setTarget (content P d).length P start stop step)).sum := by
          intro q hq
          induction q with
          | zero => simp [content_zero]
          | succ q ih => rw [content_succ, List.length_append, ih (by omega), hv3 q (by omega), List.range_succ]; simp
        exact this r (by omega)
      have hg := content_get v' P r k hr (by rw [hv3 r hr]; exact hk')
      rw [List.getElem?_drop, ← hst, ← hv2, hg, List.getElem?_eq_getElem]

-- a[1:6:2] = v with v = [10 | 11, 12] distributed 1 + 2
example : ∃ d' : Nat → List Nat,
    (∀ r < 2, setitemDist 2 6 2 exEven (some 1) none (some 2) 3 (fun r => ([[10], [11, 12]] : List (List Nat)).getD r []) r = .ok (d' r)) ∧
    content 2 d' = [0, 10, 2, 11, 4, 12] :=
  setitemDist_partial 2 (by omega) exEven exEven_balanced (some 1) none (some 2) (by simp) (by decide) (by decide)
    (fun r => ([[10], [11, 12]] : List (List Nat)).getD r []) (by decide) 2 (by omega)

/-- A distributed value of any other extent is rejected with ValueError on every process, and nothing is written. -/
theorem setitemDist_bad_size (P : Nat) (hP : 1 < P) (d : Nat → List α) (hb : Balanced P d) (start stop : Option Int) (step : Option Nat)
    (hstep : ∀ s, step = some s → 0 < s) (hs : 0 ≤ start.getD 0) (he : -((content P d).length : Int) ≤ stop.getD (content P d).length)
    (v : Nat → List α)
    (hv : (content P v).length ≠ selBelow (inSlice (content P d).length start stop (step.getD 1)) (content P d).length)
    (fuel : Nat) (r : Nat) :
    setitemDist fuel (content P d).length P d start stop step (content P v).length v r = .error .valueError := by
  obtain ⟨lo, hlo⟩ : ∃ lo : Nat, setKeyStart start = (lo : Int) := ⟨(start.getD 0).toNat, by unfold setKeyStart; omega⟩
  obtain ⟨hi, hhi⟩ : ∃ hi : Nat, setKeyStop (content P d).length stop = (hi : Int) :=
    ⟨(setKeyStop (content P d).length stop).toNat, by unfold setKeyStop; split <;> omega⟩
  have hsum := sum_setTarget P d hb start stop step hstep lo hi hlo hhi P (Nat.le_refl _)
  have hcum : ∀ k, cum (fun r => (setTarget (content P d).length P start stop step r : Int)) k =
      (((List.range k).map (setTarget (content P d).length P start stop step)).sum : Nat) := by
    intro k
    induction k with
    | zero => rfl
    | succ k ih => rw [cum, ih, List.range_succ]; simp
  unfold setitemDist
  rw [redistribute_bad_sum P hP v _ ?_ fuel]
  · rfl
  · rw [hcum, hsum]
    intro h
    exact hv (by exact_mod_cast h.symm)

/-- A value of the same extent as the array and split along the same axis: `a[:] = v` replaces the array if the value is balanced. -/
theorem setitemSame_partial (P : Nat) (d v : Nat → List α) (hb : Balanced P d) (hvb : Balanced P v)
    (hv : (content P v).length = (content P d).length) :
    ∃ d' : Nat → List α, (∀ r < P, setitemSame (content P d).length P d none none none (offs v) (cnts v) v r = .ok (d' r)) ∧
      content P d' = content P v := by
  refine ⟨v, fun r hr => ?_, rfl⟩
  have hlen : ∀ q < P, (v q).length = (d q).length := fun q hq => by rw [hb q hq, hvb q hq, hv]
  have hst : startOf v r = startOf d r := by
    have h1 := balanced_cum_ends hb r (by omega)
    have h2 := balanced_cum_ends hvb r (by omega)
    rw [hv] at h2
    exact_mod_cast h2.symm.trans h1
  have hle := part_le P d hr
  have hlo : setKeyStart none = ((0 : Nat) : Int) := rfl
  have hhi : setKeyStop (content P d).length none = ((content P d).length : Int) := by
    unfold setKeyStop; rw [Option.getD_none, if_neg (by omega)]
  unfold setitemSame
  rcases setKey_spec P d hb none none none (by simp) 0 _ hlo hhi r hr with ⟨hn, h0⟩ | ⟨ks, ke, hk, hp, hohi, hke, hks⟩
  · have hz : (d r).length = 0 := by
      by_contra h
      have := h0 0 (by omega)
      unfold gpred at this
      simp [Nat.mod_one] at this
      omega
    rw [hn]
    have h1 := hlen r hr
    rw [hz] at h1
    rw [List.length_eq_zero_iff.1 hz, List.length_eq_zero_iff.1 h1]
  · rw [hk]
    simp only [Option.getD_none] at *
    rw [hlo, show cum (setEnds (content P d).length P) r = (startOf d r : Int) from balanced_cum_ends hb r (by omega), ceilDivInt_one,
      show max ((startOf d r : Int) - ((0 : Nat) : Int)) 0 = (startOf d r : Int) by omega]
    have hke' : ke = (d r).length := by omega
    have hks' : ks = 0 := by
      rcases hks with ⟨_, _, h⟩ | ⟨_, h⟩
      · omega
      · exact h trivial
    subst hks'
    have hg := getitemSlice_core P (by omega) v (startOf d r) (startOf d r + ke) 1 (by omega) (by omega) (by omega) (some (startOf d r : Int))
      (some ((startOf d r + ke : Nat) : Int)) (by
        unfold sanitizeSlice
        simp only [Option.getD_some]
        rw [if_neg (by omega), if_neg (by omega)]) r hr
    rw [hv] at hg
    rw [show (startOf d r : Int) + (ke : Int) = ((startOf d r + ke : Nat) : Int) by omega]
    have hg' : getitemSlice (content P d).length P (offs v) (cnts v) v (some (startOf d r : Int)) (some ((startOf d r + ke : Nat) : Int)) 1 r =
        .ok (v r) := by
      rw [show getitemSlice (content P d).length P (offs v) (cnts v) v (some (startOf d r : Int)) (some ((startOf d r + ke : Nat) : Int)) 1 r = _ from hg]
      rw [pick_all]
      intro j hj
      unfold gpred
      rw [hst, hlen r hr] at *
      simp [Nat.mod_one]; omega
    rw [hg']
    simp only [Except.bind]
    rw [torchPut_eq (q := fun _ => true) (w := v r)]
    · congr 1
      apply List.ext_getElem
      · simp [assignSel, hlen r hr]
      · intro i h1 h2
        have : selBelow (fun _ => true) i = i := by simp [selBelow]
        simp [assignSel, this, h2]
    · intro j hj
      rw [inSlice_nat _ _ _ _ _ hj]
      simp [Nat.mod_one]; omega
    · simp [selBelow, hlen r hr]
    · intro _ _; rfl

example : ∃ d' : Nat → List Nat, (∀ r < 2, setitemSame 6 2 exEven none none none (offs (fun r => ([[10, 11, 12], [13, 14, 15]] : List (List Nat)).getD r []))
      (cnts (fun r => ([[10, 11, 12], [13, 14, 15]] : List (List Nat)).getD r [])) (fun r => ([[10, 11, 12], [13, 14, 15]] : List (List Nat)).getD r []) r = .ok (d' r)) ∧
    content 2 d' = [10, 11, 12, 13, 14, 15] :=
  setitemSame_partial 2 exEven (fun r => ([[10, 11, 12], [13, 14, 15]] : List (List Nat)).getD r []) exEven_balanced (by unfold Balanced; decide) (by decide)

/-- `a[:] = v` raises when the value has the same extent but is distributed differently. -/
theorem setitemSame_unbalanced_violated :
    let v : Nat → List Nat := fun r => ([[10, 11], [12, 13, 14, 15]] : List (List Nat)).getD r []
    setitemSame 6 2 exEven none none none (offs v) (cnts v) v 0 = .error .runtimeError := by decide

/-! ## C144: index tensors and masks -/

theorem mapM_torchIndex_ok (len : Nat) (l : List Int) (h : ∀ k ∈ l, 0 ≤ k ∧ k < len) : l.mapM (torchIndex len) = some (l.map Int.toNat) := by
  induction l with
  | nil => rfl
  | cons k t ih =>
    rw [List.mapM_cons, ih fun x hx => h x (List.mem_cons_of_mem _ hx)]
    unfold torchIndex
    rw [if_pos (h k List.mem_cons_self)]
    rfl

theorem setIdxLocal_balanced (P : Nat) (d : Nat → List α) (hb : Balanced P d) (inds : List Int) (r : Nat) (hr : r < P) :
    setIdxLocal (content P d).length P (offs d) (cnts d) inds r =
      (inds.filter fun i => (startOf d r : Int) ≤ i && i < (startOf d r : Int) + ((d r).length : Int)).map fun i => i - (startOf d r : Int) := by
  unfold setIdxLocal
  rw [← balanced_chunk_start hb r (by omega)]

theorem setIdxLocal_range (P : Nat) (d : Nat → List α) (hb : Balanced P d) (inds : List Int) (r : Nat) (hr : r < P) :
    ∀ k ∈ setIdxLocal (content P d).length P (offs d) (cnts d) inds r, 0 ≤ k ∧ k < ((d r).length : Int) := by
  rw [setIdxLocal_balanced P d hb inds r hr]
  intro k hk
  simp only [List.mem_map, List.mem_filter, Bool.and_eq_true, decide_eq_true_eq] at hk
  obtain ⟨i, ⟨_, h1, h2⟩, rfl⟩ := hk
  omega

/-- **C144 (partial).**  On a balanced array, assigning a scalar through an index tensor or a mask overwrites exactly the slabs whose
index occurs in the key.  Missing from the full property: indices outside `[0, n)` are ignored without an error
(`setitemIdx_outside_violated`), unbalanced arrays are written in the wrong place (`setitemIdx_unbalanced_violated`), and keys that are
lists or integer arrays raise TypeError (`setitemKey_list_violated`). -/
theorem setitemIdx_partial (P : Nat) (d : Nat → List α) (hb : Balanced P d) (inds : List Int) (c : α) :
    ∃ d' : Nat → List α, (∀ r < P, setitemKey (content P d).length P (offs d) (cnts d) d (.tensor inds) c r = .ok (d' r)) ∧
      content P d' = overwrite (fun g => decide ((g : Int) ∈ inds)) c (content P d) := by
  rw [overwrite_content]
  refine ⟨_, fun r hr => ?_, rfl⟩
  unfold setitemKey
  simp only
  unfold setitemIdx
  rw [mapM_torchIndex_ok _ _ (setIdxLocal_range P d hb inds r hr)]
  simp only
  congr 1
  apply overwrite_congr
  intro j hj
  rw [decide_eq_decide, setIdxLocal_balanced P d hb inds r hr]
  simp only [List.mem_map, List.mem_filter, Bool.and_eq_true, decide_eq_true_eq]
  constructor
  · rintro ⟨k, ⟨i, ⟨h0, h1, h2⟩, rfl⟩, h3⟩
    rw [show ((startOf d r + j : Nat) : Int) = i by omega]
    exact h0
  · intro h
    exact ⟨(j : Int), ⟨_, ⟨h, by omega, by omega⟩, by omega⟩, by omega⟩

/-- The mask form: the key holds the true positions of a mask `m` over the `n` slabs. -/
theorem setitemMask (P : Nat) (d : Nat → List α) (hb : Balanced P d) (m : Nat → Bool) (c : α) :
    ∃ d' : Nat → List α,
      (∀ r < P, setitemKey (content P d).length P (offs d) (cnts d) d
        (.tensor (((List.range (content P d).length).filter m).map Int.ofNat)) c r = .ok (d' r)) ∧
      content P d' = overwrite m c (content P d) := by
  obtain ⟨d', h1, h2⟩ := setitemIdx_partial P d hb (((List.range (content P d).length).filter m).map Int.ofNat) c
  refine ⟨d', h1, ?_⟩
  rw [h2]
  apply overwrite_congr
  intro j hj
  rw [Bool.eq_iff_iff, decide_eq_true_eq]
  simp only [List.mem_map, List.mem_filter, List.mem_range]
  constructor
  · rintro ⟨g, ⟨_, h⟩, e⟩
    rw [show g = j from Int.ofNat.inj e] at h; exact h
  · intro h; exact ⟨j, ⟨hj, h⟩, rfl⟩

example : ∃ d' : Nat → List Nat, (∀ r < 2, setitemKey 6 2 (offs exEven) (cnts exEven) exEven (.tensor [4, 1, 1]) 9 r = .ok (d' r)) ∧
    content 2 d' = [0, 9, 2, 3, 9, 5] := setitemIdx_partial 2 exEven exEven_balanced [4, 1, 1] 9

/-- Negative indices are dropped, as are indices beyond the end: nothing is written and nothing is raised. -/
theorem setitemIdx_outside_violated : ∀ r < 2, setitemKey 6 2 (offs exEven) (cnts exEven) exEven (.tensor [-1, -2, 6]) 9 r = .ok (exEven r) := by
  decide

/-- On an unbalanced array the slab with index 2 is written in place of the one with index 3. -/
theorem setitemIdx_unbalanced_violated :
    let d : Nat → List Nat := fun r => ([[0, 1], [2, 3, 4, 5]] : List (List Nat)).getD r []
    setitemKey 6 2 (offs d) (cnts d) d (.tensor [3, 4]) 9 1 = .ok [9, 9, 4, 5] ∧
    setitemKey 6 2 (offs d) (cnts d) d (.tensor [2, 2]) 9 1 = .ok [2, 3, 4, 9] := by decide

/-- `a[[0, 1]] = c`, and `a[k] = c` with an integer array `k`, raise TypeError on every process of a distributed array. -/
theorem setitemKey_list_violated (n P : Nat) (starts counts : Nat → Int) (d : Nat → List α) (inds : List Int) (c : α) (r : Nat) :
    setitemKey n P starts counts d (.pyList inds) c r = .error .typeError := rfl

theorem foldl_set_get (l : List α) (kv : List (Nat × α)) (hk : (kv.map Prod.fst).Nodup) (g : Nat) :
    (kv.foldl (fun l kv => l.set kv.1 kv.2) l)[g]? =
      if g < l.length then (match kv.find? (fun p => p.1 == g) with | some p => some p.2 | none => l[g]?) else none := by
  induction kv generalizing l with
  | nil =>
    simp only [List.foldl_nil, List.find?_nil]
    by_cases h : g < l.length
    · rw [if_pos h]
    · rw [if_neg h]; exact List.getElem?_eq_none (by omega)
  | cons p t ih =>
    simp only [List.map_cons, List.nodup_cons] at hk
    rw [List.foldl_cons, ih _ hk.2, List.length_set]
    by_cases h : g < l.length
    · rw [if_pos h, if_pos h]
      rw [List.find?_cons]
      by_cases hp : p.1 = g
      · have : (p.1 == g) = true := by simpa using hp
        rw [this]
        have hnone : t.find? (fun q => q.1 == g) = none := by
          rw [List.find?_eq_none]
          intro q hq h2
          apply hk.1
          rw [hp]
          simp only [beq_iff_eq] at h2
          rw [← h2]
          exact List.mem_map_of_mem hq
        rw [hnone]
        simp only
        rw [← hp, List.getElem?_set_self (by omega)]
      · have : (p.1 == g) = false := by simpa using hp
        rw [this]
        simp only
        rw [List.getElem?_set_ne hp]
    · rw [if_neg h, if_neg h]

/-- Values through an index tensor: the process that owns only some of the (at least two) indices raises RuntimeError, because it is handed
all values. -/
theorem setitemIdxVec_violated (P : Nat) (d : Nat → List α) (hb : Balanced P d) (inds : List Int) (v : List α) (hv : v.length = inds.length)
    (r : Nat) (hr : r < P) (h1 : ∃ i ∈ inds, (startOf d r : Int) ≤ i ∧ i < (startOf d (r + 1) : Int))
    (h2 : ∃ i ∈ inds, ¬ ((startOf d r : Int) ≤ i ∧ i < (startOf d (r + 1) : Int))) :
    setitemIdxVec (content P d).length P (offs d) (cnts d) d inds v r = .error .runtimeError := by
  have hlen : (setIdxLocal (content P d).length P (offs d) (cnts d) inds r).length =
      (inds.filter fun i => (startOf d r : Int) ≤ i && i < (startOf d r : Int) + ((d r).length : Int)).length := by
    rw [setIdxLocal_balanced P d hb inds r hr, List.length_map]
  rw [startOf_succ] at h1 h2
  obtain ⟨i, hi, hi1, hi2⟩ := h1
  obtain ⟨i', hi', hi3⟩ := h2
  have hpos : 0 < (inds.filter fun i => (startOf d r : Int) ≤ i && i < (startOf d r : Int) + ((d r).length : Int)).length := by
    apply List.length_pos_of_mem (a := i)
    simp only [List.mem_filter, Bool.and_eq_true, decide_eq_true_eq]
    exact ⟨hi, hi1, by omega⟩
  have hlt : (inds.filter fun i => (startOf d r : Int) ≤ i && i < (startOf d r : Int) + ((d r).length : Int)).length < inds.length := by
    apply List.length_filter_lt_length_iff_exists.2
    refine ⟨i', hi', ?_⟩
    simp only [Bool.and_eq_true, decide_eq_true_eq]
    intro h; apply hi3; omega
  unfold setitemIdxVec
  simp only
  rw [if_neg (by omega), mapM_torchIndex_ok _ _ (setIdxLocal_range P d hb inds r hr)]
  simp only [List.length_map]
  rw [if_neg (by omega)]
  match v, hv with
  | [], hv => rfl
  | [x], hv => simp at hv; omega
  | _ :: _ :: _, _ => rfl

example : setitemIdxVec 6 2 (offs exEven) (cnts exEven) exEven [1, 4] [7, 8] 0 = .error .runtimeError :=
  setitemIdxVec_violated 2 exEven exEven_balanced [1, 4] [7, 8] rfl 0 (by omega) ⟨1, by decide⟩ ⟨4, by decide⟩

/-- Values through an index tensor all of whose (distinct) indices are on one process: index `inds[k]` gets `v[k]`. -/
theorem setitemIdxVec_partial (P : Nat) (d : Nat → List α) (hb : Balanced P d) (inds : List Int) (hnd : inds.Nodup) (v : List α)
    (hv : v.length = inds.length) (r0 : Nat) (hr0 : r0 < P) (hin : ∀ i ∈ inds, (startOf d r0 : Int) ≤ i ∧ i < (startOf d (r0 + 1) : Int)) :
    ∃ d' : Nat → List α, (∀ r < P, setitemIdxVec (content P d).length P (offs d) (cnts d) d inds v r = .ok (d' r)) ∧
      (∀ r < P, (d' r).length = (d r).length) ∧
      ∀ g < (content P d).length, (∀ k : Nat, inds[k]? = some (g : Int) → (content P d')[g]? = v[k]?) ∧
        ((g : Int) ∉ inds → (content P d')[g]? = (content P d)[g]?) := by
  by_cases hne : inds = []
  · subst hne
    refine ⟨d, fun r hr => ?_, fun _ _ => rfl, fun g _ => ⟨by simp, fun _ => rfl⟩⟩
    unfold setitemIdxVec setIdxLocal
    simp
  rw [startOf_succ] at hin
  have hout : ∀ r < P, r ≠ r0 → setIdxLocal (content P d).length P (offs d) (cnts d) inds r = [] := by
    intro r hr hrr
    rw [setIdxLocal_balanced P d hb inds r hr]
    simp only [List.map_eq_nil_iff, List.filter_eq_nil_iff, Bool.and_eq_true, decide_eq_true_eq]
    intro i hi ⟨h1, h2⟩
    obtain ⟨h3, h4⟩ := hin i hi
    apply hrr
    apply startOf_owner_unique d i.toNat r r0 <;> (try rw [startOf_succ]) <;> omega
  have hfil : setIdxLocal (content P d).length P (offs d) (cnts d) inds r0 = inds.map fun i => i - (startOf d r0 : Int) := by
    rw [setIdxLocal_balanced P d hb inds r0 hr0, List.filter_eq_self.2]
    intro i hi
    obtain ⟨h3, h4⟩ := hin i hi
    simp only [Bool.and_eq_true, decide_eq_true_eq]
    omega
  let ks := inds.map fun i => (i - (startOf d r0 : Int)).toNat
  have hks : ks = inds.map fun i => (i - (startOf d r0 : Int)).toNat := rfl
  have hkl : ks.length = inds.length := by rw [hks, List.length_map]
  have hksnd : ks.Nodup := by
    rw [hks]
    apply List.Nodup.map_on ?_ hnd
    intro x hx y hy hxy
    have := hin x hx
    have := hin y hy
    omega
  refine ⟨fun r => if r = r0 then (ks.zip v).foldl (fun l kv => l.set kv.1 kv.2) (d r) else d r, fun r hr => ?_, ?_, ?_⟩
  · unfold setitemIdxVec
    simp only
    by_cases h : r = r0
    · subst h
      have : inds.length ≠ 0 := by simpa using hne
      rw [if_neg (by rw [hfil, List.length_map]; omega), mapM_torchIndex_ok _ _ (setIdxLocal_range P d hb inds r hr), hfil]
      simp only [List.length_map]
      rw [if_pos hv, if_pos trivial, List.map_map]
      rfl
    · rw [hout r hr h]
      simp [h]
  · intro r hr
    dsimp only
    by_cases h : r = r0
    · subst h
      rw [if_pos rfl]
      generalize ks.zip v = kv
      generalize d r = l
      induction kv generalizing l with
      | nil => rfl
      | cons p t ih => rw [List.foldl_cons, ih, List.length_set]
    · rw [if_neg h]
  · have hlen : ∀ r < P, ((fun r => if r = r0 then (ks.zip v).foldl (fun l kv => l.set kv.1 kv.2) (d r) else d r) r).length = (d r).length := by
      intro r hr
      by_cases h : r = r0
      · subst h
        simp only [if_true]
        generalize ks.zip v = kv
        generalize d r = l
        induction kv generalizing l with
        | nil => rfl
        | cons p t ih => rw [List.foldl_cons, ih, List.length_set]
      · simp [h]
    generalize hd' : (fun r => if r = r0 then (ks.zip v).foldl (fun l kv => l.set kv.1 kv.2) (d r) else d r) = d' at hlen
    have hst : ∀ q ≤ P, startOf d' q = startOf d q := by
      intro q hq
      induction q with
      | zero => rfl
      | succ q ih => rw [startOf_succ, startOf_succ, ih (by omega), hlen q (by omega)]
    have hfst : ((ks.zip v).map Prod.fst).Nodup := by
      rw [List.map_fst_zip (by omega)]; exact hksnd
    intro g hg
    obtain ⟨r, hr, hg1, hg2⟩ := startOf_owner d P g hg
    obtain ⟨j, rfl⟩ := Nat.exists_eq_add_of_le hg1
    rw [startOf_succ] at hg2
    have hj : j < (d r).length := by omega
    have hget : (content P d')[startOf d r + j]? = (d' r)[j]? := by
      rw [← hst r (by omega), content_get d' P r j hr (by rw [hlen r hr]; exact hj), List.getElem?_eq_getElem]
    have hget0 : (content P d)[startOf d r + j]? = (d r)[j]? := by
      rw [content_get d P r j hr hj, List.getElem?_eq_getElem]
    rw [hget, hget0]
    constructor
    · intro k hk
      obtain ⟨h3, h4⟩ := hin _ (List.mem_of_getElem? hk)
      have hrr : r = r0 := by
        apply startOf_owner_unique d (startOf d r + j) r r0 <;> (try rw [startOf_succ]) <;> omega
      subst hrr
      have hklt : k < inds.length := (List.getElem?_eq_some_iff.1 hk).1
      rw [← hd']
      simp only [if_true]
      rw [foldl_set_get _ _ hfst, if_pos hj]
      have hmem : (j, v[k]'(by omega)) ∈ ks.zip v := by
        rw [List.mem_iff_getElem?]
        refine ⟨k, ?_⟩
        rw [List.getElem?_zip_eq_some]
        refine ⟨?_, List.getElem?_eq_getElem _⟩
        rw [hks, List.getElem?_map, hk, Option.map_some]
        congr 1
        omega
      have hf : (ks.zip v).find? (fun p => p.1 == j) = some (j, v[k]'(by omega)) := by
        obtain ⟨p, hp⟩ : ∃ p, (ks.zip v).find? (fun p => p.1 == j) = some p := by
          cases hh : (ks.zip v).find? (fun p => p.1 == j) with
          | some p => exact ⟨p, rfl⟩
          | none =>
            rw [List.find?_eq_none] at hh
            exact absurd (by simp) (hh _ hmem)
        rw [hp]
        have hp1 := List.find?_some hp
        have hp2 := List.mem_of_find?_eq_some hp
        simp only [beq_iff_eq] at hp1
        have := List.inj_on_of_nodup_map hfst hp2 hmem hp1
        rw [this]
      rw [hf]
      simp only
      rw [List.getElem?_eq_getElem]
    · intro hni
      rw [← hd']
      by_cases hrr : r = r0
      · subst hrr
        simp only [if_true]
        rw [foldl_set_get _ _ hfst, if_pos hj]
        have hnone : (ks.zip v).find? (fun p => p.1 == j) = none := by
          rw [List.find?_eq_none]
          intro p hp h2
          simp only [beq_iff_eq] at h2
          have hm := (List.of_mem_zip hp).1
          rw [hks, List.mem_map] at hm
          obtain ⟨i, hi, he⟩ := hm
          obtain ⟨h3, h4⟩ := hin i hi
          apply hni
          rw [show ((startOf d r + j : Nat) : Int) = i by omega]
          exact hi
        rw [hnone]
      · simp [hrr]

example : setitemIdxVec 6 2 (offs exEven) (cnts exEven) exEven [5, 3] [7, 8] 0 = .ok [0, 1, 2] ∧
    setitemIdxVec 6 2 (offs exEven) (cnts exEven) exEven [5, 3] [7, 8] 1 = .ok [8, 4, 7] := by decide

end Heat
