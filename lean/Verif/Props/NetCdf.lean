import Verif.Model.NetCdf
import Verif.Props.MeshCross
import Verif.Props.Printing
/-!
# C168: save_netcdf
-/
namespace Heat
open Spec
variable {α : Type}

/-! ## What a Python slice selects -/

theorem steps_len {t m : Int} {c : Nat} (ht : 0 < t) (hc : 0 < c) (h1 : t * ((c : Int) - 1) ≤ m) (h2 : m < t * c) : m / t + 1 = c := by
  have a : (c : Int) - 1 ≤ m / t := by
    rw [Int.le_ediv_iff_mul_le ht, Int.mul_comm]; exact h1
  have b : m / t < c := by
    rw [Int.ediv_lt_iff_lt_mul ht, Int.mul_comm]; exact h2
  omega

theorem stepSel_exact {lo hi step : Int} {c : Nat} (hst : step ≠ 0) (hc : 0 < c) (h : (step < 0 ∧ hi < lo + step * ((c : Int) - 1) ∧ lo + step * c ≤ hi) ∨ (0 < step ∧ lo + step * ((c : Int) - 1) < hi ∧ hi ≤ lo + step * c)) :
    stepSel lo hi step = (List.range c).map fun (i : Nat) => lo + step * (i : Int) := by
  have hlast : step * (c : Int) = step * ((c : Int) - 1) + step := by rw [Int.mul_sub]; omega
  unfold stepSel
  rcases h with ⟨hneg, h1, h2⟩ | ⟨hpos, h1, h2⟩
  · have hle : step * ((c : Int) - 1) ≤ 0 := Int.mul_nonpos_of_nonpos_of_nonneg (by omega) (by omega)
    rw [if_pos hneg, if_pos (by omega), steps_len (by omega) hc (by rw [Int.neg_mul]; omega) (by rw [Int.neg_mul]; omega)]
    simp
  · have hge : 0 ≤ step * ((c : Int) - 1) := Int.mul_nonneg (by omega) (by omega)
    rw [if_neg (by omega), if_pos (by omega), steps_len hpos hc (by omega) (by omega)]
    simp

/-- A slice from an existing first position, whose end is one step behind an existing last position (None if negative), selects exactly these positions. -/
theorem pySel_exact {n : Nat} {a step : Int} {c : Nat} (hst : step ≠ 0) (hc : 0 < c) (ha : 0 ≤ a ∧ a < n) (hl : 0 ≤ a + step * ((c : Int) - 1) ∧ a + step * ((c : Int) - 1) < n) :
    pySel n (some a) (noneIfNeg (a + step * c)) step = (List.range c).map fun (i : Nat) => a + step * (i : Int) := by
  have hlast : step * (c : Int) = step * ((c : Int) - 1) + step := by rw [Int.mul_sub]; omega
  have hclip : ∀ neg, pyClip n neg a = a := by
    intro neg
    unfold pyClip
    rw [if_neg (by omega), if_neg (by omega)]
  unfold pySel
  dsimp only
  rw [hclip]
  apply stepSel_exact hst hc
  by_cases hneg : step < 0
  · left
    refine ⟨hneg, ?_⟩
    rw [show decide (step < 0) = true from decide_eq_true hneg]
    have hle : step * ((c : Int) - 1) ≤ 0 := Int.mul_nonpos_of_nonpos_of_nonneg (by omega) (by omega)
    unfold noneIfNeg
    by_cases he : a + step * c < 0
    · rw [if_pos he]
      dsimp only
      rw [if_pos hneg]
      omega
    · rw [if_neg he]
      dsimp only
      unfold pyClip
      rw [if_neg he, if_neg (by omega)]
      omega
  · right
    have hge : 0 ≤ step * ((c : Int) - 1) := Int.mul_nonneg (by omega) (by omega)
    refine ⟨by omega, ?_⟩
    rw [show decide (step < 0) = false from decide_eq_false hneg]
    unfold noneIfNeg
    rw [if_neg (by omega)]
    dsimp only
    unfold pyClip
    rw [if_neg (by omega)]
    split
    · simp; omega
    · omega

/-- A slice whose bounds are equal and not negative selects nothing. -/
theorem pySel_empty (n : Nat) {a : Int} (step : Int) : pySel n (some a) (some a) step = [] := by
  unfold pySel stepSel
  dsimp only
  rw [if_neg (Int.lt_irrefl _), if_neg (Int.lt_irrefl _)]
  simp

/-- Bounds on the axis give positions on the axis. -/
theorem stepSel_inside {n : Nat} {lo hi step : Int} (hst : step ≠ 0) (h : (step < 0 ∧ lo < n ∧ -1 ≤ hi) ∨ (0 < step ∧ 0 ≤ lo ∧ hi ≤ n)) : ∀ i ∈ stepSel lo hi step, 0 ≤ i ∧ i < n := by
  intro i hm
  unfold stepSel at hm
  rw [List.mem_map] at hm
  obtain ⟨j, hj, rfl⟩ := hm
  rw [List.mem_range] at hj
  rcases h with ⟨hneg, b1, b2⟩ | ⟨hpos, b1, b2⟩
  · rw [if_pos hneg] at hj
    have hj0 : step * (j : Int) ≤ 0 := Int.mul_nonpos_of_nonpos_of_nonneg (by omega) (by omega)
    by_cases hl : hi < lo
    · rw [if_pos hl] at hj
      have q : 0 ≤ (lo - hi - 1) / (-step) := Int.ediv_nonneg (by omega) (by omega)
      have : (j : Int) ≤ (lo - hi - 1) / (-step) := by omega
      rw [Int.le_ediv_iff_mul_le (by omega)] at this
      have e : (j : Int) * -step = -(step * (j : Int)) := by rw [Int.mul_neg, Int.mul_comm]
      omega
    · rw [if_neg hl] at hj; simp at hj
  · rw [if_neg (by omega)] at hj
    have hj0 : 0 ≤ step * (j : Int) := Int.mul_nonneg (by omega) (by omega)
    by_cases hl : lo < hi
    · rw [if_pos hl] at hj
      have q : 0 ≤ (hi - lo - 1) / step := Int.ediv_nonneg (by omega) (by omega)
      have : (j : Int) ≤ (hi - lo - 1) / step := by omega
      rw [Int.le_ediv_iff_mul_le (by omega)] at this
      have e : (j : Int) * step = step * (j : Int) := Int.mul_comm _ _
      omega
    · rw [if_neg hl] at hj; simp at hj

theorem pyClip_bounds (n : Nat) (b : Int) : (-1 ≤ pyClip n true b ∧ pyClip n true b < n) ∧ 0 ≤ pyClip n false b ∧ pyClip n false b ≤ n := by
  unfold pyClip
  constructor
  · simp only [if_true]
    split
    · split <;> omega
    · split <;> omega
  · simp only [Bool.false_eq_true, if_false]
    split
    · split <;> omega
    · split <;> omega

/-- A slice with any bounds selects only positions of the axis. -/
theorem pySel_inside (n : Nat) (start stop : Option Int) {step : Int} (hst : step ≠ 0) : ∀ i ∈ pySel n start stop step, 0 ≤ i ∧ i < n := by
  unfold pySel
  apply stepSel_inside hst
  by_cases hneg : step < 0
  · refine .inl ⟨hneg, ?_, ?_⟩
    · cases start with
      | none => dsimp only; rw [if_pos hneg]; omega
      | some b => dsimp only; rw [decide_eq_true hneg]; have := (pyClip_bounds n b).1; omega
    · cases stop with
      | none => dsimp only; rw [if_pos hneg]
      | some b => dsimp only; rw [decide_eq_true hneg]; have := (pyClip_bounds n b).1; omega
  · refine .inr ⟨by omega, ?_, ?_⟩
    · cases start with
      | none => dsimp only; rw [if_neg hneg]
      | some b => dsimp only; rw [decide_eq_false hneg]; have := (pyClip_bounds n b).2; omega
    · cases stop with
      | none => dsimp only; rw [if_neg hneg]
      | some b => dsimp only; rw [decide_eq_false hneg]; have := (pyClip_bounds n b).2; omega

/-- A start behind the axis: all positions, backwards. -/
example : pySel 4 (some 10) none (-1) = [3, 2, 1, 0] := by decide +kernel

/-! ## Specification -/

namespace Spec

/-- The window lies on an axis of extent `n` and has `c` positions. -/
def WinOk (w : NcWin) (n c : Nat) : Prop := w.count = c ∧ w.stride ≠ 0 ∧ (0 < w.stride → 0 ≤ w.start) ∧ ∀ i < c, 0 ≤ w.start + w.stride * (i : Int) ∧ w.start + w.stride * (i : Int) < n

/-- The array `G` has been written into the region of the variable: entry `i` of `G` is found at `start + stride * i` (along every axis), everything else is as it was in `F`. -/
def IsPlaced (F G : NArr α) (w : Nat → NcWin) (F' : NArr α) : Prop :=
  F'.ndim = F.ndim ∧ (∀ k < F.ndim, F'.dim k = F.dim k) ∧
  (∀ i, InB G i → ∀ idx, (∀ k < F.ndim, (idx k : Int) = (w k).start + (w k).stride * (i k : Int)) → F'.get idx = G.get i) ∧
  ∀ idx, (∀ i, InB G i → ∃ k < F.ndim, (idx k : Int) ≠ (w k).start + (w k).stride * (i k : Int)) → F'.get idx = F.get idx

end Spec

/-! ## One write after the other -/

/-- The part of process `r` goes to these positions. -/
def partSel (x : DND α) (w : Nat → NcWin) (r k : Nat) : List Int :=
  (List.range ((x.loc r).dim k)).map fun (j : Nat) => (w k).start + (w k).stride * ((gidx x.split x.loc r (fun _ => j) k : Nat) : Int)

theorem gidx_at (sp : Option Nat) (loc : Nat → NArr α) (r : Nat) (idx : Nat → Nat) (k : Nat) : gidx sp loc r idx k = gidx sp loc r (fun _ => idx k) k := by
  unfold gidx
  cases sp with
  | none => rfl
  | some s => dsimp only; unfold shift; rfl

theorem gidx_inj {sp : Option Nat} {loc : Nat → NArr α} {r k a b : Nat} (h : gidx sp loc r (fun _ => a) k = gidx sp loc r (fun _ => b) k) : a = b := by
  unfold gidx at h
  cases sp with
  | none => exact h
  | some s => simp only [shift] at h; split at h <;> omega

theorem idxOf_map_inj {f : Nat → Int} (hf : ∀ a b, f a = f b → a = b) {n j : Nat} (hj : j < n) : ((List.range n).map f).idxOf (f j) = j := by
  have hnd : ((List.range n).map f).Nodup := List.Nodup.map hf List.nodup_range
  have hl : j < ((List.range n).map f).length := by simpa using hj
  have := List.Nodup.idxOf_getElem hnd j hl
  simpa using this

theorem stride_inj {w : NcWin} (hw : w.stride ≠ 0) {a b : Nat} (h : w.start + w.stride * (a : Int) = w.start + w.stride * (b : Int)) : a = b := by
  have : w.stride * (a : Int) = w.stride * (b : Int) := by omega
  have := Int.eq_of_mul_eq_mul_left hw this
  omega

/-- After the writes of the processes `l`: nothing outside the region has changed, and the parts of these processes are in place. -/
theorem ncWrites_spec {P : Nat} {x : DND α} {G : NArr α} (h : Rep P x G) (F : NArr α) (hn : F.ndim = G.ndim) (w : Nat → NcWin) (hw : ∀ k < G.ndim, (w k).stride ≠ 0)
    (sel : Nat → Nat → List Int) (l : List Nat) (hl : ∀ r ∈ l, r < P) (hsel : ∀ r ∈ l, ∀ k < G.ndim, sel r k = partSel x w r k) (V : NArr α) (hV : V.ndim = F.ndim ∧ V.dim = F.dim) :
    ∃ V', ncWrites (fun r V => V.ncPut (sel r) (x.loc r)) l V = .ok V' ∧ V'.ndim = F.ndim ∧ V'.dim = F.dim ∧
      (∀ i, InB G i → ∀ idx, (∀ k < F.ndim, (idx k : Int) = (w k).start + (w k).stride * (i k : Int)) →
        ((∃ r ∈ l, ∃ j, InB (x.loc r) j ∧ ∀ k < G.ndim, i k = gidx x.split x.loc r j k) ∨ V.get idx = G.get i) → V'.get idx = G.get i) ∧
      ∀ idx, (∀ i, InB G i → ∃ k < F.ndim, (idx k : Int) ≠ (w k).start + (w k).stride * (i k : Int)) → V'.get idx = V.get idx := by
  induction l generalizing V with
  | nil =>
    refine ⟨V, rfl, hV.1, hV.2, fun i _ idx _ hh => ?_, fun _ _ => rfl⟩
    rcases hh with ⟨r, hr, _⟩ | hh
    · simp at hr
    · exact hh
  | cons r l ih =>
    have hr : r < P := hl r (by simp)
    have hs := hsel r (by simp)
    have hnd : (x.loc r).ndim = G.ndim := h.2.2.2.1 r hr
    have hput : V.ncPut (sel r) (x.loc r) = .ok ⟨V.ndim, V.dim, fun idx => if (List.range V.ndim).all fun k => decide ((idx k : Int) ∈ sel r k) then (x.loc r).get fun k => (sel r k).idxOf (idx k : Int) else V.get idx⟩ := by
      unfold NArr.ncPut
      rw [if_pos ⟨by rw [hnd, hV.1, hn], fun k hk => by rw [hs k (by rw [← hn, ← hV.1]; exact hk)]; simp [partSel]⟩]
    -- a selected position
    have key : ∀ idx : Nat → Nat, (List.range V.ndim).all (fun k => decide ((idx k : Int) ∈ sel r k)) = true →
        InB (x.loc r) (fun k => (sel r k).idxOf (idx k : Int)) ∧ ∀ k < G.ndim, (idx k : Int) = (w k).start + (w k).stride * ((gidx x.split x.loc r (fun k => (sel r k).idxOf (idx k : Int)) k : Nat) : Int) := by
      intro idx hall
      rw [List.all_eq_true] at hall
      have one : ∀ k < G.ndim, ∃ j < (x.loc r).dim k, (idx k : Int) = (w k).start + (w k).stride * ((gidx x.split x.loc r (fun _ => j) k : Nat) : Int) ∧ (sel r k).idxOf (idx k : Int) = j := by
        intro k hk
        have := hall k (List.mem_range.2 (by rw [hV.1, hn]; exact hk))
        rw [decide_eq_true_eq, hs k hk] at this
        obtain ⟨j, hj, e⟩ := List.mem_map.1 this
        refine ⟨j, List.mem_range.1 hj, e.symm, ?_⟩
        rw [hs k hk, ← e]
        exact idxOf_map_inj (f := fun (j : Nat) => (w k).start + (w k).stride * ((gidx x.split x.loc r (fun _ => j) k : Nat) : Int)) (fun a b hab => gidx_inj (stride_inj (hw k hk) hab)) (List.mem_range.1 hj)
      constructor
      · intro k hk
        obtain ⟨j, hj, _, e⟩ := one k (by rw [← hnd]; exact hk)
        show (sel r k).idxOf _ < _
        rw [e]; exact hj
      · intro k hk
        obtain ⟨j, hj, e1, e2⟩ := one k hk
        rw [gidx_at, e2]; exact e1
    have inbG : ∀ j, InB (x.loc r) j → InB G (gidx x.split x.loc r j) := by
      intro j hj k hk
      have hjk := hj k (by rw [hnd]; exact hk)
      obtain ⟨_, _, _, _, q4⟩ := h
      unfold gidx
      cases hsp : x.split with
      | none => rw [hsp] at q4; dsimp only; rw [← (q4 r hr).1 k hk]; exact hjk
      | some s =>
        rw [hsp] at q4
        dsimp only
        unfold shift
        by_cases hks : k = s
        · subst hks
          rw [if_pos rfl, ← q4.2.1]
          have := axisStart_mono x.loc k (i := r + 1) (j := P) (by omega)
          rw [axisStart_succ] at this
          omega
        · rw [if_neg hks, ← (q4.2.2 r hr).1 k hk hks]; exact hjk
    obtain ⟨V', e1, e2, e3, e4, e5⟩ := ih (fun q hq => hl q (by simp [hq])) (fun q hq => hsel q (by simp [hq])) ⟨V.ndim, V.dim, fun idx => if (List.range V.ndim).all fun k => decide ((idx k : Int) ∈ sel r k) then (x.loc r).get fun k => (sel r k).idxOf (idx k : Int) else V.get idx⟩ hV
    refine ⟨V', by show (match V.ncPut (sel r) (x.loc r) with | .error e => _ | .ok F' => _) = _; rw [hput]; exact e1, e2, e3, fun i hi idx hidx hh => ?_, fun idx hidx => ?_⟩
    · apply e4 i hi idx hidx
      by_cases hall : (List.range V.ndim).all (fun k => decide ((idx k : Int) ∈ sel r k)) = true
      · right
        dsimp only
        rw [if_pos hall]
        obtain ⟨k1, k2⟩ := key idx hall
        rw [rep_get h hr k1]
        apply h.1
        intro k hk
        have a := k2 k hk
        have b := hidx k (by rw [hn]; exact hk)
        exact stride_inj (hw k hk) (by omega)
      · rcases hh with ⟨q, hq, j, hj, hij⟩ | hh
        · rcases List.mem_cons.1 hq with rfl | hq
          · exfalso
            apply hall
            rw [List.all_eq_true]
            intro k hk
            have hk : k < G.ndim := by rw [← hn, ← hV.1]; exact List.mem_range.1 hk
            rw [decide_eq_true_eq, hs k hk, hidx k (by rw [hn]; exact hk), hij k hk, gidx_at]
            exact List.mem_map.2 ⟨j k, List.mem_range.2 (hj k (by rw [hnd]; exact hk)), rfl⟩
          · exact .inl ⟨q, hq, j, hj, hij⟩
        · right
          dsimp only
          rw [if_neg hall]; exact hh
    · rw [e5 idx hidx]
      dsimp only
      rw [if_neg ?_]
      intro hall
      obtain ⟨k1, k2⟩ := key idx hall
      obtain ⟨k, hk, hne⟩ := hidx _ (inbG _ k1)
      exact hne (k2 k (by rw [← hn]; exact hk))

/-- An axis that is not distributed: the positions of the window. -/
theorem ncAxis_eq {n c : Nat} {w : NcWin} (h : WinOk w n c) (he : 0 ≤ w.start + w.stride * (c : Int)) : ncAxis n w = (List.range c).map fun (i : Nat) => w.start + w.stride * (i : Int) := by
  obtain ⟨h1, h2, _, h3⟩ := h
  unfold ncAxis
  rw [h1]
  rcases Nat.eq_zero_or_pos c with hc | hc
  · subst hc
    simp only [Int.natCast_zero, Int.mul_zero, Int.add_zero, List.range_zero, List.map_nil]
    exact pySel_empty n w.stride
  · have a := h3 0 hc
    have b := h3 (c - 1) (by omega)
    have e : ((c - 1 : Nat) : Int) = (c : Int) - 1 := by omega
    rw [e] at b
    simp only [Int.natCast_zero, Int.mul_zero, Int.add_zero] at a
    have := pySel_exact h2 hc a b
    unfold noneIfNeg at this
    rw [if_neg (by omega)] at this
    exact this

/-- The distributed axis: the positions of the entries `lo, ..., lo + c - 1`. -/
theorem ncSplitAxis_eq {n m lo c : Nat} {w : NcWin} (h : WinOk w n m) (hlc : lo + c ≤ m) (he : 0 < c ∨ 0 ≤ w.start + w.stride * (lo : Int)) :
    ncSplitAxis n w lo (lo + c) = (List.range c).map fun (j : Nat) => w.start + w.stride * ((j + lo : Nat) : Int) := by
  obtain ⟨h1, h2, _, h3⟩ := h
  unfold ncSplitAxis
  rw [h1, Nat.min_eq_left (by omega), Nat.min_eq_left hlc]
  rcases Nat.eq_zero_or_pos c with hc | hc
  · subst hc
    have he : 0 ≤ w.start + w.stride * (lo : Int) := by omega
    unfold noneIfNeg
    rw [Nat.add_zero, if_neg (by omega)]
    exact pySel_empty n w.stride
  · have a := h3 lo (by omega)
    have b := h3 (lo + c - 1) (by omega)
    have e : ((lo + c - 1 : Nat) : Int) = (lo : Int) + ((c : Int) - 1) := by omega
    rw [e, Int.mul_add, ← Int.add_assoc] at b
    have := pySel_exact h2 hc a b
    rw [show noneIfNeg (w.start + w.stride * (lo : Int)) = some (w.start + w.stride * (lo : Int)) from if_neg (by omega)]
    rw [show w.start + w.stride * ((lo + c : Nat) : Int) = w.start + w.stride * (lo : Int) + w.stride * (c : Int) by push_cast; rw [Int.mul_add]; omega, this]
    apply List.map_congr_left
    intro j _
    push_cast
    rw [Int.mul_add]; omega

/-- Every entry of a distributed array is on some process. -/
theorem rep_owner {P : Nat} (hP : 0 < P) {x : DND α} {G : NArr α} (h : Rep P x G) {i : Nat → Nat} (hi : InB G i) : ∃ r < P, ∃ j, InB (x.loc r) j ∧ ∀ k < G.ndim, i k = gidx x.split x.loc r j k := by
  obtain ⟨_, _, _, q3, q4⟩ := h
  cases hsp : x.split with
  | none =>
    rw [hsp] at q4
    refine ⟨0, hP, i, fun k hk => ?_, fun k _ => rfl⟩
    rw [q3 0 hP] at hk
    rw [(q4 0 hP).1 k hk]; exact hi k hk
  | some s =>
    rw [hsp] at q4
    obtain ⟨l1, l2, l3⟩ := locate_spec P x.loc s (i s) (by rw [q4.2.1]; exact hi s q4.1)
    refine ⟨(locate P x.loc s (i s)).1, l1, fun k => if k = s then (locate P x.loc s (i s)).2 else i k, fun k hk => ?_, fun k hk => ?_⟩
    · rw [q3 _ l1] at hk
      dsimp only
      by_cases hks : k = s
      · rw [if_pos hks, hks]; exact l3
      · rw [if_neg hks, (q4.2.2 _ l1).1 k hk hks]; exact hi k hk
    · simp only [gidx, shift]
      by_cases hks : k = s
      · rw [if_pos hks, if_pos hks, hks]; omega
      · rw [if_neg hks, if_neg hks]

/-- A region to which the whole array can be written: the slices do not run below position 0 (in Python a negative end counts from the end), except along the split axis if every process has data. -/
def EndsOk (P : Nat) (x : DND α) (G : NArr α) (w : Nat → NcWin) : Prop :=
  ∀ k < G.ndim, 0 < (w k).stride ∨ 0 ≤ (w k).start + (w k).stride * (G.dim k : Int) ∨ (x.split = some k ∧ P ≤ G.dim k)

theorem mergeSlices_eq {P : Nat} {x : DND α} {G : NArr α} (h : Rep P x G) {s : Nat} (hs : x.split = some s) (hev : ∀ r < P, (x.loc r).dim s = evenSize (G.dim s) P r) {F : NArr α} (w : Nat → NcWin)
    (hw : ∀ k < G.ndim, WinOk (w k) (F.dim k) (G.dim k)) (he : EndsOk P x G w) {r : Nat} (hr : r < P) {k : Nat} (hk : k < G.ndim) :
    mergeSlices P r F w x.gshape (some s) (some s) k = partSel x w r k := by
  have hsl := (rep_split_lt h hs).1
  have hg : x.gshape.getD s 0 = G.dim s := h.2.2.1 s hsl
  unfold mergeSlices partSel
  dsimp only
  rw [hg, hs]
  have hend : 0 < (w k).stride ∨ 0 ≤ (w k).start + (w k).stride * (G.dim k : Int) → 0 ≤ (w k).start + (w k).stride * (G.dim k : Int) := by
    rintro (hp | hp)
    · have := (hw k hk).2.2.1 hp
      have := Int.mul_nonneg (show 0 ≤ (w k).stride by omega) (show (0 : Int) ≤ (G.dim k : Int) by omega)
      omega
    · exact hp
  by_cases hks : k = s
  · subst hks
    rw [if_pos rfl, hev r hr]
    have h1 := axisStart_even x.loc k (G.dim k) P hev r (by omega)
    have h2 : (chunkRange (G.dim k) r P).2 = (chunkRange (G.dim k) r P).1 + evenSize (G.dim k) P r := chunkRange_snd _ _ _
    have hle : axisStart x.loc k (r + 1) ≤ G.dim k := by
      have := axisStart_mono x.loc k (i := r + 1) (j := P) (by omega)
      have := (rep_split_lt h hs).2
      unfold axisStart at *
      omega
    rw [axisStart_succ, hev r hr, h1] at hle
    rw [h2, ncSplitAxis_eq (hw k hk) hle]
    · apply List.map_congr_left
      intro j _
      show _ = (w k).start + (w k).stride * ((shift k (axisStart x.loc k r) (fun _ => j) k : Nat) : Int)
      unfold shift
      rw [if_pos rfl, h1]
    · by_cases hc : 0 < evenSize (G.dim k) P r
      · exact .inl hc
      · right
        have hn : G.dim k ≤ r := by
          unfold evenSize at hc
          have h0 : G.dim k / P = 0 := by
            rcases Nat.eq_zero_or_pos (G.dim k / P) with h0 | h0
            · exact h0
            · exact absurd (Nat.add_pos_left h0 _) hc
          have h1 : G.dim k < P := by
            rcases Nat.div_eq_zero_iff.1 h0 with h | h
            · omega
            · exact h
          rw [Nat.mod_eq_of_lt h1] at hc
          by_contra hlt
          rw [if_pos (by omega)] at hc
          omega
        have hlo : (chunkRange (G.dim k) r P).1 = G.dim k := by
          have := sum_evenSize (P := P) (by omega) (G.dim k)
          unfold chunkRange
          have hm : G.dim k % P = G.dim k := Nat.mod_eq_of_lt (by omega)
          have hd : G.dim k / P = 0 := Nat.div_eq_of_lt (by omega)
          dsimp only
          rw [hm, hd, if_neg (by omega)]
          omega
        rw [hlo]
        rcases he k hk with h3 | h3 | h3
        · exact hend (.inl h3)
        · exact h3
        · omega
  · rw [if_neg hks]
    have hd := rep_dimC h hr hk (by rw [hs]; intro e; exact hks (Option.some.inj e).symm)
    rw [hd, ncAxis_eq (hw k hk) ?_]
    · apply List.map_congr_left
      intro j _
      show _ = (w k).start + (w k).stride * ((shift s (axisStart x.loc s r) (fun _ => j) k : Nat) : Int)
      unfold shift
      rw [if_neg hks]
    · rcases he k hk with h3 | h3 | h3
      · exact hend (.inl h3)
      · exact h3
      · exact absurd (Option.some.inj (hs.symm.trans h3.1)).symm hks

theorem expandedSplit_self (shape : List Nat) (sp : Option Nat) : expandedSplit shape shape sp = .ok sp := by
  unfold expandedSplit
  rw [if_neg (by simp), if_pos rfl]
  split <;> rfl

theorem counts_shape {x : DND α} {G : NArr α} {P : Nat} (h : Rep P x G) {F : NArr α} (hn : F.ndim = G.ndim) {w : Nat → NcWin} (hw : ∀ k < G.ndim, WinOk (w k) (F.dim k) (G.dim k)) :
    (List.range F.ndim).map (fun k => (w k).count) = x.gshape := by
  rw [rep_gshape h, hn]
  unfold NArr.shape
  apply List.map_congr_left
  intro k hk
  exact (hw k (List.mem_range.1 hk)).1

/-- **C168.**  Parallel I/O: an evenly distributed array is written to the selected region of the variable, in whatever order the processes write; everything else in the variable stays as it was. -/
theorem save_netcdf_parallel_spec {P : Nat} (hP : 0 < P) {x : DND α} {G : NArr α} (h : Rep P x G) {s : Nat} (hs : x.split = some s) (hev : ∀ r < P, (x.loc r).dim s = evenSize (G.dim s) P r) (F : NArr α)
    (hn : F.ndim = G.ndim) (w : Nat → NcWin) (hw : ∀ k < G.ndim, WinOk (w k) (F.dim k) (G.dim k)) (he : EndsOk P x G w) (order : List Nat) (ho : order.Perm (List.range P)) :
    ∃ F', saveNcParallel P order x F w = .ok F' ∧ IsPlaced F G w F' := by
  obtain ⟨V', e1, e2, e3, e4, e5⟩ := ncWrites_spec h F hn w (fun k hk => (hw k hk).2.1) (fun r => mergeSlices P r F w x.gshape (some s) (some s)) order (fun r hr => List.mem_range.1 (ho.mem_iff.1 hr))
    (fun r hr k hk => mergeSlices_eq h hs hev w hw he (List.mem_range.1 (ho.mem_iff.1 hr)) hk) F ⟨rfl, rfl⟩
  refine ⟨V', ?_, e2, fun k _ => by rw [e3], fun i hi idx hidx => e4 i hi idx hidx (.inl ?_), e5⟩
  · unfold saveNcParallel
    rw [counts_shape h hn hw, expandedSplit_self, hs]
    exact e1
  · obtain ⟨r, hr, j, hj⟩ := rep_owner hP h hi
    exact ⟨r, ho.mem_iff.2 (List.mem_range.2 hr), j, hj⟩

/-- Serial I/O: arrays that are evenly distributed, or not distributed at all, are written to the selected region of the variable; everything else stays as it was. -/
theorem save_netcdf_serial_spec {P : Nat} (hP : 0 < P) {x : DND α} {G : NArr α} (h : Rep P x G) (hev : ∀ s, x.split = some s → ∀ r < P, (x.loc r).dim s = evenSize (G.dim s) P r) (F : NArr α)
    (hn : F.ndim = G.ndim) (w : Nat → NcWin) (hw : ∀ k < G.ndim, WinOk (w k) (F.dim k) (G.dim k)) (he : x.split ≠ none → EndsOk P x G w) : ∃ F', saveNcSerial P x F w = .ok F' ∧ IsPlaced F G w F' := by
  cases hs : x.split with
  | some s =>
    obtain ⟨F', h1, h2⟩ := save_netcdf_parallel_spec hP h hs (hev s hs) F hn w hw (he (by rw [hs]; simp)) (List.range P) (List.Perm.refl _)
    refine ⟨F', ?_, h2⟩
    unfold saveNcParallel at h1
    unfold saveNcSerial
    rw [hs] at h1 ⊢
    dsimp only
    rw [counts_shape h hn hw, expandedSplit_self] at h1 ⊢
    exact h1
  | none =>
    have hsel : ∀ r ∈ [0], ∀ k < G.ndim, (List.range (w k).count).map (fun (i : Nat) => (w k).start + (w k).stride * (i : Int)) = partSel x w r k := by
      intro r hr k hk
      have : r = 0 := by simpa using hr
      subst this
      unfold partSel
      rw [rep_dimC h hP hk (by rw [hs]; simp), (hw k hk).1, hs]
      rfl
    obtain ⟨V', e1, e2, e3, e4, e5⟩ := ncWrites_spec h F hn w (fun k hk => (hw k hk).2.1) (fun _ k => (List.range (w k).count).map fun (i : Nat) => (w k).start + (w k).stride * (i : Int)) [0] (fun r hr => by
      have : r = 0 := by simpa using hr
      omega) hsel F ⟨rfl, rfl⟩
    refine ⟨V', ?_, e2, fun k _ => by rw [e3], fun i hi idx hidx => e4 i hi idx hidx (.inl ⟨0, by simp, i, ?_, ?_⟩), e5⟩
    · unfold saveNcSerial
      rw [hs]
      dsimp only
      unfold ncWrites at e1
      unfold ncWrites at e1
      revert e1
      cases (F.ncPut (fun k => (List.range (w k).count).map fun (i : Nat) => (w k).start + (w k).stride * (i : Int)) (x.loc 0)) <;> exact fun e => e
    · intro k hk
      rw [h.2.2.2.1 0 hP] at hk
      rw [rep_dimC h hP hk (by rw [hs]; simp)]; exact hi k hk
    · intro k _
      rw [hs]; rfl

theorem chunkRange_fst_sum (n P r : Nat) : (chunkRange n r P).1 = ((List.range r).map (evenSize n P)).sum := by
  induction r with
  | zero => rw [chunkRange_zero]; rfl
  | succ r ih =>
    rw [List.range_succ, List.map_append, List.sum_append, ← ih]
    unfold chunkRange evenSize
    simp only [List.map_cons, List.map_nil, List.sum_cons, List.sum_nil, Nat.add_zero]
    split <;> split <;> simp only [Nat.add_mul, Nat.mul_add] <;> (try split) <;> simp_all <;> omega

/-- A region with other axes than the array (`o`: the axis of the region that corresponds to the split axis `s` of the array): process `r` writes its chunk along `o` and the whole window along every other axis. -/
theorem merge_slices_expanded_spec {P r s o : Nat} (hP : 0 < P) (hr : r < P) {F : NArr α} (w : Nat → NcWin) (gshape : List Nat) (hpos : ∀ k, 0 < (w k).stride ∧ 0 ≤ (w k).start)
    (ho : WinOk (w o) (F.dim o) (gshape.getD s 0)) :
    mergeSlices P r F w gshape (some s) (some o) o =
      (List.range (evenSize (gshape.getD s 0) P r)).map (fun (j : Nat) => (w o).start + (w o).stride * ((j + (chunkRange (gshape.getD s 0) r P).1 : Nat) : Int)) ∧
    ∀ k, k ≠ o → WinOk (w k) (F.dim k) (w k).count → mergeSlices P r F w gshape (some s) (some o) k = (List.range (w k).count).map fun (i : Nat) => (w k).start + (w k).stride * (i : Int) := by
  have nn : ∀ k (c : Nat), 0 ≤ (w k).start + (w k).stride * (c : Int) := fun k c => by
    have := hpos k
    have := Int.mul_nonneg (show 0 ≤ (w k).stride by omega) (show (0 : Int) ≤ (c : Int) by omega)
    omega
  refine ⟨?_, fun k hk hw => ?_⟩
  · unfold mergeSlices
    dsimp only
    rw [if_pos rfl, chunkRange_snd]
    refine ncSplitAxis_eq ho ?_ (.inr (nn o _))
    have a := chunkRange_fst_sum (gshape.getD s 0) P r
    have b := sum_evenSize hP (gshape.getD s 0)
    have c : ∀ g : Nat → Nat, ((List.range (r + 1)).map g).sum ≤ ((List.range P).map g).sum := fun g => by
      have e : List.range P = List.range (r + 1) ++ (List.range (P - (r + 1))).map (r + 1 + ·) := by rw [← List.range_add]; congr 1; omega
      rw [e, List.map_append, List.sum_append]; omega
    have c := c (evenSize (gshape.getD s 0) P)
    rw [List.range_succ, List.map_append, List.sum_append] at c
    simp only [List.map_cons, List.map_nil, List.sum_cons, List.sum_nil] at c
    omega
  · unfold mergeSlices
    dsimp only
    rw [if_neg hk]
    exact ncAxis_eq hw (nn k _)

/-- A vector of 5 on 2 processes into row 3 of a 4 × 5 variable: process 1 writes the columns 3 and 4. -/
example (F : NArr Int) (h : F.ndim = 2 ∧ F.dim 0 = 4 ∧ F.dim 1 = 5) : expandedSplit [5] [1, 5] (some 0) = .ok (some 1) ∧
    mergeSlices 2 1 F (fun k => if k = 0 then ⟨3, 1, 1⟩ else ⟨0, 5, 1⟩) [5] (some 0) (some 1) 1 = [3, 4] ∧ mergeSlices 2 1 F (fun k => if k = 0 then ⟨3, 1, 1⟩ else ⟨0, 5, 1⟩) [5] (some 0) (some 1) 0 = [3] := by
  refine ⟨by decide +kernel, ?_, ?_⟩
  · unfold mergeSlices; rw [h.2.2]; decide +kernel
  · unfold mergeSlices; rw [h.2.1]; decide +kernel

/-- What `load_netcdf` returns for a variable with the entries of `G`: it is `G`, evenly distributed along the given axis (negative ones count from the end), whole on every process without one; other axes are refused. -/
theorem load_netcdf_spec {P : Nat} (hP : 0 < P) {F G : NArr α} (hG : Local G) (hn : F.ndim = G.ndim) (hd : ∀ k < G.ndim, F.dim k = G.dim k) (hv : ∀ idx, InB G idx → F.get idx = G.get idx) (split : Option Int) :
    (∀ sp, sanitizeAxis G.ndim split = .ok sp → ∃ y, loadNc P F split = .ok y ∧ Rep P y G ∧ y.split = sp ∧ y.balanced = some true ∧ ∀ s, sp = some s → ∀ r < P, (y.loc r).dim s = evenSize (G.dim s) P r) ∧
    (∀ e, sanitizeAxis G.ndim split = .error e → loadNc P F split = .error e) := by
  have hw : Rep P (⟨F.shape, none, fun _ => F, some true⟩ : DND α) G := by
    refine ⟨hG, by simp [NArr.shape, hn], fun k hk => ?_, fun _ _ => hn, fun r _ => ⟨hd, fun idx hin => hv idx fun k hk => ?_⟩⟩
    · exact (getD_map_rangeN _ (by rw [hn]; exact hk)).trans (hd k hk)
    · rw [← hd k hk]; exact hin k (by show k < F.ndim; rw [hn]; exact hk)
  constructor
  · intro sp hsp
    unfold loadNc
    rw [hn, hsp]
    cases sp with
    | none => exact ⟨_, rfl, hw, rfl, rfl, fun s hs => by cases hs⟩
    | some s =>
      have hs : s < G.ndim := by
        rcases Nat.eq_zero_or_pos G.ndim with h0 | h0
        · rw [h0] at hsp
          cases split with
          | none => cases hsp
          | some a => unfold sanitizeAxis at hsp; simp at hsp
        · cases split with
          | none => unfold sanitizeAxis at hsp; simp at hsp
          | some a =>
            rw [sanitizeAxis_some _ _ h0] at hsp
            split at hsp
            · have := Option.some.inj (Except.ok.inj hsp)
              split at this <;> omega
            · cases hsp
      dsimp only
      refine ⟨_, rfl, ?_, rfl, rfl, ?_⟩
      · have := rep_parts hw rfl s hs (evenSize (G.dim s) P) (some true) (sum_evenSize hP _)
        have e : (fun r => F.slice s (chunkRange (F.dim s) r P).1 ((chunkRange (F.dim s) r P).2 - (chunkRange (F.dim s) r P).1)) = fun r => F.slice s ((List.range r).map (evenSize (G.dim s) P)).sum (evenSize (G.dim s) P r) := by
          funext r
          rw [chunkRange_len, hd s hs, chunkRange_fst_sum]
        rw [e]
        exact this
      · intro t ht r _
        cases ht
        rw [← hd s hs, ← chunkRange_len]
        show (if s = s then _ else _) = _
        rw [if_pos rfl]
  · intro e he
    unfold loadNc
    rw [hn, he]

/-- **Round trip.**  An array saved to a variable of its own shape and loaded again, with any split axis and on the same number of processes, is the same array. -/
theorem netcdf_roundtrip {P : Nat} (hP : 0 < P) {x : DND α} {G : NArr α} (h : Rep P x G) (hev : ∀ s, x.split = some s → ∀ r < P, (x.loc r).dim s = evenSize (G.dim s) P r) (F : NArr α)
    (hn : F.ndim = G.ndim) (hd : ∀ k < G.ndim, F.dim k = G.dim k) (split : Option Int) {sp : Option Nat} (hsp : sanitizeAxis G.ndim split = .ok sp) :
    ∃ F' y, saveNcSerial P x F (fun k => ⟨0, G.dim k, 1⟩) = .ok F' ∧ loadNc P F' split = .ok y ∧ Rep P y G ∧ y.split = sp := by
  obtain ⟨F', h1, h2, h3, h4, h5⟩ := save_netcdf_serial_spec hP h hev F hn (fun k => ⟨0, G.dim k, 1⟩) (by
    intro k hk
    rw [hd k hk]
    exact ⟨rfl, by show (1 : Int) ≠ 0; omega, fun _ => by show (0 : Int) ≤ 0; omega, fun i hi => by show 0 ≤ (0 : Int) + 1 * i ∧ (0 : Int) + 1 * i < (G.dim k : Nat); omega⟩)
    (fun _ k _ => .inl (by show (0 : Int) < 1; omega))
  obtain ⟨y, q1, q2, q3, _⟩ := (load_netcdf_spec hP (F := F') h.1 (h2.trans hn) (fun k hk => (h3 k (by rw [hn]; exact hk)).trans (hd k hk)) (fun idx hin => h4 idx hin idx fun k _ => by
    show (idx k : Int) = 0 + 1 * (idx k : Int)
    omega) split).1 sp hsp
  exact ⟨F', y, h1, q1, q2, q3⟩

/-! ## Axes of extent 1 -/

theorem filter_axes (l : List Nat) : ((List.range l.length).filter fun i => l.getD i 0 ≠ 1).map (fun i => l.getD i 0) = l.filter fun v => v ≠ 1 := by
  induction l with
  | nil => rfl
  | cons a l ih =>
    rw [List.length_cons, List.range_succ_eq_map, List.filter_cons, List.filter_map, List.filter_cons]
    have e : (List.range l.length).filter ((fun i => decide ((a :: l).getD i 0 ≠ 1)) ∘ Nat.succ) = (List.range l.length).filter fun i => l.getD i 0 ≠ 1 := by
      apply List.filter_congr
      intro i _
      simp
    rw [e]
    have e2 : (((List.range l.length).filter fun i => l.getD i 0 ≠ 1).map Nat.succ).map (fun i => (a :: l).getD i 0) = l.filter fun v => v ≠ 1 := by
      rw [← ih, List.map_map]
      apply List.map_congr_left
      intro i _
      simp
    by_cases ha : a = 1
    · subst ha
      simpa using e2
    · rw [if_pos (by simpa using ha), if_pos (by simpa using ha), List.map_cons, e2]
      simp

theorem take_axes (l : List Nat) {s : Nat} (hs : s ≤ l.length) : ((List.range s).filter fun i => l.getD i 0 ≠ 1).map (fun i => l.getD i 0) = (l.take s).filter fun v => v ≠ 1 := by
  have hl : (l.take s).length = s := by rw [List.length_take]; omega
  rw [← filter_axes (l.take s), hl]
  have hg : ∀ i < s, (l.take s).getD i 0 = l.getD i 0 := by
    intro i hi
    simp [List.getD_eq_getElem?_getD, hi]
  have e : (List.range s).filter (fun i => decide ((l.take s).getD i 0 ≠ 1)) = (List.range s).filter fun i => l.getD i 0 ≠ 1 := by
    apply List.filter_congr
    intro i hi
    rw [hg i (List.mem_range.1 hi)]
  rw [e]
  apply List.map_congr_left
  intro i hi
  rw [hg i (List.mem_range.1 (List.mem_filter.1 hi).1)]

theorem idxOf_filter_range (q : Nat → Bool) {n s : Nat} (hs : s < n) (hq : q s = true) : ((List.range n).filter q).idxOf s = ((List.range s).filter q).length := by
  have e : List.range n = List.range s ++ s :: (List.range (n - s - 1)).map (s + 1 + ·) := by
    have h1 : n = s + (n - s - 1 + 1) := by omega
    conv_lhs => rw [h1, List.range_add, List.range_succ_eq_map]
    simp only [List.map_cons, List.map_map, Nat.add_zero]
    congr 2
    apply List.map_congr_left
    intro i _
    show s + (i + 1) = _
    omega
  rw [e, List.filter_append, List.filter_cons, if_pos hq, List.idxOf_append, if_neg (by simp)]
  simp

theorem prefix_filter (l : List Nat) (s : Nat) : (l.take s).filter (fun v => v ≠ 1) = (l.filter fun v => v ≠ 1).take ((l.take s).filter fun v => v ≠ 1).length := by
  conv_rhs => rw [← List.take_append_drop s l, List.filter_append]
  rw [List.take_append_drop, List.take_left']
  rfl

/-- The distributed axis of an array that is written to a region with more or fewer axes of extent 1: it is the axis with the same place among the axes of other extents. -/
theorem expandedSplit_spec {shape ex : List Nat} {s : Nat} (hs : s < shape.length) (h1 : shape.getD s 0 ≠ 1) (hsq : shape.filter (fun v => v ≠ 1) = ex.filter fun v => v ≠ 1) (hl : shape.length ≠ ex.length)
    (hp : shape.prod = ex.prod) (hp1 : shape.prod ≠ 1) :
    ∃ o, expandedSplit shape ex (some s) = .ok (some o) ∧ o < ex.length ∧ ex.getD o 0 = shape.getD s 0 ∧ (shape.take s).filter (fun v => v ≠ 1) = (ex.take o).filter fun v => v ≠ 1 := by
  have hmem : s ∈ nonEmptyAxes shape := List.mem_filter.2 ⟨List.mem_range.2 hs, by simpa using h1⟩
  have e1 : (nonEmptyAxes shape).map (fun i => shape.getD i 0) = shape.filter fun v => v ≠ 1 := filter_axes shape
  have e2 : (nonEmptyAxes ex).map (fun i => ex.getD i 0) = ex.filter fun v => v ≠ 1 := filter_axes ex
  have hlen : (nonEmptyAxes shape).length = (nonEmptyAxes ex).length := by
    have := congrArg List.length (e1.trans (hsq.trans e2.symm))
    simpa using this
  have hi : (nonEmptyAxes shape).idxOf s < (nonEmptyAxes ex).length := by rw [← hlen]; exact List.idxOf_lt_length_of_mem hmem
  have ho : (nonEmptyAxes ex).getD ((nonEmptyAxes shape).idxOf s) 0 = (nonEmptyAxes ex)[(nonEmptyAxes shape).idxOf s] := by simp [List.getD_eq_getElem?_getD, hi]
  refine ⟨(nonEmptyAxes ex).getD ((nonEmptyAxes shape).idxOf s) 0, ?_, ?_⟩
  · unfold expandedSplit
    rw [if_neg (by simpa using hp), if_neg hp1, if_neg hl]
    dsimp only
    rw [if_neg (by rw [e1, e2, hsq]; simp), if_pos hmem]
  · rw [ho]
    have hom : (nonEmptyAxes ex)[(nonEmptyAxes shape).idxOf s] ∈ nonEmptyAxes ex := List.getElem_mem _
    have hof := List.mem_filter.1 hom
    have hol := List.mem_range.1 hof.1
    refine ⟨hol, ?_, ?_⟩
    · have := congrArg (fun l => l[(nonEmptyAxes shape).idxOf s]?) (e1.trans (hsq.trans e2.symm))
      simp only [List.getElem?_map] at this
      rw [List.getElem?_eq_getElem hi, List.getElem?_eq_getElem (by rw [hlen]; exact hi)] at this
      have hg : (nonEmptyAxes shape)[(nonEmptyAxes shape).idxOf s]'(by rw [hlen]; exact hi) = s := List.getElem_idxOf _
      rw [hg] at this
      exact (Option.some.inj this).symm
    · have a : ((List.range s).filter fun i => decide (shape.getD i 0 ≠ 1)).length = (nonEmptyAxes shape).idxOf s := (idxOf_filter_range (fun i => decide (shape.getD i 0 ≠ 1)) hs (by simpa using h1)).symm
      have b : ((List.range (nonEmptyAxes ex)[(nonEmptyAxes shape).idxOf s]).filter fun i => decide (ex.getD i 0 ≠ 1)).length = (nonEmptyAxes shape).idxOf s := by
        rw [← idxOf_filter_range (fun i => decide (ex.getD i 0 ≠ 1)) hol hof.2]
        exact List.Nodup.idxOf_getElem (List.Nodup.filter _ List.nodup_range) _ hi
      have a' := congrArg List.length (take_axes shape (s := s) (by omega))
      have b' := congrArg List.length (take_axes ex (s := (nonEmptyAxes ex)[(nonEmptyAxes shape).idxOf s]) (by omega))
      rw [List.length_map, a] at a'
      rw [List.length_map, b] at b'
      rw [prefix_filter shape, prefix_filter ex, ← a', ← b', hsq]

/-! ## Where it is false -/

theorem saveNcSerial_eq {P : Nat} {x : DND α} {F : NArr α} {w : Nat → NcWin} {s : Nat} (hs : x.split = some s) (hc : (List.range F.ndim).map (fun k => (w k).count) = x.gshape) :
    saveNcSerial P x F w = ncWrites (fun r V => V.ncPut (mergeSlices P r F w x.gshape (some s) (some s)) (x.loc r)) (List.range P) F := by
  unfold saveNcSerial
  rw [hs]
  dsimp only
  rw [hc, expandedSplit_self]

theorem saveNcParallel_whole {P : Nat} {order : List Nat} {x : DND α} {F : NArr α} {w : Nat → NcWin} (hs : x.split = none) (hc : (List.range F.ndim).map (fun k => (w k).count) = x.gshape) :
    saveNcParallel P order x F w = ncWrites (fun r V => V.ncPut (mergeSlices P r F w x.gshape none none) ((x.loc r).slice 0 (chunkRange (x.gshape.getD 0 0) r P).1
      ((chunkRange (x.gshape.getD 0 0) r P).2 - (chunkRange (x.gshape.getD 0 0) r P).1))) order F := by
  unfold saveNcParallel
  rw [hc, expandedSplit_self, hs]

theorem ncWrites_fail {write : Nat → NArr α → Except Err (NArr α)} {r : Nat} {l : List Nat} {F : NArr α} {e : Err} (h : write r F = .error e) : ncWrites write (r :: l) F = .error e := by
  unfold ncWrites
  rw [h]

/-- A distributed axis of extent 1 behind the last axis of another extent: a 5 × 1 array with split 1 written to a 5 × 1 × 1 region raises IndexError. -/
theorem expandedSplit_violated : expandedSplit [5, 1] [5, 1, 1] (some 1) = .error .indexError := by decide +kernel

/-- A region that runs backwards to position 0 along an axis that is not the split axis: the end of its slice, -1, is taken for the last position, so nothing is selected and nothing can be written. -/
theorem save_netcdf_reversed_violated (u : Nat → Nat → α) (F : NArr α) (hF : F.ndim = 2 ∧ F.dim 0 = 2 ∧ F.dim 1 = 3) : ∃ w : Nat → NcWin, (∀ k < 2, WinOk (w k) (F.dim k) ((matA 2 3 u).dim k)) ∧
    saveNcSerial 2 (evenA 2 (matA 2 3 u) 0) F w = .error .indexError := by
  refine ⟨fun k => if k = 0 then ⟨0, 2, 1⟩ else ⟨2, 3, -1⟩, ?_, ?_⟩
  · intro k hk
    have : k = 0 ∨ k = 1 := by omega
    rcases this with rfl | rfl
    · rw [hF.2.1]
      exact ⟨rfl, by show (1 : Int) ≠ 0; omega, fun _ => by show (0 : Int) ≤ 0; omega, fun i hi => by show 0 ≤ (0 : Int) + 1 * i ∧ (0 : Int) + 1 * i < (2 : Nat); have : i < 2 := hi; omega⟩
    · rw [hF.2.2]
      exact ⟨rfl, by show (-1 : Int) ≠ 0; omega, fun h => by have : (0 : Int) < -1 := h; omega, fun i hi => by show 0 ≤ (2 : Int) + (-1) * i ∧ (2 : Int) + (-1) * i < (3 : Nat); have : i < 3 := hi; omega⟩
  · rw [saveNcSerial_eq (s := 0) rfl (by rw [hF.1]; rfl)]
    apply ncWrites_fail
    unfold NArr.ncPut
    rw [if_neg]
    rintro ⟨_, h⟩
    have := h 1 (by rw [hF.1]; omega)
    revert this
    show ¬ (3 = (ncAxis (F.dim 1) ⟨2, 3, -1⟩).length)
    rw [hF.2.2]
    decide +kernel

/-- Parallel I/O of an array that is not distributed: every process writes its chunk of it to the whole region, which does not fit. -/
theorem save_netcdf_replicated_violated (v : Nat → α) (F : NArr α) (hF : F.ndim = 1 ∧ F.dim 0 = 4) : WinOk ⟨0, 4, 1⟩ (F.dim 0) ((vecA 4 v).dim 0) ∧
    ∀ order : List Nat, order.Perm (List.range 2) → saveNcParallel 2 order (wholeA (vecA 4 v)) F (fun _ => ⟨0, 4, 1⟩) = .error .indexError := by
  constructor
  · rw [hF.2]
    exact ⟨rfl, by show (1 : Int) ≠ 0; omega, fun _ => by show (0 : Int) ≤ 0; omega, fun i hi => by show 0 ≤ (0 : Int) + 1 * i ∧ (0 : Int) + 1 * i < (4 : Nat); have : i < 4 := hi; omega⟩
  · intro order ho
    rw [saveNcParallel_whole rfl (by rw [hF.1]; rfl)]
    cases order with
    | nil => have := ho.length_eq; simp at this
    | cons r l =>
      have hr : r < 2 := List.mem_range.1 (ho.mem_iff.1 (by simp))
      apply ncWrites_fail
      unfold NArr.ncPut
      rw [if_neg]
      rintro ⟨_, h⟩
      have := h 0 (by rw [hF.1]; omega)
      revert this
      show ¬ (((chunkRange 4 r 2).2 - (chunkRange 4 r 2).1) = (ncAxis (F.dim 0) ⟨0, 4, 1⟩).length)
      rw [hF.2]
      have : r = 0 ∨ r = 1 := by omega
      rcases this with rfl | rfl <;> decide +kernel

/-- An array with 1 and 3 elements on two processes: the positions are computed for 2 and 2. -/
theorem save_netcdf_unbalanced_violated (v : Nat → α) (F : NArr α) (hF : F.ndim = 1 ∧ F.dim 0 = 4) : ∃ x : DND α, Rep 2 x (vecA 4 v) ∧ WinOk ⟨0, 4, 1⟩ (F.dim 0) ((vecA 4 v).dim 0) ∧
    saveNcSerial 2 x F (fun _ => ⟨0, 4, 1⟩) = .error .indexError := by
  refine ⟨partsND (wholeA (vecA 4 v)) 0 (fun r => if r = 0 then 1 else 3) (some false), rep_parts (rep_wholeA (vecA_local 4 v) 2) rfl 0 (by show 0 < 1; omega) _ _ rfl, ?_, ?_⟩
  · rw [hF.2]
    exact ⟨rfl, by show (1 : Int) ≠ 0; omega, fun _ => by show (0 : Int) ≤ 0; omega, fun i hi => by show 0 ≤ (0 : Int) + 1 * i ∧ (0 : Int) + 1 * i < (4 : Nat); have : i < 4 := hi; omega⟩
  · rw [saveNcSerial_eq (s := 0) rfl (by rw [hF.1]; rfl)]
    apply ncWrites_fail
    unfold NArr.ncPut
    rw [if_neg]
    rintro ⟨_, h⟩
    have := h 0 (by rw [hF.1]; omega)
    revert this
    show ¬ (1 = (ncSplitAxis (F.dim 0) ⟨0, 4, 1⟩ (chunkRange 4 0 2).1 (chunkRange 4 0 2).2).length)
    rw [hF.2]
    decide +kernel

/-! ### The hypotheses are met -/

/-- Ten elements on 4 processes, written backwards to every second position from 19 down to 1 of 20. -/
example (v : Nat → α) (F : NArr α) (hF : F.ndim = 1 ∧ F.dim 0 = 20) : ∃ F', saveNcSerial 4 (evenA 4 (vecA 10 v) 0) F (fun _ => ⟨19, 10, -2⟩) = .ok F' ∧ IsPlaced F (vecA 10 v) (fun _ => ⟨19, 10, -2⟩) F' := by
  apply save_netcdf_serial_spec (by omega) (goodRep_even (by omega) (vecA_local _ _) (by show 0 < 1; omega)).1
  · intro s hs r _
    have hs : some 0 = some s := hs
    cases hs
    rfl
  · exact hF.1
  · intro k hk
    have : k = 0 := by have : k < 1 := hk; omega
    subst this
    rw [hF.2]
    exact ⟨rfl, by show (-2 : Int) ≠ 0; omega, fun h => by have : (0 : Int) < -2 := h; omega, fun i hi => by show 0 ≤ (19 : Int) + (-2) * i ∧ (19 : Int) + (-2) * i < (20 : Nat); have : i < 10 := hi; omega⟩
  · intro _ k hk
    have : k = 0 := by have : k < 1 := hk; omega
    subst this
    exact .inr (.inr ⟨rfl, by show 4 ≤ 10; omega⟩)

example : ∃ o, expandedSplit [3, 1, 4] [1, 3, 1, 4, 1] (some 2) = .ok (some o) ∧ o < 5 ∧ [1, 3, 1, 4, 1].getD o 0 = 4 := by
  obtain ⟨o, h1, h2, h3, _⟩ := expandedSplit_spec (shape := [3, 1, 4]) (ex := [1, 3, 1, 4, 1]) (s := 2) (by decide) (by decide) (by decide) (by decide) (by decide) (by decide)
  exact ⟨o, h1, h2, h3⟩

end Heat
