import Verif.Model.Unfold
import Verif.Props.Halo
import Verif.Props.Split
/-!
# C106: `unfold`
-/
namespace Heat
open Heat.Spec
variable {α : Type}

/-- Specification: all windows of `size` rows that begin at a multiple of `step`. -/
def Spec.slidingWindows (l : List α) (size step : Nat) : List (List α) := (List.range ((l.length - size) / step + 1)).map fun i => (l.drop (i * step)).take size

/-- Number of multiples of `step` below `x`. -/
def multiplesBelow (step x : Nat) : Nat := (x + step - 1) / step

theorem multiplesBelow_le (step x g : Nat) (hs : 0 < step) : multiplesBelow step x ≤ g ↔ x ≤ g * step := by
  unfold multiplesBelow
  rw [← Nat.lt_succ_iff, Nat.div_lt_iff_lt_mul hs, Nat.succ_mul]
  omega

theorem minIndex_eq (x step : Nat) (hs : 0 < step) : unfoldMinIndex x step = ((multiplesBelow step x * step - x : Nat) : Int) := by
  have h1 := (multiplesBelow_le step x _ hs).1 (Nat.le_refl _)
  have h2 : ((x : Int) - 1) / (step : Int) + 1 = ((multiplesBelow step x : Nat) : Int) := by
    unfold multiplesBelow
    have h3 : (((x + step - 1 : Nat) : Int)) = ((x : Int) - 1) + (step : Int) := by omega
    rw [Int.natCast_ediv, h3, Int.add_ediv_of_dvd_right (Int.dvd_refl _), Int.ediv_self (by omega)]
  unfold unfoldMinIndex
  rw [h2, Int.natCast_sub h1, Int.natCast_mul]

/-- Number of windows that begin before rank `r` (for `r = P`: all windows). -/
def windowsBefore (P : Nat) (d : Nat → List α) (size step r : Nat) : Nat :=
  if r < P then multiplesBelow step (startOf d r) else ((content P d).length - size) / step + 1

theorem div_lt_of_lt (a M step : Nat) (hs : 0 < step) (h : a < M * step) : a / step + 1 ≤ M := by
  rw [Nat.succ_le_iff, Nat.div_lt_iff_lt_mul hs]; exact h

/-- The windows of a stretch of the array that begins at a multiple of `step`. -/
theorem torchUnfold_stretch (l : List α) (M e size step : Nat) (hs : 0 < step) (he : e ≤ l.length) (h : M * step + size ≤ e) :
    torchUnfold ((l.take e).drop (M * step)) size step = .ok ((List.range ((e - size) / step + 1 - M)).map fun i => (l.drop ((M + i) * step)).take size) := by
  unfold torchUnfold
  have hl : ((l.take e).drop (M * step)).length = e - M * step := by rw [List.length_drop, List.length_take, Nat.min_eq_left he]
  rw [hl, if_neg (by omega)]
  have hc : (e - M * step - size) / step + 1 = (e - size) / step + 1 - M := by
    have h1 : e - M * step - size = e - size - M * step := by omega
    rw [h1, Nat.mul_comm M step, Nat.sub_mul_div]
    have : M ≤ (e - size) / step := (Nat.le_div_iff_mul_le hs).2 (by omega)
    omega
  rw [hc]
  congr 1
  refine List.map_congr_left fun i hi => ?_
  have hi := List.mem_range.1 hi
  have hb : (M + i) * step ≤ e - size := by
    have : M + i ≤ (e - size) / step := by omega
    exact Nat.le_trans (Nat.mul_le_mul_right _ this) (Nat.div_mul_le_self _ _)
  rw [List.drop_drop, ← Nat.add_mul, List.drop_take, List.take_take, Nat.min_eq_left (by omega)]

theorem unfoldLocal_spec (P : Nat) (hP : 2 ≤ P) (d : Nat → List α) (size step : Nat) (hstep : 0 < step) (hsize : 1 < size) (hn : size ≤ (content P d).length)
    (hlen : ∀ q < P, size - 1 ≤ (d q).length) (r : Nat) (hr : r < P) :
    unfoldLocal P d size step r = .ok ((List.range (windowsBefore P d size step (r + 1) - windowsBefore P d size step r)).map fun i => ((content P d).drop ((windowsBefore P d size step r + i) * step)).take size) := by
  have hne : ∀ q < P, d q ≠ [] := fun q hq h => by have := hlen q hq; rw [h] at this; simp at this; omega
  have hpop : populated P (fun r => (d r).length) = List.range P := by
    unfold populated
    rw [List.filter_eq_self]
    intro q hq
    simpa using hne q (List.mem_range.1 hq)
  have hw := halo_window_partial P d (size - 1) false true (by rw [hpop, List.length_range]; exact hP) (fun q hq _ => hlen q hq) r hr (hne r hr)
  have hs := startOf_succ d r
  have hm := startOf_mono d (show r + 1 ≤ P by omega)
  have hc : (content P d).length = startOf d P := rfl
  have hnext : (startOf d r + (d r).length < (content P d).length) ↔ r + 1 < P := by
    rw [hc]
    constructor
    · intro h
      by_contra hc
      have : r + 1 = P := by omega
      rw [← this] at h
      omega
    · intro h
      have h1 := startOf_mono d (show r + 1 + 1 ≤ P by omega)
      have h2 := startOf_succ d (r + 1)
      have h3 := hlen (r + 1) h
      omega
  unfold unfoldLocal
  rw [if_neg (by simpa using fun q hq => by have := hlen q hq; omega), hw]
  dsimp only
  have hM1 := (multiplesBelow_le step (startOf d r) _ hstep).1 (Nat.le_refl _)
  have hwr : windowsBefore P d size step r = multiplesBelow step (startOf d r) := by unfold windowsBefore; rw [if_pos hr]
  generalize hMd : multiplesBelow step (startOf d r) = M at *
  have hmi : unfoldMinIndex (startOf d r) step = ((M * step - startOf d r : Nat) : Int) := by rw [minIndex_eq _ _ hstep, hMd]
  unfold unfoldNoData
  rw [hmi, hwr]
  split
  · rename_i hnd
    have : windowsBefore P d size step (r + 1) - M = 0 := by
      unfold windowsBefore
      split
      · rename_i h1
        simp only [ge_iff_le, Bool.or_eq_true, decide_eq_true_eq, Bool.and_eq_true, beq_iff_eq] at hnd
        have := (multiplesBelow_le step (startOf d (r + 1)) M hstep).2 (by omega)
        omega
      · rename_i h1
        have hrP : r + 1 = P := by omega
        simp only [ge_iff_le, Bool.or_eq_true, decide_eq_true_eq, Bool.and_eq_true, beq_iff_eq] at hnd
        rw [← hrP] at hc
        have := div_lt_of_lt ((content P d).length - size) M step hstep (by rw [← hrP] at hn ⊢; omega)
        omega
    rw [this]
    rfl
  · rename_i hnd
    simp only [ge_iff_le, Bool.or_eq_true, decide_eq_true_eq, Bool.and_eq_true, beq_iff_eq, not_or, not_and] at hnd
    rw [Int.toNat_natCast]
    have hdrop : ∀ e, (window (content P d) (startOf d r - 0) e).drop (M * step - startOf d r) = ((content P d).take e).drop (M * step) := by
      intro e
      unfold window
      rw [List.drop_drop]
      congr 1
      omega
    simp only [Bool.false_eq_true, false_and, if_false, true_and]
    rw [hdrop]
    by_cases hlast : r + 1 < P
    · rw [if_pos (hnext.2 hlast)]
      have h1 := startOf_mono d (show r + 1 + 1 ≤ P by omega)
      have h2 := startOf_succ d (r + 1)
      have h3 := hlen (r + 1) hlast
      rw [torchUnfold_stretch _ M _ size step hstep (by omega) (by omega)]
      have : (startOf d r + (d r).length + (size - 1) - size) / step + 1 = windowsBefore P d size step (r + 1) := by
        unfold windowsBefore multiplesBelow
        rw [if_pos hlast, ← Nat.add_div_right _ hstep]
        congr 1
        omega
      rw [this]
    · have hrP : r + 1 = P := by omega
      have hcP : startOf d r + (d r).length = (content P d).length := by rw [hc, ← hs, hrP]
      rw [if_neg (by omega), Nat.add_zero, hcP, torchUnfold_stretch _ M _ size step hstep (Nat.le_refl _) (by have := hnd.2 (by omega); omega)]
      have : windowsBefore P d size step (r + 1) = ((content P d).length - size) / step + 1 := by
        unfold windowsBefore
        rw [if_neg hlast]
      rw [this]

/-- C106: `unfold` either raises, exactly if the step is 0, the window has fewer than two rows or more rows than the array, or some process holds fewer than `size - 1` rows, or it returns all windows in order. -/
theorem unfold_windows (P : Nat) (hP : 2 ≤ P) (d : Nat → List α) (size step : Nat) :
    (0 < step ∧ 1 < size ∧ size ≤ (content P d).length ∧ (∀ q < P, size - 1 ≤ (d q).length) ∧
      ∃ out, unfoldArr P d size step = .ok out ∧ content P out = Spec.slidingWindows (content P d) size step) ∨
    (¬ (0 < step ∧ 1 < size ∧ size ≤ (content P d).length ∧ (∀ q < P, size - 1 ≤ (d q).length)) ∧ ∃ e, unfoldArr P d size step = .error e) := by
  by_cases h : 0 < step ∧ 1 < size ∧ size ≤ (content P d).length ∧ (∀ q < P, size - 1 ≤ (d q).length)
  · obtain ⟨h1, h2, h3, h4⟩ := h
    refine .inl ⟨h1, h2, h3, h4, ?_⟩
    have hl := mapM_range_eq (fun r => unfoldLocal P d size step r) _ P (fun r hr => unfoldLocal_spec P hP d size step h1 h2 h3 h4 r hr)
    refine ⟨_, by
      unfold unfoldArr
      rw [if_neg (by omega), if_neg (by omega), if_neg (by rw [← content_length_sum]; omega), hl], ?_⟩
    have hmono : ∀ r < P, windowsBefore P d size step r ≤ windowsBefore P d size step (r + 1) := by
      intro r hr
      have hs := startOf_succ d r
      unfold windowsBefore
      rw [if_pos hr, multiplesBelow_le _ _ _ h1]
      split
      · have := (multiplesBelow_le step (startOf d (r + 1)) _ h1).1 (Nat.le_refl _)
        omega
      · have hrP : r + 1 = P := by omega
        have hc : (content P d).length = startOf d (r + 1) := by rw [hrP]; rfl
        have h5 := h4 r hr
        have h6 := Nat.lt_div_mul_add (a := (content P d).length - size) h1
        rw [Nat.succ_mul]
        omega
    have hcs := content_slices (Spec.slidingWindows (content P d) size step) (windowsBefore P d size step) (by
      unfold windowsBefore multiplesBelow
      rw [if_pos (by omega), startOf_zero, Nat.div_eq_of_lt (by omega)]) P hmono
    have hP' : windowsBefore P d size step P = (Spec.slidingWindows (content P d) size step).length := by
      unfold windowsBefore Spec.slidingWindows
      rw [if_neg (by omega), List.length_map, List.length_range]
    rw [hP', List.take_length] at hcs
    rw [← hcs]
    refine content_congr fun r hr => ?_
    rw [List.getD_eq_getElem?_getD, List.getElem?_map, List.getElem?_range hr]
    dsimp only [Option.map_some, Option.getD_some]
    unfold Spec.slidingWindows
    have hle : windowsBefore P d size step (r + 1) ≤ ((content P d).length - size) / step + 1 := by
      have : ∀ k, r + 1 + k ≤ P → windowsBefore P d size step (r + 1) ≤ windowsBefore P d size step (r + 1 + k) := by
        intro k
        induction k with
        | zero => intro _; exact Nat.le_refl _
        | succ k ih => intro hk; exact Nat.le_trans (ih (by omega)) (hmono _ (by omega))
      have h7 := this (P - (r + 1)) (by omega)
      rw [show r + 1 + (P - (r + 1)) = P by omega, hP'] at h7
      simpa [Spec.slidingWindows] using h7
    rw [← List.map_take, ← List.map_drop, List.take_range, Nat.min_eq_left hle]
    refine List.ext_getElem (by simp) fun i g1 g2 => ?_
    simp
  · refine .inr ⟨h, ?_⟩
    unfold unfoldArr
    split
    · exact ⟨_, rfl⟩
    · split
      · exact ⟨_, rfl⟩
      · split
        · exact ⟨_, rfl⟩
        · rename_i g1 g2 g3
          rw [← content_length_sum] at g3
          have g4 : ∃ q < P, (d q).length < size - 1 := by
            by_contra hc
            exact h ⟨by omega, by omega, by omega, fun q hq => by by_contra hx; exact hc ⟨q, hq, by omega⟩⟩
          obtain ⟨q, hq, hlt⟩ := g4
          have hloc : unfoldLocal P d size step 0 = .error .runtimeError := by
            unfold unfoldLocal
            rw [if_pos]
            rw [List.any_eq_true]
            exact ⟨q, List.mem_range.2 hq, by simpa using hlt⟩
          obtain ⟨k, rfl⟩ : ∃ k, P = k + 1 := ⟨P - 1, by omega⟩
          rw [List.range_succ_eq_map, List.mapM_cons, hloc]
          exact ⟨_, rfl⟩

/-- A case in which two processes hold windows, one begins with a row at which no window begins, and the last one holds none. -/
example : (∀ q < 3, 2 - 1 ≤ ((fun r : Nat => if r = 0 then [1, 2, 3] else if r = 1 then [4, 5, 6] else [7]) q).length) ∧
    ∃ out, unfoldArr 3 (fun r : Nat => if r = 0 then [1, 2, 3] else if r = 1 then [4, 5, 6] else [7]) 2 2 = .ok out ∧ (List.range 3).map out = [[[1, 2], [3, 4]], [[5, 6]], []] := ⟨by decide, _, rfl, by decide +kernel⟩

/-- C106 fails for the element type: a process without windows declares the result as float32, the others with the type of the input.  Here for every number of processes, one row per process, windows of two rows and step one: the last process differs from the others. -/
theorem unfold_dtype_violated {τ : Type} (float32 dt : τ) (P : Nat) (hP : 2 ≤ P) (d : Nat → List α) (hd : ∀ q < P, (d q).length = 1) :
    unfoldDtype float32 dt P d 2 1 0 = dt ∧ unfoldDtype float32 dt P d 2 1 (P - 1) = float32 := by
  have h0 := hd 0 (by omega)
  have h1 := hd (P - 1) (by omega)
  constructor
  · unfold unfoldDtype
    rw [if_neg]
    unfold unfoldNoData unfoldMinIndex
    rw [startOf_zero, h0]
    have : (0 == P - 1) = false := by rw [beq_eq_false_iff_ne]; omega
    rw [this]
    decide
  · unfold unfoldDtype
    rw [if_pos]
    unfold unfoldNoData unfoldMinIndex
    rw [h1]
    simp

end Heat
