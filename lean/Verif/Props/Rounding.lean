import Verif.Model.Rounding
import Mathlib.Tactic.Linarith
import Mathlib.Tactic.Ring
import Mathlib.Tactic.FieldSimp
import Mathlib.Tactic.SplitIfs
import Mathlib.Algebra.Order.Floor.Ring
import Mathlib.Algebra.Order.Archimedean.Basic
/-!
# C188 rounding, clipping, integral parts: values and side effects; C189 `out` of `pow` and `divmod`
-/
namespace Heat

/-! ## Specification -/

/-- No array that existed before is different afterwards, except those of which `S` holds. -/
def OnlyChanges (S : Nat → Prop) (h h' : Heap) : Prop := ∀ i < h.next, ¬ S i → h'.obj i = h.obj i

/-- `n` is `q` rounded to an integer, halves to even. -/
def RoundsTo (q : Rat) (n : Int) : Prop := |q - n| ≤ 1 / 2 ∧ (|q - n| = 1 / 2 → n % 2 = 0)

/-- `r` is `v` rounded to `d` decimals: a multiple of `10^-d`, the nearest one, in case of a tie the even multiple. -/
def RoundsToDec (d : Int) (v r : Rat) : Prop := ∃ n : Int, r = n / (10 : Rat) ^ d ∧ RoundsTo (v * (10 : Rat) ^ d) n

theorem rat_floor_le (q : Rat) : ((q.floor : Int) : Rat) ≤ q := Int.floor_le q
theorem rat_lt_floor (q : Rat) : q < ((q.floor : Int) : Rat) + 1 := Int.lt_floor_add_one q
theorem rat_le_ceil (q : Rat) : q ≤ ((q.ceil : Int) : Rat) := by rw [Rat.ceil_eq_neg_floor_neg]; push_cast; have := rat_floor_le (-q); linarith
theorem rat_ceil_lt (q : Rat) : ((q.ceil : Int) : Rat) < q + 1 := by rw [Rat.ceil_eq_neg_floor_neg]; push_cast; have := rat_lt_floor (-q); linarith

/-- **C188.** `torch.round` as modelled satisfies its documentation. -/
theorem torchRound_spec (q : Rat) : RoundsTo q (torchRound q) := by
  have h1 := rat_floor_le q
  have h2 := rat_lt_floor q
  unfold RoundsTo torchRound
  split_ifs with a b c
  · refine ⟨abs_le.2 ⟨by linarith, by linarith⟩, fun h => ?_⟩
    rw [abs_of_nonneg (by linarith)] at h; linarith
  · push_cast
    refine ⟨abs_le.2 ⟨by linarith, by linarith⟩, fun h => ?_⟩
    rw [abs_of_nonpos (by linarith)] at h; linarith
  · exact ⟨abs_le.2 ⟨by linarith, by linarith⟩, fun _ => c⟩
  · push_cast
    refine ⟨abs_le.2 ⟨by linarith, by linarith⟩, fun _ => by omega⟩

/-- The specification determines the value. -/
theorem roundsTo_unique (q : Rat) (m n : Int) (hm : RoundsTo q m) (hn : RoundsTo q n) : m = n := by
  obtain ⟨m1, m2⟩ := hm
  obtain ⟨n1, n2⟩ := hn
  have a := abs_le.1 m1
  have b := abs_le.1 n1
  have hmn : m ≤ n + 1 ∧ n ≤ m + 1 := by
    constructor
    · have : (m : Rat) ≤ (n : Rat) + 1 := by linarith
      exact_mod_cast this
    · have : (n : Rat) ≤ (m : Rat) + 1 := by linarith
      exact_mod_cast this
  by_contra hne
  rcases (by omega : m = n + 1 ∨ n = m + 1) with h | h
  · have hq : q - m = -(1 / 2) := by rw [h]; push_cast; rw [h] at a; push_cast at a; linarith
    have hq' : q - n = 1 / 2 := by rw [h] at hq; push_cast at hq; linarith
    have e1 := m2 (by rw [hq]; norm_num)
    have e2 := n2 (by rw [hq']; norm_num)
    omega
  · have hq : q - n = -(1 / 2) := by rw [h]; push_cast; rw [h] at b; push_cast at b; linarith
    have hq' : q - m = 1 / 2 := by rw [h] at hq; push_cast at hq; linarith
    have e1 := n2 (by rw [hq]; norm_num)
    have e2 := m2 (by rw [hq']; norm_num)
    omega

example : RoundsTo (5 / 2) 2 := by refine ⟨by norm_num [abs_le], fun _ => by decide⟩

/-! ## floor, ceil, trunc -/

/-- **C188, `floor`, `ceil`, `trunc`** without `out`: a new array with, at every position, the largest integer that is not larger / the
smallest one that is not smaller / the one nearest to zero of these; nothing else changes. -/
theorem floor_ceil_trunc_spec (h : Heap) (x : Nat) :
    (∃ h' i, floorCall x none h = (h', .ok i) ∧ h.next ≤ i ∧ OnlyChanges (fun _ => False) h h' ∧
      List.Forall₂ (fun (v r : Rat) => ∃ n : Int, r = (n : Rat) ∧ r ≤ v ∧ v < r + 1) (h.obj x).data (h'.obj i).data) ∧
    (∃ h' i, ceilCall x none h = (h', .ok i) ∧ h.next ≤ i ∧ OnlyChanges (fun _ => False) h h' ∧
      List.Forall₂ (fun (v r : Rat) => ∃ n : Int, r = (n : Rat) ∧ v ≤ r ∧ r < v + 1) (h.obj x).data (h'.obj i).data) ∧
    (∃ h' i, truncCall x none h = (h', .ok i) ∧ h.next ≤ i ∧ OnlyChanges (fun _ => False) h h' ∧
      List.Forall₂ (fun (v r : Rat) => ∃ n : Int, r = (n : Rat) ∧ |r| ≤ |v| ∧ |v - r| < 1 ∧ 0 ≤ r * v) (h.obj x).data (h'.obj i).data) := by
  have key : ∀ f : Rat → Rat, ∃ h' i, localCall f x none h = (h', .ok i) ∧ h.next ≤ i ∧ OnlyChanges (fun _ => False) h h' ∧
      (h'.obj i).data = (h.obj x).data.map f := by
    intro f
    refine ⟨_, _, rfl, Nat.le_refl _, ?_, ?_⟩
    · intro i hi _
      simp only [Heap.alloc]
      rw [if_neg (by omega)]
    · simp [Heap.alloc]
  have f2 : ∀ (R : Rat → Rat → Prop) (f : Rat → Rat) (l : List Rat), (∀ v, R v (f v)) → List.Forall₂ R l (l.map f) := by
    intro R f l hR
    induction l with
    | nil => exact .nil
    | cons a l ih => exact .cons (hR a) ih
  refine ⟨?_, ?_, ?_⟩
  · obtain ⟨h', i, e, h1, h2, h3⟩ := key (fun q => q.floor)
    exact ⟨h', i, e, h1, h2, by rw [h3]; exact f2 _ _ _ fun v => ⟨v.floor, rfl, rat_floor_le v, rat_lt_floor v⟩⟩
  · obtain ⟨h', i, e, h1, h2, h3⟩ := key (fun q => q.ceil)
    exact ⟨h', i, e, h1, h2, by rw [h3]; exact f2 _ _ _ fun v => ⟨v.ceil, rfl, rat_le_ceil v, rat_ceil_lt v⟩⟩
  · obtain ⟨h', i, e, h1, h2, h3⟩ := key (fun q => torchTrunc q)
    refine ⟨h', i, e, h1, h2, by
      rw [h3]
      refine f2 _ _ _ fun v => ⟨torchTrunc v, rfl, ?_⟩
      have a1 := rat_floor_le v
      have a2 := rat_lt_floor v
      have a3 := rat_le_ceil v
      have a4 := rat_ceil_lt v
      unfold torchTrunc
      split_ifs with hv
      · have h0 : (0 : Rat) ≤ (v.floor : Rat) := by
          have : (0 : Int) ≤ v.floor := Int.floor_nonneg.2 hv
          exact_mod_cast this
        rw [abs_of_nonneg h0, abs_of_nonneg hv, abs_of_nonneg (by linarith)]
        exact ⟨a1, by linarith, mul_nonneg h0 hv⟩
      · have hv' : v < 0 := lt_of_not_ge hv
        have h0 : ((v.ceil : Int) : Rat) ≤ 0 := by
          have h4 : ((v.ceil : Int) : Rat) < 1 := by linarith
          have : v.ceil < 1 := by exact_mod_cast h4
          exact_mod_cast (by omega : v.ceil ≤ 0)
        rw [abs_of_nonpos h0, abs_of_neg hv', abs_of_nonpos (by linarith)]
        exact ⟨by linarith, by linarith, mul_nonneg_of_nonpos_of_nonpos h0 hv'.le⟩⟩

/-! ## round -/

theorem forall2_map (R : Rat → Rat → Prop) (f : Rat → Rat) (l : List Rat) (hR : ∀ v, R v (f v)) : List.Forall₂ R l (l.map f) := by
  induction l with
  | nil => exact .nil
  | cons a l ih => exact .cons (hR a) ih

theorem ten_zpow_pos (d : Int) : (0 : Rat) < (10 : Rat) ^ d := zpow_pos (by norm_num) d

theorem roundsToDec_self (d : Int) (v : Rat) : RoundsToDec d v ((torchRound (v * (10 : Rat) ^ d) : Rat) / (10 : Rat) ^ d) :=
  ⟨_, rfl, torchRound_spec _⟩

/-- **C188, `round`: the values.**  For every array, number of decimals (an integer array needs non-negative ones): the result is a new array that holds the elements rounded to that
many decimals. -/
theorem round_value (h : Heap) (x : Nat) (d : Int) (hd : 0 ≤ d ∨ (h.obj x).ty = true) :
    ∃ h' i, roundCall x d none h = (h', .ok i) ∧ h.next ≤ i ∧ List.Forall₂ (RoundsToDec d) (h.obj x).data (h'.obj i).data := by
  unfold roundCall
  by_cases h0 : d = 0
  · rw [if_pos h0]
    refine ⟨_, _, rfl, Nat.le_refl _, ?_⟩
    simp only [Heap.alloc, if_true]
    refine forall2_map _ _ _ fun v => ?_
    have := roundsToDec_self 0 v
    rw [h0]
    simpa using this
  · rw [if_neg h0]
    have hs : (decide (d < 0) && !(h.obj x).ty) = false := by
      rcases hd with hd | hd
      · simp; omega
      · simp [hd]
    simp only [scaleInplace, hs, Bool.false_eq_true, if_false, localCall, Heap.alloc, Heap.write, if_true, Bool.not_true, Bool.and_false]
    refine ⟨_, _, rfl, Nat.le_refl _, ?_⟩
    simp only [if_true, List.map_map]
    exact forall2_map _ _ _ fun v => roundsToDec_self d v

/-- **C188, `round`: side effects, what holds.**  Rounding to integers changes no array; rounding to `d` decimals changes no array but the
argument, which is multiplied by `10^d`.  Missing: the argument should not change (`round_argument_violated`). -/
theorem round_argument_partial (h : Heap) (x : Nat) (hx : x < h.next) (d : Int) (hd : 0 ≤ d ∨ (h.obj x).ty = true) :
    OnlyChanges (fun i => d ≠ 0 ∧ i = x) h (roundCall x d none h).1 ∧
    (d ≠ 0 → ((roundCall x d none h).1.obj x).data = (h.obj x).data.map fun v => v * (10 : Rat) ^ d) := by
  unfold roundCall
  by_cases h0 : d = 0
  · rw [if_pos h0]
    refine ⟨?_, fun hh => absurd h0 hh⟩
    intro i hi _
    simp only [localCall, Heap.alloc]
    rw [if_neg (by omega)]
  · rw [if_neg h0]
    have hs : (decide (d < 0) && !(h.obj x).ty) = false := by
      rcases hd with hd | hd
      · simp; omega
      · simp [hd]
    simp only [scaleInplace, hs, Bool.false_eq_true, if_false, localCall, Heap.alloc, Heap.write, if_true, Bool.not_true, Bool.and_false]
    refine ⟨?_, fun _ => ?_⟩
    · intro i hi hne
      have : i ≠ x := fun e => hne ⟨h0, e⟩
      dsimp only
      rw [if_neg (by omega), if_neg (by omega), if_neg this]
    · rw [if_neg (by omega), if_neg (by omega)]

/-- **C188 violated:** `round(x, 1)` multiplies the array of the caller by 10. -/
theorem round_argument_violated : ∃ (h : Heap) (x : Nat) (d : Int), x < h.next ∧ (h.obj x).ty = true ∧
    ¬ OnlyChanges (fun _ => False) h (roundCall x d none h).1 := by
  refine ⟨⟨fun _ => ⟨false, true, true, [1]⟩, 1⟩, 0, 1, by decide, rfl, fun hh => ?_⟩
  have h1 := hh 0 (by decide) id
  have h2 := (round_argument_partial ⟨fun _ => ⟨false, true, true, [1]⟩, 1⟩ 0 (by decide) 1 (Or.inr rfl)).2 (by decide)
  rw [h1] at h2
  norm_num at h2

/-- **C188 violated:** `round(x, -1)` of an integer array raises a `TypeError`. -/
theorem round_integer_violated : ∃ (h : Heap) (x : Nat), x < h.next ∧ (roundCall x (-1) none h).2 = .error .typeError := by
  refine ⟨⟨fun _ => ⟨false, false, false, [17]⟩, 1⟩, 0, by decide, rfl⟩

/-- **C188, `round` with `out`**, also in place (`out = x`): for a floating point array `out` of the right length the call returns `out`, which holds the rounded elements; nothing but `out` and (see above) the
argument changes. -/
theorem round_out_spec (h : Heap) (x o : Nat) (d : Int) (hd : 0 ≤ d ∨ (h.obj x).ty = true)
    (hl : (h.obj o).data.length = (h.obj x).data.length) (ht : (h.obj o).tt = true) (hty : (h.obj o).ty = true) :
    ∃ h', roundCall x d (some o) h = (h', .ok o) ∧ List.Forall₂ (RoundsToDec d) (h.obj x).data (h'.obj o).data ∧
      OnlyChanges (fun i => i = o ∨ d ≠ 0 ∧ i = x) h h' := by
  unfold roundCall
  by_cases h0 : d = 0
  · rw [if_pos h0]
    simp only [localCall, hl, ht, ne_eq, not_true_eq_false, if_false, Bool.true_eq_false, Heap.write]
    refine ⟨_, rfl, ?_, ?_⟩
    · simp only [if_true]
      refine forall2_map _ _ _ fun v => ?_
      have := roundsToDec_self 0 v
      rw [h0]
      simpa using this
    · intro i _ hne
      simp only
      rw [if_neg (fun e => hne (Or.inl e))]
  · rw [if_neg h0]
    have hs : (decide (d < 0) && !(h.obj x).ty) = false := by
      rcases hd with hd | hd
      · simp; omega
      · simp [hd]
    simp only [scaleInplace, hs, Bool.false_eq_true, if_false, localCall, Heap.write]
    by_cases hox : o = x
    · subst hox
      simp only [if_true, ne_eq, not_true_eq_false, if_false, ht, Bool.true_eq_false, hty, Bool.not_true, Bool.and_false, Bool.false_eq_true, List.map_map]
      refine ⟨_, rfl, ?_, ?_⟩
      · simp only [if_true]
        exact forall2_map _ _ _ fun v => roundsToDec_self d v
      · intro i _ hne
        have : i ≠ o := fun e => hne (Or.inl e)
        simp only [if_neg this]
    · simp only [if_neg hox, if_true, List.length_map, hl, ne_eq, not_true_eq_false, if_false, ht, Bool.true_eq_false, hty, Bool.not_true, Bool.and_false, Bool.false_eq_true,
        List.map_map]
      refine ⟨_, rfl, ?_, ?_⟩
      · simp only [if_true]
        exact forall2_map _ _ _ fun v => roundsToDec_self d v
      · intro i _ hne
        have h1 : i ≠ o := fun e => hne (Or.inl e)
        have h2 : i ≠ x := fun e => hne (Or.inr ⟨h0, e⟩)
        simp only [if_neg h1, if_neg h2]

example : ∃ (h : Heap), (0 < h.next ∧ (h.obj 0).ty = true) ∧ (h.obj 1).data.length = (h.obj 0).data.length ∧ (h.obj 1).tt = true ∧ (h.obj 1).ty = true ∧ (h.obj 0).data = [5 / 2, 1 / 3] :=
  ⟨⟨fun _ => ⟨true, true, true, [5 / 2, 1 / 3]⟩, 2⟩, ⟨by decide, rfl⟩, rfl, rfl, rfl, rfl⟩

/-! ## clip -/

/-- `r` is the point of the interval (a missing bound is infinite) nearest to `v`. -/
def Nearest (lo hi : Option Rat) (v r : Rat) : Prop :=
  (∀ l ∈ lo, l ≤ r) ∧ (∀ u ∈ hi, r ≤ u) ∧ ∀ w : Rat, (∀ l ∈ lo, l ≤ w) → (∀ u ∈ hi, w ≤ u) → |v - r| ≤ |v - w|

theorem torchClamp_nearest (lo hi : Option Rat) (hb : ∀ l ∈ lo, ∀ u ∈ hi, l ≤ u) (v : Rat) : Nearest lo hi v (torchClamp lo hi v) := by
  unfold torchClamp Nearest
  cases lo with
  | none =>
    cases hi with
    | none => simp
    | some u =>
      simp only [Option.mem_def, Option.some.injEq, forall_eq', reduceCtorEq, false_implies, implies_true, true_and, forall_const]
      split_ifs with h
      · exact ⟨le_refl _, fun w hw => by rw [abs_of_nonneg (by linarith), abs_of_nonneg (by linarith)]; linarith⟩
      · exact ⟨by linarith, fun w hw => by simp⟩
  | some l =>
    cases hi with
    | none =>
      simp only [Option.mem_def, Option.some.injEq, forall_eq', reduceCtorEq, false_implies, implies_true, true_and, forall_const]
      split_ifs with h
      · exact ⟨le_refl _, fun w hw => by rw [abs_of_neg (by linarith), abs_of_neg (by linarith)]; linarith⟩
      · exact ⟨by linarith, fun w hw => by simp⟩
    | some u =>
      have hlu := hb l rfl u rfl
      simp only [Option.mem_def, Option.some.injEq, forall_eq']
      split_ifs with h h1 h1
      · linarith
      · exact ⟨le_refl _, hlu, fun w hw _ => by rw [abs_of_neg (by linarith), abs_of_neg (by linarith)]; linarith⟩
      · exact ⟨hlu, le_refl _, fun w hw hw' => by rw [abs_of_nonneg (by linarith), abs_of_nonneg (by linarith)]; linarith⟩
      · exact ⟨by linarith, by linarith, fun w hw _ => by simp⟩

/-- **C188, `clip`** without `out`: a new array that holds for every element the nearest value between the bounds; nothing else changes. -/
theorem clip_value (h : Heap) (x : Nat) (lo hi : Option Rat) (bfl : Bool) (hb : ∀ l ∈ lo, ∀ u ∈ hi, l ≤ u) (hn : ¬ (lo = none ∧ hi = none)) :
    ∃ h' i, clipCall x lo hi bfl none h = (h', .ok (.arr i)) ∧ h.next ≤ i ∧ OnlyChanges (fun _ => False) h h' ∧
      List.Forall₂ (Nearest lo hi) (h.obj x).data (h'.obj i).data := by
  unfold clipCall
  rw [if_neg hn]
  refine ⟨_, _, rfl, Nat.le_refl _, ?_, ?_⟩
  · intro i hi' _
    simp only [Heap.alloc]
    rw [if_neg (by omega)]
  · simp only [Heap.alloc, if_true]
    exact forall2_map _ _ _ fun v => torchClamp_nearest lo hi hb v

/-- No bounds: the documented `ValueError`. -/
theorem clip_no_bounds (h : Heap) (x : Nat) (bfl : Bool) (out : Option Nat) : clipCall x none none bfl out h = (h, .error .valueError) := by
  unfold clipCall; simp

/-- **C188, `clip` with `out`, what holds:** if the local length, the split and the types fit, `out` holds the clipped elements afterwards and nothing
else changes, even if the call fails.  Missing: the call should succeed and return `out` (`clip_out_violated`). -/
theorem clip_out_partial (h : Heap) (x o : Nat) (lo hi : Option Rat) (bfl : Bool) (hb : ∀ l ∈ lo, ∀ u ∈ hi, l ≤ u) (hn : ¬ (lo = none ∧ hi = none))
    (hl : (h.obj o).data.length = (h.obj x).data.length) (hs : (h.obj o).dist = (h.obj x).dist) (ht : (h.obj o).tt = true) :
    List.Forall₂ (Nearest lo hi) (h.obj x).data ((clipCall x lo hi bfl (some o) h).1.obj o).data ∧
      OnlyChanges (fun i => i = o) h (clipCall x lo hi bfl (some o) h).1 := by
  unfold clipCall
  rw [if_neg hn]
  simp only [hl, hs, ht, ne_eq, not_true_eq_false, or_self, if_false, Bool.true_eq_false, false_and, Heap.write, if_true]
  refine ⟨forall2_map _ _ _ fun v => torchClamp_nearest lo hi hb v, ?_⟩
  intro i _ hne
  simp only [if_neg hne]

/-- **C188 violated:** for every array whose local part does not have exactly one element, `clip` with a fitting `out` raises a `RuntimeError` (after writing); a zero in a one-element
part makes the call return a local tensor instead of `out`. -/
theorem clip_out_violated (h : Heap) (x o : Nat) (lo hi : Option Rat) (bfl : Bool) (hn : ¬ (lo = none ∧ hi = none))
    (hl : (h.obj o).data.length = (h.obj x).data.length) (hs : (h.obj o).dist = (h.obj x).dist) (ht : (h.obj o).tt = true) :
    ((h.obj x).data.length ≠ 1 → (clipCall x lo hi bfl (some o) h).2 = .error .runtimeError) ∧
    ((h.obj x).data = [0] → lo = some 0 → hi = none → (clipCall x lo hi bfl (some o) h).2 = .ok (.tensor [0])) := by
  unfold clipCall
  rw [if_neg hn]
  simp only [hl, hs, ht, ne_eq, not_true_eq_false, or_self, if_false, Bool.true_eq_false, false_and]
  refine ⟨fun h1 => ?_, fun h1 h2 h3 => ?_⟩
  · match hd : (h.obj x).data, h1 with
    | [], _ => rfl
    | [a], h1 => simp at h1
    | a :: b :: l, _ => rfl
  · subst h2 h3
    rw [h1]
    simp [torchClamp]

/-- **C188 violated:** clipping an integer array with a floating point bound returns an array whose `dtype` is an integer type although its data are floating point numbers. -/
theorem clip_type_violated : ∃ (h : Heap) (x : Nat) (h' : Heap) (i : Nat), (h.obj x).ty = (h.obj x).tt ∧
    clipCall x (some (1 / 2)) none true none h = (h', .ok (.arr i)) ∧ (h'.obj i).ty ≠ (h'.obj i).tt ∧ (h'.obj i).data = [1 / 2, 3] := by
  refine ⟨⟨fun _ => ⟨false, false, false, [0, 3]⟩, 1⟩, 0, _, _, rfl, rfl, ?_, ?_⟩
  · decide
  · simp [Heap.alloc, torchClamp]; norm_num

example : ∃ h : Heap, (h.obj 1).data.length = (h.obj 0).data.length ∧ (h.obj 1).dist = (h.obj 0).dist ∧ (h.obj 1).tt = true ∧ (h.obj 0).data.length ≠ 1 :=
  ⟨⟨fun _ => ⟨false, true, true, [1, 2]⟩, 2⟩, rfl, rfl, rfl, by decide⟩

/-! ## modf -/

/-- `i` and `f` are the integral and fractional part of `v`. -/
def Parts (v f i : Rat) : Prop := f + i = v ∧ (∃ n : Int, i = n) ∧ |f| < 1 ∧ 0 ≤ f * v ∧ 0 ≤ i * v

theorem parts_trunc (v : Rat) : Parts v (v - torchTrunc v) (torchTrunc v) := by
  have a1 := rat_floor_le v
  have a2 := rat_lt_floor v
  have a3 := rat_le_ceil v
  have a4 := rat_ceil_lt v
  refine ⟨by ring, ⟨_, rfl⟩, ?_⟩
  unfold torchTrunc
  split_ifs with hv
  · have h0 : (0 : Rat) ≤ (v.floor : Rat) := by
      have : (0 : Int) ≤ v.floor := Int.floor_nonneg.2 hv
      exact_mod_cast this
    rw [abs_of_nonneg (by linarith)]
    exact ⟨by linarith, mul_nonneg (by linarith) hv, mul_nonneg h0 hv⟩
  · have hv' : v < 0 := lt_of_not_ge hv
    have h0 : ((v.ceil : Int) : Rat) ≤ 0 := by
      have h4 : ((v.ceil : Int) : Rat) < 1 := by linarith
      have : v.ceil < 1 := by exact_mod_cast h4
      exact_mod_cast (by omega : v.ceil ≤ 0)
    rw [abs_of_nonpos (by linarith)]
    exact ⟨by linarith, mul_nonneg_of_nonpos_of_nonpos (by linarith) hv'.le, mul_nonneg_of_nonpos_of_nonpos h0 hv'.le⟩

/-- **C188, `modf`** without `out`: two new arrays, at every position the fractional and the integral part; nothing else changes. -/
theorem modf_spec (h : Heap) (x : Nat) (hx : x < h.next) :
    ∃ h' f i, modfCall x none h = (h', .ok (f, i)) ∧ h.next ≤ f ∧ h.next ≤ i ∧ OnlyChanges (fun _ => False) h h' ∧
      (h'.obj f).data.length = (h.obj x).data.length ∧ (h'.obj i).data.length = (h.obj x).data.length ∧
      ∀ (k : Nat) v, (h.obj x).data[k]? = some v → ∃ a b, (h'.obj f).data[k]? = some a ∧ (h'.obj i).data[k]? = some b ∧ Parts v a b := by
  refine ⟨_, _, _, rfl, ?_, ?_, ?_, ?_, ?_, ?_⟩
  · simp [Heap.alloc]
  · simp [Heap.alloc]
  · intro j hj _
    simp only [Heap.alloc]
    rw [if_neg (by omega), if_neg (by omega)]
  · simp [Heap.alloc, show x ≠ h.next by omega]
  · simp [Heap.alloc]
  · intro k v hk
    refine ⟨v - torchTrunc v, torchTrunc v, ?_, ?_, parts_trunc v⟩
    · simp [Heap.alloc, show x ≠ h.next by omega, hk, List.getElem?_zipWith]
    · simp [Heap.alloc, hk]

/-- **C188 violated:** `modf` writes into a split `out` array of another length without an error, and leaves the `dtype` of an integer `out`. -/
theorem modf_out_violated : ∃ (h : Heap) (h' : Heap), (h.obj 0).data.length = 2 ∧ (h.obj 1).data.length = 1 ∧ (h.obj 2).ty = false ∧
    modfCall 0 (some (1, 2)) h = (h', .ok (1, 2)) ∧ (h'.obj 1).data.length = 2 ∧ (h'.obj 2).ty ≠ (h'.obj 2).tt := by
  refine ⟨⟨fun i => if i = 0 then ⟨true, true, true, [1 / 2, 3]⟩ else ⟨true, false, false, [7]⟩, 3⟩, _, rfl, rfl, rfl, rfl, ?_, ?_⟩
  · rfl
  · decide

/-! ## divmod and pow -/

/-- Quotient and remainder of floor division. -/
def QuotRem (a b q r : Rat) : Prop := q * b + r = a ∧ (∃ n : Int, q = n) ∧ (0 < b → 0 ≤ r ∧ r < b) ∧ (b < 0 → b < r ∧ r ≤ 0)

theorem quotRem_floor (a b : Rat) : QuotRem a b ((a / b).floor) (a - b * ((a / b).floor : Rat)) := by
  have h1 := rat_floor_le (a / b)
  have h2 := rat_lt_floor (a / b)
  refine ⟨by ring, ⟨_, rfl⟩, fun hp => ?_, fun hp => ?_⟩
  · rw [le_div_iff₀ hp] at h1
    rw [div_lt_iff₀ hp] at h2
    constructor <;> linarith
  · rw [le_div_iff_of_neg hp] at h1
    rw [div_lt_iff_of_neg hp] at h2
    constructor <;> linarith

/-- **C189, `divmod`** without `out`: two new arrays, at every position quotient and remainder of the floor division (zero divisors excepted). -/
theorem divmod_spec (h : Heap) (t1 t2 : Nat) (h1 : t1 < h.next) (h2 : t2 < h.next) (hl : (h.obj t1).data.length = (h.obj t2).data.length) :
    ∃ h' d m, divmodCall t1 t2 none none h = (h', .ok (d, m)) ∧ h.next ≤ d ∧ h.next ≤ m ∧ OnlyChanges (fun _ => False) h h' ∧
      (h'.obj d).data.length = (h.obj t1).data.length ∧ (h'.obj m).data.length = (h.obj t1).data.length ∧
      ∀ (k : Nat) a b, (h.obj t1).data[k]? = some a → (h.obj t2).data[k]? = some b → b ≠ 0 →
        ∃ q r, (h'.obj d).data[k]? = some q ∧ (h'.obj m).data[k]? = some r ∧ QuotRem a b q r := by
  refine ⟨_, _, _, rfl, ?_, ?_, ?_, ?_, ?_, ?_⟩
  · simp [Heap.alloc]
  · simp [Heap.alloc]
  · intro j hj _
    simp only [Heap.alloc]
    rw [if_neg (by omega), if_neg (by omega)]
  · simp [Heap.alloc, hl]
  · simp [Heap.alloc, hl, show t1 ≠ h.next by omega, show t2 ≠ h.next by omega]
  · intro k a b ha hb hne
    refine ⟨_, _, ?_, ?_, quotRem_floor a b⟩
    · simp [Heap.alloc, ha, hb, List.getElem?_zipWith]
    · simp [Heap.alloc, show t1 ≠ h.next by omega, show t2 ≠ h.next by omega, ha, hb, List.getElem?_zipWith]

/-- **C189, `divmod` with two `out` arrays** that are distinct, of floating point type and in the distribution of the operands, the first of which is not an operand: both hold the right values, and nothing else changes.
Missing: `out1` an operand (`divmod_alias_violated`). -/
theorem divmod_out_partial (h : Heap) (t1 t2 o1 o2 : Nat) (hl : (h.obj t1).data.length = (h.obj t2).data.length)
    (hd1 : (h.obj o1).dist = (h.obj t1).dist) (hd2 : (h.obj o2).dist = (h.obj t1).dist) (ht1 : (h.obj o1).tt = true) (ht2 : (h.obj o2).tt = true)
    (hl1 : (h.obj o1).data.length = (h.obj t1).data.length) (hl2 : (h.obj o2).data.length = (h.obj t1).data.length)
    (n1 : t1 ≠ o1) (n2 : t2 ≠ o1) (n3 : o2 ≠ o1) :
    ∃ h', divmodCall t1 t2 (some o1) (some o2) h = (h', .ok (o1, o2)) ∧ OnlyChanges (fun i => i = o1 ∨ i = o2) h h' ∧
      ∀ (k : Nat) a b, (h.obj t1).data[k]? = some a → (h.obj t2).data[k]? = some b → b ≠ 0 →
        ∃ q r, (h'.obj o1).data[k]? = some q ∧ (h'.obj o2).data[k]? = some r ∧ QuotRem a b q r := by
  simp only [divmodCall, binCall, List.length_zipWith, hl, hl1, hl2, hd1, hd2, Nat.min_self, ne_eq, not_true_eq_false, or_self, if_false, ht1, if_true, Heap.write, n1, n2, n3, ht2]
  refine ⟨_, rfl, ?_, ?_⟩
  · intro i _ hne
    simp only
    rw [if_neg (fun e => hne (Or.inr e)), if_neg (fun e => hne (Or.inl e))]
  · intro k a b ha hb hne
    refine ⟨_, _, ?_, ?_, quotRem_floor a b⟩
    · simp [Ne.symm n3, ha, hb, List.getElem?_zipWith]
    · simp [ha, hb, List.getElem?_zipWith]

/-- **C189 violated:** `divmod(a, b, out1=a)`: the remainder is that of the quotient; `7 = 2·3 + 1`, but the call returns 2 and 2. -/
theorem divmod_alias_violated : ∃ (h h' : Heap) (m : Nat), (h.obj 0).data = [7] ∧ (h.obj 1).data = [3] ∧ (h.obj 0).tt = true ∧
    divmodCall 0 1 (some 0) none h = (h', .ok (0, m)) ∧ (h'.obj 0).data = [2] ∧ (h'.obj m).data = [2] := by
  have e1 : ((7 : Rat) / 3).floor = 2 := by rw [show ((7 : Rat) / 3).floor = ⌊(7 : Rat) / 3⌋ from rfl]; rw [Int.floor_eq_iff]; norm_num
  have e2 : ((2 : Rat) / 3).floor = 0 := by rw [show ((2 : Rat) / 3).floor = ⌊(2 : Rat) / 3⌋ from rfl]; rw [Int.floor_eq_iff]; norm_num
  refine ⟨⟨fun i => if i = 0 then ⟨false, true, true, [7]⟩ else ⟨false, true, true, [3]⟩, 2⟩, _, _, rfl, rfl, rfl, rfl, ?_, ?_⟩
  · simp [Heap.write, Heap.alloc, e1]
  · simp [Heap.write, Heap.alloc, e1, e2]

/-- **C189, `pow`, the values.**  An integer exponent: a new array of powers of the elements; an array of exponents without `out`: element-wise. -/
theorem pow_spec (tp : Rat → Rat → Rat) (h : Heap) (t1 : Nat) :
    (∀ e : Int, (0 ≤ e ∨ (h.obj t1).tt = true) → ∀ out, ∃ h' i, powCall tp t1 (.int e) out h = (h', .ok i) ∧ h.next ≤ i ∧ OnlyChanges (fun _ => False) h h' ∧
      (h'.obj i).data = (h.obj t1).data.map (fun v => tp v e) ∧ (h'.obj i).dist = (h.obj t1).dist) ∧
    (∀ t2, ∃ h' i, powCall tp t1 (.arr t2) none h = (h', .ok i) ∧ h.next ≤ i ∧ OnlyChanges (fun _ => False) h h' ∧
      (h'.obj i).data = List.zipWith tp (h.obj t1).data (h.obj t2).data) := by
  refine ⟨fun e he out => ?_, fun t2 => ?_⟩
  · have hc : ¬ ((h.obj t1).tt = false ∧ e < 0) := by
      rintro ⟨a, b⟩
      rcases he with he | he
      · omega
      · rw [a] at he; exact absurd he (by decide)
    simp only [powCall, if_neg hc]
    refine ⟨_, _, rfl, Nat.le_refl _, ?_, ?_, ?_⟩
    · intro i hi _
      simp only [Heap.alloc]
      rw [if_neg (by omega)]
    · simp [Heap.alloc]
    · simp [Heap.alloc]
  · refine ⟨_, _, rfl, Nat.le_refl _, ?_, ?_⟩
    · intro i hi _
      simp only [Heap.alloc]
      rw [if_neg (by omega)]
    · simp [Heap.alloc]

/-- **C189, `pow` with an array of exponents and `out`:** `out` holds the powers, is returned, and nothing else changes. -/
theorem pow_out_array (tp : Rat → Rat → Rat) (h : Heap) (t1 t2 o : Nat) (hl : (h.obj t1).data.length = (h.obj t2).data.length)
    (hd : (h.obj o).dist = (h.obj t1).dist) (ht : (h.obj o).tt = true) (hlo : (h.obj o).data.length = (h.obj t1).data.length) :
    ∃ h', powCall tp t1 (.arr t2) (some o) h = (h', .ok o) ∧ OnlyChanges (fun i => i = o) h h' ∧
      (h'.obj o).data = List.zipWith tp (h.obj t1).data (h.obj t2).data := by
  simp only [powCall, binCall, List.length_zipWith, hl, hlo, hd, Nat.min_self, ne_eq, not_true_eq_false, or_self, if_false, ht, if_true, Heap.write]
  refine ⟨_, rfl, ?_, ?_⟩
  · intro i _ hne
    simp only [if_neg hne]
  · simp

/-- **C189 violated:** with an integer exponent `pow` never touches the `out` array it is given, whatever it is (even one of the wrong shape), and returns another one. -/
theorem pow_out_violated (tp : Rat → Rat → Rat) (h : Heap) (t1 o : Nat) (ho : o < h.next) (e : Int) (he : 0 ≤ e) :
    ∃ h' i, powCall tp t1 (.int e) (some o) h = (h', .ok i) ∧ i ≠ o ∧ h'.obj o = h.obj o := by
  obtain ⟨h', i, e1, e2, e3, _⟩ := (pow_spec tp h t1).1 e (Or.inl he) (some o)
  exact ⟨h', i, e1, by omega, e3 o ho id⟩

example : ∃ h : Heap, (h.obj 0).data.length = (h.obj 1).data.length ∧ (h.obj 2).dist = (h.obj 0).dist ∧ (h.obj 2).tt = true ∧
    (h.obj 2).data.length = (h.obj 0).data.length ∧ (0 : Nat) ≠ 2 ∧ 2 < h.next ∧ (h.obj 0).data = [7, -3] :=
  ⟨⟨fun _ => ⟨false, true, true, [7, -3]⟩, 3⟩, rfl, rfl, rfl, rfl, by decide, by decide, rfl⟩

end Heat
