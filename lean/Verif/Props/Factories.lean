import Verif.Model.Factories
import Verif.Proof.Float64
import Verif.Proof.Dist
import Verif.Props.Chunk
import Verif.Props.BinaryOp
/-!
# C34-C37, C53, C54: array creation
-/
namespace Heat
open Heat.Spec
variable {α : Type}

theorem ceilQ_eq (q : ℚ) : ceilQ q = ⌈q⌉ := rfl

theorem chunkInt_nat (n r P : Nat) :
    chunkInt n true r P = ((((chunkRange n r P).1 : Nat) : Int), ((evenSize n P r : Nat) : Int)) := by
  unfold chunkInt evenSize
  rw [chunkRange_fst]
  have h1 : (n : Int) / (P : Int) = ((n / P : Nat) : Int) := by simp
  have h2 : (n : Int) % (P : Int) = ((n % P : Nat) : Int) := by simp
  simp only [if_true, h1, h2]
  by_cases h : r < n % P
  · rw [if_pos (by omega), if_pos h]
    simp only [Prod.mk.injEq]
    constructor
    · rw [Nat.min_eq_left (by omega)]; push_cast; ring
    · push_cast; rfl
  · rw [if_neg (by omega), if_neg h]
    simp only [Prod.mk.injEq]
    constructor
    · rw [Nat.min_eq_right (by omega)]; push_cast; ring
    · simp

theorem content_chunks (n P : Nat) (hP : 0 < P) (f : Nat → α) :
    content P (fun r => (List.range (evenSize n P r)).map fun i => f ((chunkRange n r P).1 + i)) =
      (List.range n).map f := by
  have h := content_slices ((List.range n).map f) (fun r => (chunkRange n r P).1) (chunkRange_zero n P) P
    (fun r _ => chunkRange_mono n P (by omega))
  simp only [chunkRange_at_P n P hP] at h
  rw [List.take_of_length_le (by simp)] at h
  rw [← h]
  apply content_congr
  intro r hr
  have hle : (chunkRange n (r + 1) P).1 ≤ n := by
    have := chunkRange_mono n P (show r + 1 ≤ P by omega)
    rwa [chunkRange_at_P n P hP] at this
  have hs := chunkRange_size n r P
  rw [← chunkRange_succ] at hs
  apply List.ext_getElem?
  intro i
  rw [List.getElem?_drop, List.getElem?_take]
  simp only [List.getElem?_map]
  by_cases hi : i < evenSize n P r
  · rw [List.getElem?_range hi, if_pos (by omega), List.getElem?_range (by omega)]; rfl
  · rw [List.getElem?_eq_none (l := List.range (evenSize n P r)) (by simpa using hi), if_neg (by omega)]; rfl

/-! ## arange -/

theorem torchArangeInt_spec (start step : Int) (l : Nat) (hs : step ≠ 0) :
    torchArangeInt start (start + (l : Int) * step) step =
      .ok ((List.range l).map fun (i : Nat) => start + (i : Int) * step) := by
  unfold torchArangeInt
  rw [if_neg hs, if_neg]
  · have : (((start + (l : Int) * step - start : Int) : ℚ) / (step : ℚ)) = ((l : Int) : ℚ) := by
      have : (step : ℚ) ≠ 0 := by exact_mod_cast hs
      push_cast
      field_simp
      ring
    rw [this, ceilQ_eq, Int.ceil_intCast]
    simp
  · rintro (⟨h1, h2⟩ | ⟨h1, h2⟩)
    · have : 0 ≤ (l : Int) * step := Int.mul_nonneg (by omega) (by omega)
      omega
    · have : (l : Int) * step ≤ 0 := Int.mul_nonpos_of_nonneg_of_nonpos (by omega) (by omega)
      omega

/-- C34: the number of elements is exact for integer arguments less than `2^53` apart. -/
theorem arangeNum_exact (start stop : Int) (step : Option Int) (hs : step ≠ some 0)
    (h : |stop - start| < 2 ^ 53) :
    arangeNum start stop step = .ok ⌈((stop - start : Int) : ℚ) / ((step.getD 1 : Int) : ℚ)⌉ := by
  unfold arangeNum
  cases step with
  | none =>
    simp only [Option.getD_none]
    rw [fl64_int _ h, ceilQ_eq]
    simp
  | some s =>
    have : s ≠ 0 := fun e => hs (by rw [e])
    simp only [Option.getD_some]
    rw [if_neg this, ceilQ_eq, ceil_fl64_div _ _ this h]

/-- C34 (partial).  `arange(start, stop[, step])` with integer arguments less than `2^53` apart and a
non-negative number `num = ⌈(stop - start) / step⌉` of elements: on every number of ranks the ranks' parts
concatenate to `start + k * step`, `0 ≤ k < num` (each converted to the requested type), the declared size is `num`,
and every rank has its canonical share; without split every rank has the whole array.  Missing: empty ranges given
with `num < 0`, where numpy returns an empty array and heat raises (`arange_negative_violated`); the conversion
to int32, the default type, wraps large values (`arange_int32_violated`). -/
theorem arange_spec_partial (cast : Int → Int) (start stop : Int) (step : Option Int) (P : Nat) (hP : 0 < P)
    (hs : step ≠ some 0) (h : |stop - start| < 2 ^ 53) (num : Nat)
    (hnum : (num : Int) = ⌈((stop - start : Int) : ℚ) / ((step.getD 1 : Int) : ℚ)⌉) :
    (∃ parts : Nat → List Int,
      (∀ r < P, arangeInt cast start stop step true r P = .ok (num, parts r)) ∧
      content P parts = (List.range num).map (fun (k : Nat) => cast (start + (k : Int) * step.getD 1)) ∧
      Balanced P parts) ∧
    (∀ r < P, arangeInt cast start stop step false r P =
      .ok (num, (List.range num).map (fun (k : Nat) => cast (start + (k : Int) * step.getD 1)))) := by
  have hstep : step.getD 1 ≠ 0 := by
    cases step with
    | none => simp
    | some s => intro e; exact hs (by simpa using e)
  have hN := arangeNum_exact start stop step hs h
  rw [← hnum] at hN
  constructor
  · have hc : content P (fun r => (List.range (evenSize num P r)).map fun (i : Nat) =>
        cast (start + (((chunkRange num r P).1 + i : Nat) : Int) * step.getD 1)) =
        (List.range num).map (fun (k : Nat) => cast (start + (k : Int) * step.getD 1)) :=
      content_chunks num P hP fun k => cast (start + (k : Int) * step.getD 1)
    refine ⟨_, ?_, hc, ?_⟩
    · intro r hr
      unfold arangeInt
      rw [hN]
      simp only [bind, Except.bind, chunkInt_nat]
      rw [torchArangeInt_spec _ _ _ hstep]
      simp only [pure, Except.pure, List.map_map]
      congr 2
      apply List.map_congr_left
      intro i _
      simp only [Function.comp]
      congr 1
      push_cast; ring
    · intro r hr
      rw [hc]; simp
  · intro r hr
    unfold arangeInt
    rw [hN]
    simp only [bind, Except.bind, chunkInt, Bool.false_eq_true, if_false]
    rw [torchArangeInt_spec _ _ _ hstep]
    simp [pure, Except.pure]

example : |((-3 : Int)) - 5| < 2 ^ 53 ∧ ((4 : Nat) : Int) = ⌈(((-3 : Int) - 5 : Int) : ℚ) / ((-2 : Int) : ℚ)⌉ := by
  constructor
  · decide
  · norm_num

example : arangeInt id 5 (-3) (some (-2)) true 0 3 = .ok (4, [5, 3]) ∧
    arangeInt id 5 (-3) (some (-2)) true 1 3 = .ok (4, [1]) ∧
    arangeInt id 5 (-3) (some (-2)) true 2 3 = .ok (4, [-1]) := by decide +kernel

/-- C34 fails for every empty range with `num < 0` (numpy returns an empty array): the last rank raises a
RuntimeError. -/
theorem arange_negative_violated (cast : Int → Int) (start stop : Int) (step : Option Int) (P : Nat) (hP : 0 < P)
    (hs : step ≠ some 0) (h : |stop - start| < 2 ^ 53)
    (hnum : ⌈((stop - start : Int) : ℚ) / ((step.getD 1 : Int) : ℚ)⌉ < 0) (split : Bool) :
    arangeInt cast start stop step split (P - 1) P = .error .runtimeError := by
  have hstep : step.getD 1 ≠ 0 := by
    cases step with
    | none => simp
    | some s => intro e; exact hs (by simpa using e)
  have hN := arangeNum_exact start stop step hs h
  generalize ⌈((stop - start : Int) : ℚ) / ((step.getD 1 : Int) : ℚ)⌉ = num at *
  unfold arangeInt
  rw [hN]
  simp only [bind, Except.bind]
  have hneg : (chunkInt num split (P - 1) P).2 < 0 := by
    unfold chunkInt
    cases split with
    | false => simpa using hnum
    | true =>
      have h1 := Int.emod_lt_of_pos num (show (0 : Int) < P by omega)
      have h2 : num / (P : Int) < 0 := Int.ediv_neg_of_neg_of_pos hnum (by omega)
      simp only [if_true]
      rw [if_neg (by omega)]
      exact h2
  generalize chunkInt num split (P - 1) P = c at *
  obtain ⟨o, l⟩ := c
  simp only at hneg ⊢
  unfold torchArangeInt
  rw [if_neg hstep, if_pos]
  rcases Int.lt_or_gt_of_ne hstep with hlt | hgt
  · right
    refine ⟨hlt, ?_⟩
    have : 0 < l * step.getD 1 := Int.mul_pos_of_neg_of_neg hneg hlt
    omega
  · left
    refine ⟨hgt, ?_⟩
    have : l * step.getD 1 < 0 := Int.mul_neg_of_neg_of_pos hneg hgt
    omega

example : arangeInt id 5 2 none true 0 4 = .ok (-3, []) ∧ arangeInt id 5 2 none true 3 4 = .error .runtimeError := by
  decide +kernel

/-- The default int32 type wraps values beyond its range silently. -/
theorem arange_int32_violated :
    arangeInt wrapInt32 (2 ^ 31 - 1) (2 ^ 31 + 1) none false 0 1 = .ok (2, [2147483647, -2147483648]) := by
  decide +kernel

/-- The size is wrong for integer arguments `2^53 + 1` apart (`num` is computed in double precision). -/
theorem arange_size_violated : arangeNum 0 (2 ^ 53 + 1) none = .ok (2 ^ 53) := by decide +kernel

/-- C54 (exact arithmetic): with real-number arithmetic the local data of `arange` with fractional arguments is
distributed correctly. -/
theorem arange_exact_partial (start stop step : ℚ) (hs : step ≠ 0) (P : Nat) (hP : 0 < P) (num : Nat)
    (hnum : (num : Int) = ⌈(stop - start) / step⌉) :
    ∃ parts : Nat → List ℚ, (∀ r < P, arangeFloat id start stop step true r P = .ok (num, parts r)) ∧
      content P parts = (List.range num).map (fun (k : Nat) => start + (k : ℚ) * step) ∧ Balanced P parts := by
  have hc : content P (fun r => (List.range (evenSize num P r)).map fun (i : Nat) =>
      start + (((chunkRange num r P).1 + i : Nat) : ℚ) * step) =
      (List.range num).map (fun (k : Nat) => start + (k : ℚ) * step) :=
    content_chunks num P hP fun k => start + (k : ℚ) * step
  refine ⟨_, ?_, hc, ?_⟩
  · intro r hr
    unfold arangeFloat
    simp only [id, ceilQ_eq]
    rw [← hnum, chunkInt_nat]
    simp only [bind, Except.bind, pure, Except.pure]
    rw [if_neg hs]
    have ht : ∀ (a : ℚ) (l : Nat), torchArangeFloat id a (a + (((l : Nat) : Int) : ℚ) * step) step =
        .ok ((List.range l).map fun (i : Nat) => a + (i : ℚ) * step) := by
      intro a l
      have hl : (0 : ℚ) ≤ l := by exact_mod_cast Nat.zero_le l
      unfold torchArangeFloat
      rw [if_neg hs, if_neg]
      · simp only [id]
        have : (a + (((l : Nat) : Int) : ℚ) * step - a) / step = ((l : Int) : ℚ) := by field_simp; ring
        rw [this, ceilQ_eq, Int.ceil_intCast]
        simp
      · push_cast
        rintro (⟨h1, h2⟩ | ⟨h1, h2⟩) <;> nlinarith
    rw [ht]
    simp only
    congr 2
    apply List.map_congr_left
    intro i _
    push_cast; ring
  · intro r hr
    rw [hc]; simp

/-- C54 fails in floating point: `ht.arange(0, 0.3, 0.1)` declares global shape (3,), but its local tensor has
four elements, already on one process. -/
theorem arange_float_size_violated :
    ∃ data, arangeFloat fl64 0 (fl64 (3 / 10)) (fl64 (1 / 10)) false 0 1 = .ok (3, data) ∧ data.length = 4 := by
  have h : (match arangeFloat fl64 0 (fl64 (3 / 10)) (fl64 (1 / 10)) false 0 1 with
      | .ok (n, data) => n == 3 && data.length == 4
      | .error _ => false) = true := by decide +kernel
  revert h
  cases arangeFloat fl64 0 (fl64 (3 / 10)) (fl64 (1 / 10)) false 0 1 with
  | error e => intro h; cases h
  | ok v =>
    obtain ⟨n, data⟩ := v
    intro h
    simp only [Bool.and_eq_true, beq_iff_eq] at h
    obtain ⟨rfl, h2⟩ := h
    exact ⟨data, rfl, h2⟩

/-! ## linspace -/

/-- C36 (exact arithmetic).  For every `num ≥ 0`, endpoints and number of ranks, `linspace(..., split=0)` is
`start + k * step` at global position `k`, with `step` the returned step; a negative `num` raises ValueError. -/
theorem linspace_spec (start stop : ℚ) (num : Nat) (endpoint : Bool) (P : Nat) (hP : 0 < P) :
    let step := (stop - start) / ((max 1 (if endpoint then (num : Int) - 1 else num) : Int) : ℚ)
    ∃ parts : Nat → List ℚ, (∀ r < P, linspace start stop num endpoint true r P = .ok (parts r, step)) ∧
      content P parts = (List.range num).map (fun (k : Nat) => start + (k : ℚ) * step) ∧ Balanced P parts := by
  intro step
  have hc : content P (fun r => (List.range (evenSize num P r)).map fun (i : Nat) =>
      start + (((chunkRange num r P).1 + i : Nat) : ℚ) * step) =
      (List.range num).map (fun (k : Nat) => start + (k : ℚ) * step) :=
    content_chunks num P hP fun k => start + (k : ℚ) * step
  refine ⟨_, ?_, hc, ?_⟩
  · intro r hr
    unfold linspace
    rw [if_neg (by omega), chunkInt_nat]
    simp only
    have : ∀ x y : List ℚ, x = y → (Except.ok (x, step) : Except Err (List ℚ × ℚ)) = .ok (y, step) := by
      intro x y h; rw [h]
    refine this _ _ ?_
    unfold torchLinspace
    simp only [Int.toNat_natCast]
    apply List.map_congr_left
    intro i hi
    have hi := List.mem_range.1 hi
    generalize hl : evenSize num P r = l at *
    split
    · have : i = 0 := by omega
      subst this
      show start + _ * step = _
      push_cast
      ring
    · rename_i h1
      have hl2 : ((l - 1 : Nat) : ℚ) = (l : ℚ) - 1 := by
        rw [Nat.cast_sub (by omega)]; simp
      have hne : (l : ℚ) - 1 ≠ 0 := by
        have : l ≠ 1 := h1
        intro e
        exact this (by exact_mod_cast (by linarith : (l : ℚ) = 1))
      show start + _ * step + (i : ℚ) * ((start + _ * step + _ * step - step - (start + _ * step)) / _) = _
      rw [hl2]
      push_cast
      have : (start + ((chunkRange num r P).1 : ℚ) * step + (l : ℚ) * step - step -
          (start + ((chunkRange num r P).1 : ℚ) * step)) / ((l : ℚ) - 1) = step := by
        rw [div_eq_iff hne]; ring
      rw [this]; ring
  · intro r hr
    rw [hc]; simp

theorem linspace_negative (start stop : ℚ) (num : Int) (hn : num < 0) (endpoint split : Bool) (r P : Nat) :
    linspace start stop num endpoint split r P = .error .valueError := by
  unfold linspace; rw [if_pos hn]

/-- The last point is `stop` when the end point is included. -/
theorem linspace_last (start stop : ℚ) (num : Nat) (h : 2 ≤ num) :
    start + ((num - 1 : Nat) : ℚ) * ((stop - start) / ((max 1 ((num : Int) - 1) : Int) : ℚ)) = stop := by
  have h1 : (max 1 ((num : Int) - 1) : Int) = ((num - 1 : Nat) : Int) := by omega
  have hne : ((num - 1 : Nat) : ℚ) ≠ 0 := by
    have : num - 1 ≠ 0 := by omega
    exact_mod_cast this
  rw [h1, Int.cast_natCast]
  field_simp
  ring

example : linspace 0 1 5 true true 1 2 = .ok ([3 / 4, 1], 1 / 4) := by decide +kernel

/-! ## eye -/

theorem eyeLoop_mem (split : Option Nat) (offset lr lc : Nat) (fuel i x y : Nat) :
    (x, y) ∈ eyeLoop split offset lr lc fuel i ↔ ∃ k, i ≤ k ∧ k < i + fuel ∧ x < lr ∧ y < lc ∧
      x = (if split = some 0 then k else k + offset) ∧ y = (if split = some 1 then k else k + offset) := by
  induction fuel generalizing i with
  | zero => simp [eyeLoop]; intro k h1 h2; omega
  | succ f ih =>
    have hx : ∀ k, ∃ p q : Nat, (if split = some 0 then k else k + offset) = k + p ∧
        (if split = some 1 then k else k + offset) = k + q ∧
        ∀ j, (if split = some 0 then j else j + offset) = j + p ∧ (if split = some 1 then j else j + offset) = j + q := by
      intro k
      by_cases h0 : split = some 0 <;> by_cases h1 : split = some 1 <;> simp [h0, h1] <;>
        first | exact ⟨0, rfl, 0, rfl, by simp⟩ | exact ⟨0, rfl, offset, rfl, by simp⟩ |
          exact ⟨offset, rfl, 0, rfl, by simp⟩ | exact ⟨offset, rfl, offset, rfl, by simp⟩ | skip
    obtain ⟨p, q, -, -, hpq⟩ := hx i
    simp only [(hpq _).1, (hpq _).2] at ih ⊢
    rw [eyeLoop]
    simp only [(hpq _).1, (hpq _).2]
    by_cases h : i + p ≥ lr ∨ i + q ≥ lc
    · rw [if_pos h]
      constructor
      · intro h; simp at h
      · rintro ⟨k, h1, h2, h3, h4, h5, h6⟩
        omega
    · rw [if_neg h, List.mem_cons, ih (i + 1)]
      constructor
      · rintro (e | ⟨k, h1, h2, h3⟩)
        · simp only [Prod.mk.injEq] at e
          obtain ⟨rfl, rfl⟩ := e
          exact ⟨i, by omega, by omega, by omega, by omega, rfl, rfl⟩
        · exact ⟨k, by omega, by omega, h3⟩
      · rintro ⟨k, h1, h2, h3, h4, h5, h6⟩
        by_cases hk : k = i
        · subst hk; left; rw [h5, h6]
        · exact Or.inr ⟨k, by omega, by omega, h3, h4, h5, h6⟩

/-- C35.  `eye((n, m), split)`: on every rank, for split None, 0 and 1, the local shape is the canonical one and
the entry at a local position is 1 exactly when its global row and column coincide. -/
theorem eye_spec (n m P : Nat) (split : Option Nat) (hsp : split = none ∨ split = some 0 ∨ split = some 1) (r : Nat) :
    ∃ lr lc f, eyeLocal n m split r P = .ok ((lr, lc), f) ∧
      lr = (if split = some 0 then evenSize n P r else n) ∧ lc = (if split = some 1 then evenSize m P r else m) ∧
      ∀ x < lr, ∀ y < lc, f x y =
        if (if split = some 0 then (chunkRange n r P).1 + x else x) =
           (if split = some 1 then (chunkRange m r P).1 + y else y) then 1 else 0 := by
  rcases hsp with rfl | rfl | rfl
  · refine ⟨n, m, fun x y => if (x, y) ∈ eyeLoop none 0 n m (min n m) 0 then 1 else 0, rfl, rfl, rfl, ?_⟩
    intro x hx y hy
    simp only [reduceCtorEq, if_false]
    refine if_congr ?_ rfl rfl
    rw [eyeLoop_mem]
    simp only [reduceCtorEq, if_false]
    constructor
    · rintro ⟨k, -, -, -, -, rfl, rfl⟩; rfl
    · rintro rfl
      exact ⟨x, by omega, by omega, hx, hy, by simp, by simp⟩
  · refine ⟨(chunkRange n r P).2 - (chunkRange n r P).1, m, fun x y => if (x, y) ∈ eyeLoop (some 0)
      (chunkRange n r P).1 ((chunkRange n r P).2 - (chunkRange n r P).1) m
      (min ((chunkRange n r P).2 - (chunkRange n r P).1) m) 0 then 1 else 0, rfl, ?_, rfl, ?_⟩
    · simp [chunkRange_size]
    intro x hx y hy
    simp only [if_true, Option.some.injEq, Nat.zero_ne_one, if_false]
    refine if_congr ?_ rfl rfl
    rw [eyeLoop_mem]
    simp only [if_true, Option.some.injEq, Nat.zero_ne_one, if_false]
    constructor
    · rintro ⟨k, -, -, -, -, rfl, rfl⟩; exact Nat.add_comm _ _
    · rintro h
      exact ⟨x, by omega, by omega, hx, hy, rfl, by omega⟩
  · refine ⟨n, (chunkRange m r P).2 - (chunkRange m r P).1, fun x y => if (x, y) ∈ eyeLoop (some 1)
      (chunkRange m r P).1 n ((chunkRange m r P).2 - (chunkRange m r P).1)
      (min n ((chunkRange m r P).2 - (chunkRange m r P).1)) 0 then 1 else 0, rfl, rfl, ?_, ?_⟩
    · simp [chunkRange_size]
    intro x hx y hy
    simp only [if_true, Option.some.injEq, Nat.one_ne_zero, if_false]
    refine if_congr ?_ rfl rfl
    rw [eyeLoop_mem]
    simp only [if_true, Option.some.injEq, Nat.one_ne_zero, if_false]
    constructor
    · rintro ⟨k, -, -, -, -, rfl, rfl⟩; exact Nat.add_comm _ _
    · rintro h
      exact ⟨y, by omega, by omega, hx, hy, by omega, rfl⟩

/-! ## array -/

/-- C37: `array(obj, split=s)` distributes the object: the ranks' parts concatenate to it, in canonical shares. -/
theorem array_split_spec (P : Nat) (hP : 0 < P) (data : List α) :
    content P (arraySplit P data) = data ∧ Balanced P (arraySplit P data) := by
  have hc : content P (arraySplit P data) = data := by
    have h := content_slices data (fun r => (chunkRange data.length r P).1) (chunkRange_zero _ P) P
      (fun r _ => chunkRange_mono _ P (by omega))
    simp only [chunkRange_at_P _ P hP] at h
    rw [List.take_of_length_le (Nat.le_refl _)] at h
    refine Eq.trans ?_ h
    apply content_congr
    intro r _
    simp only [arraySplit]
    rw [chunkRange_succ]
  refine ⟨hc, ?_⟩
  intro r hr
  rw [hc]
  have hle : (chunkRange data.length r P).2 ≤ data.length := by
    rw [← chunkRange_succ]
    have := chunkRange_mono data.length P (show r + 1 ≤ P by omega)
    rwa [chunkRange_at_P _ P hP] at this
  simp only [arraySplit, List.length_drop, List.length_take]
  rw [Nat.min_eq_left hle, chunkRange_size]

example : (List.range 3).map (arraySplit 3 [10, 11, 12, 13]) = [[10, 11], [12], [13]] := by decide

theorem minOver_neg (f : Nat → Int) (k : Nat) : minOver f (k + 1) < 0 ↔ ∃ r < k + 1, f r < 0 := by
  induction k with
  | zero => simp [minOver]
  | succ k ih =>
    show min (minOver f (k + 1)) (f (k + 1)) < 0 ↔ _
    constructor
    · intro h
      by_cases h1 : minOver f (k + 1) < 0
      · obtain ⟨r, hr, h2⟩ := ih.1 h1; exact ⟨r, by omega, h2⟩
      · exact ⟨k + 1, by omega, by omega⟩
    · rintro ⟨r, hr, h⟩
      by_cases h1 : r = k + 1
      · subst h1; omega
      · have := ih.2 ⟨r, by omega, h⟩; omega

/-- The local shapes fit together along axis `s`: same number of dimensions and same extent in every other one. -/
def Spec.Consistent (P : Nat) (shapes : Nat → List Nat) (s : Nat) : Prop :=
  ∀ q < P, ∀ r < P, (shapes q).length = (shapes r).length ∧ ∀ i, i ≠ s → (shapes q)[i]? = (shapes r)[i]?

theorem checked_nonneg_iff (shapes : Nat → List Nat) (s r : Nat) :
    (0 ≤ checkedSize shapes s r ↔ r = 0 ∨ ((shapes (r - 1)).length = (shapes r).length ∧
      ∀ i, i ≠ s → (shapes (r - 1))[i]? = (shapes r)[i]?)) ∧
    (0 ≤ checkedSize shapes s r → checkedSize shapes s r = (((shapes r).getD s 0 : Nat) : Int)) := by
  have hm : ¬ (0 : Int) ≤ int64Min := by decide
  unfold checkedSize
  simp only
  by_cases h0 : r = 0
  · rw [if_pos h0]; simp [h0]
  · rw [if_neg h0]
    by_cases hl : (shapes (r - 1)).length ≠ (shapes r).length
    · rw [if_pos hl]
      exact ⟨⟨fun h => absurd h hm, fun h => by rcases h with h | h <;> [exact absurd h h0; exact absurd h.1 hl]⟩,
        fun h => absurd h hm⟩
    · rw [if_neg hl]
      have hl' : (shapes (r - 1)).length = (shapes r).length := by omega
      by_cases ha : ((List.range (shapes r).length).any fun i =>
          i != s && (shapes r).getD i 0 != (shapes (r - 1)).getD i 0) = true
      · rw [if_pos ha]
        refine ⟨⟨fun h => absurd h hm, fun h => ?_⟩, fun h => absurd h hm⟩
        rcases h with h | ⟨-, h⟩
        · exact absurd h h0
        · exfalso
          rw [List.any_eq_true] at ha
          obtain ⟨i, -, hi⟩ := ha
          simp only [Bool.and_eq_true, bne_iff_ne, ne_eq] at hi
          have := h i hi.1
          apply hi.2
          rw [List.getD_eq_getElem?_getD, List.getD_eq_getElem?_getD, this]
      · rw [if_neg ha]
        refine ⟨⟨fun _ => Or.inr ⟨hl', ?_⟩, fun _ => by omega⟩, fun _ => rfl⟩
        intro i hi
        by_cases hlt : i < (shapes r).length
        · have hn := fun h => ha (List.any_eq_true.2 ⟨i, List.mem_range.2 hlt, h⟩)
          simp only [Bool.and_eq_true, bne_iff_ne, ne_eq, hi, not_false_eq_true, true_and] at hn
          have hn : (shapes r).getD i 0 = (shapes (r - 1)).getD i 0 := Classical.byContradiction hn
          rw [List.getD_eq_getElem?_getD, List.getD_eq_getElem?_getD, List.getElem?_eq_getElem hlt,
            List.getElem?_eq_getElem (by omega)] at hn
          rw [List.getElem?_eq_getElem hlt, List.getElem?_eq_getElem (by omega)]
          simp only [Option.getD_some] at hn
          rw [hn]
        · rw [List.getElem?_eq_none (by omega), List.getElem?_eq_none (by omega)]

theorem consistent_iff (P : Nat) (shapes : Nat → List Nat) (s : Nat) :
    Spec.Consistent P shapes s ↔ ∀ r < P, 0 ≤ checkedSize shapes s r := by
  constructor
  · intro h r hr
    rw [(checked_nonneg_iff shapes s r).1]
    by_cases h0 : r = 0
    · exact Or.inl h0
    · exact Or.inr (h (r - 1) (by omega) r hr)
  · intro h
    have key : ∀ r < P, (shapes 0).length = (shapes r).length ∧ ∀ i, i ≠ s → (shapes 0)[i]? = (shapes r)[i]? := by
      intro r
      induction r with
      | zero => intro _; exact ⟨rfl, fun _ _ => rfl⟩
      | succ k ih =>
        intro hk
        obtain ⟨a, b⟩ := ih (by omega)
        rcases ((checked_nonneg_iff shapes s (k + 1)).1).1 (h _ hk) with h0 | ⟨c, d⟩
        · omega
        · exact ⟨a.trans c, fun i hi => (b i hi).trans (d i hi)⟩
    intro q hq r hr
    exact ⟨(key q hq).1.symm.trans (key r hr).1, fun i hi => ((key q hq).2 i hi).symm.trans ((key r hr).2 i hi)⟩

theorem flags_count (P : Nat) (p : Nat → Bool) :
    ((List.range P).map fun q => if p q then 1 else 0).sum ≤ P ∧
    (((List.range P).map fun q => if p q then 1 else 0).sum = P ↔ ∀ q < P, p q = true) := by
  induction P with
  | zero => simp
  | succ k ih =>
    rw [List.range_succ, List.map_append, List.sum_append]
    simp only [List.map_cons, List.map_nil, List.sum_cons, List.sum_nil]
    obtain ⟨a, b⟩ := ih
    cases hp : p k
    · simp only [Bool.false_eq_true, if_false]
      refine ⟨by omega, ⟨fun h => by omega, fun h => ?_⟩⟩
      have := h k (by omega); rw [hp] at this; cases this
    · simp only [if_true]
      refine ⟨by omega, ⟨fun h q hq => ?_, fun h => ?_⟩⟩
      · by_cases hq' : q = k
        · rw [hq']; exact hp
        · exact b.1 (by omega) q (by omega)
      · have := b.2 (fun q hq => h q (by omega)); omega

/-- C37: `array(obj, is_split=s)` on `P > 1` processes, `s` a valid axis of the local object of every rank.  If the
local shapes fit together the result has, on every rank, the concatenated global shape, and the balanced flag is
set exactly if every rank holds its canonical share; otherwise every rank raises ValueError. -/
theorem array_is_split_spec (P : Nat) (hP : 1 < P) (shapes : Nat → List Nat) (s : Nat)
    (hs : ∀ r < P, s < (shapes r).length) :
    (Spec.Consistent P shapes s →
      ∃ b : Bool, (∀ r < P, arrayIsSplit P shapes s r =
          .ok ((shapes 0).set s ((List.range P).map fun q => (shapes q).getD s 0).sum, s, b)) ∧
        (b = true ↔ ∀ r < P, (shapes r).getD s 0 =
          evenSize ((List.range P).map fun q => (shapes q).getD s 0).sum P r)) ∧
    (¬ Spec.Consistent P shapes s → ∀ r < P, arrayIsSplit P shapes s r = .error .valueError) := by
  obtain ⟨k, rfl⟩ : ∃ k, P = k + 1 := ⟨P - 1, by omega⟩
  constructor
  · intro hc
    have h0 := (consistent_iff _ _ _).1 hc
    have hmin : ¬ minOver (checkedSize shapes s) (k + 1) < 0 := by
      rw [minOver_neg]; rintro ⟨r, hr, h⟩; have := h0 r hr; omega
    have hsum : ((List.range (k + 1)).map (checkedSize shapes s)).sum.toNat =
        ((List.range (k + 1)).map fun q => (shapes q).getD s 0).sum := by
      have : ∀ m, m ≤ k + 1 → ((List.range m).map (checkedSize shapes s)).sum =
          ((((List.range m).map fun q => (shapes q).getD s 0).sum : Nat) : Int) := by
        intro m
        induction m with
        | zero => intro _; rfl
        | succ m ih =>
          intro hm
          rw [List.range_succ, List.map_append, List.map_append, List.sum_append, List.sum_append, ih (by omega)]
          simp only [List.map_cons, List.map_nil, List.sum_cons, List.sum_nil]
          rw [((checked_nonneg_iff shapes s m).2 (h0 m (by omega)))]
          push_cast; ring
      rw [this _ (Nat.le_refl _)]; simp
    unfold arrayIsSplit
    simp only [if_neg (show ¬ k + 1 = 1 by omega), if_neg hmin, hsum]
    generalize ((List.range (k + 1)).map fun q => (shapes q).getD s 0).sum = total
    refine ⟨((List.range (k + 1)).map fun q => if (((shapes q).set s total).set s
        ((chunkRange total q (k + 1)).2 - (chunkRange total q (k + 1)).1) == shapes q) = true then 1 else 0).sum
        == k + 1, ?_, ?_⟩
    · intro r hr
      have : (shapes r).set s total = (shapes 0).set s total := by
        apply List.ext_getElem?
        intro i
        obtain ⟨a, b⟩ := hc r hr 0 (by omega)
        by_cases hi : i = s
        · subst hi
          rw [List.getElem?_set_self (hs r hr), List.getElem?_set_self (hs 0 (by omega))]
        · rw [List.getElem?_set_ne (by omega), List.getElem?_set_ne (by omega), b i hi]
      rw [this]
    · rw [beq_iff_eq, (flags_count (k + 1) _).2]
      have hset : ∀ q < k + 1, (((shapes q).set s total).set s
          ((chunkRange total q (k + 1)).2 - (chunkRange total q (k + 1)).1) == shapes q) = true ↔
          (shapes q).getD s 0 = evenSize total (k + 1) q := by
        intro q hq
        rw [beq_iff_eq, List.set_set, chunkRange_size]
        rw [List.getD_eq_getElem?_getD, List.getElem?_eq_getElem (hs q hq), Option.getD_some]
        constructor
        · intro h
          have := congrArg (fun l => l[s]?) h
          simp only [List.getElem?_set_self (hs q hq), List.getElem?_eq_getElem (hs q hq)] at this
          simpa using this.symm
        · intro h
          rw [← h]; simp
      constructor
      · intro h r hr; exact (hset r hr).1 (h r hr)
      · intro h r hr; exact (hset r hr).2 (h r hr)
  · intro hc r hr
    have : minOver (checkedSize shapes s) (k + 1) < 0 := by
      rw [minOver_neg]
      by_contra hcon
      apply hc
      rw [consistent_iff]
      intro q hq
      by_contra hneg
      exact hcon ⟨q, hq, by omega⟩
    unfold arrayIsSplit
    simp only [if_neg (show ¬ k + 1 = 1 by omega), if_pos this]

example : Spec.Consistent 2 (fun r => [[2, 3], [1, 3]].getD r []) 0 := by
  rw [consistent_iff]; decide

example : arrayIsSplit 2 (fun r => [[2, 3], [1, 3]].getD r []) 0 1 = .ok ([3, 3], 0, true) ∧
    arrayIsSplit 2 (fun r => [[2, 3], [1, 4]].getD r []) 0 0 = .error .valueError := by decide

/-- C53 (partial): `array(x)` of a DNDarray without a new type, or of a replicated DNDarray with a split, or of a
split DNDarray naming its own split as `is_split`, keeps the content: the ranks' parts concatenate to the (converted)
array and the declared size and split are right. -/
theorem array_of_dndarray_partial (P : Nat) (hP : 1 < P) (sameType : Bool) (conv : α → α)
    (data : List α) (parts : Nat → List α) :
    (content P parts = data → ∀ r, arrayOfDND P true conv none none (some 0) data.length parts r =
      .ok (parts r, data.length, some 0)) ∧
    (content P parts = data → ∃ out, (∀ r < P, arrayOfDND P false conv none (some 0) (some 0) data.length parts r =
        .ok (out r, data.length, some 0)) ∧ content P out = data.map conv) ∧
    ((∀ r < P, parts r = data) → ∃ out, (∀ r < P,
        arrayOfDND P sameType conv (some 0) none none data.length parts r = .ok (out r, data.length, some 0)) ∧
      content P out = data.map conv) := by
  refine ⟨?_, ?_, ?_⟩
  · intro _ r; rfl
  · intro h
    refine ⟨fun r => (parts r).map conv, ?_, ?_⟩
    · intro r _
      have : ((List.range P).map fun q => ((parts q).map conv).length).sum = data.length := by
        rw [← h]; simp [content, List.length_flatMap]
      simp only [arrayOfDND]
      simp only [this]
      simp
    · rw [← h]; simp [content, List.map_flatMap]
  · intro h
    refine ⟨arraySplit P (data.map conv), ?_, (array_split_spec P (by omega) (data.map conv)).1⟩
    intro r hr
    simp [arrayOfDND, h r hr]

example : (List.range 2).map (arrayOfDND 2 false (· + 100) none (some 0) (some 0) 3 (fun r => [[1, 2], [3]].getD r [])) =
    [.ok ([101, 102], 3, some 0), .ok ([103], 3, some 0)] := by decide

/-- C53 fails: `array(x, dtype=other)` of a split DNDarray silently returns, on every rank, the local part declared
as a complete, replicated array (different on every rank). -/
theorem array_dtype_violated :
    (List.range 2).map (arrayOfDND 2 false (· + 0) none none (some 0) 3 (fun r => [[1, 2], [3]].getD r [])) =
    [.ok ([1, 2], 2, none), .ok ([3], 1, none)] := by decide

/-- C53 fails: `array(x, dtype=other, split=0)` of a DNDarray that is already split along 0 chunks the local parts
again and loses elements (here 2), declaring a different global size on every rank. -/
theorem array_dtype_split_violated :
    (List.range 2).map (arrayOfDND 2 false (· + 0) (some 0) none (some 0) 3 (fun r => [[1, 2], [3]].getD r [])) =
    [.ok ([1], 2, some 0), .ok ([], 1, some 0)] := by decide

end Heat
