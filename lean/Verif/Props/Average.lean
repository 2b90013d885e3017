import Verif.Model.Average
import Verif.Props.Moments
import Verif.Props.Reduce
import Verif.Props.Pad
/-!
# C158, C159: weighted averages, skewness and kurtosis
-/
namespace Heat
open Heat.Spec

theorem reduceList_monoid {M : Type} [AddCommMonoid M] (l : List M) (hl : l ≠ []) : Spec.reduceList (· + ·) l = some l.sum := by
  induction l with
  | nil => exact absurd rfl hl
  | cons x xs ih =>
    show oadd _ (some x) (reduceList _ xs) = _
    cases xs with
    | nil => simp [reduceList, oadd]
    | cons y ys => rw [ih (by simp)]; simp [oadd]

theorem reduce_monoid {M : Type} [AddCommMonoid M] (P : Nat) (d : Nat → List M) (v : M) (hv : ReduceResult (· + ·) id 0 P d v) : v = (content P d).sum := by
  have h := reduce_spec (· + ·) add_assoc add_comm id (0 : M) P d (by simp) (by simp) v hv
  by_cases hne : content P d = []
  · rw [h.2 hne, hne]; rfl
  · have h' := h.1 hne
    rw [List.map_id, reduceList_monoid _ hne] at h'
    exact (Option.some.inj h').symm

/-! ## C158: average -/

/-- Sum of the weights of pairs (value, weight). -/
def Spec.wsum (l : List (ℚ × ℚ)) : ℚ := (l.map fun p => p.2).sum

/-- The weighted average. -/
def Spec.wavg (l : List (ℚ × ℚ)) : ℚ := (l.map fun p => p.1 * p.2).sum / wsum l

/-- **C158.**  For every number of processes, distribution and order of combination: `average(x, weights=w)` is the sum of the products divided by the sum of the weights, or
ZeroDivisionError if the weights of any position of the result sum up to zero. -/
theorem average_spec (P : Nat) (d : Nat → List (ℚ × ℚ)) (others : List ℚ) (v : Except Err ℚ) (h : AvgResult P d others v) :
    (wsum (content P d) = 0 ∨ 0 ∈ others → v = .error .zeroDivision) ∧
    (wsum (content P d) ≠ 0 → 0 ∉ others → v = .ok (wavg (content P d))) := by
  obtain ⟨w, s, hw, hs, rfl⟩ := h
  have hw' : w = wsum (content P d) := by rw [reduce_monoid _ _ _ hw, content_map_fun]; rfl
  have hs' : s = ((content P d).map fun p => p.1 * p.2).sum := by rw [reduce_monoid _ _ _ hs, content_map_fun]
  constructor
  · intro h
    rw [if_pos]
    rw [List.any_eq_true]
    rcases h with h | h
    · exact ⟨w, by simp, by simp [hw', h]⟩
    · exact ⟨0, by simp [h], by simp⟩
  · intro h1 h2
    rw [if_neg]
    · rw [hs', hw']; rfl
    · rw [List.any_eq_true]
      rintro ⟨z, hz, h0⟩
      have h0 : z = 0 := by simpa using h0
      subst h0
      rcases List.mem_cons.1 hz with h | h
      · exact h1 (by rw [← hw', ← h])
      · exact h2 h

/-- A weighted average with non-negative weights lies between the smallest and the largest value; with equal weights it is the mean. -/
theorem average_between (l : List (ℚ × ℚ)) (a b : ℚ) (hw : ∀ p ∈ l, 0 ≤ p.2) (hb : ∀ p ∈ l, a ≤ p.1 ∧ p.1 ≤ b) (hs : wsum l ≠ 0) :
    a ≤ wavg l ∧ wavg l ≤ b := by
  have key : a * wsum l ≤ (l.map fun p => p.1 * p.2).sum ∧ (l.map fun p => p.1 * p.2).sum ≤ b * wsum l ∧ 0 ≤ wsum l := by
    clear hs
    unfold wsum
    induction l with
    | nil => simp
    | cons p l ih =>
      obtain ⟨i1, i2, i3⟩ := ih (fun q hq => hw q (List.mem_cons_of_mem _ hq)) (fun q hq => hb q (List.mem_cons_of_mem _ hq))
      have hp := hw p List.mem_cons_self
      have hq := hb p List.mem_cons_self
      simp only [List.map_cons, List.sum_cons]
      refine ⟨?_, ?_, by linarith⟩
      · nlinarith [mul_le_mul_of_nonneg_right hq.1 hp]
      · nlinarith [mul_le_mul_of_nonneg_right hq.2 hp]
  have hpos : 0 < wsum l := lt_of_le_of_ne key.2.2 (Ne.symm hs)
  unfold wavg
  exact ⟨(le_div_iff₀ hpos).2 key.1, (div_le_iff₀ hpos).2 key.2.1⟩

theorem average_equal (l : List ℚ) (w : ℚ) (hw : w ≠ 0) (hl : l ≠ []) : some (wavg (l.map fun x => (x, w))) = mean l := by
  have h1 : wsum (l.map fun x => (x, w)) = l.length * w := by
    unfold wsum; rw [List.map_map]
    induction l with
    | nil => simp
    | cons a l ih => by_cases h : l = []
                     · subst h; simp
                     · have := ih h
                       simp only [List.map_cons, List.sum_cons, List.length_cons] at *
                       rw [this]; push_cast; simp; ring
  have h2 : ∀ l : List ℚ, ((l.map fun x => (x, w)).map fun p => p.1 * p.2).sum = l.sum * w := by
    intro l
    induction l with
    | nil => simp
    | cons a l ih => simp only [List.map_cons, List.sum_cons] at *; rw [ih]; ring
  have hlen : (l.length : ℚ) ≠ 0 := by simpa using hl
  unfold wavg mean
  rw [if_neg (by simpa using hl), h1, h2]
  congr 1
  field_simp

/-- **C158.**  Which weights are accepted: those of the shape of `x` (and its split, on several processes, unless one-dimensional), and one-dimensional ones of the length of the single axis given. -/
theorem average_check (distributed : Bool) (xshape : List Nat) (xsplit : Option Nat) (axis : AvgAxis) (w : WgtInfo) :
    (avgCheck distributed xshape xsplit axis w = .ok true ↔
      w.shape = xshape ∧ (distributed = false ∨ xsplit = none ∨ w.split = xsplit ∨ xshape.length = 1)) ∧
    (avgCheck distributed xshape xsplit axis w = .ok false ↔ w.shape ≠ xshape ∧ ∃ a, axis = .one a ∧ w.shape = [xshape.getD a 0]) := by
  unfold avgCheck
  by_cases h : xshape = w.shape
  · subst h
    rw [if_neg (by simp)]
    constructor
    · by_cases h2 : distributed = true ∧ xsplit ≠ none ∧ w.split ≠ xsplit ∧ w.shape.length ≠ 1
      · rw [if_pos h2]
        constructor
        · intro h'; cases h'
        · rintro ⟨_, h3⟩
          rcases h3 with h3 | h3 | h3 | h3
          · rw [h3] at h2; exact absurd h2.1 (by simp)
          · exact absurd h3 h2.2.1
          · exact absurd h3 h2.2.2.1
          · exact absurd h3 h2.2.2.2
      · rw [if_neg h2]
        refine ⟨fun _ => ⟨rfl, ?_⟩, fun _ => rfl⟩
        by_contra h3
        push Not at h3
        exact h2 ⟨by simpa using h3.1, h3.2.1, h3.2.2.1, h3.2.2.2⟩
    · constructor
      · intro h'; split at h' <;> cases h'
      · rintro ⟨h', _⟩; exact absurd rfl h'
  · rw [if_pos h]
    constructor
    · constructor
      · intro h'
        cases axis <;> simp only [reduceCtorEq] at h'
        split at h'
        · cases h'
        · split at h' <;> cases h'
      · rintro ⟨h', _⟩; exact absurd h'.symm h
    · cases axis with
      | none => simp
      | tuple l => simp
      | one a =>
        dsimp only
        by_cases h1 : w.shape.length = 1
        · rw [if_neg (by simpa using h1)]
          obtain ⟨k, hk⟩ := List.length_eq_one_iff.1 h1
          rw [hk]
          by_cases h2 : k = xshape.getD a 0
          · rw [if_neg (by simpa using h2)]
            refine ⟨fun _ => ⟨by rw [← hk]; exact Ne.symm h, a, rfl, by rw [h2]⟩, fun _ => rfl⟩
          · rw [if_pos (by simpa using h2)]
            refine ⟨(fun h' => by cases h'), ?_⟩
            rintro ⟨_, b, hb, hc⟩
            injection hb with hb
            subst hb
            injection hc with hc
            exact absurd hc h2
        · rw [if_pos h1]
          refine ⟨(fun h' => by cases h'), ?_⟩
          rintro ⟨_, b, _, hc⟩
          rw [hc] at h1; exact absurd rfl h1

theorem broadcastRev_ones (a b : List Nat) (hlen : a.length = b.length) (h : ∀ k, b.getD k 0 = a.getD k 0 ∨ b.getD k 0 = 1) : broadcastRev a b = some a := by
  induction a generalizing b with
  | nil => cases b with
    | nil => rfl
    | cons => simp at hlen
  | cons x a ih => cases b with
    | nil => simp at hlen
    | cons y b =>
      have ih' := ih b (by simpa using hlen) (fun k => by simpa using h (k + 1))
      have h0 : y = x ∨ y = 1 := by simpa using h 0
      unfold broadcastRev
      rw [ih']
      rcases h0 with rfl | rfl
      · simp
      · by_cases hx : x = 1
        · subst hx; simp
        · rw [if_neg hx, if_neg hx, if_pos rfl]; rfl

/-- **C158.**  One-dimensional weights of the length of the axis are given a shape that can be combined with `x` and does not change its shape; they are distributed along that axis
iff they were distributed. -/
theorem wgt_shape (xshape : List Nat) (axis : Nat) (wsplit : Option Nat) :
    broadcastShape xshape (wgtMeta xshape.length axis (xshape.getD axis 0) wsplit).1 = .ok xshape ∧
    ((wgtMeta xshape.length axis (xshape.getD axis 0) wsplit).2 = none ↔ wsplit = none) ∧
    ((wgtMeta xshape.length axis (xshape.getD axis 0) wsplit).2 = some axis ↔ wsplit ≠ none) := by
  refine ⟨?_, ?_, ?_⟩
  · unfold broadcastShape
    rw [broadcastRev_ones]
    · simp
    · simp [wgtMeta]
    · intro k
      simp only [wgtMeta]
      by_cases hk : k < xshape.length
      · have e1 : (((List.range xshape.length).map fun dim => if dim = axis then xshape.getD axis 0 else 1).reverse).getD k 0 =
            if xshape.length - 1 - k = axis then xshape.getD axis 0 else 1 := by
          rw [List.getD_eq_getElem?_getD, List.getElem?_reverse (by simpa using hk)]
          simp only [List.length_map, List.length_range, List.getElem?_map]
          rw [List.getElem?_range (by omega)]
          rfl
        have e2 : xshape.reverse.getD k 0 = xshape.getD (xshape.length - 1 - k) 0 := by
          rw [List.getD_eq_getElem?_getD, List.getElem?_reverse hk, List.getD_eq_getElem?_getD]
        rw [e1, e2]
        split
        · next h => left; rw [h]
        · right; rfl
      · left
        simp only [List.getD_eq_getElem?_getD]
        rw [List.getElem?_eq_none (by simpa using hk), List.getElem?_eq_none (by simpa using hk)]
  · unfold wgtMeta; split <;> simp_all
  · unfold wgtMeta; split <;> simp_all

/-- Without weights the second result is the number of elements averaged: the extent of the axis. -/
theorem average_count (shape : List Nat) (axis : Nat) (ha : axis < shape.length) (hz : 0 ∉ shape) :
    avgCount shape (shape.eraseIdx axis) = shape.getD axis 0 ∧ avgCount shape [] = (shape.prod : Nat) := by
  have hf : ∀ (l : List Nat) (a : Nat), l.foldl (· * ·) a = a * l.prod := by
    intro l
    induction l with
    | nil => simp
    | cons x l ih => intro a; rw [List.foldl_cons, ih, List.prod_cons, mul_assoc]
  unfold avgCount
  constructor
  · rw [hf, hf, one_mul, one_mul]
    have h1 : shape.getD axis 0 * (shape.eraseIdx axis).prod = shape.prod := by
      rw [List.getD_eq_getElem?_getD, List.getElem?_eq_getElem ha, Option.getD_some]
      exact List.mul_prod_eraseIdx ha (fun _ _ => mul_comm _ _)
    have h2 : ((shape.eraseIdx axis).prod : ℚ) ≠ 0 := by
      rw [Nat.cast_ne_zero]
      intro h
      rw [List.prod_eq_zero_iff] at h
      exact hz (List.mem_of_mem_eraseIdx h)
    rw [div_eq_iff h2, ← h1]; push_cast; ring
  · rw [hf, hf]; simp

/-- All processes decide alike whether to take part in the reduction that determines the balance of the weights iff all or none of them hold a canonical number of slabs. -/
theorem average_agree (n P : Nat) (sizes : Nat → Nat) :
    (∀ r < P, ∀ q < P, joinsAllreduce (wgtBalanced n P sizes r) = joinsAllreduce (wgtBalanced n P sizes q)) ↔
      ((∀ r < P, sizes r = (chunkRange n r P).2 - (chunkRange n r P).1) ∨ (∀ r < P, sizes r ≠ (chunkRange n r P).2 - (chunkRange n r P).1)) := by
  have hj : ∀ r, joinsAllreduce (wgtBalanced n P sizes r) = decide (sizes r ≠ (chunkRange n r P).2 - (chunkRange n r P).1) := by
    intro r; unfold joinsAllreduce wgtBalanced; split <;> simp_all
  simp only [hj]
  constructor
  · intro h
    by_contra hc
    push Not at hc
    obtain ⟨⟨r, hr, h1⟩, q, hq, h2⟩ := hc
    have := h r hr q hq
    simp [h1, h2] at this
  · rintro (h | h) r hr q hq
    · simp [h r hr, h q hq]
    · simp [h r hr, h q hq]

/-- **C158 is false** for weights that are not balanced: six weights, 3, 1 and 2 of them on three processes.  Processes 0 and 1 wait in an `allreduce`
which process 2 never enters (`average(x, axis=1, weights=w)` of arrays split along axis 0). -/
theorem average_unbalanced_violated : ∃ (n P : Nat) (sizes : Nat → Nat), ((List.range P).map sizes).sum = n ∧
    joinsAllreduce (wgtBalanced n P sizes 0) = true ∧ joinsAllreduce (wgtBalanced n P sizes 1) = true ∧ joinsAllreduce (wgtBalanced n P sizes 2) = false :=
  ⟨6, 3, fun r => [3, 1, 2].getD r 0, by decide⟩

/-- Four pairs on two of three processes. -/
example : ∃ v, AvgResult 3 (fun r => ([[(1, 1), (2, 3)], [], [(4, 2), (0, -2)]] : List (List (ℚ × ℚ))).getD r []) [] v ∧ v = .ok (15 / 4) := by
  refine ⟨_, ⟨4, 15, ?_, ?_, ?_⟩, rfl⟩
  · have h := Combine.node (op := ((· + ·) : ℚ → ℚ → ℚ)) (l := [4, 0, 0]) (l₁ := [4]) (Combine.one (4 : ℚ))
      (Combine.node (Combine.one (0 : ℚ)) (Combine.one 0) (List.Perm.refl _)) (List.Perm.refl _)
    unfold ReduceResult
    convert h using 1
    · simp [List.range_succ, localPartial]; norm_num
    · norm_num
  · have h := Combine.node (op := ((· + ·) : ℚ → ℚ → ℚ)) (l := [7, 0, 8]) (l₁ := [7]) (Combine.one (7 : ℚ))
      (Combine.node (Combine.one (0 : ℚ)) (Combine.one 8) (List.Perm.refl _)) (List.Perm.refl _)
    unfold ReduceResult
    convert h using 1
    · simp [List.range_succ, localPartial]; norm_num
    · norm_num
  · norm_num

/-! ## C159: skewness and kurtosis -/

/-- The k-th central moment. -/
def Spec.cmom (k : Nat) (l : List ℚ) : ℚ := (l.map fun x => (x - l.sum / l.length) ^ k).sum / l.length

/-- The k-statistics (unbiased estimators of the cumulants) of order 2, 3 and 4. -/
def Spec.k2 (l : List ℚ) : ℚ := l.length / (l.length - 1) * cmom 2 l
def Spec.k3 (l : List ℚ) : ℚ := (l.length : ℚ) ^ 2 / ((l.length - 1) * (l.length - 2)) * cmom 3 l
def Spec.k4 (l : List ℚ) : ℚ :=
  (l.length : ℚ) ^ 2 * ((l.length + 1) * cmom 4 l - 3 * (l.length - 1) * cmom 2 l ^ 2) / ((l.length - 1) * (l.length - 2) * (l.length - 3))

/-- Skewness: third moment over the 3/2 power of the second; k-statistics if unbiased. -/
noncomputable def Spec.skewness (unbiased : Bool) (l : List ℚ) : Real :=
  if unbiased then (k3 l : Real) / (k2 l : Real) ^ (3 / 2 : Real) else (cmom 3 l : Real) / (cmom 2 l : Real) ^ (3 / 2 : Real)

/-- Kurtosis: fourth moment over the square of the second; k-statistics (of which the ratio estimates the excess) if unbiased; the excess over 3 for Fisher's definition. -/
def Spec.kurt (unbiased fischer : Bool) (l : List ℚ) : ℚ :=
  (if unbiased then k4 l / k2 l ^ 2 + 3 else cmom 4 l / cmom 2 l ^ 2) - (if fischer then 3 else 0)

theorem cmom2_nonneg (l : List ℚ) : 0 ≤ cmom 2 l := by
  unfold cmom
  apply div_nonneg _ (by positivity)
  apply List.sum_nonneg
  intro x hx
  obtain ⟨y, _, rfl⟩ := List.mem_map.1 hx
  positivity

theorem cmom2_len (l : List ℚ) (h : cmom 2 l ≠ 0) : 2 ≤ l.length := by
  by_contra hc
  apply h
  have : l.length = 0 ∨ l.length = 1 := by omega
  rcases this with h | h
  · rw [List.length_eq_zero_iff.1 h]; simp [cmom]
  · obtain ⟨a, rfl⟩ := List.length_eq_one_iff.1 h
    simp [cmom]

theorem skewFin_spec (unbiased : Bool) (l : List ℚ) (h2 : cmom 2 l ≠ 0) (hn : unbiased = true → l.length ≠ 2) :
    skewFin unbiased l.length (some (cmom 3 l, cmom 2 l)) = .ok (some (skewness unbiased l)) := by
  have hlen := cmom2_len l h2
  have hpos : 0 < cmom 2 l := lt_of_le_of_ne (cmom2_nonneg l) (Ne.symm h2)
  unfold skewFin
  rw [if_neg (by rintro ⟨h, h'⟩; exact hn h h')]
  dsimp only
  rw [if_neg h2]
  congr 2
  unfold skewness
  cases unbiased with
  | false => simp
  | true =>
    have hl3 : 3 ≤ l.length := by have := hn rfl; omega
    rw [if_pos rfl, if_pos rfl]
    unfold k3 k2
    push_cast
    generalize cmom 3 l = m3 at *
    generalize cmom 2 l = m2 at *
    have hN : (3 : Real) ≤ (l.length : Real) := by exact_mod_cast hl3
    generalize (l.length : Real) = N at *
    have hm : (0 : Real) < (m2 : Real) := by exact_mod_cast hpos
    have hr : 0 < N / (N - 1) := div_pos (by linarith) (by linarith)
    rw [Real.mul_rpow hr.le hm.le]
    have e : (N / (N - 1)) ^ (3 / 2 : Real) = N / (N - 1) * Real.sqrt (N / (N - 1)) := by
      rw [show (3 / 2 : Real) = 1 + 1 / 2 by norm_num, Real.rpow_add hr, Real.rpow_one, ← Real.sqrt_eq_rpow]
    rw [e]
    have hs : Real.sqrt (N * (N - 1)) * Real.sqrt (N / (N - 1)) = N := by
      rw [← Real.sqrt_mul (by nlinarith)]
      rw [show N * (N - 1) * (N / (N - 1)) = N ^ 2 by field_simp [show N - 1 ≠ 0 by linarith]]
      exact Real.sqrt_sq (by linarith)
    have hsq : 0 < Real.sqrt (N / (N - 1)) := Real.sqrt_pos.2 hr
    have hm' : (m2 : Real) ^ (3 / 2 : Real) ≠ 0 := (Real.rpow_pos_of_pos hm _).ne'
    have h1 : N - 1 ≠ 0 := by linarith
    have h2 : N - 2 ≠ 0 := by linarith
    have h3 : N ≠ 0 := by linarith
    generalize Real.sqrt (N / (N - 1)) = q at *
    generalize Real.sqrt (N * (N - 1)) = p at *
    have hp : p = N / q := by rw [eq_div_iff hsq.ne']; exact hs
    rw [hp]
    have hq' := hsq.ne'
    field_simp

theorem kurtFin_spec (unbiased fischer : Bool) (l : List ℚ) (h2 : cmom 2 l ≠ 0) (hn : unbiased = true → l.length ≠ 2 ∧ l.length ≠ 3) :
    kurtFin unbiased fischer l.length (some (cmom 4 l, cmom 2 l)) = .ok (some (kurt unbiased fischer l)) := by
  have hlen := cmom2_len l h2
  unfold kurtFin
  rw [if_neg (by rintro ⟨h, h'⟩; have := hn h; omega)]
  dsimp only
  rw [if_neg h2]
  congr 2
  have key : unbiased = true → ((l.length : ℚ) - 1) / (((l.length : ℚ) - 2) * (l.length - 3)) * (((l.length : ℚ) + 1) * (cmom 4 l / cmom 2 l ^ 2) - 3 * (l.length - 1)) + 3 =
      k4 l / k2 l ^ 2 + 3 := by
    intro hu
    have hl4 : 4 ≤ l.length := by have := hn hu; omega
    unfold k4 k2
    have hN : (4 : ℚ) ≤ (l.length : ℚ) := by exact_mod_cast hl4
    generalize (l.length : ℚ) = N at *
    generalize cmom 4 l = m4 at *
    generalize cmom 2 l = m2 at *
    have h1 : N - 1 ≠ 0 := by linarith
    have h2' : N - 2 ≠ 0 := by linarith
    have h3 : N ≠ 0 := by linarith
    have h4 : N - 3 ≠ 0 := by linarith
    field_simp
  unfold kurt
  cases unbiased with
  | false => cases fischer <;> simp
  | true =>
    simp only [if_true]
    rw [key rfl]
    cases fischer <;> simp

theorem centralMoment_spec (k P : Nat) (d : Nat → List ℚ) (m : ℚ)
    (h : CentralMoment k ((content P d).sum / (content P d).length) (content P d).length P d m) : m = cmom k (content P d) := by
  obtain ⟨s, hs, rfl⟩ := h
  rw [reduce_monoid _ _ _ hs, content_map_fun]
  rfl

/-- What the user is to get: NaN if all numbers are equal, ZeroDivisionError for the unbiased skewness of two numbers, the skewness otherwise. -/
noncomputable def Spec.skewResult (unbiased : Bool) (l : List ℚ) : Except Err (Option Real) :=
  if unbiased = true ∧ l.length = 2 then .error .zeroDivision else .ok (if cmom 2 l = 0 then none else some (skewness unbiased l))

/-- The same for the kurtosis (two or three numbers). -/
def Spec.kurtResult (unbiased fischer : Bool) (l : List ℚ) : Except Err (Option ℚ) :=
  if unbiased = true ∧ (l.length = 2 ∨ l.length = 3) then .error .zeroDivision else .ok (if cmom 2 l = 0 then none else some (kurt unbiased fischer l))

theorem skewFin_result (unbiased : Bool) (l : List ℚ) : skewFin unbiased l.length (some (cmom 3 l, cmom 2 l)) = skewResult unbiased l := by
  unfold skewResult
  by_cases h : unbiased = true ∧ l.length = 2
  · rw [if_pos h, skewFin, if_pos h]
  · rw [if_neg h]
    by_cases h2 : cmom 2 l = 0
    · rw [if_pos h2, skewFin, if_neg h]; simp [h2]
    · rw [if_neg h2]; exact skewFin_spec unbiased l h2 fun hu hl => h ⟨hu, hl⟩

theorem kurtFin_result (unbiased fischer : Bool) (l : List ℚ) :
    kurtFin unbiased fischer l.length (some (cmom 4 l, cmom 2 l)) = kurtResult unbiased fischer l := by
  unfold kurtResult
  by_cases h : unbiased = true ∧ (l.length = 2 ∨ l.length = 3)
  · rw [if_pos h, kurtFin, if_pos h]
  · rw [if_neg h]
    by_cases h2 : cmom 2 l = 0
    · rw [if_pos h2, kurtFin, if_neg h]; simp [h2]
    · rw [if_neg h2]; exact kurtFin_spec unbiased fischer l h2 fun hu => ⟨fun hl => h ⟨hu, Or.inl hl⟩, fun hl => h ⟨hu, Or.inr hl⟩⟩

theorem global_moments (P : Nat) (d : Nat → List ℚ) (hne : content P d ≠ []) (μ : FNum) (hμ : μ = mean (content P d)) :
    ∃ q, μ = some q ∧ q = (content P d).sum / (content P d).length := by
  refine ⟨_, ?_, rfl⟩
  rw [hμ, mean, if_neg (by simpa using hne)]

/-- **C159.**  `skew(x)` and `kurtosis(x)` of the whole array: for every number of processes, every distribution in which not both of the first two processes are empty, and every order
of combination, the result is the skewness or kurtosis of all numbers, with the k-statistics if unbiased. -/
theorem skew_all_partial (unbiased fischer : Bool) (P : Nat) (hP : 0 < P) (d : Nat → List ℚ) (hne : content P d ≠ []) (h01 : ¬ (1 < P ∧ d 0 = [] ∧ d 1 = [])) :
    (∀ v, SkewGlobal unbiased (meanAll (fun x => x) P d) (content P d).length P d v → v = skewResult unbiased (content P d)) ∧
    (∀ v, KurtGlobal unbiased fischer (meanAll (fun x => x) P d) (content P d).length P d v → v = kurtResult unbiased fischer (content P d)) := by
  have hm := mean_all_spec P hP d
  rw [if_neg h01] at hm
  obtain ⟨q, h1, h2⟩ := global_moments P d hne _ hm
  rw [h1]
  constructor
  · rintro v ⟨m3, m2, c3, c2, rfl⟩
    rw [h2] at c3 c2
    rw [centralMoment_spec _ _ _ _ c3, centralMoment_spec _ _ _ _ c2]
    exact skewFin_result _ _
  · rintro v ⟨m3, m2, c3, c2, rfl⟩
    rw [h2] at c3 c2
    rw [centralMoment_spec _ _ _ _ c3, centralMoment_spec _ _ _ _ c2]
    exact kurtFin_result _ _ _

/-- **C159.**  The same along the split axis. -/
theorem skew_axis_partial (unbiased fischer : Bool) (P : Nat) (hP : 0 < P) (d : Nat → List ℚ) (h01 : 0 < (d 0).length ∨ (1 < P ∧ 0 < (d 1).length)) :
    (∀ v, SkewGlobal unbiased (meanAxis (fun x => x) P (fun r => (d r).length) d) (content P d).length P d v → v = skewResult unbiased (content P d)) ∧
    (∀ v, KurtGlobal unbiased fischer (meanAxis (fun x => x) P (fun r => (d r).length) d) (content P d).length P d v → v = kurtResult unbiased fischer (content P d)) := by
  have hm := mean_axis_spec_partial P hP d (fun r => (d r).length) 1 (by omega) (fun r _ => by omega) h01
  have hne : content P d ≠ [] := by
    intro h
    have hall : ∀ r < P, d r = [] := by
      intro r hr
      by_contra hc
      obtain ⟨a, ha⟩ := List.exists_mem_of_ne_nil _ hc
      have : a ∈ content P d := List.mem_flatMap.2 ⟨r, List.mem_range.2 hr, ha⟩
      rw [h] at this; cases this
    rcases h01 with h0 | ⟨h1, h0⟩
    · rw [hall 0 hP] at h0; simp at h0
    · rw [hall 1 h1] at h0; simp at h0
  obtain ⟨q, h1, h2⟩ := global_moments P d hne _ hm
  rw [h1]
  constructor
  · rintro v ⟨m3, m2, c3, c2, rfl⟩
    rw [h2] at c3 c2
    rw [centralMoment_spec _ _ _ _ c3, centralMoment_spec _ _ _ _ c2]
    exact skewFin_result _ _
  · rintro v ⟨m3, m2, c3, c2, rfl⟩
    rw [h2] at c3 c2
    rw [centralMoment_spec _ _ _ _ c3, centralMoment_spec _ _ _ _ c2]
    exact kurtFin_result _ _ _

/-- **C159.**  Along any other axis (local function). -/
theorem skew_local (unbiased fischer : Bool) (l : List ℚ) (hl : l ≠ []) :
    torchSkew unbiased l = skewResult unbiased l ∧ torchKurt unbiased fischer l = kurtResult unbiased fischer l := by
  have h : torchMean l = some (l.sum / l.length) := by rw [torchMean, mean, if_neg (by simpa using hl)]
  constructor
  · rw [torchSkew, h]; exact skewFin_result unbiased l
  · rw [torchKurt, h]; exact kurtFin_result unbiased fischer l

/-! ### What the numbers mean -/

theorem list_sum_affine (a b : ℚ) (l : List ℚ) : (l.map fun x => a * x + b).sum = a * l.sum + l.length * b := by
  induction l with
  | nil => simp
  | cons x l ih => simp only [List.map_cons, List.sum_cons, List.length_cons]; rw [ih]; push_cast; ring

theorem cmom_affine (k : Nat) (a b : ℚ) (l : List ℚ) (hl : l ≠ []) : cmom k (l.map fun x => a * x + b) = a ^ k * cmom k l := by
  unfold cmom
  rw [list_sum_affine, List.length_map, List.map_map]
  have hlen : (l.length : ℚ) ≠ 0 := by simpa using hl
  have : ((fun x => (x - (a * l.sum + l.length * b) / l.length) ^ k) ∘ fun x => a * x + b) = fun x => a ^ k * (x - l.sum / l.length) ^ k := by
    funext x
    simp only [Function.comp]
    rw [← mul_pow]
    congr 1
    field_simp
    ring
  rw [this, List.sum_map_mul_left, mul_div_assoc]

/-- **C159.**  Units do not matter: adding a constant changes neither number; multiplying by a positive number changes neither; a negative factor changes the sign of the skewness
and not the kurtosis. -/
theorem skew_affine (unbiased fischer : Bool) (a b : ℚ) (ha : a ≠ 0) (l : List ℚ) (hl : l ≠ []) :
    skewness unbiased (l.map fun x => a * x + b) = (if 0 < a then 1 else -1) * skewness unbiased l ∧
    kurt unbiased fischer (l.map fun x => a * x + b) = kurt unbiased fischer l := by
  have c2 := cmom_affine 2 a b l hl
  have c3 := cmom_affine 3 a b l hl
  have c4 := cmom_affine 4 a b l hl
  have hrp : ∀ m : Real, 0 ≤ m → ((a : Real) ^ 2 * m) ^ (3 / 2 : Real) = |(a : Real)| ^ 3 * m ^ (3 / 2 : Real) := by
    intro m hm
    rw [Real.mul_rpow (by positivity) hm]
    congr 1
    rw [← sq_abs, ← Real.rpow_natCast, ← Real.rpow_mul (abs_nonneg _)]
    rw [show ((2 : Nat) : Real) * (3 / 2 : Real) = ((3 : Nat) : Real) by norm_num, Real.rpow_natCast]
  have haR : (a : Real) ≠ 0 := by exact_mod_cast ha
  have hfac : (a : Real) ^ 3 / |(a : Real)| ^ 3 = if 0 < a then 1 else -1 := by
    by_cases h : 0 < a
    · rw [if_pos h, abs_of_pos (by exact_mod_cast h), div_self (by positivity)]
    · have : (a : Real) < 0 := by exact_mod_cast lt_of_le_of_ne (not_lt.1 h) ha
      rw [if_neg h, abs_of_neg this, show (-(a : Real)) ^ 3 = -(a : Real) ^ 3 by ring, div_neg, div_self (pow_ne_zero 3 haR)]
  have hk2 : k2 (l.map fun x => a * x + b) = a ^ 2 * k2 l := by unfold k2; rw [c2, List.length_map]; ring
  have hk3 : k3 (l.map fun x => a * x + b) = a ^ 3 * k3 l := by unfold k3; rw [c3, List.length_map]; ring
  have hk4 : k4 (l.map fun x => a * x + b) = a ^ 4 * k4 l := by unfold k4; rw [c2, c4, List.length_map]; ring
  have habs : |(a : Real)| ^ 3 ≠ 0 := pow_ne_zero 3 (abs_ne_zero.2 haR)
  have gen : ∀ (x y : ℚ), 0 ≤ y → ((a ^ 3 * x : ℚ) : Real) / ((a ^ 2 * y : ℚ) : Real) ^ (3 / 2 : Real) =
      (if 0 < a then 1 else -1) * ((x : Real) / (y : Real) ^ (3 / 2 : Real)) := by
    intro x y hy
    push_cast
    rw [hrp _ (by exact_mod_cast hy), mul_div_mul_comm, hfac]
  constructor
  · unfold skewness
    cases unbiased with
    | false =>
      simp only [Bool.false_eq_true, if_false]
      rw [c2, c3]; exact gen _ _ (cmom2_nonneg l)
    | true =>
      simp only [if_true]
      rw [hk2, hk3]
      apply gen
      unfold k2
      have h1 : 1 ≤ (l.length : ℚ) := by exact_mod_cast Nat.one_le_iff_ne_zero.2 (by simpa using hl)
      exact mul_nonneg (div_nonneg (by linarith) (by linarith)) (cmom2_nonneg l)
  · unfold kurt
    rw [hk2, hk4, c2, c4]
    have e : ∀ x y : ℚ, a ^ 4 * x / (a ^ 2 * y) ^ 2 = x / y ^ 2 := by
      intro x y
      rw [show (a ^ 2 * y) ^ 2 = a ^ 4 * y ^ 2 by ring, mul_div_mul_left _ _ (pow_ne_zero 4 ha)]
    rw [e, e]

/-- **C159.**  The biased kurtosis is never below 1 (Fisher: -2). -/
theorem kurt_ge (l : List ℚ) (h2 : cmom 2 l ≠ 0) : 1 ≤ kurt false false l ∧ -2 ≤ kurt false true l := by
  have hlen := cmom2_len l h2
  have hN : (0 : ℚ) < l.length := by exact_mod_cast (by omega : 0 < l.length)
  have hcs : cmom 2 l ^ 2 ≤ cmom 4 l := by
    unfold cmom
    set y := l.map fun x => (x - l.sum / l.length) ^ 2 with hy
    have h4 : (l.map fun x => (x - l.sum / l.length) ^ 4) = y.map fun z => z ^ 2 := by
      rw [hy, List.map_map]; congr 1; funext x; simp only [Function.comp]; ring
    rw [h4]
    have hyl : (y.length : ℚ) = l.length := by rw [hy, List.length_map]
    rw [← hyl] at hN ⊢
    have hs : 0 ≤ sqdev y := by
      unfold sqdev
      apply List.sum_nonneg
      intro x hx
      obtain ⟨z, _, rfl⟩ := List.mem_map.1 hx
      exact mul_self_nonneg _
    rw [sqdev_eq] at hs
    have he : sumSq y = (y.map fun z => z ^ 2).sum := by unfold sumSq; congr 2; funext z; ring
    rw [he] at hs
    rw [div_pow, div_le_div_iff₀ (by positivity) hN]
    have : y.sum * y.sum / y.length ≤ (y.map fun z => z ^ 2).sum := by linarith
    rw [div_le_iff₀ hN] at this
    nlinarith
  have hpos : 0 < cmom 2 l ^ 2 := by positivity
  have h1 : 1 ≤ cmom 4 l / cmom 2 l ^ 2 := by rw [le_div_iff₀ hpos]; linarith
  unfold kurt
  constructor
  · simpa using h1
  · simp only [Bool.false_eq_true, if_false, if_true]; linarith

/-- **C159 is false** for arrays of one row (or one matrix) distributed along their last axis: `mean` drops an axis of extent 1 and `expand_dims` raises. `skew(x, axis=1)` of an array of
shape (1, 5) and split 1 raises ValueError; of shape (2, 5) it works. -/
theorem skew_single_violated : muShape [1, 5] 1 = .error .valueError ∧ muShape [2, 5] 1 = .ok [2, 1] ∧ muShape [1, 1, 5] 2 = .error .valueError := by decide

/-- Otherwise the mean gets the shape of the array with extent 1 along the axis. -/
theorem mu_shape (shape : List Nat) (axis : Nat) (h0 : 0 < axis) (ha : axis < shape.length) (h : (shape.eraseIdx axis).foldl (· * ·) 1 ≠ 1) :
    muShape shape axis = .ok (shape.set axis 1) := by
  unfold muShape
  have hm : momentShape (shape.eraseIdx axis) = shape.eraseIdx axis := (moment_shape _).2 (Or.inr h)
  dsimp only
  rw [hm, if_pos h0, if_neg (by rw [List.length_eraseIdx_of_lt ha]; omega)]
  congr 1
  apply List.ext_getElem?
  intro k
  rw [List.getElem?_insertIdx, List.getElem?_set]
  rcases Nat.lt_trichotomy k axis with hk | hk | hk
  · rw [if_pos hk, if_neg (by omega), List.getElem?_eraseIdx_of_lt hk]
  · subst hk; simp [List.length_eraseIdx_of_lt ha, ha]; omega
  · rw [if_neg (by omega), if_neg (by omega), if_neg (by omega), List.getElem?_eraseIdx_of_ge (by omega)]
    congr 1; omega

/-- Non-vacuity of `kurtFin_spec` and of the results of C159: five numbers with excess kurtosis 394/125. -/
example : cmom 2 [1, 2, 3, 4, 10] = 10 ∧ kurtResult true true [1, 2, 3, 4, 10] = .ok (some (394 / 125 : ℚ)) := by
  have h2 : cmom 2 [1, 2, 3, 4, 10] = 10 := by norm_num [cmom]
  have h4 : cmom 4 [1, 2, 3, 4, 10] = 1394 / 5 := by norm_num [cmom]
  refine ⟨h2, ?_⟩
  rw [← kurtFin_result, h2, h4]
  norm_num [kurtFin]

end Heat
