import Verif.Model.Ptp
import Verif.Proof.Dist
import Mathlib.Data.List.Forall2
/-!
# C146: ptp is the range of the values
-/
namespace Heat
open Heat.Spec

namespace Spec
/-- `v` is the difference between the largest and the smallest element of `l`. -/
def IsRange (l : List Int) (v : Int) : Prop := ∃ a ∈ l, ∃ b ∈ l, (∀ x ∈ l, a ≤ x ∧ x ≤ b) ∧ v = b - a

/-- The split of the local results of a reduction over the axes `A` of an array of dimension `ndim` with split axis `s`: none if the split
axis is reduced, otherwise the position of the split axis among the axes that remain. -/
def reducedSplit (ndim s : Nat) (A : List Int) (keepdims : Bool) : Option Int :=
  let A' := A.map fun a : Int => if a < 0 then a + (ndim : Int) else a
  if (s : Int) ∈ A' then none
  else if keepdims then some (s : Int)
  else some ((s : Int) - ((A'.filter fun a => a < (s : Int)).length : Int))
end Spec

theorem range_unique (l : List Int) (v w : Int) (hv : IsRange l v) (hw : IsRange l w) : v = w := by
  obtain ⟨a, ha, b, hb, h, rfl⟩ := hv
  obtain ⟨c, hc, d, hd, h', rfl⟩ := hw
  have h1 := h c hc; have h2 := h d hd; have h3 := h' a ha; have h4 := h' b hb
  omega

/-- The pair of a non-empty list. -/
theorem ptpLocal_spec (l : List Int) (hl : l ≠ []) : ∃ a b, ptpLocal l = some (a, b) ∧ a ∈ l ∧ b ∈ l ∧ ∀ x ∈ l, a ≤ x ∧ x ≤ b := by
  obtain ⟨a, ha⟩ : ∃ a, l.min? = some a := by
    cases h : l.min? with
    | none => exact absurd (List.min?_eq_none_iff.1 h) hl
    | some a => exact ⟨a, rfl⟩
  obtain ⟨b, hb⟩ : ∃ b, l.max? = some b := by
    cases h : l.max? with
    | none => exact absurd (List.max?_eq_none_iff.1 h) hl
    | some a => exact ⟨a, rfl⟩
  refine ⟨a, b, by unfold ptpLocal; rw [ha, hb], ?_⟩
  obtain ⟨h1, h2⟩ := List.min?_eq_some_iff.1 ha
  obtain ⟨h3, h4⟩ := List.max?_eq_some_iff.1 hb
  exact ⟨h1, h3, fun x hx => ⟨h2 x hx, h4 x hx⟩⟩

/-- MPI may combine the contributions in any order and grouping. -/
theorem ptpOp_comm (x y : Option (Int × Int)) : ptpOp x y = ptpOp y x := by
  match x, y with
  | none, none => rfl
  | none, some _ => rfl
  | some _, none => rfl
  | some (a, b), some (c, d) => simp only [ptpOp, Option.some.injEq, Prod.mk.injEq]; omega

theorem ptpOp_assoc (x y z : Option (Int × Int)) : ptpOp (ptpOp x y) z = ptpOp x (ptpOp y z) := by
  match x, y, z with
  | none, y, z => simp [ptpOp]
  | some _, none, z => simp [ptpOp]
  | some (a, b), some (c, d), none => simp [ptpOp]
  | some (a, b), some (c, d), some (e, f) => simp only [ptpOp, Option.some.injEq, Prod.mk.injEq]; omega

theorem ptp_fold (parts : Nat → List Int) (P : Nat) (h : ∀ r < P + 1, parts r ≠ []) :
    ∃ a b, ((List.range (P + 1)).tail.map fun r => ptpLocal (parts r)).foldl ptpOp (ptpLocal (parts 0)) = some (a, b) ∧
      a ∈ content (P + 1) parts ∧ b ∈ content (P + 1) parts ∧ ∀ x ∈ content (P + 1) parts, a ≤ x ∧ x ≤ b := by
  induction P with
  | zero =>
    obtain ⟨a, b, h1, h2, h3, h4⟩ := ptpLocal_spec (parts 0) (h 0 (by omega))
    refine ⟨a, b, by simpa using h1, ?_⟩
    rw [content_succ, content_zero, List.nil_append]
    exact ⟨h2, h3, h4⟩
  | succ P ih =>
    obtain ⟨a, b, h1, h2, h3, h4⟩ := ih fun r hr => h r (by omega)
    obtain ⟨c, d, h5, h6, h7, h8⟩ := ptpLocal_spec (parts (P + 1)) (h (P + 1) (by omega))
    have ht : (List.range (P + 1 + 1)).tail = (List.range (P + 1)).tail ++ [P + 1] := by
      rw [List.range_succ (n := P + 1), List.tail_append_of_ne_nil (by simp)]
    rw [ht, List.map_append, List.foldl_append, h1]
    simp only [List.map_cons, List.map_nil, List.foldl_cons, List.foldl_nil, h5, ptpOp]
    refine ⟨_, _, rfl, ?_⟩
    rw [content_succ (P + 1)]
    simp only [List.mem_append]
    refine ⟨?_, ?_, ?_⟩
    · rcases Int.le_total a c with h | h
      · rw [Int.min_eq_left h]; exact Or.inl h2
      · rw [Int.min_eq_right h]; exact Or.inr h6
    · rcases Int.le_total b d with h | h
      · rw [Int.max_eq_right h]; exact Or.inr h7
      · rw [Int.max_eq_left h]; exact Or.inl h3
    · rintro x (hx | hx)
      · have := h4 x hx; omega
      · have := h8 x hx; omega

/-- **C146 (partial), along the split axis.**  If every process holds at least one slab, `ptp` along the split axis is the range of the
whole column.  Missing: arrays with fewer slabs than processes, for which the result is NaN or an error (`ptp_empty_violated`). -/
theorem ptp_split_partial (isFloat : Bool) (P : Nat) (hP : 0 < P) (parts : Nat → List Int) (h : ∀ r < P, parts r ≠ []) :
    ∃ v, ptpSplit isFloat P parts = .ok (some v) ∧ IsRange (content P parts) v := by
  obtain ⟨Q, rfl⟩ : ∃ Q, P = Q + 1 := ⟨P - 1, by omega⟩
  obtain ⟨a, b, h1, h2, h3, h4⟩ := ptp_fold parts Q h
  refine ⟨b - a, ?_, a, h2, b, h3, h4, rfl⟩
  unfold ptpSplit
  rw [if_neg ?_, h1]
  · rfl
  · simp only [Bool.and_eq_true, List.any_eq_true, List.mem_range, List.isEmpty_iff, not_and, not_exists]
    intro _ r hr
    exact h r hr

example : ∃ v, ptpSplit true 2 (fun r => ([[3, -1], [7]] : List (List Int)).getD r []) = .ok (some v) ∧ v = 8 :=
  ⟨8, by decide, rfl⟩

theorem ptpOp_none (l : List (Option (Int × Int))) (x : Option (Int × Int)) (h : x = none ∨ none ∈ l) : l.foldl ptpOp x = none := by
  induction l generalizing x with
  | nil => rcases h with h | h
           · exact h
           · simp at h
  | cons y t ih =>
    rw [List.foldl_cons]
    apply ih
    rcases h with rfl | h
    · left; simp [ptpOp]
    · rcases List.mem_cons.1 h with rfl | h
      · left; cases x <;> simp [ptpOp]
      · right; exact h

/-- If a process has no slab, every column of a floating point array has range NaN, and for an integer array that process raises. -/
theorem ptp_empty_violated (P : Nat) (parts : Nat → List Int) (r : Nat) (hr : r < P) (h : parts r = []) :
    ptpSplit true P parts = .ok none ∧ ptpSplit false P parts = .error .runtimeError := by
  constructor
  · unfold ptpSplit
    rw [if_neg (by simp), ptpOp_none]
    · rfl
    · by_cases h0 : r = 0
      · left; subst h0; rw [h]; rfl
      · right
        rw [List.mem_map]
        refine ⟨r, ?_, by rw [h]; rfl⟩
        obtain ⟨Q, rfl⟩ : ∃ Q, P = Q + 1 := ⟨P - 1, by omega⟩
        rw [List.range_succ_eq_map, List.tail_cons, List.mem_map]
        exact ⟨r - 1, by rw [List.mem_range]; omega, by simp; omega⟩
  · unfold ptpSplit
    rw [if_pos]
    simp only [Bool.not_false, Bool.true_and, List.any_eq_true, List.mem_range, List.isEmpty_iff]
    exact ⟨r, hr, h⟩

example : ptpSplit true 3 (fun r => ([[3], [5], []] : List (List Int)).getD r []) = .ok none := by decide

/-- **C146, along another axis.**  A process with slabs returns the range of each of its (non-empty) slabs; a process without slabs raises,
alone. -/
theorem ptp_other (rows : List (List Int)) (hne : rows ≠ []) (h : ∀ l ∈ rows, l ≠ []) :
    ∃ vs : List Int, ptpOther rows = .ok (vs.map some) ∧ List.Forall₂ IsRange rows vs := by
  have hl : rows.length ≠ 0 := by simpa using hne
  unfold ptpOther
  rw [if_neg hl]
  clear hl hne
  induction rows with
  | nil => exact ⟨[], rfl, .nil⟩
  | cons l t ih =>
    obtain ⟨vs, h1, h2⟩ := ih fun x hx => h x (List.mem_cons_of_mem _ hx)
    obtain ⟨a, b, h3, h4, h5, h6⟩ := ptpLocal_spec l (h l List.mem_cons_self)
    refine ⟨(b - a) :: vs, ?_, .cons ⟨a, h4, b, h5, h6, rfl⟩ h2⟩
    simp only [Except.ok.injEq] at h1
    rw [List.map_cons, List.map_cons, h1, h3]
    rfl

theorem ptp_other_empty_violated : ptpOther [] = .error .runtimeError := rfl

/-! ## Metadata -/

/-- **C146 (partial), metadata.**  For a single non-negative axis, and without `keepdims` or behind the split axis, the result is given the
split that its local parts have. -/
theorem ptp_meta_partial (ndim s : Nat) (a : Int) (h0 : 0 ≤ a) (keepdims : Bool) (hk : keepdims = true → (s : Int) < a ∨ a = s) :
    ptpSplitOf (some s) (.one a) = reducedSplit ndim s [a] keepdims := by
  unfold ptpSplitOf reducedSplit
  simp only [List.map_cons, List.map_nil, List.mem_singleton]
  rw [if_neg (show ¬ a < 0 by omega)]
  by_cases h1 : a < s
  · rw [if_pos h1, if_neg (by omega)]
    have hk' : keepdims = false := by
      cases keepdims
      · rfl
      · have := hk rfl; omega
    subst hk'
    simp [h1]
  · rw [if_neg h1]
    by_cases h2 : a > s
    · rw [if_pos h2, if_neg (by omega)]
      cases keepdims
      · simp [h1]
      · simp
    · rw [if_neg h2, if_pos (by omega)]

/-- `ptp(x)` over all axes has no split, and indeed every process holds the result. -/
theorem ptp_meta_all (ndim s : Nat) (hs : s < ndim) (keepdims : Bool) :
    ptpSplitOf (some s) .all = reducedSplit ndim s ((List.range ndim).map Int.ofNat) keepdims := by
  unfold ptpSplitOf reducedSplit
  simp only
  rw [if_pos]
  simp only [List.mem_map, List.mem_range]
  exact ⟨(s : Int), ⟨s, hs, rfl⟩, by rw [if_neg (by omega)]⟩

/-- Negative axis: the range of a matrix over its (split) last axis is replicated but declared as split along axis 0. -/
theorem ptp_meta_negative_violated : ptpSplitOf (some 1) (.one (-1)) = some 0 ∧ reducedSplit 2 1 [-1] false = none := by decide

/-- `keepdims`: the split axis stays where it is but the result is declared as split along the axis before. -/
theorem ptp_meta_keepdims_violated : ptpSplitOf (some 1) (.one 0) = some 0 ∧ reducedSplit 2 1 [0] true = some 1 := by decide

/-- Tuples: every process holds only its part but the result is declared as replicated. -/
theorem ptp_meta_tuple_violated : ptpSplitOf (some 2) (.tup [0, 1]) = none ∧ reducedSplit 3 2 [0, 1] false = some 0 := by decide

/-! ## Several axes -/

theorem minmax0_one (m : List (List Int)) : minmax0 1 m = [[((m.map fun row => row.getD 0 0).min?).getD 0], [((m.map fun row => row.getD 0 0).max?).getD 0]] := by
  unfold minmax0; rfl

/-- Over `axis=(1, 0)` the result is the range of all elements. -/
theorem ptp_pair_partial (c : Nat) (m : List (List Int)) (hm : m ≠ []) (hc : ∀ row ∈ m, row ≠ []) :
    ∃ v, ptpPair c false m = [[v]] ∧ IsRange m.flatten v := by
  unfold ptpPair
  simp only [Bool.false_eq_true, if_false]
  rw [minmax0_one]
  simp only [List.length_cons, List.length_nil]
  refine ⟨_, rfl, ?_⟩
  have hmap : (minmax1 m).map (fun row => row.getD 0 0) = (m.map fun row => (row.min?).getD 0) ++ m.map fun row => (row.max?).getD 0 := by
    unfold minmax1
    rw [List.map_append, List.map_map, List.map_map]
    rfl
  rw [hmap]
  generalize hL : ((m.map fun row => (row.min?).getD 0) ++ m.map fun row => (row.max?).getD 0) = L
  have hne : L ≠ [] := by
    rw [← hL]
    obtain ⟨row, t, rfl⟩ := List.exists_cons_of_ne_nil hm
    simp
  have hrow : ∀ row ∈ m, ∃ a b, row.min? = some a ∧ row.max? = some b ∧ a ∈ row ∧ b ∈ row ∧ ∀ x ∈ row, a ≤ x ∧ x ≤ b := by
    intro row hr
    obtain ⟨a, b, h1, h2, h3, h4⟩ := ptpLocal_spec row (hc row hr)
    unfold ptpLocal at h1
    cases e1 : row.min? with
    | none => rw [e1] at h1; simp at h1
    | some a' =>
      cases e2 : row.max? with
      | none => rw [e1, e2] at h1; simp at h1
      | some b' =>
        rw [e1, e2] at h1
        simp only [Option.some.injEq, Prod.mk.injEq] at h1
        rw [h1.1, h1.2]
        exact ⟨a, b, rfl, rfl, h2, h3, h4⟩
  have hmem : ∀ x ∈ L, x ∈ m.flatten := by
    intro x hx
    rw [← hL, List.mem_append, List.mem_map, List.mem_map] at hx
    rcases hx with ⟨row, hr, rfl⟩ | ⟨row, hr, rfl⟩
    · obtain ⟨a, b, h1, h2, h3, h4, h5⟩ := hrow row hr
      rw [h1]; exact List.mem_flatten.2 ⟨row, hr, h3⟩
    · obtain ⟨a, b, h1, h2, h3, h4, h5⟩ := hrow row hr
      rw [h2]; exact List.mem_flatten.2 ⟨row, hr, h4⟩
  obtain ⟨a, b, h1, h2, h3, h4⟩ := ptpLocal_spec L hne
  have e : L.min? = some a ∧ L.max? = some b := by
    unfold ptpLocal at h1
    cases e1 : L.min? with
    | none => rw [e1] at h1; simp at h1
    | some a' =>
      cases e2 : L.max? with
      | none => rw [e1, e2] at h1; simp at h1
      | some b' => rw [e1, e2] at h1; simp only [Option.some.injEq, Prod.mk.injEq] at h1; rw [h1.1, h1.2]; exact ⟨rfl, rfl⟩
  rw [e.1, e.2]
  refine ⟨a, hmem a h2, b, hmem b h3, ?_, rfl⟩
  intro x hx
  obtain ⟨row, hr, hxr⟩ := List.mem_flatten.1 hx
  obtain ⟨c1, d1, h5, h6, h7, h8, h9⟩ := hrow row hr
  have m1 : c1 ∈ L := by rw [← hL, List.mem_append, List.mem_map]; left; exact ⟨row, hr, by rw [h5]; rfl⟩
  have m2 : d1 ∈ L := by rw [← hL, List.mem_append, List.mem_map (l := m) (f := fun row => (row.max?).getD 0)]; right; exact ⟨row, hr, by rw [h6]; rfl⟩
  have := h4 c1 m1; have := h4 d1 m2; have := h9 x hxr
  omega

example : ptpPair 2 false [[1, 2], [3, 5]] = [[4]] := by decide

/-- Over `axis=(0, 1)` the result of every matrix has two elements instead of one. -/
theorem ptp_pair_violated (c : Nat) (m : List (List Int)) : (ptpPair c true m).length = 2 := by
  unfold ptpPair minmax1 minmax0
  simp

example : ptpPair 2 true [[1, 2], [3, 5]] = [[1], [2]] := by decide

end Heat
