import Verif.Model.Memory
import Mathlib.Data.List.Forall2
import Mathlib.Algebra.BigOperators.Group.List.Lemmas
import Mathlib.Algebra.Order.BigOperators.Group.List
import Mathlib.Tactic.Ring
import Mathlib.Tactic.Linarith
/-!
# C173: memory layouts
-/
namespace Heat
variable {α : Type}

namespace Spec

/-- An index of an array of the given shape. -/
def InsideL (idx shape : List Nat) : Prop := List.Forall₂ (· < ·) idx shape

/-- The two tensors have the same shape and the same elements. -/
def SameValues (y t : Tens α) : Prop := y.shape = t.shape ∧ ∀ idx, InsideL idx t.shape → y.get idx = t.get idx

/-- Column-major: the strides do not decrease from the first axis to the last; axes of extent 1 do not matter. -/
def FLayout (t : Tens α) : Prop := ((realAxes t.shape t.strides).map (·.2)).Pairwise (· ≤ ·)

/-- Row-major: the strides do not increase. -/
def CLayout (t : Tens α) : Prop := ((realAxes t.shape t.strides).map (·.2)).Pairwise (· ≥ ·)

end Spec

open Spec

/-! ## Strides -/

theorem strideDot_cons (i s : Nat) (idx st : List Nat) : strideDot (i :: idx) (s :: st) = i * s + strideDot idx st := by
  unfold strideDot; simp

theorem strideDot_append (a b c d : List Nat) (h : a.length = c.length) : strideDot (a ++ b) (c ++ d) = strideDot a c + strideDot b d := by
  unfold strideDot
  rw [List.zipWith_append h, List.sum_append]

theorem strideDot_reverse (a b : List Nat) (h : a.length = b.length) : strideDot a.reverse b.reverse = strideDot a b := by
  induction a generalizing b with
  | nil => cases b with
    | nil => rfl
    | cons _ _ => simp at h
  | cons x a ih => cases b with
    | nil => simp at h
    | cons y b =>
      have h' : a.length = b.length := by simpa using h
      rw [List.reverse_cons, List.reverse_cons, strideDot_append _ _ _ _ (by simp [h']), ih b h', strideDot_cons]
      unfold strideDot
      simp
      omega

theorem rowStrides_length (sh : List Nat) : (rowStrides sh).length = sh.length := by
  induction sh with
  | nil => rfl
  | cons n sh ih => simp [rowStrides, ih]

/-- Positions in a row-major tensor are smaller than the number of its elements, and give back the index. -/
theorem row_pos {idx sh : List Nat} (h : InsideL idx sh) : strideDot idx (rowStrides sh) < sh.prod ∧ unrav sh (strideDot idx (rowStrides sh)) = idx := by
  induction h with
  | nil => exact ⟨by simp [strideDot], rfl⟩
  | @cons i n idx sh hi _ ih =>
    obtain ⟨h1, h2⟩ := ih
    unfold rowStrides
    rw [strideDot_cons, List.prod_cons]
    have hp : 0 < sh.prod := by omega
    have e1 : (i * sh.prod + strideDot idx (rowStrides sh)) / sh.prod = i := by
      rw [Nat.mul_comm, Nat.mul_add_div hp, Nat.div_eq_of_lt h1, Nat.add_zero]
    have e2 : (i * sh.prod + strideDot idx (rowStrides sh)) % sh.prod = strideDot idx (rowStrides sh) := by
      rw [Nat.mul_comm, Nat.mul_add_mod, Nat.mod_eq_of_lt h1]
    constructor
    · have : (i + 1) * sh.prod ≤ n * sh.prod := Nat.mul_le_mul_right _ hi
      rw [Nat.add_mul] at this
      omega
    · unfold unrav
      rw [e1, e2, h2]

/-- `contiguous` keeps the elements. -/
theorem contiguous_same (t : Tens α) : SameValues t.contiguous t := by
  unfold Tens.contiguous
  by_cases c : t.isContig = true
  · rw [if_pos c]; exact ⟨rfl, fun _ _ => rfl⟩
  · rw [if_neg c]
    refine ⟨rfl, fun idx h => ?_⟩
    obtain ⟨h1, h2⟩ := row_pos h
    show (if 0 + strideDot idx (rowStrides t.shape) < t.shape.prod then t.get (unrav t.shape (0 + strideDot idx (rowStrides t.shape))) else none) = _
    rw [Nat.zero_add, if_pos h1, h2]

theorem inside_rev {idx sh : List Nat} (h : InsideL idx sh) : InsideL idx.reverse sh.reverse := List.forall₂_reverse_iff.mpr h

theorem insideL_length {idx sh : List Nat} (h : InsideL idx sh) : idx.length = sh.length := h.length_eq

theorem rev_get {t : Tens α} (hl : t.strides.length = t.shape.length) {idx : List Nat} (h : InsideL idx t.shape) : t.rev.get idx.reverse = t.get idx := by
  show t.sto (t.off + strideDot idx.reverse t.strides.reverse) = _
  rw [strideDot_reverse _ _ (by rw [insideL_length h, hl])]
  rfl

theorem contiguous_strides_length {t : Tens α} (hl : t.strides.length = t.shape.length) : t.contiguous.strides.length = t.shape.length := by
  unfold Tens.contiguous
  split
  · exact hl
  · exact rowStrides_length _

/-- The elements of the tensor after the change of the layout: right if the offset is that of the storage that is used. -/
theorem relayout_get {t : Tens α} (hl : t.strides.length = t.shape.length) {idx : List Nat} (h : InsideL idx t.shape) (ho : t.rev.isContig = true ∨ t.off = 0) : t.relayout.get idx = t.get idx := by
  have hlr : t.rev.strides.length = t.rev.shape.length := by simp [Tens.rev, hl]
  have e : t.relayout.get idx = t.rev.contiguous.sto (t.off + strideDot idx.reverse t.rev.contiguous.strides) := by
    show t.rev.contiguous.sto (t.off + strideDot idx t.rev.contiguous.strides.reverse) = _
    rw [← strideDot_reverse idx _ (by rw [List.length_reverse, contiguous_strides_length hlr, insideL_length h]; simp [Tens.rev]), List.reverse_reverse]
  have hoff : t.rev.contiguous.off = t.off := by
    unfold Tens.contiguous
    by_cases c : t.rev.isContig = true
    · rw [if_pos c]; rfl
    · rw [if_neg c]
      rcases ho with ho | ho
      · exact absurd ho c
      · exact ho.symm
  rw [e, ← hoff]
  show t.rev.contiguous.get idx.reverse = _
  rw [(contiguous_same t.rev).2 _ (inside_rev h), rev_get hl h]

/-! ## Layouts -/

theorem columnMajor_iff (st : List Nat) : columnMajor st = true ↔ st.Pairwise (· ≤ ·) := by
  unfold columnMajor
  induction st with
  | nil => simp
  | cons a st ih =>
    cases st with
    | nil => simp
    | cons b st =>
      rw [List.tail_cons, List.zip_cons_cons, List.all_cons, Bool.and_eq_true]
      rw [List.tail_cons] at ih
      rw [ih, List.pairwise_cons (a := a), decide_eq_true_eq]
      constructor
      · rintro ⟨h1, h2⟩
        refine ⟨fun x hx => ?_, h2⟩
        rcases List.mem_cons.mp hx with rfl | hx
        · exact h1
        · exact Nat.le_trans h1 ((List.pairwise_cons.mp h2).1 x hx)
      · rintro ⟨h1, h2⟩
        exact ⟨h1 b (by simp), h2⟩

theorem rowStrides_sorted {sh : List Nat} (hp : ∀ n ∈ sh, 0 < n) : (rowStrides sh).Pairwise (· ≥ ·) ∧ ∀ s ∈ rowStrides sh, s ≤ sh.prod := by
  induction sh with
  | nil => simp [rowStrides]
  | cons n sh ih =>
    obtain ⟨h1, h2⟩ := ih fun m hm => hp m (by simp [hm])
    have hn := hp n (by simp)
    unfold rowStrides
    have hle : sh.prod ≤ n * sh.prod := Nat.le_mul_of_pos_left _ hn
    refine ⟨List.pairwise_cons.mpr ⟨fun s hs => h2 s hs, h1⟩, fun s hs => ?_⟩
    rw [List.prod_cons]
    rcases List.mem_cons.mp hs with rfl | hs
    · exact hle
    · exact Nat.le_trans (h2 s hs) hle

theorem realAxes_sub (sh st : List Nat) : ((realAxes sh st).map (·.2)).Sublist st := by
  unfold realAxes
  have h1 : (((sh.zip st).filter fun p => p.1 ≠ 1).map (·.2)).Sublist ((sh.zip st).map (·.2)) := List.filter_sublist.map _
  refine h1.trans ?_
  clear h1
  induction sh generalizing st with
  | nil => simp
  | cons n sh ih => cases st with
    | nil => simp
    | cons m st => rw [List.zip_cons_cons, List.map_cons]; exact (ih st).cons₂ m

theorem zip_reverse_eq {β γ : Type} (a : List β) (b : List γ) (h : a.length = b.length) : a.reverse.zip b.reverse = (a.zip b).reverse := by
  induction a generalizing b with
  | nil => simp
  | cons x a ih => cases b with
    | nil => simp at h
    | cons y b =>
      have h' : a.length = b.length := by simpa using h
      rw [List.reverse_cons, List.reverse_cons, List.zip_append (by simp [h']), ih b h', List.zip_cons_cons (as := a), List.reverse_cons]
      rfl

theorem realAxes_rev {sh st : List Nat} (h : sh.length = st.length) : realAxes sh.reverse st.reverse = (realAxes sh st).reverse := by
  unfold realAxes
  rw [zip_reverse_eq _ _ h, List.filter_reverse]

theorem prod_pos_of {sh : List Nat} (h : sh.prod ≠ 0) : ∀ n ∈ sh, 0 < n := by
  intro n hn
  rcases Nat.eq_zero_or_pos n with rfl | hp
  · exfalso
    apply h
    clear h
    induction sh with
    | nil => simp at hn
    | cons m sh ih =>
      rw [List.prod_cons]
      rcases List.mem_cons.mp hn with e | hn
      · rw [← e, Nat.zero_mul]
      · rw [ih hn, Nat.mul_zero]
  · exact hp

theorem prod_pos_iff {sh : List Nat} (h : ∀ n ∈ sh, 0 < n) : 0 < sh.prod := by
  induction sh with
  | nil => simp
  | cons m sh ih =>
    rw [List.prod_cons]
    exact Nat.mul_pos (h m (by simp)) (ih fun n hn => h n (by simp [hn]))

theorem realAxes_ext {sh st : List Nat} (h : ∀ n ∈ sh, 0 < n) : ∀ n ∈ (realAxes sh st).map (·.1), 2 ≤ n := by
  intro n hn
  obtain ⟨p, hp, rfl⟩ := List.mem_map.mp hn
  unfold realAxes at hp
  obtain ⟨h1, h2⟩ := List.mem_filter.mp hp
  have := h p.1 (List.of_mem_zip h1).1
  have h2 : p.1 ≠ 1 := by simpa using h2
  omega

/-- After the change the tensor is column-major, whatever `order` was. -/
theorem relayout_F {t : Tens α} (hl : t.strides.length = t.shape.length) (hp : t.shape.prod ≠ 0) : FLayout t.relayout := by
  unfold FLayout
  show ((realAxes t.shape t.rev.contiguous.strides.reverse).map (·.2)).Pairwise (· ≤ ·)
  have hpos := prod_pos_of hp
  unfold Tens.contiguous
  by_cases c : t.rev.isContig = true
  · rw [if_pos c]
    show ((realAxes t.shape t.strides.reverse.reverse).map (·.2)).Pairwise (· ≤ ·)
    rw [List.reverse_reverse]
    unfold Tens.isContig at c
    have c : (realAxes t.shape.reverse t.strides.reverse).map (·.2) = rowStrides ((realAxes t.shape.reverse t.strides.reverse).map (·.1)) := of_decide_eq_true c
    rw [realAxes_rev hl.symm] at c
    have hs := (rowStrides_sorted (sh := ((realAxes t.shape t.strides).reverse.map (·.1))) (fun n hn => by
      rw [List.map_reverse, List.mem_reverse] at hn
      have := realAxes_ext hpos n hn
      omega)).1
    rw [← c, List.map_reverse, List.pairwise_reverse] at hs
    exact hs
  · rw [if_neg c]
    show ((realAxes t.shape (rowStrides t.shape.reverse).reverse).map (·.2)).Pairwise (· ≤ ·)
    refine List.Pairwise.sublist (realAxes_sub _ _) ?_
    rw [List.pairwise_reverse]
    exact (rowStrides_sorted fun n hn => hpos n (by simpa using hn)).1

theorem columnMajor_F {t : Tens α} (h : columnMajor t.strides = true) : FLayout t :=
  List.Pairwise.sublist (realAxes_sub _ _) ((columnMajor_iff _).mp h)

/-- A contiguous tensor that is taken for column-major has at most one axis of extent greater than 1; read backwards it is contiguous, too. -/
theorem contig_col {t : Tens α} (hl : t.strides.length = t.shape.length) (hp : t.shape.prod ≠ 0) (hc : t.isContig = true) (hcol : columnMajor t.strides = true) : t.rev.isContig = true := by
  have hF := columnMajor_F hcol
  unfold FLayout at hF
  have hc : (realAxes t.shape t.strides).map (·.2) = rowStrides ((realAxes t.shape t.strides).map (·.1)) := of_decide_eq_true hc
  have hext := realAxes_ext (st := t.strides) (prod_pos_of hp)
  unfold Tens.isContig
  apply decide_eq_true
  show (realAxes t.shape.reverse t.strides.reverse).map (·.2) = rowStrides ((realAxes t.shape.reverse t.strides.reverse).map (·.1))
  rw [realAxes_rev hl.symm]
  generalize realAxes t.shape t.strides = l at *
  match l with
  | [] => rfl
  | [p] => exact hc
  | p :: q :: l =>
    exfalso
    simp only [List.map_cons, rowStrides, List.prod_cons] at hc hF hext
    have h1 : p.2 = q.1 * (l.map (·.1)).prod := (List.cons.inj hc).1
    have h2 : q.2 = (l.map (·.1)).prod := (List.cons.inj (List.cons.inj hc).2).1
    have h3 := (List.pairwise_cons.mp hF).1 q.2 (by simp)
    have h4 : 2 ≤ q.1 := hext q.1 (by simp)
    have h5 : 0 < (l.map (·.1)).prod := by
      apply prod_pos_iff
      intro n hn
      have := hext n (by simp only [List.mem_cons]; right; right; exact hn)
      omega
    have : 2 * (l.map (·.1)).prod ≤ q.1 * (l.map (·.1)).prod := Nat.mul_le_mul_right _ h4
    omega

/-! ## C173 -/

/-- **C173.**  Which calls are refused: `K` always, an unknown order for arrays with two axes and elements. -/
theorem layout_accepts (t : Tens α) (order : MemOrder) : (∃ y, sanitizeLayout t order = .ok y) ↔ order = .C ∨ order = .F ∨ (order = .other ∧ (t.shape.length < 2 ∨ t.shape.prod = 0)) := by
  unfold sanitizeLayout
  by_cases h : t.shape.length < 2 ∨ t.shape.prod = 0
  · rw [if_pos h]
    cases order <;> simp [h]
  · rw [if_neg h]
    cases order <;> cases columnMajor t.strides <;> simp [h]

/-- **C173 (part).**  The values and the shape are kept if the tensor begins at the beginning of its storage.  Missing: tensors that do not, see `layout_values_violated`. -/
theorem layout_values_partial {t y : Tens α} (hl : t.strides.length = t.shape.length) {order : MemOrder} (h : sanitizeLayout t order = .ok y) (ho : t.off = 0) : SameValues y t := by
  have key : SameValues t.relayout t := ⟨rfl, fun idx hi => relayout_get hl hi (.inr ho)⟩
  have same : SameValues t t := ⟨rfl, fun _ _ => rfl⟩
  unfold sanitizeLayout at h
  dsimp only at h
  split at h
  · cases h
  · split at h
    · cases h; exact same
    · split at h
      · cases h; exact same
      · split at h
        · cases h; exact key
        · cases h

/-- **C173.**  The values of contiguous tensors are kept with the default order, wherever they begin. -/
theorem layout_contig_C {t : Tens α} (hl : t.strides.length = t.shape.length) (hc : t.isContig = true) : ∃ y, sanitizeLayout t .C = .ok y ∧ SameValues y t := by
  have same : SameValues t t := ⟨rfl, fun _ _ => rfl⟩
  unfold sanitizeLayout
  rw [if_neg (by simp)]
  by_cases h : t.shape.length < 2 ∨ t.shape.prod = 0
  · rw [if_pos h]; exact ⟨t, rfl, same⟩
  · rw [if_neg h]
    push Not at h
    dsimp only
    by_cases hcol : columnMajor t.strides = true
    · rw [if_neg (by simp [hcol]), if_pos (by simp [hcol])]
      exact ⟨_, rfl, rfl, fun idx hi => relayout_get hl hi (.inl (contig_col hl h.2 hc hcol))⟩
    · rw [if_pos (by simp [hcol])]
      exact ⟨t, rfl, same⟩

/-- **C173.**  With order `F` the result is column-major. -/
theorem layout_F {t y : Tens α} (hl : t.strides.length = t.shape.length) (h2 : 2 ≤ t.shape.length) (hp : t.shape.prod ≠ 0) (h : sanitizeLayout t .F = .ok y) : FLayout y := by
  unfold sanitizeLayout at h
  rw [if_neg (by simp), if_neg (by omega)] at h
  dsimp only at h
  by_cases hcol : columnMajor t.strides = true
  · rw [if_pos (by simp [hcol])] at h
    cases h
    exact columnMajor_F hcol
  · rw [if_neg (by simp [hcol]), if_pos (by simp [hcol])] at h
    cases h
    exact relayout_F hl hp

/-- **C173, defect.**  With order `C` a column-major tensor stays column-major. -/
theorem layout_C_violated {t y : Tens α} (hl : t.strides.length = t.shape.length) (h2 : 2 ≤ t.shape.length) (hp : t.shape.prod ≠ 0) (hcol : columnMajor t.strides = true) (h : sanitizeLayout t .C = .ok y) : FLayout y := by
  unfold sanitizeLayout at h
  rw [if_neg (by simp), if_neg (by omega)] at h
  dsimp only at h
  rw [if_neg (by simp [hcol]), if_pos (by simp [hcol])] at h
  cases h
  exact relayout_F hl hp

/-! ## `array(..., split=...)` -/

theorem contiguous_isContig {t : Tens α} (hp : t.shape.prod ≠ 0) : t.contiguous.isContig = true := by
  unfold Tens.contiguous
  by_cases c : t.isContig = true
  · rw [if_pos c]; exact c
  · rw [if_neg c]
    apply decide_eq_true
    show (realAxes t.shape (rowStrides t.shape)).map (·.2) = rowStrides ((realAxes t.shape (rowStrides t.shape)).map (·.1))
    have key : ∀ sh : List Nat, (realAxes sh (rowStrides sh)).map (·.2) = rowStrides ((realAxes sh (rowStrides sh)).map (·.1)) ∧ ((realAxes sh (rowStrides sh)).map (·.1)).prod = sh.prod := by
      intro sh
      induction sh with
      | nil => exact ⟨rfl, rfl⟩
      | cons n sh ih =>
        by_cases hn : n = 1
        · have e : realAxes (n :: sh) (rowStrides (n :: sh)) = realAxes sh (rowStrides sh) := by
            show ((n, sh.prod) :: sh.zip (rowStrides sh)).filter _ = _
            rw [List.filter_cons_of_neg (by simp [hn])]
            rfl
          rw [e]
          exact ⟨ih.1, by rw [ih.2, hn, List.prod_cons, Nat.one_mul]⟩
        · have e : realAxes (n :: sh) (rowStrides (n :: sh)) = (n, sh.prod) :: realAxes sh (rowStrides sh) := by
            show ((n, sh.prod) :: sh.zip (rowStrides sh)).filter _ = _
            rw [List.filter_cons_of_pos (by simp [hn])]
            rfl
          rw [e, List.map_cons, List.map_cons]
          exact ⟨by show sh.prod :: _ = List.prod _ :: rowStrides _; rw [ih.1, ih.2], by rw [List.prod_cons, List.prod_cons, ih.2]⟩
    exact (key t.shape).1

theorem inside_set {idx sh : List Nat} {ax len n start : Nat} (h : InsideL idx (sh.set ax len)) (hax : sh[ax]? = some n) (hb : start + len ≤ n) : InsideL (idx.set ax (idx.getD ax 0 + start)) sh := by
  unfold InsideL at *
  induction sh generalizing idx ax with
  | nil => simp at hax
  | cons m sh ih =>
    cases ax with
    | zero =>
      obtain ⟨i, idx, rfl⟩ : ∃ i l, idx = i :: l := by cases h; exact ⟨_, _, rfl⟩
      have hn : m = n := by simpa using hax
      rw [List.set_cons_zero] at h
      rw [List.set_cons_zero]
      cases h with
      | cons h1 h2 =>
        refine .cons ?_ h2
        show i + start < m
        omega
    | succ ax =>
      obtain ⟨i, idx, rfl⟩ : ∃ i l, idx = i :: l := by cases h; exact ⟨_, _, rfl⟩
      rw [List.set_cons_succ] at h
      rw [List.set_cons_succ]
      cases h with
      | cons h1 h2 => exact .cons h1 (by simpa using ih h2 (by simpa using hax))

theorem strideDot_set (idx st : List Nat) (ax start : Nat) (hax : ax < idx.length) (hs : ax < st.length) : strideDot (idx.set ax (idx.getD ax 0 + start)) st = strideDot idx st + start * st.getD ax 0 := by
  induction idx generalizing ax st with
  | nil => simp at hax
  | cons i idx ih =>
    cases st with
    | nil => simp at hs
    | cons s st =>
      cases ax with
      | zero =>
        rw [List.set_cons_zero, strideDot_cons, strideDot_cons]
        show (i + start) * s + _ = i * s + _ + start * s
        ring
      | succ ax =>
        rw [List.set_cons_succ, strideDot_cons, strideDot_cons]
        have := ih st ax (by simpa using hax) (by simpa using hs)
        simp only [List.getD_cons_succ]
        rw [this]
        omega

/-- The slabs of a process. -/
theorem slab_get {t : Tens α} (hl : t.strides.length = t.shape.length) {ax start len n : Nat} (hax : t.shape[ax]? = some n) (hb : start + len ≤ n) {idx : List Nat} (h : InsideL idx (t.shape.set ax len)) :
    (t.slab ax start len).get idx = t.get (idx.set ax (idx.getD ax 0 + start)) := by
  have ha : ax < t.shape.length := by
    by_contra c
    rw [List.getElem?_eq_none (by omega)] at hax
    cases hax
  have hli : idx.length = t.shape.length := by rw [insideL_length h]; simp
  show t.sto (t.off + start * t.strides.getD ax 0 + strideDot idx t.strides) = t.sto (t.off + strideDot _ t.strides)
  rw [strideDot_set _ _ _ _ (by omega) (by omega)]
  congr 1
  omega

/-- **C173.**  `array(t, split=ax)` with the default order: every process gets its slabs, whatever the layout of the data and the axis. -/
theorem array_layout_C {t : Tens α} (hl : t.strides.length = t.shape.length) {ax start len n : Nat} (hax : t.shape[ax]? = some n) (hb : start + len ≤ n) :
    ∃ y, arraySplitLayout t ax start len .C = .ok y ∧ y.shape = t.shape.set ax len ∧ ∀ idx, InsideL idx (t.shape.set ax len) → y.get idx = t.get (idx.set ax (idx.getD ax 0 + start)) := by
  have hls : (t.slab ax start len).strides.length = (t.slab ax start len).shape.length := by simp [Tens.slab, hl]
  have hcs := contiguous_same (t.slab ax start len)
  have hlc : (t.slab ax start len).contiguous.strides.length = (t.slab ax start len).contiguous.shape.length := by rw [contiguous_strides_length hls, hcs.1]
  have fin : ∀ y, SameValues y (t.slab ax start len).contiguous → y.shape = t.shape.set ax len ∧ ∀ idx, InsideL idx (t.shape.set ax len) → y.get idx = t.get (idx.set ax (idx.getD ax 0 + start)) := by
    intro y hy
    refine ⟨hy.1.trans hcs.1, fun idx hi => ?_⟩
    rw [hy.2 idx (by rw [hcs.1]; exact hi), hcs.2 idx hi, slab_get hl hax hb hi]
  by_cases hp : (t.slab ax start len).shape.prod = 0
  · refine ⟨(t.slab ax start len).contiguous, ?_, fin _ ⟨rfl, fun _ _ => rfl⟩⟩
    unfold arraySplitLayout sanitizeLayout
    rw [if_neg (by simp), if_pos (by right; rw [hcs.1]; exact hp)]
  · obtain ⟨y, h1, h2⟩ := layout_contig_C hlc (contiguous_isContig hp)
    exact ⟨y, h1, fin y h2⟩

/-- **C173 (part).**  The same with order `F`, if the slabs of the process have to be copied (they are not one piece of memory), or begin at the beginning of the storage. -/
theorem array_layout_F_partial {t : Tens α} (hl : t.strides.length = t.shape.length) {ax start len n : Nat} (hax : t.shape[ax]? = some n) (hb : start + len ≤ n)
    (hs : (t.slab ax start len).isContig = false ∨ (t.off = 0 ∧ start = 0)) :
    ∃ y, arraySplitLayout t ax start len .F = .ok y ∧ y.shape = t.shape.set ax len ∧ ∀ idx, InsideL idx (t.shape.set ax len) → y.get idx = t.get (idx.set ax (idx.getD ax 0 + start)) := by
  have hls : (t.slab ax start len).strides.length = (t.slab ax start len).shape.length := by simp [Tens.slab, hl]
  have hcs := contiguous_same (t.slab ax start len)
  have hlc : (t.slab ax start len).contiguous.strides.length = (t.slab ax start len).contiguous.shape.length := by rw [contiguous_strides_length hls, hcs.1]
  have hoff : (t.slab ax start len).contiguous.off = 0 := by
    unfold Tens.contiguous
    rcases hs with hs | ⟨h1, h2⟩
    · rw [hs]; rfl
    · split
      · show t.off + start * _ = 0
        rw [h1, h2]; simp
      · rfl
  obtain ⟨y, hy⟩ := (layout_accepts (t.slab ax start len).contiguous .F).mpr (by simp)
  have hv := layout_values_partial hlc hy hoff
  refine ⟨y, hy, hv.1.trans hcs.1, fun idx hi => ?_⟩
  rw [hv.2 idx (by rw [hcs.1]; exact hi), hcs.2 idx hi, slab_get hl hax hb hi]

/-- **C173, defect.**  A tensor that begins at a later position of its storage, and whose reverse has to be copied, is read at this position of the copy: the last element lies outside of the storage. -/
theorem relayout_outside {t : Tens α} (hl : t.strides.length = t.shape.length) (hp : t.shape.prod ≠ 0) (ho : 0 < t.off) (hc : t.rev.isContig = false) : t.relayout.get (t.shape.map (· - 1)) = none := by
  have hpos := prod_pos_of hp
  have hin : InsideL (t.shape.map (· - 1)) t.shape := by
    unfold InsideL
    have : ∀ sh : List Nat, (∀ n ∈ sh, 0 < n) → List.Forall₂ (· < ·) (sh.map (· - 1)) sh := by
      intro sh
      induction sh with
      | nil => intro _; exact .nil
      | cons n sh ih =>
        intro h
        have := h n (by simp)
        exact .cons (by show n - 1 < n; omega) (ih fun m hm => h m (by simp [hm]))
    exact this _ hpos
  have hlast : ∀ sh : List Nat, (∀ n ∈ sh, 0 < n) → strideDot (sh.map (· - 1)) (rowStrides sh) + 1 = sh.prod := by
    intro sh
    induction sh with
    | nil => intro _; rfl
    | cons n sh ih =>
      intro h
      have h1 := h n (by simp)
      have h2 := ih fun m hm => h m (by simp [hm])
      rw [List.map_cons, rowStrides, strideDot_cons, List.prod_cons]
      show (n - 1) * sh.prod + _ + 1 = n * sh.prod
      obtain ⟨m, rfl⟩ : ∃ m, n = m + 1 := ⟨n - 1, by omega⟩
      rw [Nat.add_sub_cancel, Nat.add_mul]
      omega
  unfold Tens.relayout Tens.contiguous
  rw [hc]
  show (if t.off + strideDot (t.shape.map (· - 1)) (rowStrides t.shape.reverse).reverse < t.shape.reverse.prod then _ else none) = none
  rw [if_neg]
  have e : strideDot (t.shape.map (· - 1)) (rowStrides t.shape.reverse).reverse = strideDot (t.shape.reverse.map (· - 1)) (rowStrides t.shape.reverse) := by
    rw [← strideDot_reverse _ _ (by rw [List.length_reverse, rowStrides_length]; simp), List.reverse_reverse, List.map_reverse]
  rw [e]
  have := hlast t.shape.reverse (fun n hn => hpos n (by simpa using hn))
  omega

/-- **C173, defect.**  `array(t, split=0, order="F")` of row-major data: on every process but those that hold the beginning, the last element is uninitialised memory (the example of the documentation on two processes is such a case). -/
theorem array_layout_F_violated (v : Nat → α) {n m start len : Nat} (hm : 2 ≤ m) (hlen : 2 ≤ len) (hs : 0 < start) (hb : start + len ≤ n) :
    ∃ y, arraySplitLayout ⟨fun i => if i < n * m then some (v i) else none, 0, [n, m], [m, 1]⟩ 0 start len .F = .ok y ∧ y.shape = [len, m] ∧ y.get [len - 1, m - 1] = none := by
  have hc : ((⟨fun i => if i < n * m then some (v i) else none, 0, [n, m], [m, 1]⟩ : Tens α).slab 0 start len).isContig = true := by
    unfold Tens.isContig Tens.slab realAxes
    have h1 : len ≠ 1 := by omega
    have h2 : m ≠ 1 := by omega
    simp [h1, h2, rowStrides]
  unfold arraySplitLayout Tens.contiguous
  rw [if_pos hc]
  refine ⟨((⟨fun i => if i < n * m then some (v i) else none, 0, [n, m], [m, 1]⟩ : Tens α).slab 0 start len).relayout, ?_, rfl, ?_⟩
  · unfold sanitizeLayout
    have hcol : columnMajor ((⟨fun i => if i < n * m then some (v i) else none, 0, [n, m], [m, 1]⟩ : Tens α).slab 0 start len).strides = false := by
      show columnMajor [m, 1] = false
      unfold columnMajor
      simp
      omega
    rw [if_neg (by simp), if_neg (by
      show ¬([len, m].length < 2 ∨ [len, m].prod = 0)
      simp
      omega)]
    dsimp only
    rw [hcol]
    rfl
  · refine relayout_outside (t := (⟨fun i => if i < n * m then some (v i) else none, 0, [n, m], [m, 1]⟩ : Tens α).slab 0 start len) rfl ?_ ?_ ?_
    · show [len, m].prod ≠ 0
      simp
      omega
    · show 0 < 0 + start * m
      have := Nat.mul_pos hs (show 0 < m by omega)
      omega
    · show decide ((realAxes [m, len] [1, m]).map (·.2) = rowStrides ((realAxes [m, len] [1, m]).map (·.1))) = false
      unfold realAxes
      have h1 : len ≠ 1 := by omega
      have h2 : m ≠ 1 := by omega
      have h3 : ¬ (1 = len ∧ m = 1) := by omega
      simp [h1, h2, rowStrides]

/-- The values of a 2-by-2 tensor, rows 1 and 2 of a transposed 2-by-3 matrix, are not kept: it begins at position 1. -/
theorem layout_values_violated : ∃ (t y : Tens Nat), t.strides.length = t.shape.length ∧ (∀ idx, InsideL idx t.shape → t.get idx ≠ none) ∧ sanitizeLayout t .C = .ok y ∧ ¬ SameValues y t := by
  refine ⟨⟨fun i => if i < 6 then some i else none, 1, [2, 2], [1, 3]⟩, (⟨fun i => if i < 6 then some i else none, 1, [2, 2], [1, 3]⟩ : Tens Nat).relayout, rfl, ?_, rfl, ?_⟩
  · intro idx h
    cases h with
    | cons h1 h =>
      cases h with
      | cons h2 h =>
        cases h
        rename_i i j
        show (if 1 + strideDot [i, j] [1, 3] < 6 then some _ else none) ≠ none
        rw [if_pos (by simp [strideDot]; omega)]
        simp
  · intro h
    have := h.2 [0, 0] (.cons (by omega) (.cons (by omega) .nil))
    revert this
    decide +kernel

/-- The transposed 2-by-3 matrix has strides 1 and 3 before and after `sanitize_memory_layout(x, "C")`. -/
example : ∃ y, sanitizeLayout (⟨fun i => some i, 0, [3, 2], [1, 3]⟩ : Tens Nat) .C = .ok y ∧ y.strides = [1, 3] ∧ ¬ CLayout y :=
  ⟨_, rfl, rfl, by show ¬ ([1, 3] : List Nat).Pairwise (· ≥ ·); decide⟩

/-- A transposed matrix at the beginning of its storage, and a contiguous one that begins later. -/
example : ∃ t : Tens Nat, t.strides.length = t.shape.length ∧ t.off = 0 ∧ columnMajor t.strides = true ∧ 2 ≤ t.shape.length ∧ t.shape.prod ≠ 0 :=
  ⟨⟨fun i => some i, 0, [3, 2], [1, 3]⟩, rfl, rfl, rfl, by decide, by decide⟩

example : ∃ t : Tens Nat, t.strides.length = t.shape.length ∧ t.off = 4 ∧ t.isContig = true ∧ t.shape[1]? = some 3 ∧ (t.slab 1 1 2).isContig = false :=
  ⟨⟨fun i => some i, 4, [2, 3], [3, 1]⟩, rfl, rfl, rfl, rfl, rfl⟩

end Heat
