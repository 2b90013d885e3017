import Verif.Model.BroadcastND
import Verif.Props.Reshape
import Verif.Props.StrideTricks
import Verif.Props.StackVec
import Mathlib.Algebra.Group.Defs
/-!
# C163, C164: element-wise operations on n-dimensional arrays with broadcasting; broadcast_to, broadcast_arrays
-/
namespace Heat
open Spec
variable {α β γ : Type}

namespace Spec

/-- The element of the array `G` at position `idx` of an array with `n` axes, by the rule of numpy: axes are aligned on the right, an axis of extent 1 is repeated. -/
def bcastGet (G : NArr α) (n : Nat) (idx : Nat → Nat) : α := G.get fun k => if G.dim k = 1 then 0 else idx (k + (n - G.ndim))

/-- `T` is the element-wise `f` of `G` and `H` (numpy): the broadcast shape, and at every position `f` of the two broadcast elements. -/
def IsElementwise (f : α → β → γ) (G : NArr α) (H : NArr β) (T : NArr γ) : Prop :=
  IsBroadcast [G.shape, H.shape] T.shape ∧ ∀ idx, InB T idx → T.get idx = f (bcastGet G T.ndim idx) (bcastGet H T.ndim idx)

/-- `T` is `G` broadcast to `shape` (numpy.broadcast_to). -/
def IsBroadcastTo (G : NArr α) (shape : List Nat) (T : NArr α) : Prop :=
  T.shape = shape ∧ ∀ idx, InB T idx → T.get idx = bcastGet G T.ndim idx

/-- A declared `balanced = True` is right: every process holds its canonical share. -/
def FlagOk (P : Nat) (x : DND α) (G : NArr α) : Prop :=
  x.balanced = some true → ∀ s, x.split = some s → ∀ r < P, (x.loc r).dim s = evenSize (G.dim s) P r

/-- The split axis as an axis of an array with `n` axes. -/
def splitIn (x : DND α) (n : Nat) : Option Nat := x.split.map (· + (n - x.gshape.length))

/-- Extent of axis `k` of an array with `n` axes: that of the right-aligned axis of `G`, or 1. -/
def extentIn (G : NArr α) (n k : Nat) : Nat := dimR G.shape (n - 1 - k)

/-- The combinations of split axes `sx`, `sy` that are supported: one operand is not split, both are split along the same axis, or one of them is repeated along the split axis of the other. -/
def Alignable (P : Nat) (G : NArr α) (H : NArr β) (n : Nat) (sx sy : Option Nat) : Prop :=
  P = 1 ∨ ∀ s t, sx = some s → sy = some t → s = t ∨ (extentIn H n s = 1 ∧ extentIn G n s ≠ 1) ∨
    (extentIn G n t = 1 ∧ extentIn H n t ≠ 1 ∧ extentIn G n s = 1 ∧ extentIn H n s ≠ 1)

/-- The split axis of the result: that of the first operand, unless it is repeated along its split axis and the second operand is not. -/
def resultSplit (G : NArr α) (H : NArr β) (n : Nat) (sx sy : Option Nat) : Option Nat :=
  match sx, sy with
  | none, t => t
  | some s, none => some s
  | some s, some t => if (extentIn G n s = 1 ∧ extentIn H n s ≠ 1) ∧ ¬ (extentIn H n t = 1 ∧ extentIn G n t ≠ 1) then some t else some s

/-- The result of a call is, on `P` processes, a consistent representation of the array `T`. -/
def Delivers (P : Nat) (out : BinND γ) (T : NArr γ) : Prop :=
  ∃ z : DND γ, out.gshape = z.gshape ∧ out.split = z.split ∧ (∀ r < P, out.loc r = .ok (z.loc r)) ∧ Rep P z T

end Spec

/-! ## Shapes -/

theorem lead_dim_add (A : NArr α) (k j : Nat) : (A.lead k).dim (j + k) = A.dim j := by
  show (if j + k < k then 1 else A.dim (j + k - k)) = _
  rw [if_neg (by omega), Nat.add_sub_cancel]

theorem dimR_shape (A : NArr α) {n k : Nat} (hn : A.ndim ≤ n) (hk : k < n) : dimR A.shape (n - 1 - k) = (A.lead (n - A.ndim)).dim k := by
  unfold dimR
  have hl : A.shape.length = A.ndim := by simp [NArr.shape]
  show _ = if k < n - A.ndim then 1 else A.dim (k - (n - A.ndim))
  by_cases h : k < n - A.ndim
  · rw [if_pos h, List.getElem?_eq_none (by rw [List.length_reverse]; omega)]; rfl
  · rw [if_neg h, List.getElem?_reverse (by omega), hl]
    unfold NArr.shape
    rw [List.getElem?_map, List.getElem?_range (by omega)]
    show A.dim _ = _
    congr 1; omega

theorem dimR_list (c : List Nat) {k : Nat} (hk : k < c.length) : dimR c (c.length - 1 - k) = c.getD k 0 := by
  unfold dimR
  rw [List.getElem?_reverse (by omega), List.getD_eq_getElem?_getD]
  have e : c.length - 1 - (c.length - 1 - k) = k := by omega
  rw [e, List.getElem?_eq_getElem hk]; rfl

theorem extentIn_eq (A : NArr α) {n k : Nat} (hn : A.ndim ≤ n) (hk : k < n) : extentIn A n k = (A.lead (n - A.ndim)).dim k := dimR_shape A hn hk

/-- What a broadcast shape says axis by axis. -/
theorem isBroadcast_axes {A : NArr α} {B : NArr β} {c : List Nat} (h : IsBroadcast [A.shape, B.shape] c) :
    A.ndim ≤ c.length ∧ B.ndim ≤ c.length ∧ ∀ k < c.length, (extentIn A c.length k = 1 ∨ extentIn A c.length k = c.getD k 0) ∧
      (extentIn B c.length k = 1 ∨ extentIn B c.length k = c.getD k 0) ∧
      (c.getD k 0 = 1 ∨ extentIn A c.length k = c.getD k 0 ∨ extentIn B c.length k = c.getD k 0) := by
  obtain ⟨h1, _, h3⟩ := h
  have hA := h1 A.shape (by simp)
  have hB := h1 B.shape (by simp)
  simp only [NArr.shape, List.length_map, List.length_range] at hA hB
  refine ⟨hA, hB, ?_⟩
  intro k hk
  obtain ⟨a, b⟩ := h3 (c.length - 1 - k)
  rw [dimR_list c hk] at a b
  refine ⟨a _ (by simp), a _ (by simp), ?_⟩
  rcases b with b | ⟨s, hs, b⟩
  · exact .inl b
  · simp only [List.mem_cons, List.not_mem_nil, or_false] at hs
    rcases hs with rfl | rfl
    · exact .inr (.inl b)
    · exact .inr (.inr b)

/-- Operands with equally many axes. -/
theorem broadcast_same {A : NArr α} {B : NArr β} {c : List Nat} (hA : A.ndim = c.length) (hB : B.ndim = c.length)
    (h : ∀ k < c.length, (A.dim k = 1 ∨ A.dim k = c.getD k 0) ∧ (B.dim k = 1 ∨ B.dim k = c.getD k 0) ∧
      (c.getD k 0 = 1 ∨ A.dim k = c.getD k 0 ∨ B.dim k = c.getD k 0)) : broadcastShape A.shape B.shape = .ok c := by
  rw [broadcast_shape_eq, broadcast_shapes_spec]
  have dA : ∀ i < c.length, dimR A.shape i = A.dim (c.length - 1 - i) := by
    intro i hi
    have := dimR_shape A (n := c.length) (k := c.length - 1 - i) (by omega) (by omega)
    rw [show c.length - 1 - (c.length - 1 - i) = i by omega] at this
    rw [this, show c.length - A.ndim = 0 by omega]; rfl
  have dB : ∀ i < c.length, dimR B.shape i = B.dim (c.length - 1 - i) := by
    intro i hi
    have := dimR_shape B (n := c.length) (k := c.length - 1 - i) (by omega) (by omega)
    rw [show c.length - 1 - (c.length - 1 - i) = i by omega] at this
    rw [this, show c.length - B.ndim = 0 by omega]; rfl
  have dc : ∀ i < c.length, dimR c i = c.getD (c.length - 1 - i) 0 := by
    intro i hi
    have := dimR_list c (k := c.length - 1 - i) (by omega)
    rwa [show c.length - 1 - (c.length - 1 - i) = i by omega] at this
  have big : ∀ (l : List Nat) i, l.length ≤ i → dimR l i = 1 := by
    intro l i hi
    unfold dimR; rw [List.getElem?_eq_none (by rw [List.length_reverse]; omega)]; rfl
  have lA : A.shape.length = c.length := by simp [NArr.shape, hA]
  have lB : B.shape.length = c.length := by simp [NArr.shape, hB]
  refine ⟨?_, .inr ⟨A.shape, by simp, lA⟩, ?_⟩
  · intro s hs
    simp only [List.mem_cons, List.not_mem_nil, or_false] at hs
    rcases hs with rfl | rfl <;> omega
  · intro i
    by_cases hi : i < c.length
    · obtain ⟨a, b, d⟩ := h (c.length - 1 - i) (by omega)
      constructor
      · intro s hs
        simp only [List.mem_cons, List.not_mem_nil, or_false] at hs
        rcases hs with rfl | rfl
        · rw [dA i hi, dc i hi]; exact a
        · rw [dB i hi, dc i hi]; exact b
      · rcases d with d | d | d
        · exact .inl (by rw [dc i hi]; exact d)
        · exact .inr ⟨A.shape, by simp, by rw [dA i hi, dc i hi]; exact d⟩
        · exact .inr ⟨B.shape, by simp, by rw [dB i hi, dc i hi]; exact d⟩
    · constructor
      · intro s hs
        simp only [List.mem_cons, List.not_mem_nil, or_false] at hs
        rcases hs with rfl | rfl
        · exact .inl (big _ _ (by omega))
        · exact .inl (big _ _ (by omega))
      · exact .inl (big _ _ (by omega))

/-! ## Leading axes -/

theorem lead_local {G : NArr α} (hG : Local G) (k : Nat) : Local (G.lead k) := by
  intro i j h
  apply hG
  intro m hm
  exact h (m + k) (by show m + k < G.ndim + k; omega)

theorem getD_lead (l : List Nat) (k j : Nat) : (List.replicate k 1 ++ l).getD j 0 = if j < k then 1 else l.getD (j - k) 0 := by
  rw [List.getD_eq_getElem?_getD]
  by_cases h : j < k
  · rw [if_pos h, List.getElem?_append_left (by simpa using h), List.getElem?_replicate, if_pos h]; rfl
  · rw [if_neg h, List.getElem?_append_right (by simpa using h), List.length_replicate, List.getD_eq_getElem?_getD]

theorem axisStart_lead (loc : Nat → NArr α) (k s r : Nat) : axisStart (fun q => (loc q).lead k) (s + k) r = axisStart loc s r := by
  unfold axisStart
  congr 1
  apply List.map_congr_left
  intro q _
  exact lead_dim_add _ _ _

theorem rep_lead {P : Nat} {x : DND α} {G : NArr α} (h : Rep P x G) (n : Nat) : Rep P (leadDims x n) (G.lead (n - G.ndim)) := by
  obtain ⟨hG, h1, h2, h3, h4⟩ := h
  unfold leadDims
  rw [h1]
  generalize hk : n - G.ndim = k
  have hin : ∀ r < P, ∀ idx, InB ((x.loc r).lead k) idx → InB (x.loc r) fun j => idx (j + k) := by
    intro r hr idx hin j hj
    have := hin (j + k) (by show j + k < (x.loc r).ndim + k; omega)
    rwa [lead_dim_add] at this
  refine ⟨lead_local hG k, ?_, ?_, ?_, ?_⟩
  · show (List.replicate k 1 ++ x.gshape).length = G.ndim + k
    simp [h1]; omega
  · intro j hj
    show (List.replicate k 1 ++ x.gshape).getD j 0 = if j < k then 1 else G.dim (j - k)
    have hj : j < G.ndim + k := hj
    rw [getD_lead]
    by_cases hjk : j < k
    · rw [if_pos hjk, if_pos hjk]
    · rw [if_neg hjk, if_neg hjk, h2 _ (by omega)]
  · intro r hr
    show (x.loc r).ndim + k = G.ndim + k
    rw [h3 r hr]
  · cases hs : x.split with
    | none =>
      rw [hs] at h4
      show ∀ r < P, _
      intro r hr
      obtain ⟨d, g⟩ := h4 r hr
      refine ⟨?_, ?_⟩
      · intro j hj
        have hj : j < G.ndim + k := hj
        show (if j < k then 1 else (x.loc r).dim (j - k)) = if j < k then 1 else G.dim (j - k)
        split
        · rfl
        · exact d _ (by omega)
      · intro idx hi
        exact g _ (hin r hr idx hi)
    | some s =>
      rw [hs] at h4
      obtain ⟨a, b, d⟩ := h4
      show s + k < G.ndim + k ∧ _ ∧ _
      refine ⟨by omega, ?_, ?_⟩
      · show axisStart (fun q => (x.loc q).lead k) (s + k) P = (G.lead k).dim (s + k)
        rw [axisStart_lead, lead_dim_add]; exact b
      · intro r hr
        obtain ⟨d1, d2⟩ := d r hr
        refine ⟨?_, ?_⟩
        · intro j hj hne
          have hj : j < G.ndim + k := hj
          show (if j < k then 1 else (x.loc r).dim (j - k)) = if j < k then 1 else G.dim (j - k)
          split
          · rfl
          · next hjk => exact d1 _ (by omega) (by intro hc; apply hne; show j = s + k; omega)
        · intro idx hi
          show (x.loc r).get (fun j => idx (j + k)) = G.get fun j => shift (s + k) (axisStart (fun q => (x.loc q).lead k) (s + k) r) idx (j + k)
          rw [axisStart_lead, d2 _ (hin r hr idx hi)]
          congr 1
          funext j
          unfold shift
          by_cases hjs : j = s
          · rw [if_pos hjs, if_pos (by omega)]
          · rw [if_neg hjs, if_neg (by omega)]

theorem flagOk_lead {P : Nat} {x : DND α} {G : NArr α} (h : Rep P x G) (hf : FlagOk P x G) (n : Nat) : FlagOk P (leadDims x n) (G.lead (n - G.ndim)) := by
  intro hb s hs r hr
  have hs : x.split.map (· + (n - x.gshape.length)) = some s := hs
  rw [Option.map_eq_some_iff] at hs
  obtain ⟨s', hs', rfl⟩ := hs
  rw [h.2.1]
  show ((x.loc r).lead (n - x.gshape.length)).dim _ = _
  rw [h.2.1, lead_dim_add, lead_dim_add]
  exact hf hb s' hs' r hr

/-- The loop of `__binary_op` is the public `expand_dims(axis=0)`, once per missing axis. -/
theorem leadDims_expand_dims {P : Nat} {x : DND α} {G : NArr α} (h : Rep P x G) (r : Nat) (hr : r < P) :
    expandDims x [0] r = .ok ((leadDims x (x.gshape.length + 1)).gshape, (leadDims x (x.gshape.length + 1)).split, (leadDims x (x.gshape.length + 1)).loc r) := by
  have hsplit : ∀ s, x.split = some s → s < x.gshape.length := by
    intro s hs
    have := h.2.2.2.2
    rw [hs] at this
    rw [h.2.1]; exact this.1
  unfold expandDims
  have e1 : sanitizeAxes (x.gshape.length + [(0 : Int)].length) [0] = .ok (some [0]) := by
    unfold sanitizeAxes
    rw [if_neg (by simp)]
    simp only [List.map_cons, List.map_nil, Int.lt_irrefl, if_false, List.any_cons, List.any_nil, decide_false, Bool.false_or, Bool.or_false]
    rw [if_neg (by simp)]; rfl
  rw [e1]
  show expandDimsRank x [0] r = _
  unfold expandDimsRank
  have hl : (x.loc r).ndim = x.gshape.length := by rw [h.2.2.2.1 r hr, h.2.1]
  have e2 := expandLoop_eq r [0] x x.gshape.length rfl hl hsplit (by intro i a hi; cases i with
    | zero => simp only [List.getElem?_cons_zero, Option.some.injEq] at hi; omega
    | succ i => simp at hi)
  have e3 := idxOf_marks (expand1 x 0) (x.gshape.length + 1) (by simp [expand1, pyInsert]) (by
    intro s hs
    have hs : x.split.map (skipAx 0) = some s := hs
    rw [Option.map_eq_some_iff] at hs
    obtain ⟨t, ht, rfl⟩ := hs
    have := hsplit t ht
    unfold skipAx; split <;> omega)
  unfold marksOf at e2
  dsimp only
  rw [e2]
  show Except.ok (_, (if true ∈ marksOf (expand1 x 0) then some ((marksOf (expand1 x 0)).idxOf true) else none), _) = _
  rw [e3]
  unfold leadDims
  rw [show x.gshape.length + 1 - x.gshape.length = 1 by omega]
  have e4 : (expand1 x 0).split = x.split.map (· + 1) := by
    show x.split.map (skipAx 0) = _
    congr 1
  rw [e4]
  have e5 : (expand1 x 0).loc r = (x.loc r).lead 1 := by
    show (x.loc r).unsq 0 = _
    unfold NArr.unsq NArr.lead
    congr 1
    funext j
    by_cases hj : j < 1
    · have : j = 0 := by omega
      subst this; simp
    · rw [if_neg (by omega), if_neg (by omega), if_neg hj]
  show Except.ok (_, _, (expand1 x 0).loc r) = _
  rw [e5]
  rfl

/-! ## The local operation -/

/-- The local tensors `loc` hold what is needed to compute the parts of extents `m` along axis `s` of an array that broadcasts `W`. -/
def FitsPart (P n s : Nat) (m : Nat → Nat) (loc : Nat → NArr α) (W : NArr α) : Prop :=
  ∀ r < P, (loc r).ndim = n ∧ (∀ k < n, k ≠ s → (loc r).dim k = W.dim k) ∧ ((loc r).dim s = m r ∨ (loc r).dim s = 1) ∧
    ∀ idx : Nat → Nat, (∀ k < n, k ≠ s → (loc r).dim k = 1 ∨ idx k < (loc r).dim k) → idx s < m r →
      (loc r).get (fun j => if (loc r).dim j = 1 then 0 else idx j) = W.get fun j => if W.dim j = 1 then 0 else shift s ((List.range r).map m).sum idx j

theorem sum_congr_range {r : Nat} {f g : Nat → Nat} (h : ∀ q < r, f q = g q) : ((List.range r).map f).sum = ((List.range r).map g).sum := by
  congr 1
  apply List.map_congr_left
  intro q hq
  exact h q (List.mem_range.1 hq)

theorem sum_range_le {P : Nat} (m : Nat → Nat) {r : Nat} (hr : r < P) : ((List.range r).map m).sum + m r ≤ ((List.range P).map m).sum := by
  induction P with
  | zero => omega
  | succ P ih =>
    rw [List.range_succ, List.map_append, List.sum_append]
    simp only [List.map_cons, List.map_nil, List.sum_cons, List.sum_nil, Nat.add_zero]
    by_cases h : r = P
    · subst h; omega
    · have := ih (by omega); omega

theorem fits_split {P s : Nat} {w : DND α} {W : NArr α} {m : Nat → Nat} (h : Rep P w W) (hs : w.split = some s) (hm : ∀ r < P, (w.loc r).dim s = m r) :
    FitsPart P W.ndim s m w.loc W := by
  obtain ⟨hW, h1, h2, h3, h4⟩ := h
  rw [hs] at h4
  obtain ⟨a, b, d⟩ := h4
  intro r hr
  obtain ⟨d1, d2⟩ := d r hr
  refine ⟨h3 r hr, d1, .inl (hm r hr), ?_⟩
  intro idx hi his
  have hst : axisStart w.loc s r = ((List.range r).map m).sum := sum_congr_range fun q hq => hm q (by omega)
  have htot : ((List.range P).map m).sum = W.dim s := by rw [← b]; exact (sum_congr_range fun q hq => hm q hq).symm
  have hle := sum_range_le m hr
  rw [d2]
  · apply hW
    intro k hk
    unfold shift
    dsimp only
    by_cases hks : k = s
    · subst hks
      rw [if_pos rfl, if_pos rfl, hst]
      by_cases h1' : (w.loc r).dim k = 1
      · have := hm r hr
        rw [if_pos h1']
        split <;> omega
      · rw [if_neg h1']
        split <;> omega
    · rw [if_neg hks, if_neg hks, d1 k hk hks]
  · intro k hk
    rw [h3 r hr] at hk
    show (if (w.loc r).dim k = 1 then 0 else idx k) < _
    by_cases h1' : (w.loc r).dim k = 1
    · rw [if_pos h1']; omega
    · rw [if_neg h1']
      by_cases hks : k = s
      · subst hks; rw [hm r hr]; exact his
      · exact (hi k hk hks).resolve_left h1'

theorem fits_none {P s : Nat} {w : DND α} {W : NArr α} (m : Nat → Nat) (h : Rep P w W) (hs : w.split = none) (hw : W.dim s = 1) (hsn : s < W.ndim) : FitsPart P W.ndim s m w.loc W := by
  obtain ⟨hW, h1, h2, h3, h4⟩ := h
  rw [hs] at h4
  intro r hr
  obtain ⟨d1, d2⟩ := h4 r hr
  refine ⟨h3 r hr, fun k hk _ => d1 k hk, .inr (by rw [d1 s hsn, hw]), ?_⟩
  intro idx hi his
  rw [d2]
  · apply hW
    intro k hk
    rw [d1 k hk]
    unfold shift
    by_cases hks : k = s
    · subst hks; rw [if_pos hw, if_pos hw]
    · rw [if_neg hks]
  · intro k hk
    rw [h3 r hr] at hk
    show (if (w.loc r).dim k = 1 then 0 else idx k) < _
    by_cases h1' : (w.loc r).dim k = 1
    · rw [if_pos h1']; omega
    · rw [if_neg h1']
      by_cases hks : k = s
      · subst hks; exact absurd ((d1 k hsn).trans hw) h1'
      · exact (hi k hk hks).resolve_left h1'

theorem fits_wide {P s n : Nat} {w : DND α} {W : NArr α} (h : Rep P w W) (hs : w.split = some s) (hw : W.dim s = 1) :
    FitsPart P W.ndim s (wideMap w s n) w.loc W := by
  have hf := fits_split h hs (m := fun r => (w.loc r).dim s) (fun _ _ => rfl)
  have hb : ((List.range P).map fun r => (w.loc r).dim s).sum = 1 := by
    have := h.2.2.2.2
    rw [hs] at this
    rw [← hw, ← this.2.1]; rfl
  obtain ⟨hW, h1, h2, h3, h4⟩ := h
  intro r hr
  obtain ⟨a, b, d, e⟩ := hf r hr
  have hle := sum_range_le (fun r => (w.loc r).dim s) hr
  refine ⟨a, b, ?_, ?_⟩
  · unfold wideMap
    by_cases hz : (w.loc r).dim s = 0
    · left; rw [if_neg (by omega)]; exact hz
    · right; omega
  · intro idx hi his
    unfold wideMap at his
    have hz : (w.loc r).dim s ≠ 0 := by intro hc; rw [if_neg (by omega)] at his; omega
    have h1' : (w.loc r).dim s = 1 := by omega
    have := e (fun k => if k = s then 0 else idx k) (fun k hk hne => by simp only [hne, if_false]; exact hi k hk hne) (by simp [h1'])
    have eL : (fun j => if (w.loc r).dim j = 1 then 0 else if j = s then 0 else idx j) = fun j => if (w.loc r).dim j = 1 then 0 else idx j := by
      funext j
      by_cases hj : (w.loc r).dim j = 1
      · rw [if_pos hj, if_pos hj]
      · rw [if_neg hj, if_neg hj, if_neg (by rintro rfl; exact hj h1')]
    rw [eL] at this
    rw [this]
    apply hW
    intro k hk
    by_cases hks : k = s
    · subst hks; rw [if_pos hw, if_pos hw]
    · unfold shift; dsimp only; rw [if_neg hks, if_neg hks, if_neg hks]

/-- The element-wise result for arrays with equally many axes. -/
def bzipArr (f : α → β → γ) (G : NArr α) (H : NArr β) (c : List Nat) : NArr γ :=
  ⟨c.length, fun k => c.getD k 0, fun idx => f ((G.expandTo c).get idx) ((H.expandTo c).get idx)⟩

theorem bzipArr_local {f : α → β → γ} {G : NArr α} {H : NArr β} {c : List Nat} (hG : Local G) (hH : Local H) (h1 : G.ndim ≤ c.length) (h2 : H.ndim ≤ c.length) : Local (bzipArr f G H c) := by
  intro i j hij
  show f (G.get _) (H.get _) = f (G.get _) (H.get _)
  congr 1
  · apply hG
    intro k hk
    rw [hij (k + (c.length - G.ndim)) (by show _ < c.length; omega)]
  · apply hH
    intro k hk
    rw [hij (k + (c.length - H.ndim)) (by show _ < c.length; omega)]

theorem getD_map_rangeN {n k : Nat} (f : Nat → Nat) (hk : k < n) : ((List.range n).map f).getD k 0 = f k := by
  rw [List.getD_eq_getElem?_getD, List.getElem?_map, List.getElem?_range hk]; rfl

/-- Axis by axis: `A` and `B` (with equally many axes) have the broadcast shape `c`. -/
def AxesOk (A : NArr α) (B : NArr β) (c : List Nat) : Prop :=
  ∀ k < c.length, (A.dim k = 1 ∨ A.dim k = c.getD k 0) ∧ (B.dim k = 1 ∨ B.dim k = c.getD k 0) ∧ (c.getD k 0 = 1 ∨ A.dim k = c.getD k 0 ∨ B.dim k = c.getD k 0)

theorem fits_bin {P s : Nat} (f : α → β → γ) {a : Nat → NArr α} {b : Nat → NArr β} {G : NArr α} {H : NArr β} {c : List Nat} {m : Nat → Nat}
    (hG : Local G) (hH : Local H) (hGn : G.ndim = c.length) (hHn : H.ndim = c.length) (hax : AxesOk G H c) (hs : s < c.length)
    (ha : FitsPart P c.length s m a G) (hb : FitsPart P c.length s m b H) (hone : ∀ r < P, (a r).dim s = m r ∨ (b r).dim s = m r)
    (hm : ((List.range P).map m).sum = c.getD s 0) (bal : Option Bool) :
    ∃ zl : Nat → NArr γ, (∀ r < P, torchBin f (a r) (b r) = .ok (zl r)) ∧ (∀ r < P, (zl r).dim s = m r) ∧ Rep P ⟨c, some s, zl, bal⟩ (bzipArr f G H c) := by
  let cr : Nat → List Nat := fun r => (List.range c.length).map fun k => if k = s then m r else c.getD k 0
  have hcl : ∀ r, (cr r).length = c.length := fun r => by simp [cr]
  have hcg : ∀ r, ∀ k < c.length, (cr r).getD k 0 = if k = s then m r else c.getD k 0 := fun r k hk => getD_map_rangeN _ hk
  refine ⟨fun r => ⟨c.length, fun k => (cr r).getD k 0, fun idx => f (((a r).expandTo (cr r)).get idx) (((b r).expandTo (cr r)).get idx)⟩, ?_, ?_, ?_⟩
  · intro r hr
    obtain ⟨a1, a2, a3, a4⟩ := ha r hr
    obtain ⟨b1, b2, b3, b4⟩ := hb r hr
    have : broadcastShape (a r).shape (b r).shape = .ok (cr r) := by
      apply broadcast_same
      · rw [a1, hcl]
      · rw [b1, hcl]
      · intro k hk
        rw [hcl] at hk
        rw [hcg r k hk]
        by_cases hks : k = s
        · subst hks
          rw [if_pos rfl]
          exact ⟨a3.symm, b3.symm, .inr (hone r hr)⟩
        · rw [if_neg hks, a2 k hk hks, b2 k hk hks]
          exact hax k hk
    unfold torchBin
    rw [this]
    dsimp only
    rw [hcl]
  · intro r hr
    show (cr r).getD s 0 = m r
    rw [hcg r s hs, if_pos rfl]
  · have hst : ∀ r ≤ P, axisStart (fun r => (⟨c.length, fun k => (cr r).getD k 0, fun idx => f (((a r).expandTo (cr r)).get idx) (((b r).expandTo (cr r)).get idx)⟩ : NArr γ)) s r
        = ((List.range r).map m).sum := by
      intro r hr
      apply sum_congr_range
      intro q hq
      show (cr q).getD s 0 = m q
      rw [hcg q s hs, if_pos rfl]
    refine ⟨bzipArr_local hG hH (by omega) (by omega), rfl, fun _ _ => rfl, fun _ _ => rfl, hs, ?_, ?_⟩
    · rw [hst P (Nat.le_refl _), hm]; rfl
    · intro r hr
      obtain ⟨a1, a2, a3, a4⟩ := ha r hr
      obtain ⟨b1, b2, b3, b4⟩ := hb r hr
      refine ⟨fun k hk hne => ?_, ?_⟩
      · show (cr r).getD k 0 = c.getD k 0
        rw [hcg r k hk, if_neg hne]
      · intro idx hin
        have hbd : ∀ k < c.length, k ≠ s → idx k < c.getD k 0 := by
          intro k hk hne
          have := hin k hk
          have e : (cr r).getD k 0 = c.getD k 0 := by rw [hcg r k hk, if_neg hne]
          exact lt_of_lt_of_eq this e
        have hbs : idx s < m r := by
          have := hin s hs
          have e : (cr r).getD s 0 = m r := by rw [hcg r s hs, if_pos rfl]
          exact lt_of_lt_of_eq this e
        rw [hst r (by omega)]
        show f ((a r).get fun j => if (a r).dim j = 1 then 0 else idx (j + ((cr r).length - (a r).ndim))) ((b r).get fun j => if (b r).dim j = 1 then 0 else idx (j + ((cr r).length - (b r).ndim)))
          = f (G.get fun j => if G.dim j = 1 then 0 else shift s _ idx (j + (c.length - G.ndim))) (H.get fun j => if H.dim j = 1 then 0 else shift s _ idx (j + (c.length - H.ndim)))
        rw [hcl, a1, b1, hGn, hHn, Nat.sub_self]
        simp only [Nat.add_zero]
        rw [a4 idx ?_ hbs, b4 idx ?_ hbs]
        · intro k hk hne
          rw [b2 k hk hne]
          have := hbd k hk hne
          have := (hax k hk).2.1
          omega
        · intro k hk hne
          rw [a2 k hk hne]
          have := hbd k hk hne
          have := (hax k hk).1
          omega

/-! ## Alignment -/

theorem rep_one {x : DND α} {G : NArr α} (h : Rep 1 x G) (t : Option Nat) (ht : ∀ s, t = some s → s < G.ndim) (b : Option Bool) : Rep 1 ⟨x.gshape, t, x.loc, b⟩ G := by
  obtain ⟨hG, h1, h2, h3, h4⟩ := h
  have key : (∀ k < G.ndim, (x.loc 0).dim k = G.dim k) ∧ ∀ idx, InB (x.loc 0) idx → (x.loc 0).get idx = G.get idx := by
    cases hs : x.split with
    | none => rw [hs] at h4; exact h4 0 (by omega)
    | some s =>
      rw [hs] at h4
      obtain ⟨a, b, d⟩ := h4
      obtain ⟨d1, d2⟩ := d 0 (by omega)
      refine ⟨?_, ?_⟩
      · intro k hk
        by_cases hks : k = s
        · subst hks; rw [← b]; simp [axisStart]
        · exact d1 k hk hks
      · intro idx hin
        rw [d2 idx hin]
        congr 1
        funext k
        simp [shift, axisStart]
  refine ⟨hG, h1, h2, h3, ?_⟩
  cases t with
  | none => intro r hr; rw [show r = 0 by omega]; exact key
  | some s =>
    refine ⟨ht s rfl, ?_, ?_⟩
    · rw [← key.1 s (ht s rfl)]; simp [axisStart]
    · intro r hr
      rw [show r = 0 by omega]
      refine ⟨fun k hk _ => key.1 k hk, ?_⟩
      intro idx hin
      rw [key.2 idx hin]
      congr 1
      funext k
      simp [shift, axisStart]

theorem rep_parts {P : Nat} {x : DND α} {G : NArr α} (h : Rep P x G) (hs : x.split = none) (s : Nat) (hsn : s < G.ndim) (m : Nat → Nat) (b : Option Bool)
    (hm : ((List.range P).map m).sum = G.dim s) : Rep P (partsND x s m b) G := by
  obtain ⟨hG, h1, h2, h3, h4⟩ := h
  rw [hs] at h4
  have hst : ∀ r, axisStart (partsND x s m b).loc s r = ((List.range r).map m).sum := by
    intro r
    apply sum_congr_range
    intro q _
    show (if s = s then m q else _) = m q
    rw [if_pos rfl]
  refine ⟨hG, h1, h2, h3, hsn, by rw [hst, hm], ?_⟩
  intro r hr
  obtain ⟨d, g⟩ := h4 r hr
  refine ⟨fun k hk hne => ?_, ?_⟩
  · show (if k = s then m r else (x.loc r).dim k) = _
    rw [if_neg hne]; exact d k hk
  · intro idx hin
    rw [hst]
    show (x.loc r).get (shift s _ idx) = _
    apply g
    intro k hk
    have hin' : idx k < if k = s then m r else (x.loc r).dim k := hin k hk
    unfold shift
    by_cases hks : k = s
    · subst hks
      rw [if_pos rfl] at hin' ⊢
      rw [d k hsn]
      have := sum_range_le m hr
      omega
    · rw [if_neg hks] at hin' ⊢
      exact hin'

theorem chunkLen_even (n P r : Nat) : chunkLen n P r = evenSize n P r := chunkRange_len n r P

theorem sum_evenSize {P : Nat} (hP : 0 < P) (n : Nat) : ((List.range P).map (evenSize n P)).sum = n := sum_evenSizes n P hP

/-- The operand after `sanitize_distribution`: it fits the distribution of the target. -/
theorem sanitizeND_fits {P s n : Nat} (hP : 0 < P) {w : DND α} {W : NArr α} (h : Rep P w W) (hf : FlagOk P w W) (hn : W.ndim = n) (hs : s < n) {m : Nat → Nat} {tsize : Nat} {tbal : Bool}
    (hm : ((List.range P).map m).sum = tsize) (htb : tbal = true → ∀ r < P, m r = evenSize tsize P r)
    (hdim : W.dim s = tsize ∨ (W.dim s = 1 ∧ 1 < tsize)) (hal : P = 1 ∨ w.split = none ∨ w.split = some s ∨ (W.dim s = 1 ∧ 1 < tsize)) :
    ∃ w', sanitizeND P (some s) m tsize tbal w = .ok w' ∧ FitsPart P n s m w'.loc W ∧ (W.dim s = tsize → ∀ r < P, (w'.loc r).dim s = m r) := by
  subst hn
  unfold sanitizeND
  by_cases hP1 : P = 1
  · subst hP1
    rw [if_pos rfl]
    have hm0 : m 0 = tsize := by simpa using hm
    refine ⟨w, rfl, ?_⟩
    have r1 := rep_one h (some s) (by intro t ht; cases ht; exact hs) none
    have hd : (w.loc 0).dim s = W.dim s := by
      have := r1.2.2.2.2.2.1
      rw [← this]; simp [axisStart]
    rcases hdim with hd' | ⟨hd', h1⟩
    · refine ⟨fits_split (w := ⟨w.gshape, some s, w.loc, none⟩) r1 rfl ?_, ?_⟩
      · intro r hr
        show (w.loc r).dim s = m r
        rw [show r = 0 by omega, hd, hd', hm0]
      · intro _ r hr
        rw [show r = 0 by omega, hd, hd', hm0]
    · refine ⟨fits_none (w := ⟨w.gshape, none, w.loc, none⟩) m (rep_one h none (by intro t ht; cases ht) none) rfl hd' hs, ?_⟩
      intro hc; omega
  · rw [if_neg hP1]
    dsimp only
    have hg : w.gshape.getD s 0 = W.dim s := h.2.2.1 s hs
    rw [if_neg (by rw [h.2.1]; omega), hg]
    by_cases hw : W.dim s = 1 ∧ tsize > 1
    · rw [if_pos hw]
      exact ⟨_, rfl, fits_none m (rep_resplitNone P w W h) (resplitNone_split P w) hw.1 hs, fun hc => by omega⟩
    · rw [if_neg hw]
      have hd : W.dim s = tsize := by omega
      rw [if_neg (by omega)]
      have hal : w.split = none ∨ w.split = some s := by
        rcases hal with hc | hc | hc | hc
        · exact absurd hc hP1
        · exact .inl hc
        · exact .inr hc
        · exact absurd hc hw
      rcases hal with hsp | hsp
      · rw [hsp]
        dsimp only
        by_cases htbt : tbal = true
        · rw [if_pos htbt]
          refine ⟨_, rfl, ?_⟩
          have hml : ∀ r < P, ((partsND w s (chunkLen (W.dim s) P) (some true)).loc r).dim s = m r := by
            intro r hr
            show (if s = s then chunkLen (W.dim s) P r else _) = _
            rw [if_pos rfl, chunkLen_even, htb htbt r hr, hd]
          refine ⟨fits_split (rep_parts h hsp s hs _ _ ?_) rfl hml, fun _ => hml⟩
          rw [← sum_evenSize hP (W.dim s)]
          exact sum_congr_range fun q _ => by rw [chunkLen_even, sum_evenSize hP]
        · rw [if_neg htbt]
          refine ⟨_, rfl, ?_⟩
          have hml : ∀ r < P, ((partsND w s m none).loc r).dim s = m r := by
            intro r hr
            show (if s = s then m r else _) = _
            rw [if_pos rfl]
          exact ⟨fits_split (rep_parts h hsp s hs _ _ (by rw [hm, hd])) rfl hml, fun _ => hml⟩
      · rw [hsp]
        dsimp only
        rw [if_neg (by simp)]
        by_cases hbb : (!(tbal && balancedND P w s)) = true
        · rw [if_pos hbb]
          by_cases hany : ((List.range P).any fun r => (w.loc r).dim s != m r) = true
          · rw [if_pos hany]
            refine ⟨_, rfl, ?_⟩
            have hml : ∀ r < P, ((partsND (resplitNone P w) s m none).loc r).dim s = m r := by
              intro r hr
              show (if s = s then m r else _) = _
              rw [if_pos rfl]
            exact ⟨fits_split (rep_parts (rep_resplitNone P w W h) (resplitNone_split P w) s hs _ _ (by rw [hm, hd])) rfl hml, fun _ => hml⟩
          · rw [if_neg hany]
            have hml : ∀ r < P, (w.loc r).dim s = m r := by
              intro r hr
              by_contra hc
              exact hany (List.any_eq_true.2 ⟨r, List.mem_range.2 hr, by simpa using hc⟩)
            exact ⟨_, rfl, fits_split h hsp hml, fun _ => hml⟩
        · rw [if_neg hbb]
          have hbb : tbal = true ∧ balancedND P w s = true := by simpa using hbb
          have hml : ∀ r < P, (w.loc r).dim s = m r := by
            intro r hr
            rw [htb hbb.1 r hr]
            have hb := hbb.2
            unfold balancedND at hb
            cases hfl : w.balanced with
            | none =>
              rw [hfl] at hb
              have := List.all_eq_true.1 hb r (List.mem_range.2 hr)
              rw [beq_iff_eq, hg, chunkLen_even] at this
              rw [this, hd]
            | some v =>
              rw [hfl] at hb
              have hv : v = true := hb
              rw [hf (by rw [hfl, hv]) s hsp r hr, hd]
          exact ⟨_, rfl, fits_split h hsp hml, fun _ => hml⟩

theorem balancedND_even {P s : Nat} {w : DND α} {W : NArr α} (h : Rep P w W) (hf : FlagOk P w W) (hsp : w.split = some s) (hs : s < W.ndim) (hb : balancedND P w s = true) :
    ∀ r < P, (w.loc r).dim s = evenSize (W.dim s) P r := by
  intro r hr
  unfold balancedND at hb
  cases hfl : w.balanced with
  | none =>
    rw [hfl] at hb
    have := List.all_eq_true.1 hb r (List.mem_range.2 hr)
    rw [beq_iff_eq, h.2.2.1 s hs, chunkLen_even] at this
    exact this
  | some v =>
    rw [hfl] at hb
    have hv : v = true := hb
    exact hf (by rw [hfl, hv]) s hsp r hr

theorem rep_split_lt {P : Nat} {x : DND α} {G : NArr α} (h : Rep P x G) {s : Nat} (hs : x.split = some s) :
    s < G.ndim ∧ ((List.range P).map fun r => (x.loc r).dim s).sum = G.dim s := by
  have := h.2.2.2.2
  rw [hs] at this
  exact ⟨this.1, this.2.1⟩

theorem sanitizeTo_fits {P s n : Nat} (hP : 0 < P) {z : DND β} {Z : NArr β} {w : DND α} {W : NArr α} (hz : Rep P z Z) (hzf : FlagOk P z Z) (hzs : z.split = some s)
    (h : Rep P w W) (hf : FlagOk P w W) (hn : W.ndim = n) (hzn : Z.ndim = n)
    (hdim : W.dim s = Z.dim s ∨ (W.dim s = 1 ∧ 1 < Z.dim s)) (hal : P = 1 ∨ w.split = none ∨ w.split = some s ∨ (W.dim s = 1 ∧ 1 < Z.dim s)) :
    ∃ w', sanitizeTo P z w = .ok w' ∧ FitsPart P n s (fun r => (z.loc r).dim s) w'.loc W ∧ (W.dim s = Z.dim s → ∀ r < P, (w'.loc r).dim s = (z.loc r).dim s) := by
  obtain ⟨hlt, hsum⟩ := rep_split_lt hz hzs
  unfold sanitizeTo
  rw [hzs]
  dsimp only
  rw [hz.2.2.1 s hlt]
  exact sanitizeND_fits hP h hf hn (by omega) hsum (fun hb => balancedND_even hz hzf hzs hlt hb) hdim hal

theorem wideMap_sum {P s N : Nat} {w : DND α} {W : NArr α} (h : Rep P w W) (hs : w.split = some s) (hw : W.dim s = 1) : ((List.range P).map (wideMap w s N)).sum = N := by
  obtain ⟨_, hsum⟩ := rep_split_lt h hs
  rw [hw] at hsum
  have e : ∀ q < P, wideMap w s N q = (w.loc q).dim s * N := by
    intro q hq
    have := sum_range_le (fun r => (w.loc r).dim s) hq
    unfold wideMap
    by_cases hz : (w.loc q).dim s = 0
    · rw [if_neg (by omega), hz, Nat.zero_mul]
    · rw [if_pos hz, show (w.loc q).dim s = 1 by omega, Nat.one_mul]
  rw [sum_congr_range e]
  have : ∀ l : List Nat, (l.map fun q => (w.loc q).dim s * N).sum = (l.map fun q => (w.loc q).dim s).sum * N := by
    intro l
    induction l with
    | nil => simp
    | cons q l ih => simp only [List.map_cons, List.sum_cons]; rw [ih, Nat.add_mul]
  rw [this, hsum, Nat.one_mul]

theorem sanitizeWide_fits {P s : Nat} (hP : 0 < P) {z : DND β} {Z : NArr β} {w : DND α} {W : NArr α} {c : List Nat} (hz : Rep P z Z) (hzs : z.split = some s) (hz1 : Z.dim s = 1)
    (h : Rep P w W) (hf : FlagOk P w W) (hn : W.ndim = c.length) (hs : s < c.length) (hdim : W.dim s = c.getD s 0) (hal : P = 1 ∨ w.split = none ∨ w.split = some s) :
    ∃ w', sanitizeWide P z s c w = .ok w' ∧ FitsPart P c.length s (wideMap z s (c.getD s 0)) w'.loc W ∧ ∀ r < P, (w'.loc r).dim s = wideMap z s (c.getD s 0) r := by
  unfold sanitizeWide
  obtain ⟨w', e, f1, f2⟩ := sanitizeND_fits hP h hf hn hs (m := wideMap z s (c.getD s 0)) (tsize := c.getD s 0) (tbal := wideBalanced P (wideMap z s (c.getD s 0)) (c.getD s 0)) (wideMap_sum hz hzs hz1)
    (by
      intro hb r hr
      have := List.all_eq_true.1 hb r (List.mem_range.2 hr)
      rw [beq_iff_eq] at this
      rw [this]; rfl) (.inl hdim) (by
      rcases hal with h | h | h
      · exact .inl h
      · exact .inr (.inl h)
      · exact .inr (.inr (.inl h)))
  exact ⟨w', e, f1, f2 hdim⟩

theorem rep_bin_none {P : Nat} (f : α → β → γ) {a : DND α} {b : DND β} {G : NArr α} {H : NArr β} {c : List Nat}
    (ha : Rep P a G) (hb : Rep P b H) (has : a.split = none) (hbs : b.split = none) (hGn : G.ndim = c.length) (hHn : H.ndim = c.length) (hax : AxesOk G H c) (bal : Option Bool) :
    ∃ zl : Nat → NArr γ, (∀ r < P, torchBin f (a.loc r) (b.loc r) = .ok (zl r)) ∧ Rep P ⟨c, none, zl, bal⟩ (bzipArr f G H c) := by
  obtain ⟨hG, g1, g2, g3, g4⟩ := ha
  obtain ⟨hH, k1, k2, k3, k4⟩ := hb
  rw [has] at g4
  rw [hbs] at k4
  refine ⟨fun r => bzipArr f (a.loc r) (b.loc r) c, ?_, bzipArr_local hG hH (by omega) (by omega), rfl, fun _ _ => rfl, fun _ _ => rfl, ?_⟩
  · intro r hr
    have : broadcastShape (a.loc r).shape (b.loc r).shape = .ok c := by
      apply broadcast_same
      · rw [g3 r hr, hGn]
      · rw [k3 r hr, hHn]
      · intro k hk
        rw [(g4 r hr).1 k (by omega), (k4 r hr).1 k (by omega)]
        exact hax k hk
    unfold torchBin
    rw [this]; rfl
  · intro r hr
    refine ⟨fun _ _ => rfl, ?_⟩
    intro idx hin
    have hin : ∀ k < c.length, idx k < c.getD k 0 := hin
    show f ((a.loc r).get fun j => if (a.loc r).dim j = 1 then 0 else idx (j + (c.length - (a.loc r).ndim))) ((b.loc r).get fun j => if (b.loc r).dim j = 1 then 0 else idx (j + (c.length - (b.loc r).ndim)))
      = f (G.get fun j => if G.dim j = 1 then 0 else idx (j + (c.length - G.ndim))) (H.get fun j => if H.dim j = 1 then 0 else idx (j + (c.length - H.ndim)))
    rw [g3 r hr, k3 r hr, hGn, hHn, Nat.sub_self]
    simp only [Nat.add_zero]
    congr 1
    · rw [(g4 r hr).2]
      · apply hG
        intro k hk
        rw [(g4 r hr).1 k hk]
      · intro k hk
        rw [g3 r hr] at hk
        show (if (a.loc r).dim k = 1 then 0 else idx k) < _
        have d := (g4 r hr).1 k hk
        by_cases h1 : (a.loc r).dim k = 1
        · rw [if_pos h1]; omega
        · rw [if_neg h1, d]
          have := (hax k (by omega)).1
          have := hin k (by omega)
          omega
    · rw [(k4 r hr).2]
      · apply hH
        intro k hk
        rw [(k4 r hr).1 k hk]
      · intro k hk
        rw [k3 r hr] at hk
        show (if (b.loc r).dim k = 1 then 0 else idx k) < _
        have d := (k4 r hr).1 k hk
        by_cases h1 : (b.loc r).dim k = 1
        · rw [if_pos h1]; omega
        · rw [if_neg h1, d]
          have := (hax k (by omega)).2.1
          have := hin k (by omega)
          omega

theorem shape_bzipArr (f : α → β → γ) (G : NArr α) (H : NArr β) (c : List Nat) : (bzipArr f G H c).shape = c := by
  apply List.ext_getElem?
  intro k
  unfold NArr.shape bzipArr
  rw [List.getElem?_map]
  by_cases hk : k < c.length
  · rw [List.getElem?_range hk, List.getElem?_eq_getElem hk]
    simp [hk]
  · rw [List.getElem?_eq_none (by simp; omega), List.getElem?_eq_none (by omega)]; rfl

theorem bcastGet_lead (G : NArr α) {n : Nat} (hn : G.ndim ≤ n) (c : List Nat) (hc : c.length = n) (idx : Nat → Nat) :
    ((G.lead (n - G.ndim)).expandTo c).get idx = bcastGet G n idx := by
  show G.get (fun j => if (G.lead (n - G.ndim)).dim (j + (n - G.ndim)) = 1 then 0 else idx (j + (n - G.ndim) + (c.length - (G.ndim + (n - G.ndim))))) = _
  unfold bcastGet
  congr 1
  funext j
  rw [lead_dim_add, show c.length - (G.ndim + (n - G.ndim)) = 0 by omega, Nat.add_zero]

theorem isElementwise_bzip {f : α → β → γ} {G : NArr α} {H : NArr β} {c : List Nat} (h : IsBroadcast [G.shape, H.shape] c) :
    IsElementwise f G H (bzipArr f (G.lead (c.length - G.ndim)) (H.lead (c.length - H.ndim)) c) := by
  obtain ⟨h1, h2, _⟩ := isBroadcast_axes h
  refine ⟨by rw [shape_bzipArr]; exact h, ?_⟩
  intro idx _
  show f (((G.lead (c.length - G.ndim)).expandTo c).get idx) (((H.lead (c.length - H.ndim)).expandTo c).get idx) = f (bcastGet G c.length idx) (bcastGet H c.length idx)
  rw [bcastGet_lead G h1 c rfl, bcastGet_lead H h2 c rfl]

/-- The two operands of `__binary_op` after `expand_dims`, and everything known about them. -/
structure Prepared (P : Nat) (G : NArr α) (H : NArr β) (a : DND α) (b : DND β) (A : NArr α) (B : NArr β) (c : List Nat) : Prop where
  ra : Rep P a A
  rb : Rep P b B
  fa : FlagOk P a A
  fb : FlagOk P b B
  na : A.ndim = c.length
  nb : B.ndim = c.length
  ax : AxesOk A B c
  z : ∀ k < c.length, c.getD k 0 = 0 → A.dim k = 0 ∧ B.dim k = 0
  ea : ∀ k < c.length, extentIn G c.length k = A.dim k
  eb : ∀ k < c.length, extentIn H c.length k = B.dim k

theorem prepared {P : Nat} {x : DND α} {y : DND β} {G : NArr α} {H : NArr β} {c : List Nat} (hx : Rep P x G) (hy : Rep P y H) (fx : FlagOk P x G) (fy : FlagOk P y H)
    (hc : IsBroadcast [G.shape, H.shape] c) (hz : ∀ i, dimR c i = 0 → dimR G.shape i = 0 ∧ dimR H.shape i = 0) :
    Prepared P G H (leadDims x c.length) (leadDims y c.length) (G.lead (c.length - G.ndim)) (H.lead (c.length - H.ndim)) c := by
  obtain ⟨h1, h2, h3⟩ := isBroadcast_axes hc
  have ea : ∀ k < c.length, extentIn G c.length k = (G.lead (c.length - G.ndim)).dim k := fun k hk => extentIn_eq G h1 hk
  have eb : ∀ k < c.length, extentIn H c.length k = (H.lead (c.length - H.ndim)).dim k := fun k hk => extentIn_eq H h2 hk
  refine ⟨rep_lead hx _, rep_lead hy _, flagOk_lead hx fx _, flagOk_lead hy fy _, ?_, ?_, ?_, ?_, ea, eb⟩
  · show G.ndim + _ = _; omega
  · show H.ndim + _ = _; omega
  · intro k hk
    have := h3 k hk
    rw [ea k hk, eb k hk] at this
    exact this
  · intro k hk h0
    rw [← ea k hk, ← eb k hk]
    apply hz
    rw [dimR_list c hk]; exact h0

theorem dominant_iff {P : Nat} {a : DND α} {A : NArr α} {c : List Nat} (h : Rep P a A) : dominant a c = true ↔ ∃ s, a.split = some s ∧ A.dim s = c.getD s 0 := by
  unfold dominant
  cases hs : a.split with
  | none => simp
  | some s =>
    have := (rep_split_lt h hs).1
    dsimp only
    rw [h.2.2.1 s this]
    simp

theorem binarySplit_eq {P : Nat} {G : NArr α} {H : NArr β} {a : DND α} {b : DND β} {A : NArr α} {B : NArr β} {c : List Nat} (p : Prepared P G H a b A B c) :
    binarySplit a b c = resultSplit G H c.length a.split b.split := by
  unfold binarySplit
  cases has : a.split with
  | none =>
    have : ¬ dominant a c = true := by rw [dominant_iff p.ra, has]; rintro ⟨s, h, _⟩; cases h
    rw [if_neg this]
    unfold resultSplit
    split
    · rfl
    · rfl
  | some s =>
    have hs : s < c.length := by rw [← p.na]; exact (rep_split_lt p.ra has).1
    have axs := p.ax s hs
    unfold resultSplit
    cases hbs : b.split with
    | none =>
      have : ¬ dominant b c = true := by rw [dominant_iff p.rb, hbs]; rintro ⟨s, h, _⟩; cases h
      dsimp only
      rw [if_neg this]
      split <;> rfl
    | some t =>
      have ht : t < c.length := by rw [← p.nb]; exact (rep_split_lt p.rb hbs).1
      have axt := p.ax t ht
      dsimp only
      rw [p.ea s hs, p.eb s hs, p.eb t ht, p.ea t ht]
      by_cases hd : dominant a c = true
      · rw [if_pos hd]
        rw [dominant_iff p.ra] at hd
        obtain ⟨s', e, hd⟩ := hd
        rw [has] at e; cases e
        rw [if_neg (by omega)]
      · rw [if_neg hd]
        have hd' : A.dim s ≠ c.getD s 0 := fun hc => hd ((dominant_iff p.ra).2 ⟨s, has, hc⟩)
        by_cases hd2 : dominant b c = true
        · rw [if_pos hd2]
          rw [dominant_iff p.rb] at hd2
          obtain ⟨s', e, hd2⟩ := hd2
          rw [hbs] at e; cases e
          rw [if_pos (by omega)]
        · rw [if_neg hd2]
          have hd2' : B.dim t ≠ c.getD t 0 := fun hc => hd2 ((dominant_iff p.rb).2 ⟨t, hbs, hc⟩)
          rw [if_neg (by omega)]

theorem binaryAligned_spec {P : Nat} (hP : 0 < P) (f : α → β → γ) {G : NArr α} {H : NArr β} {a : DND α} {b : DND β} {A : NArr α} {B : NArr β} {c : List Nat} (p : Prepared P G H a b A B c)
    (hal : Alignable P G H c.length a.split b.split) :
    ∃ out, binaryAligned P f a b c = .ok out ∧ Delivers P out (bzipArr f A B c) ∧ out.split = binarySplit a b c ∧
      ∀ s, a.split = some s → A.dim s = c.getD s 0 → out.balanced = a.balanced ∧ ∀ r < P, ∀ t, out.loc r = .ok t → t.dim s = (a.loc r).dim s := by
  unfold binaryAligned
  by_cases hd : dominant a c = true
  · rw [if_pos hd]
    have hbs : binarySplit a b c = a.split := by unfold binarySplit; rw [if_pos hd]
    rw [hbs]
    rw [dominant_iff p.ra] at hd
    obtain ⟨s, hs, hdim⟩ := hd
    have hsn : s < c.length := by rw [← p.na]; exact (rep_split_lt p.ra hs).1
    have axs := p.ax s hsn
    have hz := p.z s hsn
    have hsum := (rep_split_lt p.ra hs).2
    have hB : B.dim s = A.dim s ∨ (B.dim s = 1 ∧ 1 < A.dim s) := by omega
    have hal' : P = 1 ∨ b.split = none ∨ b.split = some s ∨ (B.dim s = 1 ∧ 1 < A.dim s) := by
      rcases hal with h | h
      · exact .inl h
      · cases hbsp : b.split with
        | none => exact .inr (.inl rfl)
        | some t =>
          have := h s t hs hbsp
          have htn : t < c.length := by rw [← p.nb]; exact (rep_split_lt p.rb hbsp).1
          rw [p.ea s hsn, p.eb s hsn, p.ea t htn, p.eb t htn] at this
          rcases this with h | h | h
          · exact .inr (.inr (.inl (by rw [h])))
          · exact .inr (.inr (.inr (by omega)))
          · omega
    obtain ⟨b', eb, f1, f2⟩ := sanitizeTo_fits hP p.ra p.fa hs p.rb p.fb p.nb p.na hB hal'
    rw [eb]
    dsimp only
    have f0 : FitsPart P c.length s (fun r => (a.loc r).dim s) a.loc A := p.na ▸ fits_split p.ra hs fun _ _ => rfl
    obtain ⟨zl, z1, z2, z3⟩ := fits_bin f p.ra.1 p.rb.1 p.na p.nb p.ax hsn f0 f1 (fun r _ => .inl rfl) (by rw [hsum, hdim]) a.balanced
    refine ⟨_, rfl, ⟨⟨c, some s, zl, a.balanced⟩, rfl, hs, z1, z3⟩, rfl, ?_⟩
    intro s' hs' _
    rw [hs] at hs'; cases hs'
    refine ⟨rfl, ?_⟩
    intro r hr t ht
    have ht : torchBin f (a.loc r) (b'.loc r) = .ok t := ht
    rw [z1 r hr] at ht; cases ht
    exact z2 r hr
  · rw [if_neg hd]
    have hnd : ∀ s, a.split = some s → A.dim s = c.getD s 0 → False := fun s h1 h2 => hd ((dominant_iff p.ra).2 ⟨s, h1, h2⟩)
    by_cases hd2 : dominant b c = true
    · rw [if_pos hd2]
      have hbs : binarySplit a b c = b.split := by unfold binarySplit; rw [if_neg hd, if_pos hd2]
      rw [hbs]
      rw [dominant_iff p.rb] at hd2
      obtain ⟨s, hs, hdim⟩ := hd2
      have hsn : s < c.length := by rw [← p.nb]; exact (rep_split_lt p.rb hs).1
      have axs := p.ax s hsn
      have hz := p.z s hsn
      have hsum := (rep_split_lt p.rb hs).2
      have hA : A.dim s = B.dim s ∨ (A.dim s = 1 ∧ 1 < B.dim s) := by omega
      have hal' : P = 1 ∨ a.split = none ∨ a.split = some s ∨ (A.dim s = 1 ∧ 1 < B.dim s) := by
        rcases hal with h | h
        · exact .inl h
        · cases hasp : a.split with
          | none => exact .inr (.inl rfl)
          | some t =>
            have := h t s hasp hs
            have htn : t < c.length := by rw [← p.na]; exact (rep_split_lt p.ra hasp).1
            rw [p.ea s hsn, p.eb s hsn, p.ea t htn, p.eb t htn] at this
            have h1 := p.ax t htn
            have h2 : A.dim t ≠ c.getD t 0 := hnd t hasp
            rcases this with h | h | h
            · exact .inr (.inr (.inl (by rw [h])))
            · omega
            · exact .inr (.inr (.inr (by omega)))
      obtain ⟨a', ea, f1, f2⟩ := sanitizeTo_fits hP p.rb p.fb hs p.ra p.fa p.na p.nb hA hal'
      rw [ea]
      dsimp only
      have f0 : FitsPart P c.length s (fun r => (b.loc r).dim s) b.loc B := p.nb ▸ fits_split p.rb hs fun _ _ => rfl
      obtain ⟨zl, z1, z2, z3⟩ := fits_bin f p.ra.1 p.rb.1 p.na p.nb p.ax hsn f1 f0 (fun r _ => .inr rfl) (by rw [hsum, hdim]) b.balanced
      exact ⟨_, rfl, ⟨⟨c, some s, zl, b.balanced⟩, rfl, hs, z1, z3⟩, rfl, fun s' h1 h2 => (hnd s' h1 h2).elim⟩
    · rw [if_neg hd2]
      have hnd2 : ∀ s, b.split = some s → B.dim s = c.getD s 0 → False := fun s h1 h2 => hd2 ((dominant_iff p.rb).2 ⟨s, h1, h2⟩)
      have hbs : binarySplit a b c = match a.split with | some s => some s | none => b.split := by unfold binarySplit; rw [if_neg hd, if_neg hd2]; cases a.split <;> rfl
      rw [hbs]
      cases hasp : a.split with
      | some s =>
        have hsn : s < c.length := by rw [← p.na]; exact (rep_split_lt p.ra hasp).1
        have axs := p.ax s hsn
        have h2 : A.dim s ≠ c.getD s 0 := hnd s hasp
        have h1 : A.dim s = 1 := by omega
        have hdimB : B.dim s = c.getD s 0 := by omega
        have hal' : P = 1 ∨ b.split = none ∨ b.split = some s := by
          rcases hal with h | h
          · exact .inl h
          · cases hbsp : b.split with
            | none => exact .inr (.inl rfl)
            | some t =>
              have := h s t hasp hbsp
              have htn : t < c.length := by rw [← p.nb]; exact (rep_split_lt p.rb hbsp).1
              rw [p.ea s hsn, p.eb s hsn, p.ea t htn, p.eb t htn] at this
              have h3 := p.ax t htn
              have h4 : B.dim t ≠ c.getD t 0 := hnd2 t hbsp
              rcases this with h | h | h
              · exact .inr (.inr (by rw [h]))
              · omega
              · omega
        obtain ⟨b', eb, f1, f2⟩ := sanitizeWide_fits hP p.ra hasp h1 p.rb p.fb p.nb hsn hdimB hal'
        dsimp only
        rw [eb]
        dsimp only
        have f0 : FitsPart P c.length s (wideMap a s (c.getD s 0)) a.loc A := p.na ▸ fits_wide p.ra hasp h1
        obtain ⟨zl, z1, z2, z3⟩ := fits_bin f p.ra.1 p.rb.1 p.na p.nb p.ax hsn f0 f1 (fun r hr => .inr (f2 r hr)) (wideMap_sum p.ra hasp h1) a.balanced
        refine ⟨_, rfl, ⟨⟨c, some s, zl, a.balanced⟩, rfl, rfl, z1, z3⟩, rfl, ?_⟩
        intro s' h1 h2
        cases h1
        exact (hnd s hasp h2).elim
      | none =>
        dsimp only
        cases hbsp : b.split with
        | some s =>
          have hsn : s < c.length := by rw [← p.nb]; exact (rep_split_lt p.rb hbsp).1
          have axs := p.ax s hsn
          have h2 : B.dim s ≠ c.getD s 0 := hnd2 s hbsp
          have h1 : B.dim s = 1 := by omega
          have hdimA : A.dim s = c.getD s 0 := by omega
          obtain ⟨a', ea, f1, f2⟩ := sanitizeWide_fits hP p.rb hbsp h1 p.ra p.fa p.na hsn hdimA (.inr (.inl hasp))
          dsimp only
          rw [ea]
          dsimp only
          have f0 : FitsPart P c.length s (wideMap b s (c.getD s 0)) b.loc B := p.nb ▸ fits_wide p.rb hbsp h1
          obtain ⟨zl, z1, z2, z3⟩ := fits_bin f p.ra.1 p.rb.1 p.na p.nb p.ax hsn f1 f0 (fun r hr => .inl (f2 r hr)) (wideMap_sum p.rb hbsp h1) b.balanced
          refine ⟨_, rfl, ⟨⟨c, some s, zl, b.balanced⟩, rfl, rfl, z1, z3⟩, rfl, ?_⟩
          intro s' h1 h2
          cases h1
        | none =>
          dsimp only
          obtain ⟨zl, z1, z3⟩ := rep_bin_none f p.ra p.rb hasp hbsp p.na p.nb p.ax a.balanced
          refine ⟨_, rfl, ⟨⟨c, none, zl, a.balanced⟩, rfl, rfl, z1, z3⟩, rfl, ?_⟩
          intro s' h1 h2
          cases h1

/-- **C163.**  For every element-wise operation and any two arrays of any dimensions and distributions whose shapes can be broadcast and whose split axes are supported: the call succeeds on every
process and the result is the element-wise operation of the two arrays by the rules of numpy; its split axis is that of the operand that is not repeated along it, and if that is the first operand, the result
is distributed as it. -/
theorem binary_nd_spec {P : Nat} (hP : 0 < P) (f : α → β → γ) {x : DND α} {y : DND β} {G : NArr α} {H : NArr β} {c : List Nat} (hx : Rep P x G) (hy : Rep P y H) (fx : FlagOk P x G) (fy : FlagOk P y H)
    (hc : IsBroadcast [G.shape, H.shape] c) (hz : ∀ i, dimR c i = 0 → dimR G.shape i = 0 ∧ dimR H.shape i = 0)
    (hal : Alignable P G H c.length (splitIn x c.length) (splitIn y c.length)) :
    ∃ out T, binaryND P f x y = .ok out ∧ IsElementwise f G H T ∧ Delivers P out T ∧ out.split = resultSplit G H c.length (splitIn x c.length) (splitIn y c.length) ∧
      ∀ s, splitIn x c.length = some s → extentIn G c.length s = c.getD s 0 → out.balanced = x.balanced ∧
        ∀ r < P, ∀ t, out.loc r = .ok t → t.dim s = (x.loc r).dim (s - (c.length - G.ndim)) := by
  have p := prepared hx hy fx fy hc hz
  have hb : broadcastShape x.gshape y.gshape = .ok c := by rw [rep_gshape hx, rep_gshape hy, broadcast_shape_eq, broadcast_shapes_spec]; exact hc
  obtain ⟨out, e, h1, h2, h3⟩ := binaryAligned_spec hP f p hal
  refine ⟨out, _, ?_, isElementwise_bzip hc, h1, ?_, ?_⟩
  · unfold binaryND; rw [hb]; exact e
  · rw [h2, binarySplit_eq p]; rfl
  · intro s hs hd
    have hs' : x.split.map (· + (c.length - x.gshape.length)) = some s := hs
    rw [Option.map_eq_some_iff] at hs'
    obtain ⟨s', hs', rfl⟩ := hs'
    have hsn : s' + (c.length - x.gshape.length) < c.length := lt_of_lt_of_eq (rep_split_lt p.ra hs).1 p.na
    rw [p.ea _ hsn] at hd
    obtain ⟨h4, h5⟩ := h3 _ hs hd
    refine ⟨h4, ?_⟩
    intro r hr t ht
    rw [h5 r hr t ht]
    show ((x.loc r).lead (c.length - x.gshape.length)).dim _ = _
    rw [lead_dim_add, hx.2.1, Nat.add_sub_cancel]

/-- Any other combination of split axes is refused with NotImplementedError by every process. -/
theorem binary_nd_refused {P : Nat} (f : α → β → γ) {x : DND α} {y : DND β} {G : NArr α} {H : NArr β} {c : List Nat} (hx : Rep P x G) (hy : Rep P y H) (fx : FlagOk P x G) (fy : FlagOk P y H)
    (hc : IsBroadcast [G.shape, H.shape] c) (hz : ∀ i, dimR c i = 0 → dimR G.shape i = 0 ∧ dimR H.shape i = 0)
    (hal : ¬ Alignable P G H c.length (splitIn x c.length) (splitIn y c.length)) : binaryND P f x y = .error .notImplemented := by
  have p := prepared hx hy fx fy hc hz
  have hb : broadcastShape x.gshape y.gshape = .ok c := by rw [rep_gshape hx, rep_gshape hy, broadcast_shape_eq, broadcast_shapes_spec]; exact hc
  unfold binaryND
  rw [hb]
  dsimp only
  unfold Alignable at hal
  push Not at hal
  obtain ⟨hP1, s, t, hs, ht, hst, n1, n2⟩ := hal
  have hs : (leadDims x c.length).split = some s := hs
  have ht : (leadDims y c.length).split = some t := ht
  generalize leadDims x c.length = a at *
  generalize leadDims y c.length = b at *
  generalize G.lead (c.length - G.ndim) = A at *
  generalize H.lead (c.length - H.ndim) = B at *
  have hsn : s < c.length := by rw [← p.na]; exact (rep_split_lt p.ra hs).1
  have htn : t < c.length := by rw [← p.nb]; exact (rep_split_lt p.rb ht).1
  rw [p.ea s hsn, p.eb s hsn] at n1
  rw [p.ea s hsn, p.eb s hsn, p.ea t htn, p.eb t htn] at n2
  have axs := p.ax s hsn
  have axt := p.ax t htn
  have zs := p.z s hsn
  have zt := p.z t htn
  have gas := p.ra.2.2.1 s (by rw [p.na]; exact hsn)
  have gbs := p.rb.2.2.1 s (by rw [p.nb]; exact hsn)
  have gat := p.ra.2.2.1 t (by rw [p.na]; exact htn)
  have gbt := p.rb.2.2.1 t (by rw [p.nb]; exact htn)
  have la : a.gshape.length = c.length := by rw [p.ra.2.1, p.na]
  have lb : b.gshape.length = c.length := by rw [p.rb.2.1, p.nb]
  unfold binaryAligned
  by_cases hd : dominant a c = true
  · rw [if_pos hd]
    rw [dominant_iff p.ra] at hd
    obtain ⟨s', e, hdim⟩ := hd
    rw [hs] at e; cases e
    have : sanitizeTo P a b = .error .notImplemented := by
      unfold sanitizeTo
      rw [hs]
      dsimp only
      unfold sanitizeND
      rw [if_neg hP1]
      dsimp only
      rw [if_neg (by omega), gas, gbs, if_neg (by omega), if_neg (by omega), ht]
      dsimp only
      rw [if_pos (by omega)]
    rw [this]
  · rw [if_neg hd]
    have hnd : A.dim s ≠ c.getD s 0 := fun h2 => hd ((dominant_iff p.ra).2 ⟨s, hs, h2⟩)
    by_cases hd2 : dominant b c = true
    · rw [if_pos hd2]
      rw [dominant_iff p.rb] at hd2
      obtain ⟨s', e, hdim⟩ := hd2
      rw [ht] at e; cases e
      have : sanitizeTo P b a = .error .notImplemented := by
        unfold sanitizeTo
        rw [ht]
        dsimp only
        unfold sanitizeND
        rw [if_neg hP1]
        dsimp only
        rw [if_neg (by omega), gat, gbt, if_neg (by omega), if_neg (by omega), hs]
        dsimp only
        rw [if_pos (by omega)]
      rw [this]
    · rw [if_neg hd2, hs]
      have : sanitizeWide P a s c b = .error .notImplemented := by
        unfold sanitizeWide sanitizeND
        dsimp only
        rw [if_neg hP1, if_neg (by omega), gbs, if_neg (by omega), if_neg (by omega), ht]
        dsimp only
        rw [if_pos (by omega)]
      dsimp only
      rw [this]

/-- Shapes that cannot be broadcast are refused with ValueError by every process. -/
theorem binary_nd_shapes {P : Nat} (f : α → β → γ) {x : DND α} {y : DND β} {G : NArr α} {H : NArr β} (hx : Rep P x G) (hy : Rep P y H)
    (hc : ¬ Compatible G.shape H.shape) : binaryND P f x y = .error .valueError := by
  unfold Compatible at hc
  push Not at hc
  obtain ⟨i, h1, h2, h3⟩ := hc
  have : broadcastShape x.gshape y.gshape = .error .valueError := by
    rw [rep_gshape hx, rep_gshape hy, broadcast_shape_eq, broadcast_shapes_error]
    exact ⟨rfl, _, by simp, _, by simp, i, h1, h2, h3⟩
  unfold binaryND
  rw [this]

/-! ## Writing into `out` -/

theorem shape_eq_iff {A : NArr α} {B : NArr β} (hn : A.ndim = B.ndim) (hd : ∀ k < B.ndim, A.dim k = B.dim k) : A.shape = B.shape := by
  unfold NArr.shape
  rw [hn]
  apply List.map_congr_left
  intro k hk
  exact hd k (List.mem_range.1 hk)


/-- **C163, `out`.**  Every buffer with the shape and the split axis of the result, distributed in any way, receives the element-wise result and keeps its distribution. -/
theorem binaryOut_nd_spec {P : Nat} (hP : 0 < P) (f : α → β → γ) {x : DND α} {y : DND β} {o : DND γ} {G : NArr α} {H : NArr β} {O : NArr γ} {c : List Nat}
    (hx : Rep P x G) (hy : Rep P y H) (ho : Rep P o O) (fx : FlagOk P x G) (fy : FlagOk P y H) (fo : FlagOk P o O)
    (hc : IsBroadcast [G.shape, H.shape] c) (hz : ∀ i, dimR c i = 0 → dimR G.shape i = 0 ∧ dimR H.shape i = 0)
    (hal : Alignable P G H c.length (splitIn x c.length) (splitIn y c.length)) (hO : O.shape = c)
    (hos : o.split = resultSplit G H c.length (splitIn x c.length) (splitIn y c.length)) :
    ∃ out T, binaryOutND P f x y o = .ok out ∧ IsElementwise f G H T ∧ Delivers P out T ∧ out.split = o.split ∧ out.balanced = o.balanced ∧
      ∀ r < P, ∀ t, out.loc r = .ok t → t.shape = (o.loc r).shape := by
  have p := prepared hx hy fx fy hc hz
  have hb : broadcastShape x.gshape y.gshape = .ok c := by rw [rep_gshape hx, rep_gshape hy, broadcast_shape_eq, broadcast_shapes_spec]; exact hc
  have hel : IsElementwise f G H (bzipArr f (G.lead (c.length - G.ndim)) (H.lead (c.length - H.ndim)) c) := isElementwise_bzip hc
  have hrs := binarySplit_eq p
  have esx : splitIn x c.length = (leadDims x c.length).split := rfl
  have esy : splitIn y c.length = (leadDims y c.length).split := rfl
  rw [esx, esy] at hal hos
  unfold binaryOutND
  rw [hb]
  dsimp only
  have hog : o.gshape = c := by rw [rep_gshape ho, hO]
  have hOn : O.ndim = c.length := by rw [← hO]; simp [NArr.shape]
  have hOd : ∀ k < c.length, O.dim k = c.getD k 0 := by
    intro k hk
    rw [← hO]; exact (getD_map_rangeN _ (by omega)).symm
  rw [if_neg (by rw [hog]; simp), if_neg (by rw [hrs, hos]; simp)]
  generalize leadDims x c.length = a at *
  generalize leadDims y c.length = b at *
  generalize G.lead (c.length - G.ndim) = A at *
  generalize H.lead (c.length - H.ndim) = B at *
  cases hosp : o.split with
  | none =>
    rw [hosp] at hos
    have hn : a.split = none ∧ b.split = none := by
      unfold resultSplit at hos
      cases ha : a.split with
      | none => rw [ha] at hos; exact ⟨rfl, hos.symm⟩
      | some s =>
        rw [ha] at hos
        cases hb : b.split with
        | none => rw [hb] at hos; cases hos
        | some t => rw [hb] at hos; dsimp only at hos; split at hos <;> cases hos
    have e1 : sanitizeTo P o a = .ok a := by
      unfold sanitizeTo; rw [hosp]; dsimp only; unfold sanitizeND; split
      · rfl
      · dsimp only; rw [if_pos hn.1]
    have e2 : sanitizeTo P o b = .ok b := by
      unfold sanitizeTo; rw [hosp]; dsimp only; unfold sanitizeND; split
      · rfl
      · dsimp only; rw [if_pos hn.2]
    rw [e1, e2]
    dsimp only
    obtain ⟨zl, z1, z3⟩ := rep_bin_none f p.ra p.rb hn.1 hn.2 p.na p.nb p.ax o.balanced
    have hsh : ∀ r < P, (zl r).shape = (o.loc r).shape := by
      intro r hr
      obtain ⟨_, _, _, a3, a4⟩ := z3
      obtain ⟨_, _, _, b3, b4⟩ := ho
      rw [hosp] at b4
      apply shape_eq_iff ((a3 r hr).trans (hOn.symm.trans (b3 r hr).symm))
      intro k hk
      rw [b3 r hr] at hk
      rw [(b4 r hr).1 k hk, hOd k (by omega)]
      exact (a4 r hr).1 k (by rw [hOn] at hk; exact hk)
    have hok : ∀ r < P, (match torchBin f (a.loc r) (b.loc r) with
          | .error e => (.error e : Except Err (NArr γ))
          | .ok t => torchCopyND (o.loc r) t) = .ok (zl r) := by
      intro r hr
      rw [z1 r hr]
      dsimp only
      unfold torchCopyND
      rw [if_pos (hsh r hr)]
    refine ⟨_, _, rfl, hel, ⟨⟨c, none, zl, o.balanced⟩, hog, rfl, hok, z3⟩, rfl, rfl, ?_⟩
    intro r hr t ht
    have ht := (hok r hr).symm.trans ht
    cases ht
    exact hsh r hr
  | some s =>
    have hsn : s < c.length := by rw [← hOn]; exact (rep_split_lt ho hosp).1
    have hsum := (rep_split_lt ho hosp).2
    have axs := p.ax s hsn
    have hz0 := p.z s hsn
    rw [hosp] at hos
    have hOs := hOd s hsn
    have key : (P = 1 ∨ a.split = none ∨ a.split = some s ∨ (A.dim s = 1 ∧ 1 < O.dim s)) ∧ (P = 1 ∨ b.split = none ∨ b.split = some s ∨ (B.dim s = 1 ∧ 1 < O.dim s)) := by
      by_cases hP1 : P = 1
      · exact ⟨.inl hP1, .inl hP1⟩
      · cases ha : a.split with
        | none =>
          refine ⟨.inr (.inl rfl), ?_⟩
          rw [ha] at hos
          exact .inr (.inr (.inl hos.symm))
        | some sa =>
          cases hb : b.split with
          | none =>
            refine ⟨?_, .inr (.inl rfl)⟩
            rw [ha, hb] at hos
            exact .inr (.inr (.inl hos.symm))
          | some sb =>
            have hsa : sa < c.length := by rw [← p.na]; exact (rep_split_lt p.ra ha).1
            have hsb : sb < c.length := by rw [← p.nb]; exact (rep_split_lt p.rb hb).1
            have al := (hal.resolve_left hP1) sa sb ha hb
            rw [ha, hb] at hos
            unfold resultSplit at hos
            dsimp only at hos
            rw [p.ea sa hsa, p.eb sa hsa, p.ea sb hsb, p.eb sb hsb] at al
            rw [p.ea sa hsa, p.eb sa hsa, p.ea sb hsb, p.eb sb hsb] at hos
            have axa := p.ax sa hsa
            have axb := p.ax sb hsb
            by_cases hcond : (A.dim sa = 1 ∧ B.dim sa ≠ 1) ∧ ¬ (B.dim sb = 1 ∧ A.dim sb ≠ 1)
            · rw [if_pos hcond] at hos
              cases hos
              refine ⟨?_, .inr (.inr (.inl rfl))⟩
              rcases al with h | h | h
              · exact .inr (.inr (.inl (by rw [h])))
              · omega
              · exact .inr (.inr (.inr (by omega)))
            · rw [if_neg hcond] at hos
              cases hos
              refine ⟨.inr (.inr (.inl rfl)), ?_⟩
              rcases al with h | h | h
              · exact .inr (.inr (.inl (by rw [h])))
              · exact .inr (.inr (.inr (by omega)))
              · omega
    obtain ⟨a', ea, fa1, fa2⟩ := sanitizeTo_fits hP ho fo hosp p.ra p.fa p.na hOn (by omega) key.1
    obtain ⟨b', eb, fb1, fb2⟩ := sanitizeTo_fits hP ho fo hosp p.rb p.fb p.nb hOn (by omega) key.2
    rw [ea, eb]
    dsimp only
    have hone : ∀ r < P, (a'.loc r).dim s = (o.loc r).dim s ∨ (b'.loc r).dim s = (o.loc r).dim s := by
      intro r hr
      by_cases h1 : A.dim s = O.dim s
      · exact .inl (fa2 h1 r hr)
      · exact .inr (fb2 (by omega) r hr)
    obtain ⟨zl, z1, z2, z3⟩ := fits_bin f p.ra.1 p.rb.1 p.na p.nb p.ax hsn fa1 fb1 hone (by rw [hsum, hOs]) o.balanced
    have hsh : ∀ r < P, (zl r).shape = (o.loc r).shape := by
      intro r hr
      obtain ⟨_, _, _, a3, _, _, a4⟩ := z3
      obtain ⟨_, _, _, b3, b4⟩ := ho
      rw [hosp] at b4
      apply shape_eq_iff ((a3 r hr).trans (hOn.symm.trans (b3 r hr).symm))
      intro k hk
      rw [b3 r hr] at hk
      by_cases hks : k = s
      · subst hks; exact z2 r hr
      · rw [(b4.2.2 r hr).1 k hk hks, hOd k (by omega)]
        exact (a4 r hr).1 k (by rw [hOn] at hk; exact hk) hks
    have hok : ∀ r < P, (match torchBin f (a'.loc r) (b'.loc r) with
          | .error e => (.error e : Except Err (NArr γ))
          | .ok t => torchCopyND (o.loc r) t) = .ok (zl r) := by
      intro r hr
      rw [z1 r hr]
      dsimp only
      unfold torchCopyND
      rw [if_pos (hsh r hr)]
    refine ⟨_, _, rfl, hel, ⟨⟨c, some s, zl, o.balanced⟩, hog, rfl, hok, z3⟩, rfl, rfl, ?_⟩
    intro r hr t ht
    have ht := (hok r hr).symm.trans ht
    cases ht
    exact hsh r hr

/-- Buffers of another shape, or with another split axis than the result, are refused with ValueError by every process. -/
theorem binaryOut_nd_refused {P : Nat} (f : α → β → γ) {x : DND α} {y : DND β} {o : DND γ} {G : NArr α} {H : NArr β} {O : NArr γ} {c : List Nat}
    (hx : Rep P x G) (hy : Rep P y H) (ho : Rep P o O) (fx : FlagOk P x G) (fy : FlagOk P y H)
    (hc : IsBroadcast [G.shape, H.shape] c) (hz : ∀ i, dimR c i = 0 → dimR G.shape i = 0 ∧ dimR H.shape i = 0)
    (h : O.shape ≠ c ∨ o.split ≠ resultSplit G H c.length (splitIn x c.length) (splitIn y c.length)) : binaryOutND P f x y o = .error .valueError := by
  have p := prepared hx hy fx fy hc hz
  have hb : broadcastShape x.gshape y.gshape = .ok c := by rw [rep_gshape hx, rep_gshape hy, broadcast_shape_eq, broadcast_shapes_spec]; exact hc
  unfold binaryOutND
  rw [hb]
  dsimp only
  by_cases h1 : c = o.gshape
  · rw [if_neg (by simpa using h1)]
    have h2 : o.split ≠ binarySplit (leadDims x c.length) (leadDims y c.length) c := by
      rw [binarySplit_eq p]
      rcases h with h | h
      · exact absurd (by rw [h1, rep_gshape ho]) h
      · exact h
    rw [if_pos (Ne.symm h2)]
  · rw [if_pos h1]

/-! ## broadcast_to -/

theorem expandTo_shape (G : NArr α) (c : List Nat) : (G.expandTo c).shape = c := shape_bzipArr (fun u _ => u) G G c

theorem expandTo_local {G : NArr α} (hG : Local G) {c : List Nat} (h : G.ndim ≤ c.length) : Local (G.expandTo c) := by
  intro i j hij
  apply hG
  intro k hk
  rw [hij (k + (c.length - G.ndim)) (by show _ < c.length; omega)]

theorem isBroadcastTo_expandTo (G : NArr α) (c : List Nat) : IsBroadcastTo G c (G.expandTo c) := ⟨expandTo_shape G c, fun _ _ => rfl⟩

/-- The extents of the operand of `broadcast_to`. -/
theorem isBroadcast_to_axes {G : NArr α} {shape : List Nat} (hc : IsBroadcast [G.shape, shape] shape) :
    G.ndim ≤ shape.length ∧ ∀ k < G.ndim, G.dim k = 1 ∨ G.dim k = shape.getD (k + (shape.length - G.ndim)) 0 := by
  have h := isBroadcast_axes (A := G) (B := G.expandTo shape) (c := shape) (by rw [expandTo_shape]; exact hc)
  refine ⟨h.1, ?_⟩
  intro k hk
  have := (h.2.2 (k + (shape.length - G.ndim)) (by omega)).1
  rw [extentIn_eq G h.1 (by omega), lead_dim_add] at this
  exact this

/-- Whole copies, broadcast locally. -/
theorem rep_expand_none {P : Nat} {x : DND α} {G : NArr α} {c : List Nat} (hx : Rep P x G) (hs : x.split = none) (h1 : G.ndim ≤ c.length)
    (h2 : ∀ k < G.ndim, G.dim k = 1 ∨ G.dim k = c.getD (k + (c.length - G.ndim)) 0) (b : Option Bool) : Rep P ⟨c, none, fun r => (x.loc r).expandTo c, b⟩ (G.expandTo c) := by
  obtain ⟨hG, g1, g2, g3, g4⟩ := hx
  rw [hs] at g4
  refine ⟨expandTo_local hG h1, rfl, fun _ _ => rfl, fun _ _ => rfl, ?_⟩
  intro r hr
  obtain ⟨d, e⟩ := g4 r hr
  refine ⟨fun _ _ => rfl, ?_⟩
  intro idx hin
  have hin : ∀ k < c.length, idx k < c.getD k 0 := hin
  show (x.loc r).get (fun j => if (x.loc r).dim j = 1 then 0 else idx (j + (c.length - (x.loc r).ndim))) = G.get fun j => if G.dim j = 1 then 0 else idx (j + (c.length - G.ndim))
  rw [e, g3 r hr]
  · apply hG
    intro k hk
    rw [d k hk]
  · intro k hk
    rw [g3 r hr] at hk ⊢
    show (if (x.loc r).dim k = 1 then 0 else _) < _
    rw [d k hk]
    have := h2 k hk
    have := hin (k + (c.length - G.ndim)) (by omega)
    split <;> omega

/-- The array of zeros. -/
def zeroArr (α : Type) [Zero α] (shape : List Nat) : NArr α := ⟨shape.length, fun k => shape.getD k 0, fun _ => 0⟩

theorem zeroArr_shape [Zero α] (shape : List Nat) : (zeroArr α shape).shape = shape := shape_bzipArr (fun _ _ => (0 : α)) (zeroArr α shape) (zeroArr α shape) shape

theorem rep_zeros [Zero α] {P : Nat} (hP : 0 < P) (shape : List Nat) {s : Nat} (hs : s < shape.length) : Rep P (zerosND P shape (some s)) (zeroArr α shape) := by
  refine ⟨fun _ _ _ => rfl, rfl, fun _ _ => rfl, fun _ _ => rfl, hs, ?_, ?_⟩
  · show ((List.range P).map fun r => if some s = some s then chunkLen (shape.getD s 0) P r else shape.getD s 0).sum = shape.getD s 0
    rw [← sum_evenSize hP (shape.getD s 0)]
    exact sum_congr_range fun q _ => by rw [if_pos rfl, chunkLen_even, sum_evenSize hP]
  · intro r hr
    refine ⟨fun k hk hne => ?_, fun _ _ => rfl⟩
    show (if some s = some k then _ else shape.getD k 0) = shape.getD k 0
    rw [if_neg (by simpa using Ne.symm hne)]

theorem zeros_dim [Zero α] (P : Nat) (shape : List Nat) (s r : Nat) : ((zerosND (α := α) P shape (some s)).loc r).dim s = evenSize (shape.getD s 0) P r := by
  show (if some s = some s then chunkLen (shape.getD s 0) P r else _) = _
  rw [if_pos rfl, chunkLen_even]

/-- **C164.**  If the array can be broadcast to `shape`, `broadcast_to` returns the broadcast array on every number of processes, split along the same axis (counted from the right), evenly distributed. -/
theorem broadcast_to_spec [AddZeroClass α] {P : Nat} (hP : 0 < P) {x : DND α} {G : NArr α} (hx : Rep P x G) (fx : FlagOk P x G) {shape : List Nat} (hc : IsBroadcast [G.shape, shape] shape)
    (hz : P = 1 ∨ x.split = none ∨ ∀ i, dimR shape i = 0 → dimR G.shape i = 0) :
    ∃ out T, broadcastTo P x shape = .ok out ∧ IsBroadcastTo G shape T ∧ Delivers P out T ∧ out.split = splitIn x shape.length ∧ out.balanced = some true ∧
      ∀ s, out.split = some s → 1 < P → ∀ r < P, ∀ t, out.loc r = .ok t → t.dim s = evenSize (shape.getD s 0) P r := by
  have hb : broadcastShape x.gshape shape = .ok shape := by rw [rep_gshape hx, broadcast_shape_eq, broadcast_shapes_spec]; exact hc
  obtain ⟨h1, h2⟩ := isBroadcast_to_axes hc
  unfold broadcastTo
  rw [hb]
  dsimp only
  have hlen := hx.2.1
  by_cases hd : P = 1 ∨ x.split = none
  · rw [if_pos hd]
    have hsp : (x.split.map fun (s : Nat) => ((s : Int) + ((shape.length : Int) - x.gshape.length)).toNat) = splitIn x shape.length := by
      unfold splitIn
      congr 1
      funext s
      omega
    have hloc : ∀ r < P, (x.loc r).shape = G.shape := by
      intro r hr
      have : ∃ w : DND α, w.loc = x.loc ∧ w.split = none ∧ Rep P w G := by
        rcases hd with h | h
        · subst h; exact ⟨⟨x.gshape, none, x.loc, none⟩, rfl, rfl, rep_one hx none (by intro s hs; cases hs) none⟩
        · exact ⟨x, rfl, h, hx⟩
      obtain ⟨w, e1, e2, _, _, _, w3, w4⟩ := this
      rw [e2] at w4
      rw [← e1]
      exact shape_eq_iff (w3 r hr) (w4 r hr).1
    have hok : ∀ r < P, (if broadcastShape (x.loc r).shape shape = .ok shape then (.ok ((x.loc r).expandTo shape) : Except Err (NArr α)) else .error .runtimeError) = .ok ((x.loc r).expandTo shape) := by
      intro r hr
      rw [hloc r hr, ← rep_gshape hx, if_pos hb]
    refine ⟨_, G.expandTo shape, rfl, isBroadcastTo_expandTo G shape, ?_, hsp, rfl, ?_⟩
    · rcases hd with h | h
      · subst h
        have r1 := rep_expand_none (rep_one hx none (by intro s hs; cases hs) none) rfl h1 h2 none
        refine ⟨⟨shape, splitIn x shape.length, fun r => (x.loc r).expandTo shape, none⟩, rfl, hsp, hok, ?_⟩
        apply rep_one r1
        intro s hs
        unfold splitIn at hs
        rw [Option.map_eq_some_iff] at hs
        obtain ⟨t, ht, rfl⟩ := hs
        have := (rep_split_lt hx ht).1
        show _ < shape.length
        omega
      · refine ⟨⟨shape, none, fun r => (x.loc r).expandTo shape, none⟩, rfl, ?_, hok, rep_expand_none hx h h1 h2 none⟩
        rw [hsp]; unfold splitIn; rw [h]; rfl
    · intro s hs hP1
      rcases hd with h | h
      · omega
      · have hs := hsp.symm.trans hs
        unfold splitIn at hs; rw [h] at hs; cases hs
  · rw [if_neg hd]
    have hP1 : 1 < P := by have : P ≠ 1 := fun h => hd (.inl h); omega
    cases hsx : x.split with
    | none => exact absurd (.inr hsx) hd
    | some s =>
      have hs := (rep_split_lt hx hsx).1
      have e1 : sanitizeAxis shape.length ((some s).map fun (s : Nat) => (s : Int) + ((shape.length : Int) - x.gshape.length)) = .ok (some (s + (shape.length - G.ndim))) := by
        rw [Option.map_some, sanitizeAxis_some _ _ (by omega), if_pos (by omega), if_neg (by omega)]
        congr 2
        omega
      rw [e1]
      dsimp only
      have hz' : ∀ i, dimR shape i = 0 → dimR G.shape i = 0 := by
        rcases hz with h | h | h
        · omega
        · rw [hsx] at h; cases h
        · exact h
      have hs' : s + (shape.length - G.ndim) < shape.length := by omega
      have rz := rep_zeros (α := α) hP shape hs'
      have fz : FlagOk P (zerosND (α := α) P shape (some (s + (shape.length - G.ndim)))) (zeroArr α shape) := by
        intro _ t ht r _
        have : some (s + (shape.length - G.ndim)) = some t := ht
        cases this
        exact zeros_dim P shape _ r
      have hc2 : IsBroadcast [(zeroArr α shape).shape, G.shape] shape := by
        rw [zeroArr_shape, ← broadcast_shapes_spec, ← broadcast_shape_eq, broadcast_shape_comm, broadcast_shape_eq, broadcast_shapes_spec]; exact hc
      have esz : splitIn (zerosND (α := α) P shape (some (s + (shape.length - G.ndim)))) shape.length = some (s + (shape.length - G.ndim)) := by
        show (some _).map _ = _
        rw [Option.map_some]
        congr 1
        show s + (shape.length - G.ndim) + (shape.length - shape.length) = _
        omega
      have esx : splitIn x shape.length = some (s + (shape.length - G.ndim)) := by unfold splitIn; rw [hsx, hlen]; rfl
      obtain ⟨out, T, o1, o2, o3, o4, o5, o6⟩ := binaryOut_nd_spec hP (· + ·) rz hx rz fz fx fz hc2 (fun i hi => ⟨by rw [zeroArr_shape]; exact hi, hz' i hi⟩)
        (by right; intro a b ha hb; left; rw [esz] at ha; rw [esx] at hb; cases ha; cases hb; rfl) (zeroArr_shape shape)
        (by rw [esz, esx]; unfold resultSplit; dsimp only; split <;> rfl)
      have hTs : T.shape = shape := by
        have a := (broadcast_shapes_spec _ _).2 o2.1
        have b := (broadcast_shapes_spec _ _).2 hc2
        rw [a] at b; cases b; rfl
      refine ⟨out, T, o1, ⟨hTs, ?_⟩, o3, ?_, o5, ?_⟩
      · intro idx hin
        rw [o2.2 idx hin]
        show (0 : α) + _ = _
        rw [zero_add]
      · rw [o4]; exact esx.symm
      · intro t ht _ r hr u hu
        rw [o4] at ht
        have ht : some (s + (shape.length - G.ndim)) = some t := ht
        cases ht
        have hsh := o6 r hr u hu
        have hn : u.ndim = shape.length := by
          have h : u.ndim = ((zerosND (α := α) P shape (some (s + (shape.length - G.ndim)))).loc r).ndim := by
            have := congrArg List.length hsh
            simpa [NArr.shape] using this
          exact h
        have : u.shape.getD (s + (shape.length - G.ndim)) 0 = u.dim _ := getD_map_rangeN _ (by omega)
        rw [← this, hsh, ← zeros_dim (α := α) P shape _ r]
        exact getD_map_rangeN _ hs'

/-- Shapes that are not compatible are refused with ValueError by every process. -/
theorem broadcast_to_incompatible [AddZeroClass α] {P : Nat} {x : DND α} {G : NArr α} (hx : Rep P x G) {shape : List Nat} (hc : ¬ Compatible G.shape shape) :
    broadcastTo P x shape = .error .valueError := by
  unfold Compatible at hc
  push Not at hc
  obtain ⟨i, h1, h2, h3⟩ := hc
  have : broadcastShape x.gshape shape = .error .valueError := by
    rw [rep_gshape hx, broadcast_shape_eq, broadcast_shapes_error]
    exact ⟨rfl, _, by simp, _, by simp, i, h1, h2, h3⟩
  unfold broadcastTo
  rw [this]

/-- Compatible shapes to which the array cannot be broadcast (the array has more axes, or a larger axis): a distributed array is refused with ValueError, for the others torch raises
RuntimeError on every process. -/
theorem broadcast_to_refused [AddZeroClass α] {P : Nat} {x : DND α} {G : NArr α} (hx : Rep P x G) {shape : List Nat} (hc : ¬ IsBroadcast [G.shape, shape] shape) :
    (1 < P → x.split ≠ none → broadcastTo P x shape = .error .valueError) ∧
    (P = 1 ∨ x.split = none → Compatible G.shape shape → ∃ out, broadcastTo P x shape = .ok out ∧ ∀ r < P, out.loc r = .error .runtimeError) := by
  have hb : broadcastShape x.gshape shape ≠ .ok shape := by
    rw [rep_gshape hx, broadcast_shape_eq]
    intro h
    exact hc ((broadcast_shapes_spec _ _).1 h)
  constructor
  · intro hP hs
    unfold broadcastTo
    cases hbs : broadcastShape x.gshape shape with
    | error e =>
      rw [broadcast_shape_eq, broadcast_shapes_error] at hbs
      rw [hbs.1]
    | ok c =>
      dsimp only
      rw [if_neg (by rintro (h | h) <;> [omega; exact hs h])]
      cases hsa : sanitizeAxis shape.length (x.split.map fun (s : Nat) => (s : Int) + ((shape.length : Int) - x.gshape.length)) with
      | error e =>
        dsimp only
        have : e = .valueError := by
          cases hsx : x.split with
          | none => exact absurd hsx hs
          | some t =>
            rw [hsx, Option.map_some] at hsa
            by_cases h0 : 0 < shape.length
            · exact ((sanitize_axis_error_iff _ _ _ h0).1 hsa).1
            · rw [show shape.length = 0 by omega] at hsa; cases hsa
        rw [this]
      | ok sp =>
        dsimp only
        unfold binaryOutND
        have : broadcastShape (zerosND (α := α) P shape sp).gshape x.gshape = .ok c := by
          show broadcastShape shape x.gshape = _
          rw [broadcast_shape_comm]; exact hbs
        rw [this]
        dsimp only
        rw [if_pos]
        intro h
        apply hb
        rw [hbs, h]; rfl
  · intro hd hcomp
    unfold broadcastTo
    cases hbs : broadcastShape x.gshape shape with
    | error e =>
      rw [broadcast_shape_eq, broadcast_shapes_error, rep_gshape hx] at hbs
      obtain ⟨_, s, hs, t, ht, i, h1, h2, h3⟩ := hbs
      exfalso
      have := hcomp i
      simp only [List.mem_cons, List.not_mem_nil, or_false] at hs ht
      rcases hs with rfl | rfl <;> rcases ht with rfl | rfl <;> omega
    | ok c =>
      dsimp only
      rw [if_pos hd]
      refine ⟨_, rfl, ?_⟩
      intro r hr
      have : (x.loc r).shape = x.gshape := by
        rw [rep_gshape hx]
        have : ∃ w : DND α, w.loc = x.loc ∧ w.split = none ∧ Rep P w G := by
          rcases hd with h | h
          · subst h; exact ⟨⟨x.gshape, none, x.loc, none⟩, rfl, rfl, rep_one hx none (by intro s hs; cases hs) none⟩
          · exact ⟨x, rfl, h, hx⟩
        obtain ⟨w, e1, e2, _, _, _, w3, w4⟩ := this
        rw [e2] at w4
        rw [← e1]
        exact shape_eq_iff (w3 r hr) (w4 r hr).1
      show (if _ then _ else _) = _
      rw [this, if_neg hb]

/-! ## broadcast_arrays -/

/-- Tensors with equally many axes. -/
theorem broadcasts_same {L : List (NArr α)} {c : List Nat} (hn : ∀ A ∈ L, A.ndim = c.length) (hne : L ≠ [])
    (h : ∀ k < c.length, (∀ A ∈ L, A.dim k = 1 ∨ A.dim k = c.getD k 0) ∧ (c.getD k 0 = 1 ∨ ∃ A ∈ L, A.dim k = c.getD k 0)) : broadcastShapes (L.map NArr.shape) = .ok c := by
  rw [broadcast_shapes_spec]
  have dA : ∀ A ∈ L, ∀ i < c.length, dimR A.shape i = A.dim (c.length - 1 - i) := by
    intro A hA i hi
    have := dimR_shape A (n := c.length) (k := c.length - 1 - i) (by rw [hn A hA]) (by omega)
    rw [show c.length - 1 - (c.length - 1 - i) = i by omega] at this
    rw [this, show c.length - A.ndim = 0 by rw [hn A hA]; omega]; rfl
  have dc : ∀ i < c.length, dimR c i = c.getD (c.length - 1 - i) 0 := by
    intro i hi
    have := dimR_list c (k := c.length - 1 - i) (by omega)
    rwa [show c.length - 1 - (c.length - 1 - i) = i by omega] at this
  have big : ∀ (l : List Nat) i, l.length ≤ i → dimR l i = 1 := by
    intro l i hi
    unfold dimR; rw [List.getElem?_eq_none (by rw [List.length_reverse]; omega)]; rfl
  have lA : ∀ A ∈ L, A.shape.length = c.length := by intro A hA; simp [NArr.shape, hn A hA]
  refine ⟨?_, ?_, ?_⟩
  · intro s hs
    rw [List.mem_map] at hs
    obtain ⟨A, hA, rfl⟩ := hs
    exact Nat.le_of_eq (lA A hA)
  · obtain ⟨A, hA⟩ := List.exists_mem_of_ne_nil L hne
    exact .inr ⟨A.shape, List.mem_map_of_mem hA, lA A hA⟩
  · intro i
    by_cases hi : i < c.length
    · obtain ⟨a, b⟩ := h (c.length - 1 - i) (by omega)
      constructor
      · intro s hs
        rw [List.mem_map] at hs
        obtain ⟨A, hA, rfl⟩ := hs
        rw [dA A hA i hi, dc i hi]
        exact a A hA
      · rcases b with b | ⟨A, hA, b⟩
        · exact .inl (by rw [dc i hi]; exact b)
        · exact .inr ⟨A.shape, List.mem_map_of_mem hA, by rw [dA A hA i hi, dc i hi]; exact b⟩
    · constructor
      · intro s hs
        rw [List.mem_map] at hs
        obtain ⟨A, hA, rfl⟩ := hs
        exact .inl (big _ i (by rw [lA A hA]; omega))
      · exact .inl (big _ i (by omega))

/-- Every operand can be broadcast to the common shape. -/
theorem isBroadcast_mem {ss : List (List Nat)} {c s : List Nat} (h : IsBroadcast ss c) (hs : s ∈ ss) : IsBroadcast [s, c] c := by
  obtain ⟨h1, _, h3⟩ := h
  refine ⟨?_, .inr ⟨c, by simp, rfl⟩, ?_⟩
  · intro t ht
    simp only [List.mem_cons, List.not_mem_nil, or_false] at ht
    rcases ht with rfl | rfl
    · exact h1 _ hs
    · exact Nat.le_refl _
  · intro i
    refine ⟨?_, .inr ⟨c, by simp, rfl⟩⟩
    intro t ht
    simp only [List.mem_cons, List.not_mem_nil, or_false] at ht
    rcases ht with rfl | rfl
    · exact (h3 i).1 _ hs
    · exact .inr rfl

/-- The parts of a broadcast array, computed locally. -/
theorem fits_expand {P s : Nat} {a : Nat → NArr α} {W : NArr α} {c : List Nat} {m : Nat → Nat} (hW : Local W) (hn : W.ndim = c.length)
    (hax : ∀ k < c.length, W.dim k = 1 ∨ W.dim k = c.getD k 0) (hs : s < c.length) (ha : FitsPart P c.length s m a W) (hm : ((List.range P).map m).sum = c.getD s 0) (bal : Option Bool) :
    Rep P ⟨c, some s, fun r => (a r).expandTo ((List.range c.length).map fun k => if k = s then m r else c.getD k 0), bal⟩ (W.expandTo c) := by
  have hcl : ∀ r, ((List.range c.length).map fun k => if k = s then m r else c.getD k 0).length = c.length := fun r => by simp
  have hcg : ∀ r, ∀ k < c.length, ((List.range c.length).map fun k => if k = s then m r else c.getD k 0).getD k 0 = if k = s then m r else c.getD k 0 := fun r k hk => getD_map_rangeN _ hk
  have hst : ∀ r ≤ P, axisStart (fun r => (a r).expandTo ((List.range c.length).map fun k => if k = s then m r else c.getD k 0)) s r = ((List.range r).map m).sum := by
    intro r hr
    apply sum_congr_range
    intro q hq
    show ((List.range c.length).map fun k => if k = s then m q else c.getD k 0).getD s 0 = m q
    rw [hcg q s hs, if_pos rfl]
  refine ⟨expandTo_local hW (by omega), rfl, fun _ _ => rfl, fun r _ => hcl r, hs, ?_, ?_⟩
  · rw [hst P (Nat.le_refl _), hm]; rfl
  · intro r hr
    obtain ⟨a1, a2, a3, a4⟩ := ha r hr
    refine ⟨fun k hk hne => ?_, ?_⟩
    · show ((List.range c.length).map fun k => if k = s then m r else c.getD k 0).getD k 0 = c.getD k 0
      rw [hcg r k hk, if_neg hne]
    · intro idx hin
      have hin : ∀ k < ((List.range c.length).map fun k => if k = s then m r else c.getD k 0).length,
          idx k < ((List.range c.length).map fun k => if k = s then m r else c.getD k 0).getD k 0 := hin
      rw [hcl] at hin
      have hbd : ∀ k < c.length, k ≠ s → idx k < c.getD k 0 := by
        intro k hk hne
        have := hin k hk
        rwa [hcg r k hk, if_neg hne] at this
      have hbs : idx s < m r := by
        have := hin s hs
        rwa [hcg r s hs, if_pos rfl] at this
      rw [hst r (by omega)]
      show (a r).get (fun j => if (a r).dim j = 1 then 0 else idx (j + (((List.range c.length).map fun k => if k = s then m r else c.getD k 0).length - (a r).ndim)))
        = W.get fun j => if W.dim j = 1 then 0 else shift s _ idx (j + (c.length - W.ndim))
      rw [hcl, a1, hn, Nat.sub_self]
      simp only [Nat.add_zero]
      apply a4 idx _ hbs
      intro k hk hne
      rw [a2 k hk hne]
      have := hbd k hk hne
      have := hax k hk
      omega

namespace Spec

/-- What `broadcast_arrays` promises: one result per operand, on `P` processes a consistent representation of the operand broadcast to the common shape `c`, split along `sp`. -/
def DeliversAll (P : Nat) (out : BcArrays α) (Gs : List (NArr α)) (c : List Nat) (sp : Option Nat) : Prop :=
  out.gshape = c ∧ out.split = sp ∧ ∃ zs : List (DND α), (∀ z ∈ zs, z.gshape = c ∧ z.split = sp) ∧ (∀ r < P, out.loc r = .ok (zs.map fun z => z.loc r)) ∧
    List.Forall₂ (fun z G => ∃ T, IsBroadcastTo G c T ∧ Rep P z T) zs Gs

/-- A consistently distributed array whose `balanced` attribute, if it says so, is right. -/
def GoodRep (P : Nat) (x : DND α) (G : NArr α) : Prop := Rep P x G ∧ FlagOk P x G

end Spec

/-- Whole copies (or one process). -/
theorem broadcast_arrays_whole {P : Nat} {x : DND α} {rest : List (DND α)} {Gs : List (NArr α)} {c : List Nat} (h : List.Forall₂ (GoodRep P) (x :: rest) Gs)
    (hc : IsBroadcast (Gs.map NArr.shape) c) (hd : P = 1 ∨ ∀ w ∈ x :: rest, w.split = none) :
    ∃ out, broadcastArrays P x rest = .ok out ∧ DeliversAll P out Gs c x.split ∧ out.balanced = x.balanced := by
  have e1 : (x :: rest).mapM (sanitizeTo P x) = .ok (x :: rest) := by
    have : ∀ w ∈ x :: rest, sanitizeTo P x w = .ok w := by
      intro w hw
      unfold sanitizeTo sanitizeND
      rcases hd with h | h
      · subst h; cases x.split <;> rfl
      · rw [h x (List.mem_cons_self ..)]
        dsimp only
        rw [if_pos (h w hw)]
        split <;> rfl
    generalize x :: rest = L at this
    generalize sanitizeTo P x = g at this
    induction L with
    | nil => rfl
    | cons w L ih =>
      rw [List.mapM_cons, this w (List.mem_cons_self ..), ih fun v hv => this v (List.mem_cons_of_mem _ hv)]
      rfl
  have view : ∀ w ∈ x :: rest, ∀ W, Rep P w W → ∃ v : DND α, v.loc = w.loc ∧ v.gshape = w.gshape ∧ v.split = none ∧ Rep P v W := by
    intro w hw W hr
    rcases hd with h | h
    · subst h; exact ⟨⟨w.gshape, none, w.loc, none⟩, rfl, rfl, rfl, rep_one hr none (by intro s hs; cases hs) none⟩
    · exact ⟨w, rfl, rfl, h w hw, hr⟩
  have sh : ∀ w ∈ x :: rest, ∀ W, Rep P w W → ∀ r < P, (w.loc r).shape = W.shape := by
    intro w hw W hr r hrP
    obtain ⟨v, v1, _, v2, _, _, _, w3, w4⟩ := view w hw W hr
    rw [v2] at w4
    rw [← v1]
    exact shape_eq_iff (w3 r hrP) (w4 r hrP).1
  have eg : (x :: rest).map DND.gshape = Gs.map NArr.shape := by
    generalize x :: rest = L at h
    clear * - h
    induction h with
    | nil => rfl
    | cons a _ ih =>
      rw [List.map_cons, List.map_cons, ih, rep_gshape a.1]
  have el : ∀ r < P, ((x :: rest).map fun z => z.loc r).map NArr.shape = Gs.map NArr.shape := by
    intro r hr
    generalize x :: rest = L at h sh
    clear * - h sh hr
    induction h with
    | nil => rfl
    | @cons w W L Gs a _ ih =>
      rw [List.map_cons, List.map_cons, List.map_cons, ih (fun v hv => sh v (List.mem_cons_of_mem _ hv)), sh w (List.mem_cons_self ..) W a.1 r hr]
  unfold broadcastArrays
  rw [e1]
  dsimp only
  rw [eg, (broadcast_shapes_spec _ _).2 hc]
  dsimp only
  refine ⟨_, rfl, ⟨rfl, rfl, (x :: rest).map fun w => ⟨c, x.split, fun r => (w.loc r).expandTo c, none⟩, ?_, ?_, ?_⟩, rfl⟩
  · intro z hz
    rw [List.mem_map] at hz
    obtain ⟨w, _, rfl⟩ := hz
    exact ⟨rfl, rfl⟩
  · intro r hr
    show torchBroadcast ((x :: rest).map fun z => z.loc r) = _
    unfold torchBroadcast
    rw [el r hr, (broadcast_shapes_spec _ _).2 hc]
    dsimp only
    rw [List.map_map, List.map_map]
    rfl
  · rw [List.forall₂_map_left_iff]
    have hsx : ∀ s, x.split = some s → s < c.length := by
      intro s hs
      cases h with
      | cons a _ =>
        have := (rep_split_lt a.1 hs).1
        have := (isBroadcast_to_axes (isBroadcast_mem hc (List.mem_map_of_mem (List.mem_cons_self ..)))).1
        omega
    have key : ∀ w ∈ x :: rest, ∀ W ∈ Gs, Rep P w W → ∃ T, IsBroadcastTo W c T ∧ Rep P ⟨c, x.split, fun r => (w.loc r).expandTo c, none⟩ T := by
      intro w hw W hW hr
      obtain ⟨v, v1, v0, v2, v3⟩ := view w hw W hr
      have hax := isBroadcast_to_axes (isBroadcast_mem hc (List.mem_map_of_mem hW))
      refine ⟨W.expandTo c, isBroadcastTo_expandTo W c, ?_⟩
      have q := rep_expand_none v3 v2 hax.1 hax.2 none
      rw [v1] at q
      rcases hd with h | h
      · subst h
        exact rep_one q x.split hsx none
      · rw [h x (List.mem_cons_self ..)]; exact q
    generalize x.split = sp at key
    clear hsx el eg sh view e1 hc
    generalize x :: rest = L at *
    induction h with
    | nil => exact .nil
    | @cons w W L Gs a _ ih =>
      refine .cons (key w (List.mem_cons_self ..) W (List.mem_cons_self ..) a.1) (ih ?_ ?_)
      · rcases hd with h | h
        · exact .inl h
        · exact .inr fun v hv => h v (List.mem_cons_of_mem _ hv)
      · intro v hv V hV
        exact key v (List.mem_cons_of_mem _ hv) V (List.mem_cons_of_mem _ hV)

/-- **C164, broadcast_arrays.**  Arrays with equally many axes, the first one distributed and not repeated along its split axis, the others whole, split along the same axis, or to be repeated along it; or only
replicated arrays of any dimensions; or one process: the results are the operands broadcast to the common shape, distributed as the first array. -/
theorem broadcast_arrays_partial {P : Nat} (hP : 0 < P) {x : DND α} {rest : List (DND α)} {G : NArr α} {Gs : List (NArr α)} {c : List Nat} (h : List.Forall₂ (GoodRep P) (x :: rest) (G :: Gs))
    (hc : IsBroadcast ((G :: Gs).map NArr.shape) c)
    (hd : P = 1 ∨ (∀ w ∈ x :: rest, w.split = none) ∨ ∃ s, x.split = some s ∧ (∀ W ∈ Gs, W.ndim = G.ndim) ∧
      List.Forall₂ (fun w W => (W.dim s = G.dim s ∧ (w.split = none ∨ w.split = some s)) ∨ (W.dim s = 1 ∧ 1 < G.dim s)) rest Gs) :
    ∃ out, broadcastArrays P x rest = .ok out ∧ DeliversAll P out (G :: Gs) c x.split ∧ out.balanced = x.balanced := by
  rcases hd with hd | hd | ⟨s, hs, hn, hal⟩
  · exact broadcast_arrays_whole h hc (.inl hd)
  · exact broadcast_arrays_whole h hc (.inr hd)
  · have hxG : GoodRep P x G := by cases h with | cons a _ => exact a
    have hrest : List.Forall₂ (GoodRep P) rest Gs := by cases h with | cons _ b => exact b
    obtain ⟨hsG, hsum⟩ := rep_split_lt hxG.1 hs
    have hcn : G.ndim = c.length := by
      have h1 := (isBroadcast_to_axes (isBroadcast_mem hc (List.mem_map_of_mem (List.mem_cons_self (a := G))))).1
      rcases hc.2.1 with h2 | ⟨t, ht, h2⟩
      · rw [h2] at h1; simp at h1; omega
      · rw [List.mem_map] at ht
        obtain ⟨W, hW, rfl⟩ := ht
        have : W.shape.length = W.ndim := by simp [NArr.shape]
        rcases List.mem_cons.1 hW with rfl | hW
        · omega
        · have := hn W hW; omega
    have hnn : ∀ W ∈ G :: Gs, W.ndim = c.length := by
      intro W hW
      rcases List.mem_cons.1 hW with rfl | hW
      · exact hcn
      · rw [hn W hW, hcn]
    have hax : ∀ W ∈ G :: Gs, ∀ k < c.length, W.dim k = 1 ∨ W.dim k = c.getD k 0 := by
      intro W hW k hk
      have := (isBroadcast_to_axes (isBroadcast_mem hc (List.mem_map_of_mem hW))).2 k (by rw [hnn W hW]; exact hk)
      rwa [hnn W hW, Nat.sub_self, Nat.add_zero] at this
    have hsc : s < c.length := by omega
    have dimc : ∀ i < c.length, ∀ W ∈ G :: Gs, dimR W.shape (c.length - 1 - i) = W.dim i := by
      intro i hi W hW
      rw [dimR_shape W (Nat.le_of_eq (hnn W hW)) hi, hnn W hW, Nat.sub_self]; rfl
    have hex : ∀ k < c.length, c.getD k 0 = 1 ∨ ∃ W ∈ G :: Gs, W.dim k = c.getD k 0 := by
      intro k hk
      rcases (hc.2.2 (c.length - 1 - k)).2 with h1 | ⟨t, ht, h1⟩
      · rw [dimR_list c hk] at h1; exact .inl h1
      · rw [List.mem_map] at ht
        obtain ⟨W, hW, rfl⟩ := ht
        rw [dimR_list c hk, dimc k hk W hW] at h1
        exact .inr ⟨W, hW, h1⟩
    have hcs : c.getD s 0 = G.dim s := by
      have h1 := hax G (List.mem_cons_self ..) s hsc
      rcases hex s hsc with h2 | ⟨W, hW, h2⟩
      · omega
      · rcases List.mem_cons.1 hW with rfl | hW
        · exact h2.symm
        · have : W.dim s = G.dim s ∨ (W.dim s = 1 ∧ 1 < G.dim s) := by
            clear * - hal hW
            induction hal with
            | nil => cases hW
            | cons a _ ih =>
              rcases List.mem_cons.1 hW with rfl | hW
              · rcases a with a | a
                · exact .inl a.1
                · exact .inr a
              · exact ih hW
          omega
    -- alignment of every operand
    have hmap : ∃ l, (x :: rest).mapM (sanitizeTo P x) = .ok l ∧
        List.Forall₂ (fun w' W => FitsPart P c.length s (fun r => (x.loc r).dim s) w'.loc W ∧ (W.dim s = G.dim s → ∀ r < P, (w'.loc r).dim s = (x.loc r).dim s)) l (G :: Gs) := by
      have hall : List.Forall₂ (fun w W => GoodRep P w W ∧ ((W.dim s = G.dim s ∧ (w.split = none ∨ w.split = some s)) ∨ (W.dim s = 1 ∧ 1 < G.dim s))) (x :: rest) (G :: Gs) := by
        refine .cons ⟨hxG, .inl ⟨rfl, .inr hs⟩⟩ ?_
        clear h hc hex hax hn hnn dimc
        induction hal with
        | nil => exact .nil
        | cons a _ ih =>
          cases hrest with
          | cons b1 b2 => exact .cons ⟨b1, a⟩ (ih b2)
      refine mapM_forall₂ hall ?_
      rintro w _ W hW ⟨⟨w1, w2⟩, w3⟩
      exact sanitizeTo_fits hP hxG.1 hxG.2 hs w1 w2 (hnn W hW) hcn (by omega) (by
        rcases w3 with w3 | w3
        · exact .inr (w3.2.elim .inl fun h => .inr (.inl h))
        · exact .inr (.inr (.inr w3)))
    obtain ⟨l, l1, l2⟩ := hmap
    have eg : (x :: rest).map DND.gshape = (G :: Gs).map NArr.shape := by
      generalize x :: rest = L at h
      generalize G :: Gs = M at h
      clear * - h
      induction h with
      | nil => rfl
      | cons a _ ih =>
        rw [List.map_cons, List.map_cons, ih, rep_gshape a.1]
    unfold broadcastArrays
    rw [l1]
    dsimp only
    rw [eg, (broadcast_shapes_spec _ _).2 hc]
    dsimp only
    refine ⟨_, rfl, ⟨rfl, rfl, l.map fun w => ⟨c, some s, fun r => (w.loc r).expandTo ((List.range c.length).map fun k => if k = s then (x.loc r).dim s else c.getD k 0), none⟩, ?_, ?_, ?_⟩, rfl⟩
    · intro z hz
      rw [List.mem_map] at hz
      obtain ⟨w, _, rfl⟩ := hz
      exact ⟨rfl, hs.symm⟩
    · intro r hr
      show torchBroadcast (l.map fun z => z.loc r) = _
      have hcl : ((List.range c.length).map fun k => if k = s then (x.loc r).dim s else c.getD k 0).length = c.length := by simp
      have hcg : ∀ k < c.length, ((List.range c.length).map fun k => if k = s then (x.loc r).dim s else c.getD k 0).getD k 0 = if k = s then (x.loc r).dim s else c.getD k 0 := fun k hk => getD_map_rangeN _ hk
      have mem1 : ∀ w ∈ l, ∃ W ∈ G :: Gs, FitsPart P c.length s (fun r => (x.loc r).dim s) w.loc W := by
        intro w hw
        obtain ⟨i, hi, rfl⟩ := List.mem_iff_getElem.1 hw
        have := l2.get hi (by rw [← l2.length_eq]; exact hi)
        exact ⟨_, List.getElem_mem _, this.1⟩
      have mem2 : ∀ W ∈ G :: Gs, ∃ w ∈ l, FitsPart P c.length s (fun r => (x.loc r).dim s) w.loc W ∧ (W.dim s = G.dim s → ∀ r < P, (w.loc r).dim s = (x.loc r).dim s) := by
        intro W hW
        obtain ⟨i, hi, rfl⟩ := List.mem_iff_getElem.1 hW
        have := l2.get (by rw [l2.length_eq]; exact hi) hi
        exact ⟨_, List.getElem_mem _, this⟩
      have : broadcastShapes ((l.map fun z => z.loc r).map NArr.shape) = .ok ((List.range c.length).map fun k => if k = s then (x.loc r).dim s else c.getD k 0) := by
        apply broadcasts_same
        · intro A hA
          rw [List.mem_map] at hA
          obtain ⟨w, hw, rfl⟩ := hA
          obtain ⟨W, _, hf⟩ := mem1 w hw
          rw [(hf r hr).1, hcl]
        · intro hnil
          rw [List.map_eq_nil_iff] at hnil
          rw [hnil] at l2; cases l2
        · intro k hk
          rw [hcl] at hk
          rw [hcg k hk]
          constructor
          · intro A hA
            rw [List.mem_map] at hA
            obtain ⟨w, hw, rfl⟩ := hA
            obtain ⟨W, hW, hf⟩ := mem1 w hw
            by_cases hks : k = s
            · subst hks
              rw [if_pos rfl]
              exact (hf r hr).2.2.1.symm
            · rw [if_neg hks, (hf r hr).2.1 k hk hks]
              exact hax W hW k hk
          · by_cases hks : k = s
            · subst hks
              rw [if_pos rfl]
              obtain ⟨w, hw, hf⟩ := mem2 G (List.mem_cons_self ..)
              exact .inr ⟨w.loc r, List.mem_map.2 ⟨w, hw, rfl⟩, hf.2 rfl r hr⟩
            · rw [if_neg hks]
              rcases hex k hk with h1 | ⟨W, hW, h1⟩
              · exact .inl h1
              · obtain ⟨w, hw, hf⟩ := mem2 W hW
                exact .inr ⟨w.loc r, List.mem_map.2 ⟨w, hw, rfl⟩, by rw [(hf.1 r hr).2.1 k hk hks, h1]⟩
      unfold torchBroadcast
      rw [this]
      dsimp only
      rw [List.map_map, List.map_map]
      rfl
    · rw [List.forall₂_map_left_iff]
      have hloc : ∀ W ∈ G :: Gs, Local W := by
        intro W hW
        obtain ⟨i, hi, rfl⟩ := List.mem_iff_getElem.1 hW
        exact (h.get (by rw [h.length_eq]; exact hi) hi).1.1
      have hsum' : ((List.range P).map fun r => (x.loc r).dim s).sum = c.getD s 0 := by rw [hsum, hcs]
      clear h hrest hal hex eg dimc hc l1 hn hcn
      generalize G :: Gs = M at *
      revert hnn hax hloc
      generalize G.dim s = gs at l2
      induction l2 with
      | nil => intros; exact .nil
      | @cons w W L M a _ ih =>
        intro hnn hax hloc
        refine .cons ⟨W.expandTo c, isBroadcastTo_expandTo W c, ?_⟩ (ih (fun V hV => hnn V (List.mem_cons_of_mem _ hV)) (fun V hV => hax V (List.mem_cons_of_mem _ hV))
          fun V hV => hloc V (List.mem_cons_of_mem _ hV))
        exact fits_expand (hloc W (List.mem_cons_self ..)) (hnn W (List.mem_cons_self ..)) (hax W (List.mem_cons_self ..)) hsc a.1 hsum' none

/-- A replicated first array refuses distributed ones with ValueError on every process. -/
theorem broadcast_arrays_replicated_refused {P : Nat} (hP : 1 < P) {x : DND α} {rest : List (DND α)} (hs : x.split = none) (h : ∃ w ∈ rest, w.split ≠ none) :
    broadcastArrays P x rest = .error .valueError := by
  have e0 : ∀ w : DND α, sanitizeTo P x w = if w.split = none then .ok w else .error .notImplemented := by
    intro w
    unfold sanitizeTo sanitizeND
    rw [hs]
    dsimp only
    rw [if_neg (by omega)]
  have e1 : (x :: rest).mapM (sanitizeTo P x) = .error .notImplemented := by
    rw [List.mapM_cons, e0 x, if_pos hs]
    obtain ⟨w, hw, hn⟩ := h
    have : rest.mapM (sanitizeTo P x) = .error .notImplemented := by
      induction rest with
      | nil => cases hw
      | cons v L ih =>
        rw [List.mapM_cons, e0 v]
        by_cases hv : v.split = none
        · rw [if_pos hv]
          rcases List.mem_cons.1 hw with rfl | hw
          · exact absurd hv hn
          · rw [ih hw]; rfl
        · rw [if_neg hv]; rfl
    rw [this]; rfl
  unfold broadcastArrays
  rw [e1]

/-- An array is aligned with itself. -/
theorem sanitizeTo_self {P : Nat} {x : DND α} {s : Nat} (hs : x.split = some s) (hn : s < x.gshape.length) : sanitizeTo P x x = .ok x := by
  unfold sanitizeTo sanitizeND
  rw [hs]
  dsimp only
  by_cases hP : P = 1
  · rw [if_pos hP]
  · rw [if_neg hP, if_neg (by omega), if_neg (by omega), if_neg (by omega), if_neg (by omega)]
    split
    · rw [if_neg (by simp)]
    · rfl

/-- **broadcast_arrays aligns arrays without aligning their axes on the right**: behind a first array that is split along `s`, the first other array whose axis `s` counted *from the left* has another extent
(and is not 1) makes all processes raise ValueError, and one with too few axes makes them raise IndexError, even if the shapes can be broadcast. -/
theorem broadcast_arrays_axes {P : Nat} (hP : 1 < P) {x y : DND α} {rest : List (DND α)} {s : Nat} (hs : x.split = some s) (hn : s < x.gshape.length) :
    (y.gshape.length ≤ s → broadcastArrays P x (y :: rest) = .error .indexError) ∧
    (s < y.gshape.length → y.gshape.getD s 0 ≠ x.gshape.getD s 0 → y.gshape.getD s 0 ≠ 1 → broadcastArrays P x (y :: rest) = .error .valueError) := by
  constructor
  · intro h
    have e : sanitizeTo P x y = .error .indexError := by
      unfold sanitizeTo sanitizeND
      rw [hs]
      dsimp only
      rw [if_neg (by omega), if_pos h]
    unfold broadcastArrays
    rw [List.mapM_cons, sanitizeTo_self hs hn, List.mapM_cons, e]
    rfl
  · intro h h1 h2
    have e : sanitizeTo P x y = .error .valueError := by
      unfold sanitizeTo sanitizeND
      rw [hs]
      dsimp only
      rw [if_neg (by omega), if_neg (by omega), if_neg (by omega), if_pos h1]
    unfold broadcastArrays
    rw [List.mapM_cons, sanitizeTo_self hs hn, List.mapM_cons, e]
    rfl

/-- **The documentation's own example fails** on every number of processes above one: `broadcast_arrays(a, b, c)` with shapes (100, 10) split along 0, (10,) replicated and (1, 10) split along 1 (in fact whatever
comes third) raises ValueError, although the shapes can be broadcast. -/
theorem broadcast_arrays_doc_violated {P : Nat} (hP : 1 < P) {a b c : DND α} (ha : a.gshape = [100, 10]) (hs : a.split = some 0) (hb : b.gshape = [10]) (hc : c.gshape = [1, 10]) :
    IsBroadcast [a.gshape, b.gshape, c.gshape] [100, 10] ∧ broadcastArrays P a [b, c] = .error .valueError := by
  constructor
  · rw [ha, hb, hc, ← broadcast_shapes_spec]
    decide +kernel
  · exact (broadcast_arrays_axes hP hs (by rw [ha]; decide)).2 (by rw [hb]; decide) (by rw [ha, hb]; decide) (by rw [hb]; decide)

/-- An array with one axis. -/
def vecA (n : Nat) (v : Nat → α) : NArr α := ⟨1, fun _ => n, fun idx => v (idx 0)⟩

/-- A matrix. -/
def matA (n m : Nat) (v : Nat → Nat → α) : NArr α := ⟨2, fun k => if k = 0 then n else m, fun idx => v (idx 0) (idx 1)⟩

/-- The same whole copy on every process. -/
def wholeA (G : NArr α) : DND α := ⟨G.shape, none, fun _ => G, none⟩

theorem rep_wholeA {G : NArr α} (hG : Local G) (P : Nat) : Rep P (wholeA G) G := by
  refine ⟨hG, by simp [wholeA, NArr.shape], fun k hk => getD_map_rangeN _ hk, fun _ _ => rfl, ?_⟩
  show ∀ r < P, _
  intro r _
  exact ⟨fun _ _ => rfl, fun _ _ => rfl⟩

/-- The array `G` split evenly along `s`. -/
def evenA (P : Nat) (G : NArr α) (s : Nat) : DND α := partsND (wholeA G) s (evenSize (G.dim s) P) (some true)

theorem goodRep_even {P : Nat} (hP : 0 < P) {G : NArr α} (hG : Local G) {s : Nat} (hs : s < G.ndim) : GoodRep P (evenA P G s) G := by
  constructor
  · exact rep_parts (rep_wholeA hG P) rfl s hs _ _ (sum_evenSize hP _)
  · intro _ t ht r _
    have : some s = some t := ht
    cases this
    exact if_pos rfl

theorem goodRep_whole {G : NArr α} (hG : Local G) (P : Nat) : GoodRep P (wholeA G) G := ⟨rep_wholeA hG P, by intro h; cases h⟩

theorem vecA_local (n : Nat) (v : Nat → α) : Local (vecA n v) := by
  intro i j h
  show v (i 0) = v (j 0)
  rw [h 0 (by show 0 < 1; omega)]

theorem matA_local (n m : Nat) (v : Nat → Nat → α) : Local (matA n m v) := by
  intro i j h
  show v (i 0) (i 1) = v (j 0) (j 1)
  rw [h 0 (by show 0 < 2; omega), h 1 (by show 1 < 2; omega)]

/-- **A silent wrong result**: for a distributed vector `a` of length 4 on 4 processes and a replicated 4 x 4 matrix, `broadcast_arrays` fills row `r` of the first result with `a[r]`; the broadcast array has
`a` in every row (numpy: element (i, j) is `a[j]`). -/
theorem broadcast_arrays_lead_violated (v : Nat → α) (w : Nat → Nat → α) :
    GoodRep 4 (evenA 4 (vecA 4 v) 0) (vecA 4 v) ∧ GoodRep 4 (wholeA (matA 4 4 w)) (matA 4 4 w) ∧ IsBroadcast [(vecA 4 v).shape, (matA 4 4 w).shape] [4, 4] ∧
    (∀ idx, (bcastGet (vecA 4 v) 2 idx = v (idx 1))) ∧
    ∃ out, broadcastArrays 4 (evenA 4 (vecA 4 v) 0) [wholeA (matA 4 4 w)] = .ok out ∧ out.gshape = [4, 4] ∧ out.split = some 0 ∧
      ∀ r < 4, ∃ t0 t1, out.loc r = .ok [t0, t1] ∧ t0.shape = [1, 4] ∧ ∀ idx, t0.get idx = v r := by
  refine ⟨goodRep_even (by omega) (vecA_local _ _) (by show 0 < 1; omega), goodRep_whole (matA_local _ _ _) 4, ?_, fun _ => rfl, ?_⟩
  · show IsBroadcast [[4], [4, 4]] _
    rw [← broadcast_shapes_spec]
    decide +kernel
  · refine ⟨_, rfl, rfl, rfl, ?_⟩
    intro r hr
    have key : r = 0 ∨ r = 1 ∨ r = 2 ∨ r = 3 := by omega
    refine ⟨((evenA 4 (vecA 4 v) 0).loc r).expandTo [1, 4], ((partsND (wholeA (matA 4 4 w)) 0 (chunkLen 4 4) (some true)).loc r).expandTo [1, 4], ?_, rfl, ?_⟩
    · have e : broadcastShapes [[1], [1, 4]] = .ok [1, 4] := by decide +kernel
      have e2 : [(evenA 4 (vecA 4 v) 0).loc r, (partsND (wholeA (matA 4 4 w)) 0 (chunkLen 4 4) (some true)).loc r].map NArr.shape = [[1], [1, 4]] := by
        have e3 : chunkLen 4 4 r = 1 := by rw [chunkLen_even]; rcases key with rfl | rfl | rfl | rfl <;> decide +kernel
        have e4 : evenSize 4 4 r = 1 := by rcases key with rfl | rfl | rfl | rfl <;> decide +kernel
        show [[evenSize 4 4 r], [chunkLen 4 4 r, 4]] = _
        rw [e3, e4]
      show torchBroadcast [(evenA 4 (vecA 4 v) 0).loc r, (partsND (wholeA (matA 4 4 w)) 0 (chunkLen 4 4) (some true)).loc r] = _
      unfold torchBroadcast
      rw [e2, e]
      rfl
    · intro idx
      have e4 : evenSize 4 4 r = 1 := by rcases key with rfl | rfl | rfl | rfl <;> decide +kernel
      have e5 : ((List.range r).map (evenSize 4 4)).sum = r := by rcases key with rfl | rfl | rfl | rfl <;> decide +kernel
      show v (shift 0 ((List.range r).map (evenSize 4 4)).sum (fun j => if (if j = 0 then evenSize 4 4 r else 4) = 1 then 0 else idx (j + 1)) 0) = v r
      rw [e5]
      simp [shift, e4]

/-- An axis of extent 1 cannot be broadcast to extent 0 along the split axis of the other operand: ValueError on every process, although the shapes can be broadcast (numpy and torch return an empty array). -/
theorem binary_nd_empty_violated {P : Nat} (hP : 1 < P) (f : α → β → γ) {x : DND α} {y : DND β} (hx : x.gshape = [1]) (hy : y.gshape = [0]) (hs : y.split = some 0) (hxs : x.split = none ∨ x.split = some 0) :
    IsBroadcast [x.gshape, y.gshape] [0] ∧ binaryND P f x y = .error .valueError := by
  constructor
  · rw [hx, hy, ← broadcast_shapes_spec]; decide +kernel
  · have e : broadcastShape x.gshape y.gshape = .ok [0] := by rw [hx, hy]; decide +kernel
    unfold binaryND
    rw [e]
    dsimp only
    have la : (leadDims x [0].length).gshape = [1] := by show List.replicate (1 - x.gshape.length) 1 ++ x.gshape = _; rw [hx]; rfl
    have lb : (leadDims y [0].length).gshape = [0] := by show List.replicate (1 - y.gshape.length) 1 ++ y.gshape = _; rw [hy]; rfl
    have sb : (leadDims y [0].length).split = some 0 := by show y.split.map (· + (1 - y.gshape.length)) = _; rw [hs, hy]; rfl
    have sa : dominant (leadDims x [0].length) [0] = false := by
      have sx : (leadDims x [0].length).split = none ∨ (leadDims x [0].length).split = some 0 := by
        show x.split.map (· + (1 - x.gshape.length)) = _ ∨ x.split.map (· + (1 - x.gshape.length)) = _
        rw [hx]
        rcases hxs with h | h <;> rw [h]
        · exact .inl rfl
        · exact .inr rfl
      unfold dominant
      rcases sx with h | h <;> rw [h]
      dsimp only
      rw [la]; rfl
    unfold binaryAligned
    rw [if_neg (by rw [sa]; simp), if_pos (by unfold dominant; rw [sb]; dsimp only; rw [lb]; rfl)]
    have : sanitizeTo P (leadDims y [0].length) (leadDims x [0].length) = .error .valueError := by
      unfold sanitizeTo
      rw [sb]
      dsimp only
      rw [lb]
      unfold sanitizeND
      dsimp only
      rw [if_neg (by omega), la, if_neg (by simp), if_neg (by simp), if_pos (by simp)]
    rw [this]

/-- Likewise `broadcast_to` of a distributed array of one element to the empty shape raises ValueError. -/
theorem broadcast_to_empty_violated [AddZeroClass α] {P : Nat} (hP : 1 < P) {x : DND α} (hx : x.gshape = [1]) (hs : x.split = some 0) :
    IsBroadcast [x.gshape, [0]] [0] ∧ broadcastTo P x [0] = .error .valueError := by
  constructor
  · rw [hx, ← broadcast_shapes_spec]; decide +kernel
  · unfold broadcastTo
    have e : broadcastShape x.gshape [0] = .ok [0] := by rw [hx]; decide +kernel
    rw [e]
    dsimp only
    rw [if_neg (by rw [hs]; simp; omega), hs, hx]
    have e2 : sanitizeAxis [0].length ((some 0).map fun (s : Nat) => (s : Int) + (([0].length : Int) - ([1].length : Int))) = .ok (some 0) := by decide +kernel
    rw [e2]
    dsimp only
    unfold binaryOutND
    have e3 : broadcastShape (zerosND (α := α) P [0] (some 0)).gshape x.gshape = .ok [0] := by rw [hx]; show broadcastShape [0] [1] = _; decide +kernel
    rw [e3]
    dsimp only
    have lb : (leadDims x [0].length).gshape = [1] := by show List.replicate (1 - x.gshape.length) 1 ++ x.gshape = _; rw [hx]; rfl
    rw [if_neg (by show ¬ ([0] ≠ [0]); simp)]
    have e4 : binarySplit (leadDims (zerosND (α := α) P [0] (some 0)) [0].length) (leadDims x [0].length) [0] = some 0 := by
      unfold binarySplit
      rw [if_pos (by rfl)]; rfl
    rw [if_neg (by rw [e4]; show ¬ (some 0 ≠ some 0); simp)]
    have e5 : sanitizeTo P (zerosND (α := α) P [0] (some 0)) (leadDims (zerosND (α := α) P [0] (some 0)) [0].length) = .ok (leadDims (zerosND (α := α) P [0] (some 0)) [0].length) := by
      have : leadDims (zerosND (α := α) P [0] (some 0)) [0].length = zerosND P [0] (some 0) := by
        unfold leadDims zerosND
        simp only [List.length_cons, List.length_nil]
        congr 1
      rw [this]
      exact sanitizeTo_self rfl (by show 0 < 1; omega)
    have e6 : sanitizeTo P (zerosND (α := α) P [0] (some 0)) (leadDims x [0].length) = .error .valueError := by
      unfold sanitizeTo sanitizeND
      show (if P = 1 then _ else _) = _
      rw [if_neg (by omega)]
      dsimp only
      rw [lb, if_neg (by simp), if_neg (by intro h; have := h.2; revert this; show ¬ (0 > 1); omega), if_pos (by show ([1] : List Nat).getD 0 0 ≠ [0].getD 0 0; simp)]
    rw [e5, e6]

/-! ## The hypotheses can be met -/

/-- Addition of a 4 x 3 matrix split along its rows and a vector of length 3, distributed over 2 processes, is numpy's result; two matrices that are split along different axes are refused. -/
example (v : Nat → Int) (w u : Nat → Nat → Int) :
    (∃ out T, binaryND 2 (· + ·) (evenA 2 (matA 4 3 w) 0) (evenA 2 (vecA 3 v) 0) = .ok out ∧ IsElementwise (· + ·) (matA 4 3 w) (vecA 3 v) T ∧ Delivers 2 out T ∧ out.split = some 0) ∧
      binaryND 2 (· + ·) (evenA 2 (matA 4 3 w) 0) (evenA 2 (matA 4 3 u) 1) = .error .notImplemented := by
  have hb : IsBroadcast [(matA 4 3 w).shape, (vecA 3 v).shape] [4, 3] := by show IsBroadcast [[4, 3], [3]] _; rw [← broadcast_shapes_spec]; decide +kernel
  have hz : ∀ i, dimR [4, 3] i ≠ 0 := by
    intro i hi
    have : i = 0 ∨ i = 1 ∨ 2 ≤ i := by omega
    rcases this with rfl | rfl | h
    · cases hi
    · cases hi
    · unfold dimR at hi
      rw [List.getElem?_eq_none (by simpa using h)] at hi
      cases hi
  have hb2 : IsBroadcast [(matA 4 3 w).shape, (matA 4 3 u).shape] [4, 3] := by show IsBroadcast [[4, 3], [4, 3]] _; rw [← broadcast_shapes_spec]; decide +kernel
  have g1 := goodRep_even (P := 2) (by omega) (matA_local 4 3 w) (s := 0) (by show 0 < 2; omega)
  have g2 := goodRep_even (P := 2) (by omega) (vecA_local 3 v) (s := 0) (by show 0 < 1; omega)
  have g3 := goodRep_even (P := 2) (by omega) (matA_local 4 3 u) (s := 1) (by show 1 < 2; omega)
  constructor
  · obtain ⟨out, T, h1, h2, h3, h4, _⟩ := binary_nd_spec (by omega) (· + ·) g1.1 g2.1 g1.2 g2.2 hb (fun i hi => absurd hi (hz i)) (.inr fun s t hs ht => by
      have hs : some 0 = some s := hs
      have ht : some 1 = some t := ht
      cases hs; cases ht
      exact .inr (.inl ⟨rfl, by show 4 ≠ 1; omega⟩))
    exact ⟨out, T, h1, h2, h3, h4⟩
  · refine binary_nd_refused (· + ·) g1.1 g3.1 g1.2 g3.2 hb2 (fun i hi => absurd hi (hz i)) ?_
    rintro (h | h)
    · cases h
    · have e1 : ∀ u : Nat → Nat → Int, extentIn (matA 4 3 u) 2 0 = 4 := fun _ => rfl
      have e2 : ∀ u : Nat → Nat → Int, extentIn (matA 4 3 u) 2 1 = 3 := fun _ => rfl
      have := h 0 1 rfl rfl
      simp [e1, e2] at this

/-- `broadcast_to` the documentation's way: a vector of length 10 on 3 processes to the shape (5, 10). -/
example (v : Nat → Int) : ∃ out T, broadcastTo 3 (evenA 3 (vecA 10 v) 0) [5, 10] = .ok out ∧ IsBroadcastTo (vecA 10 v) [5, 10] T ∧ Delivers 3 out T ∧ out.split = some 1 := by
  have g := goodRep_even (P := 3) (by omega) (vecA_local 10 v) (s := 0) (by show 0 < 1; omega)
  obtain ⟨out, T, h1, h2, h3, h4, _⟩ := broadcast_to_spec (shape := [5, 10]) (by omega) g.1 g.2 (by show IsBroadcast [[10], [5, 10]] _; rw [← broadcast_shapes_spec]; decide +kernel) (by
    right; right
    intro i hi
    have : i = 0 ∨ i = 1 ∨ 2 ≤ i := by omega
    rcases this with rfl | rfl | h
    · cases hi
    · cases hi
    · exfalso
      unfold dimR at hi
      rw [List.getElem?_eq_none (by simpa using h)] at hi
      cases hi)
  exact ⟨out, T, h1, h2, h3, h4⟩

/-- Three arrays: a distributed matrix, a row and a replicated column. -/
example (u w z : Nat → Nat → Int) : ∃ out, broadcastArrays 3 (evenA 3 (matA 7 4 u) 0) [evenA 3 (matA 1 4 w) 1, wholeA (matA 7 1 z)] = .ok out ∧
    DeliversAll 3 out [matA 7 4 u, matA 1 4 w, matA 7 1 z] [7, 4] (some 0) := by
  obtain ⟨out, h1, h2, _⟩ := broadcast_arrays_partial (P := 3) (c := [7, 4]) (by omega)
    (.cons (goodRep_even (by omega) (matA_local 7 4 u) (s := 0) (by show 0 < 2; omega)) (.cons (goodRep_even (by omega) (matA_local 1 4 w) (s := 1) (by show 1 < 2; omega))
      (.cons (goodRep_whole (matA_local 7 1 z) 3) .nil)))
    (by show IsBroadcast [[7, 4], [1, 4], [7, 1]] _; rw [← broadcast_shapes_spec]; decide +kernel)
    (.inr (.inr ⟨0, rfl, by simp [matA], .cons (.inr ⟨rfl, by show 1 < 7; omega⟩) (.cons (.inl ⟨rfl, .inl rfl⟩) .nil)⟩))
  exact ⟨out, h1, h2⟩

end Heat
