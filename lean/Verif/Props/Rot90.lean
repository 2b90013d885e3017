import Verif.Model.Rot90
import Verif.Props.Reshape
/-!
# C161: flipping and rotating n-dimensional arrays
-/
namespace Heat
open Heat.Spec
variable {α : Type}

namespace Spec

/-- `T` has the shape and the elements of `G`. -/
def SameArr (G T : NArr α) : Prop := T.ndim = G.ndim ∧ (∀ k < G.ndim, T.dim k = G.dim k) ∧ ∀ idx, InB G idx → T.get idx = G.get idx

/-- `T` is `G` with the order of the elements reversed along `axes` (numpy.flip). -/
def IsFlip (G : NArr α) (axes : List Nat) (T : NArr α) : Prop :=
  T.ndim = G.ndim ∧ (∀ k < G.ndim, T.dim k = G.dim k) ∧
  ∀ idx, InB G idx → T.get (fun k => if k ∈ axes then G.dim k - 1 - idx k else idx k) = G.get idx

/-- Where one quarter turn in the plane of the axes `a`, `b` puts the element at `idx`: the last column (axis `b`) becomes the first row
(axis `a`), and the rows become the columns. -/
def turn (G : NArr α) (a b : Nat) (idx : Nat → Nat) : Nat → Nat :=
  fun k => if k = a then G.dim b - 1 - idx b else if k = b then idx a else idx k

/-- `T` is `G` turned once in the plane of the axes `a`, `b`. -/
def IsRot (a b : Nat) (G T : NArr α) : Prop :=
  T.ndim = G.ndim ∧ T.dim a = G.dim b ∧ T.dim b = G.dim a ∧ (∀ k < G.ndim, k ≠ a → k ≠ b → T.dim k = G.dim k) ∧
  ∀ idx, InB G idx → T.get (turn G a b idx) = G.get idx

/-- `T` is `G` turned `n` times. -/
def IsRotN (a b : Nat) : Nat → NArr α → NArr α → Prop
  | 0, G, T => SameArr G T
  | n + 1, G, T => ∃ U, IsRotN a b n G U ∧ IsRot a b U T

end Spec

/-! ## flip -/

theorem inB_flip {G : NArr α} {axes : List Nat} {idx : Nat → Nat} (h : InB G idx) :
    InB G (fun k => if k ∈ axes then G.dim k - 1 - idx k else idx k) := by
  intro k hk
  have := h k hk
  dsimp only
  split <;> omega

theorem flip_flip_idx {G : NArr α} {axes : List Nat} {idx : Nat → Nat} (h : InB G idx) (k : Nat) (hk : k < G.ndim) :
    (if k ∈ axes then G.dim k - 1 - (if k ∈ axes then G.dim k - 1 - idx k else idx k) else (if k ∈ axes then G.dim k - 1 - idx k else idx k)) = idx k := by
  have := h k hk
  split <;> omega

theorem flip_local {G : NArr α} (hG : Local G) (axes : List Nat) : Local (G.flip axes) := by
  intro i j hij
  apply hG
  intro k hk
  rw [hij k hk]

theorem flip_isFlip {G : NArr α} (hG : Local G) (axes : List Nat) : IsFlip G axes (G.flip axes) := by
  refine ⟨rfl, fun _ _ => rfl, ?_⟩
  intro idx h
  apply hG
  intro k hk
  exact flip_flip_idx h k hk

theorem axisStart_flip (loc : Nat → NArr α) (l : List Nat) (s r : Nat) : axisStart (fun q => (loc q).flip l) s r = axisStart loc s r := rfl

/-- Parts in reversed order: what lies before rank `r` is what lay behind rank `P-1-r`. -/
theorem axisStart_mirror (loc : Nat → NArr α) (s P : Nat) (l : List Nat) : ∀ r ≤ P,
    axisStart (fun q => (loc (P - 1 - q)).flip l) s r + axisStart loc s (P - r) = axisStart loc s P := by
  intro r
  induction r with
  | zero => intro _; simp [axisStart]
  | succ r ih =>
    intro hr
    have h := ih (by omega)
    rw [axisStart_succ]
    have e : P - r = (P - (r + 1)) + 1 := by omega
    rw [e, axisStart_succ] at h
    have e2 : P - 1 - r = P - (r + 1) := by omega
    show _ + (loc (P - 1 - r)).dim s + _ = _
    rw [e2]; omega

theorem rep_flip_away {P : Nat} {x : DND α} {G : NArr α} (h : Rep P x G) (l : List Nat) (hs : x.split = none ∨ ∃ s, x.split = some s ∧ (s ∉ l ∨ P ≤ 1))
    (b : Option Bool) : Rep P ⟨x.gshape, x.split, fun r => (x.loc r).flip l, b⟩ (G.flip l) := by
  obtain ⟨hG, h1, h2, h3, h4⟩ := h
  refine ⟨flip_local hG l, h1, h2, h3, ?_⟩
  rcases hs with hs | ⟨s, hs, hsl⟩
  · rw [hs] at h4 ⊢
    intro r hr
    obtain ⟨d, g⟩ := h4 r hr
    refine ⟨d, ?_⟩
    intro idx hin
    show (x.loc r).get _ = G.get _
    rw [g _ (inB_flip hin)]
    apply hG
    intro k hk
    rw [d k hk]
  · rw [hs] at h4 ⊢
    obtain ⟨hs1, hs2, hs3⟩ := h4
    refine ⟨hs1, hs2, ?_⟩
    intro r hr
    obtain ⟨d, g⟩ := hs3 r hr
    refine ⟨d, ?_⟩
    intro idx hin
    show (x.loc r).get _ = G.get _
    rw [g _ (inB_flip hin)]
    apply hG
    intro k hk
    show shift s (axisStart x.loc s r) _ k = if k ∈ l then G.dim k - 1 - shift s (axisStart x.loc s r) idx k else _
    unfold shift
    by_cases hks : k = s
    · subst hks
      simp only [if_true]
      by_cases hkl : k ∈ l
      · rcases hsl with hsl | hP
        · exact absurd hkl hsl
        · have hr0 : r = 0 := by omega
          have hP1 : P = 1 := by omega
          subst hr0; subst hP1
          simp only [hkl, if_true]
          rw [axisStart_succ] at hs2
          have h0 : axisStart x.loc k 0 = 0 := rfl
          rw [h0] at hs2 ⊢
          have hd : (x.loc 0).dim k = G.dim k := by omega
          rw [hd]; omega
      · simp only [hkl, if_false, if_true]; rfl
    · simp only [hks, if_false]
      rw [d k hk hks]

theorem rep_flip_split {P : Nat} {x : DND α} {G : NArr α} (h : Rep P x G) (l : List Nat) (s : Nat) (hs : x.split = some s) (hsl : s ∈ l)
    (b : Option Bool) : Rep P ⟨x.gshape, some s, fun r => (x.loc (P - 1 - r)).flip l, b⟩ (G.flip l) := by
  obtain ⟨hG, h1, h2, h3, h4⟩ := h
  rw [hs] at h4
  obtain ⟨hs1, hs2, hs3⟩ := h4
  have hm := axisStart_mirror x.loc s P l
  refine ⟨flip_local hG l, h1, h2, fun r hr => h3 _ (by omega), hs1, ?_, ?_⟩
  · have := hm P (Nat.le_refl _)
    rw [Nat.sub_self] at this
    have h0 : axisStart x.loc s 0 = 0 := rfl
    show axisStart (fun q => (x.loc (P - 1 - q)).flip l) s P = G.dim s
    omega
  · intro r hr
    obtain ⟨d, g⟩ := hs3 (P - 1 - r) (by omega)
    refine ⟨d, ?_⟩
    intro idx hin
    show (x.loc (P - 1 - r)).get _ = G.get _
    rw [g _ (inB_flip hin)]
    apply hG
    intro k hk
    show shift s (axisStart x.loc s (P - 1 - r)) _ k = if k ∈ l then G.dim k - 1 - shift s (axisStart (fun q => (x.loc (P - 1 - q)).flip l) s r) idx k else shift s (axisStart (fun q => (x.loc (P - 1 - q)).flip l) s r) idx k
    unfold shift
    by_cases hks : k = s
    · subst hks
      simp only [if_true, hsl]
      have e1 := hm r (by omega)
      have e2 : P - r = (P - 1 - r) + 1 := by omega
      rw [e2, axisStart_succ] at e1
      have e3 : idx k < (x.loc (P - 1 - r)).dim k := hin k (by show k < (x.loc (P - 1 - r)).ndim; rw [h3 _ (by omega)]; exact hk)
      omega
    · simp only [hks, if_false]
      rw [d k hk hks]

theorem rep_balanceND {P : Nat} (hP : 0 < P) {x : DND α} {G : NArr α} (h : Rep P x G) (s : Nat) (hs : x.split = some s) :
    Rep P (balanceND P x s) G ∧ ∀ r < P, ((balanceND P x s).loc r).dim s = evenSize (G.dim s) P r := by
  have h' := rep_resplitNone P x G h
  have hn : (resplitNone P x).split = none := by unfold resplitNone; rw [hs]
  have hg : (resplitNone P x).gshape = x.gshape := by unfold resplitNone; rw [hs]
  have hs1 : s < G.ndim := by
    obtain ⟨_, _, _, _, h4⟩ := h
    rw [hs] at h4; exact h4.1
  have := rep_slices hP h' hn s hs1 (some true)
  rw [hg] at this
  refine ⟨this, ?_⟩
  intro r hr
  show (if s = s then _ else _) = _
  rw [if_pos rfl, chunkRange_len, h.2.2.1 s hs1]

/-- **C161, flip.** For every array, every distribution (also uneven ones and empty parts), every number of processes and every list of distinct
axes in range (negative ones count from the end): the result represents the array with the elements reversed along these axes; it is split
along the same axis, and evenly if that axis is flipped on several processes. -/
theorem flip_nd_spec {P : Nat} (hP : 0 < P) (x : DND α) (G : NArr α) (h : Rep P x G) (h0 : G.ndim ≠ 0) (axes : List Int)
    (hr : ∀ a ∈ axes, -(G.ndim : Int) ≤ a ∧ a < G.ndim) (hn : (axes.map fun (a : Int) => (a % (G.ndim : Int)).toNat).Nodup) :
    ∃ y T, flipND P x axes = .ok y ∧ IsFlip G (axes.map fun (a : Int) => (a % (G.ndim : Int)).toNat) T ∧ Rep P y T ∧ y.split = x.split ∧
      (1 < P → ∀ s, x.split = some s → s ∈ axes.map (fun (a : Int) => (a % (G.ndim : Int)).toNat) → ∀ r < P, (y.loc r).dim s = evenSize (G.dim s) P r) := by
  have hlen : x.gshape.length = G.ndim := h.2.1
  unfold flipND
  rw [hlen, sanitizeAxes_complete h0 hr]
  dsimp only
  rw [if_neg (fun hc => hc hn)]
  have hF := flip_isFlip h.1 (axes.map fun (a : Int) => (a % (G.ndim : Int)).toNat)
  cases hs : x.split with
  | none =>
    dsimp only
    have := rep_flip_away h (axes.map fun (a : Int) => (a % (G.ndim : Int)).toNat) (Or.inl hs) none
    rw [hs] at this
    exact ⟨_, _, rfl, hF, this, rfl, fun _ s h => by cases h⟩
  | some s =>
    dsimp only
    by_cases hc : P ≤ 1 ∨ s ∉ axes.map fun (a : Int) => (a % (G.ndim : Int)).toNat
    · rw [if_pos hc]
      have := rep_flip_away h (axes.map fun (a : Int) => (a % (G.ndim : Int)).toNat) (Or.inr ⟨s, hs, hc.symm⟩) none
      rw [hs] at this
      refine ⟨_, _, rfl, hF, this, rfl, ?_⟩
      intro hP1 s' he hm
      cases he
      rcases hc with hc | hc
      · omega
      · exact absurd hm hc
    · rw [if_neg hc]
      have hc' : s ∈ axes.map fun (a : Int) => (a % (G.ndim : Int)).toNat := by
        by_cases hm : s ∈ axes.map fun (a : Int) => (a % (G.ndim : Int)).toNat
        · exact hm
        · exact absurd (Or.inr hm) hc
      have h5 := rep_flip_split h _ s hs hc' none
      obtain ⟨r1, r2⟩ := rep_balanceND hP h5 s rfl
      refine ⟨_, _, rfl, hF, r1, rfl, ?_⟩
      intro _ s' he _
      cases he
      exact r2

/-! ## rotations -/

namespace Spec

/-- Position of an element after `n` quarter turns (closed form). -/
def turnN (G : NArr α) (a b n : Nat) (idx : Nat → Nat) : Nat → Nat := fun k =>
  if k = a then (match n % 4 with | 0 => idx a | 1 => G.dim b - 1 - idx b | 2 => G.dim a - 1 - idx a | _ => idx b)
  else if k = b then (match n % 4 with | 0 => idx b | 1 => idx a | 2 => G.dim b - 1 - idx b | _ => G.dim a - 1 - idx a)
  else idx k

/-- Extents after `n` quarter turns. -/
def turnDim (G : NArr α) (a b n : Nat) (k : Nat) : Nat :=
  if n % 2 = 0 then G.dim k else if k = a then G.dim b else if k = b then G.dim a else G.dim k

end Spec

/-- The closed form of `n` turns is what iterating one turn gives. -/
theorem isRotN_of_closed {a b : Nat} (hab : a ≠ b) {G : NArr α} (ha : a < G.ndim) (hb : b < G.ndim) : ∀ (n : Nat) (T : NArr α), Local T → T.ndim = G.ndim →
    (∀ k < G.ndim, T.dim k = turnDim G a b n k) → (∀ idx, InB G idx → T.get (turnN G a b n idx) = G.get idx) → IsRotN a b n G T := by
  intro n
  induction n with
  | zero =>
    intro T hT h1 h2 h3
    refine ⟨h1, h2, ?_⟩
    intro idx hin
    rw [← h3 idx hin]
    apply hT
    intro k _
    show idx k = if k = a then idx a else if k = b then idx b else idx k
    by_cases hka : k = a
    · rw [if_pos hka, hka]
    · by_cases hkb : k = b
      · rw [if_neg hka, if_pos hkb, hkb]
      · rw [if_neg hka, if_neg hkb]
  | succ n ih =>
    intro T hT h1 h2 h3
    have hda : T.dim a = turnDim G a b n b := by
      rw [h2 a ha]; unfold turnDim
      have : b ≠ a := fun h => hab h.symm
      rcases Nat.mod_two_eq_zero_or_one n with h | h
      · rw [if_neg (by omega), if_pos rfl, if_pos h]
      · rw [if_pos (by omega), if_neg (by omega), if_neg this, if_pos rfl]
    have hdb : T.dim b = turnDim G a b n a := by
      rw [h2 b hb]; unfold turnDim
      have : b ≠ a := fun h => hab h.symm
      rcases Nat.mod_two_eq_zero_or_one n with h | h
      · rw [if_neg (by omega), if_neg this, if_pos rfl, if_pos h]
      · rw [if_pos (by omega), if_neg (by omega), if_pos rfl]
    -- the array before the last turn
    let U : NArr α := ⟨T.ndim, fun k => if k = a then T.dim b else if k = b then T.dim a else T.dim k,
      fun idx => T.get fun k => if k = a then T.dim a - 1 - idx b else if k = b then idx a else idx k⟩
    have hUa : U.dim a = T.dim b := if_pos rfl
    have hUb : U.dim b = T.dim a := by show (if b = a then _ else if b = b then _ else _) = _; rw [if_neg (fun h => hab h.symm), if_pos rfl]
    refine ⟨U, ih U ?_ h1 ?_ ?_, rfl, hUb.symm, hUa.symm, ?_, ?_⟩
    · intro i j hij
      apply hT
      intro k hk
      rw [hij b (by show b < T.ndim; omega), hij a (by show a < T.ndim; omega), hij k hk]
    · intro k hk
      by_cases hka : k = a
      · rw [hka, hUa, hdb]
      · by_cases hkb : k = b
        · rw [hkb, hUb, hda]
        · show (if k = a then _ else if k = b then _ else T.dim k) = _
          rw [if_neg hka, if_neg hkb, h2 k hk]
          unfold turnDim
          rw [if_neg hka, if_neg hkb]
          simp only [if_neg hkb, ite_self]
    · intro idx hin
      rw [← h3 idx hin]
      show T.get _ = T.get _
      apply hT
      intro k hk
      have ia := hin a ha
      have ib := hin b hb
      have hba : ¬ b = a := fun h => hab h.symm
      by_cases hka : k = a
      · subst hka
        rw [if_pos rfl, hda]
        unfold turnN turnDim
        simp only [if_neg hba, if_true]
        have h4 : n % 4 < 4 := Nat.mod_lt _ (by omega)
        have h5 : n % 4 = 0 ∨ n % 4 = 1 ∨ n % 4 = 2 ∨ n % 4 = 3 := by omega
        rcases h5 with h5 | h5 | h5 | h5
        · have h6 : (n + 1) % 4 = 1 := by omega
          rw [h5, h6, if_pos (by omega)]; rfl
        · have h6 : (n + 1) % 4 = 2 := by omega
          rw [h5, h6, if_neg (by omega)]; rfl
        · have h6 : (n + 1) % 4 = 3 := by omega
          rw [h5, h6, if_pos (by omega)]; show G.dim b - 1 - (G.dim b - 1 - idx b) = idx b; omega
        · have h6 : (n + 1) % 4 = 0 := by omega
          rw [h5, h6, if_neg (by omega)]; show G.dim k - 1 - (G.dim k - 1 - idx k) = idx k; omega
      · by_cases hkb : k = b
        · subst hkb
          rw [if_neg hka, if_pos rfl]
          unfold turnN
          simp only [if_true, if_neg hka]
          have h4 : n % 4 < 4 := Nat.mod_lt _ (by omega)
          have h5 : n % 4 = 0 ∨ n % 4 = 1 ∨ n % 4 = 2 ∨ n % 4 = 3 := by omega
          rcases h5 with h5 | h5 | h5 | h5
          · have h6 : (n + 1) % 4 = 1 := by omega
            rw [h5, h6]; rfl
          · have h6 : (n + 1) % 4 = 2 := by omega
            rw [h5, h6]; rfl
          · have h6 : (n + 1) % 4 = 3 := by omega
            rw [h5, h6]; rfl
          · have h6 : (n + 1) % 4 = 0 := by omega
            rw [h5, h6]; rfl
        · rw [if_neg hka, if_neg hkb]
          unfold turnN
          simp only [if_neg hka, if_neg hkb]
    · intro k hk hka hkb
      show _ = (if k = a then _ else if k = b then _ else T.dim k)
      rw [if_neg hka, if_neg hkb]
    · intro idx hin
      show T.get _ = T.get _
      apply hT
      intro k hk
      unfold turn
      rw [hUb]

/-- Shape and elements after `n` turns, in closed form. -/
def Turned (G : NArr α) (a b n : Nat) (T : NArr α) : Prop :=
  T.ndim = G.ndim ∧ (∀ k < G.ndim, T.dim k = turnDim G a b n k) ∧ ∀ idx, InB G idx → T.get (turnN G a b n idx) = G.get idx

/-- Order of the axes with `i` and `j` exchanged. -/
def swapAx (i j k : Nat) : Nat := if k = j then i else if k = i then j else k

theorem getD_swapOrder {n i j k : Nat} (hi : i < n) (hj : j < n) (hk : k < n) : (swapOrder n i j).getD k 0 = swapAx i j k := by
  rw [List.getD_eq_getElem?_getD, swapOrder_get n i j k hi hj, if_pos hk]; rfl

theorem swapAx_lt {n i j k : Nat} (hi : i < n) (hj : j < n) (hk : k < n) : swapAx i j k < n := by
  unfold swapAx; split
  · exact hi
  · split
    · exact hj
    · exact hk

theorem swapAx_left {i j : Nat} (h : i ≠ j) : swapAx i j i = j := by unfold swapAx; rw [if_neg h, if_pos rfl]
theorem swapAx_right {i j : Nat} : swapAx i j j = i := if_pos rfl
theorem swapAx_other {i j k : Nat} (h1 : k ≠ i) (h2 : k ≠ j) : swapAx i j k = k := by unfold swapAx; rw [if_neg h2, if_neg h1]

section
variable {G F T : NArr α} {i j : Nat} (hij : i ≠ j) (hi : i < G.ndim) (hj : j < G.ndim) (hT : Local T)
include hij hi hj hT

/-- A flip of the second axis, then the axes exchanged: one turn. -/
theorem turned_one (h1 : IsFlip G [j] F) (h2 : IsTranspose F (fun k => (swapOrder G.ndim i j).getD k 0) T) : Turned G i j 1 T := by
  obtain ⟨a1, a2, a3⟩ := h1
  obtain ⟨b1, b2, b3⟩ := h2
  try dsimp only at b2 b3
  refine ⟨by omega, ?_, ?_⟩
  · intro k hk
    rw [b2 k (by omega), getD_swapOrder hi hj hk, a2 _ (swapAx_lt hi hj hk)]
    unfold turnDim
    rw [if_neg (by decide)]
    by_cases hki : k = i
    · subst hki; rw [swapAx_left hij, if_pos rfl]
    · by_cases hkj : k = j
      · subst hkj; rw [swapAx_right, if_neg hki, if_pos rfl]
      · rw [swapAx_other hki hkj, if_neg hki, if_neg hkj]
  · intro idx hin
    rw [← a3 idx hin, ← b3]
    apply hT
    intro k hk
    have hk' : k < G.ndim := by omega
    rw [getD_swapOrder hi hj hk']
    unfold turnN
    by_cases hki : k = i
    · subst hki; rw [swapAx_left hij, if_pos rfl, if_pos (by simp)]; rfl
    · by_cases hkj : k = j
      · subst hkj; rw [swapAx_right, if_neg hki, if_pos rfl, if_neg (by simp [hij])]; rfl
      · rw [swapAx_other hki hkj, if_neg hki, if_neg hkj, if_neg (by simp [hkj])]

/-- A flip of the first axis, then the axes exchanged: three turns (torch). -/
theorem turned_three' (h1 : IsFlip G [i] F) (h2 : IsTranspose F (fun k => (swapOrder G.ndim i j).getD k 0) T) : Turned G i j 3 T := by
  obtain ⟨a1, a2, a3⟩ := h1
  obtain ⟨b1, b2, b3⟩ := h2
  try dsimp only at b2 b3
  refine ⟨by omega, ?_, ?_⟩
  · intro k hk
    rw [b2 k (by omega), getD_swapOrder hi hj hk, a2 _ (swapAx_lt hi hj hk)]
    unfold turnDim
    rw [if_neg (by decide)]
    by_cases hki : k = i
    · subst hki; rw [swapAx_left hij, if_pos rfl]
    · by_cases hkj : k = j
      · subst hkj; rw [swapAx_right, if_neg hki, if_pos rfl]
      · rw [swapAx_other hki hkj, if_neg hki, if_neg hkj]
  · intro idx hin
    rw [← a3 idx hin, ← b3]
    apply hT
    intro k hk
    have hk' : k < G.ndim := by omega
    rw [getD_swapOrder hi hj hk']
    unfold turnN
    by_cases hki : k = i
    · subst hki; rw [swapAx_left hij, if_pos rfl, if_neg (by simp [hij.symm])]; rfl
    · by_cases hkj : k = j
      · subst hkj; rw [swapAx_right, if_neg hki, if_pos rfl, if_pos (by simp)]; rfl
      · rw [swapAx_other hki hkj, if_neg hki, if_neg hkj, if_neg (by simp [hki])]

/-- The axes exchanged, then a flip of the second axis: three turns (Heat). -/
theorem turned_three (h1 : IsTranspose G (fun k => (swapOrder G.ndim i j).getD k 0) F) (h2 : IsFlip F [j] T) : Turned G i j 3 T := by
  obtain ⟨a1, a2, a3⟩ := h1
  try dsimp only at a2 a3
  obtain ⟨b1, b2, b3⟩ := h2
  try dsimp only at b2 b3
  refine ⟨by omega, ?_, ?_⟩
  · intro k hk
    rw [b2 k (by omega), a2 k hk, getD_swapOrder hi hj hk]
    unfold turnDim
    rw [if_neg (by decide)]
    by_cases hki : k = i
    · subst hki; rw [swapAx_left hij, if_pos rfl]
    · by_cases hkj : k = j
      · subst hkj; rw [swapAx_right, if_neg hki, if_pos rfl]
      · rw [swapAx_other hki hkj, if_neg hki, if_neg hkj]
  · intro idx hin
    rw [← a3 idx, ← b3]
    · apply hT
      intro k hk
      have hk' : k < G.ndim := by omega
      rw [getD_swapOrder hi hj hk', a2 k hk', getD_swapOrder hi hj hk']
      unfold turnN
      by_cases hki : k = i
      · subst hki; rw [swapAx_left hij, if_pos rfl, if_neg (by simp [hij])]; rfl
      · by_cases hkj : k = j
        · subst hkj; rw [swapAx_right, if_neg hki, if_pos rfl, if_pos (by simp)]; rfl
        · rw [swapAx_other hki hkj, if_neg hki, if_neg hkj, if_neg (by simp [hkj])]
    · intro k hk
      have hk' : k < G.ndim := by omega
      dsimp only
      rw [a2 k hk', getD_swapOrder hi hj hk']
      exact hin _ (swapAx_lt hi hj hk')

/-- Two flips: two turns. -/
theorem turned_two (h1 : IsFlip G [i] F) (h2 : IsFlip F [j] T) : Turned G i j 2 T := by
  obtain ⟨a1, a2, a3⟩ := h1
  obtain ⟨b1, b2, b3⟩ := h2
  try dsimp only at b2 b3
  refine ⟨by omega, ?_, ?_⟩
  · intro k hk
    rw [b2 k (by omega), a2 k hk]; rfl
  · intro idx hin
    rw [← a3 idx hin, ← b3]
    · apply hT
      intro k hk
      have hk' : k < G.ndim := by omega
      rw [a2 k hk']
      unfold turnN
      by_cases hki : k = i
      · subst hki; rw [if_pos rfl, if_neg (by simp [hij]), if_pos (by simp)]; rfl
      · by_cases hkj : k = j
        · subst hkj; rw [if_neg hki, if_pos rfl, if_pos (by simp), if_neg (by simp [hki])]; rfl
        · rw [if_neg hki, if_neg hkj, if_neg (by simp [hkj]), if_neg (by simp [hki])]
    · intro k hk
      have hk' : k < G.ndim := by omega
      have := hin k hk'
      dsimp only
      rw [a2 k hk']
      split <;> omega

omit hi hj in
theorem turned_two' (h1 : IsFlip G [i, j] T) : Turned G i j 2 T := by
  obtain ⟨a1, a2, a3⟩ := h1
  refine ⟨a1, a2, ?_⟩
  intro idx hin
  rw [← a3 idx hin]
  apply hT
  intro k hk
  unfold turnN
  by_cases hki : k = i
  · subst hki; rw [if_pos rfl, if_pos (by simp)]; rfl
  · by_cases hkj : k = j
    · subst hkj; rw [if_neg hki, if_pos rfl, if_pos (by simp)]; rfl
    · rw [if_neg hki, if_neg hkj, if_neg (by simp [hki, hkj])]

omit hi hj hij in
theorem turned_zero (h1 : SameArr G T) : Turned G i j 0 T := by
  obtain ⟨a1, a2, a3⟩ := h1
  refine ⟨a1, a2, ?_⟩
  intro idx hin
  rw [← a3 idx hin]
  apply hT
  intro k hk
  show (if k = i then idx i else if k = j then idx j else idx k) = idx k
  by_cases hki : k = i
  · rw [if_pos hki, hki]
  · by_cases hkj : k = j
    · rw [if_neg hki, if_pos hkj, hkj]
    · rw [if_neg hki, if_neg hkj]

/-- The closed form depends on the number of turns modulo 4. -/
theorem rotN_of_turned {m : Nat} (h : Turned G i j m T) (n : Nat) (hn : n % 4 = m % 4) : IsRotN i j n G T := by
  obtain ⟨a1, a2, a3⟩ := h
  refine isRotN_of_closed hij hi hj n T hT a1 ?_ ?_
  · intro k hk
    rw [a2 k hk]; unfold turnDim
    have : n % 2 = m % 2 := by omega
    rw [this]
  · intro idx hin
    rw [← a3 idx hin]
    unfold turnN
    rw [hn]

end

/-- The axis in range with the same remainder. -/
def normAx (n : Nat) (a : Int) : Nat := (a % (n : Int)).toNat

theorem normAx_lt {n : Nat} {a : Int} (h : -(n : Int) ≤ a ∧ a < n) : normAx n a < n := by
  have hpos : (0 : Int) < n := by omega
  have h1 := Int.emod_nonneg a (show (n : Int) ≠ 0 by omega)
  have h2 := Int.emod_lt_of_pos a hpos
  unfold normAx; omega

/-- The checks of `rot90` accept exactly two different axes. -/
theorem normAx_ne {n : Nat} {a b : Int} (ha : -(n : Int) ≤ a ∧ a < n) (hb : -(n : Int) ≤ b ∧ b < n) :
    normAx n a ≠ normAx n b ↔ ¬ (a = b ∨ ((a - b).natAbs : Int) = n) := by
  have hpos : (0 : Int) < n := by omega
  have ea : a % (n : Int) = if a < 0 then a + n else a := by
    split
    · rw [← Int.add_emod_right, Int.emod_eq_of_lt (by omega) (by omega)]
    · exact Int.emod_eq_of_lt (by omega) (by omega)
  have eb : b % (n : Int) = if b < 0 then b + n else b := by
    split
    · rw [← Int.add_emod_right, Int.emod_eq_of_lt (by omega) (by omega)]
    · exact Int.emod_eq_of_lt (by omega) (by omega)
  unfold normAx
  rw [ea, eb]
  split <;> split <;> omega

/-- The local rotation of replicated data. -/
theorem rep_rot_local {P : Nat} (hP : 0 < P) {x : DND α} {G : NArr α} (h : Rep P x G) (hs : x.split = none) (k : Int) {i j : Nat} (hij : i ≠ j)
    (hi : i < G.ndim) (hj : j < G.ndim) :
    ∃ T, Turned G i j (k % 4).toNat T ∧ Rep P ⟨((x.loc 0).rot90 k i j).shape, none, fun r => (x.loc r).rot90 k i j, some true⟩ T := by
  have hm : k % 4 = 0 ∨ k % 4 = 1 ∨ k % 4 = 2 ∨ k % 4 = 3 := by omega
  have hnd : ∀ r < P, (x.loc r).ndim = G.ndim := h.2.2.2.1
  have hdim : ∀ r < P, ∀ k < G.ndim, (x.loc r).dim k = G.dim k := by
    have := h.2.2.2.2; rw [hs] at this; exact fun r hr => (this r hr).1
  -- the declared shape is the one of every part
  have key : ∀ {T : NArr α} (y : DND α), Rep P y T → y.split = none → (∀ r < P, (x.loc r).rot90 k i j = y.loc r) →
      Rep P ⟨((x.loc 0).rot90 k i j).shape, none, fun r => (x.loc r).rot90 k i j, some true⟩ T := by
    intro T y hy hys hyl
    obtain ⟨c0, c1, c2, c3, c4⟩ := hy
    rw [hys] at c4
    have c4' : ∀ r < P, (∀ k < T.ndim, (y.loc r).dim k = T.dim k) ∧ ∀ idx, InB (y.loc r) idx → (y.loc r).get idx = T.get idx := c4
    refine ⟨c0, ?_, ?_, ?_, ?_⟩
    · show ((x.loc 0).rot90 k i j).shape.length = T.ndim
      rw [hyl 0 hP, shape_length, c3 0 hP]
    · intro q hq
      show ((x.loc 0).rot90 k i j).shape.getD q 0 = T.dim q
      rw [hyl 0 hP, ← (c4' 0 hP).1 q hq]
      unfold NArr.shape
      rw [List.getD_eq_getElem?_getD, List.getElem?_map, List.getElem?_range (by rw [c3 0 hP]; exact hq)]; rfl
    · intro r hr
      show ((x.loc r).rot90 k i j).ndim = T.ndim
      rw [hyl r hr, c3 r hr]
    · intro r hr
      show (∀ q < T.ndim, ((x.loc r).rot90 k i j).dim q = T.dim q) ∧ ∀ idx, InB ((x.loc r).rot90 k i j) idx → ((x.loc r).rot90 k i j).get idx = T.get idx
      rw [hyl r hr]
      exact c4' r hr
  have hperm := swapOrder_perm G.ndim i j hi hj
  have hpn : (swapOrder G.ndim i j).Nodup := hperm.nodup_iff.2 List.nodup_range
  have hpl : (swapOrder G.ndim i j).length = G.ndim := by rw [hperm.length_eq]; simp
  have hplt : ∀ a ∈ swapOrder G.ndim i j, a < G.ndim := fun a ha => List.mem_range.1 (hperm.mem_iff.1 ha)
  rcases hm with hm | hm | hm | hm
  · refine ⟨G, ?_, ?_⟩
    · rw [hm]; exact turned_zero h.1 ⟨rfl, fun _ _ => rfl, fun _ _ => rfl⟩
    · refine key x h hs ?_
      intro r _
      unfold NArr.rot90
      rw [if_neg (by omega), if_neg (by omega), if_neg (by omega)]
  · have h1 := rep_flip_away h [j] (Or.inl hs) none
    rw [hs] at h1
    obtain ⟨T, hT, hR⟩ := rep_permute P _ _ h1 (swapOrder G.ndim i j) hpn hpl hplt none rfl none
    refine ⟨T, ?_, key _ hR rfl ?_⟩
    · rw [hm]; exact turned_one hij hi hj hR.1 (flip_isFlip h.1 _) hT
    · intro r hr
      unfold NArr.rot90
      rw [if_pos hm, hnd r hr]
  · have h1 := rep_flip_away h [i, j] (Or.inl hs) none
    rw [hs] at h1
    refine ⟨_, ?_, key _ h1 rfl ?_⟩
    · rw [hm]; exact turned_two' hij h1.1 (flip_isFlip h.1 _)
    · intro r hr
      unfold NArr.rot90
      rw [if_neg (by omega), if_pos hm]
  · have h1 := rep_flip_away h [i] (Or.inl hs) none
    rw [hs] at h1
    obtain ⟨T, hT, hR⟩ := rep_permute P _ _ h1 (swapOrder G.ndim i j) hpn hpl hplt none rfl none
    refine ⟨T, ?_, key _ hR rfl ?_⟩
    · rw [hm]; exact turned_three' hij hi hj hR.1 (flip_isFlip h.1 _) hT
    · intro r hr
      unfold NArr.rot90
      rw [if_neg (by omega), if_neg (by omega), if_pos hm, hnd r hr]

theorem flip_one {P : Nat} (hP : 0 < P) (x : DND α) (G : NArr α) (h : Rep P x G) (a : Int) (ha : -(G.ndim : Int) ≤ a ∧ a < G.ndim) :
    ∃ y T, flipND P x [a] = .ok y ∧ IsFlip G [normAx G.ndim a] T ∧ Rep P y T ∧ y.split = x.split := by
  obtain ⟨y, T, e, hF, hR, hs, _⟩ := flip_nd_spec hP x G h (by omega) [a] (by simpa using ha) (by simp)
  exact ⟨y, T, e, hF, hR, hs⟩

/-- **C161, rot90.** For every array, every distribution, every number of processes, every integer `k` and every two different axes in range:
the result represents the array turned `n` times in the plane of the axes, for every `n` that is `k` modulo 4. -/
theorem rot90_spec {P : Nat} (hP : 0 < P) (x : DND α) (G : NArr α) (h : Rep P x G) (k a b : Int) (ha : -(G.ndim : Int) ≤ a ∧ a < G.ndim)
    (hb : -(G.ndim : Int) ≤ b ∧ b < G.ndim) (hne : normAx G.ndim a ≠ normAx G.ndim b) :
    ∃ y T, rot90 P x k [a, b] = .ok y ∧ Rep P y T ∧ ∀ n : Nat, (n : Int) % 4 = k % 4 → IsRotN (normAx G.ndim a) (normAx G.ndim b) n G T := by
  have hlen : x.gshape.length = G.ndim := h.2.1
  have hi := normAx_lt ha
  have hj := normAx_lt hb
  have hchk := (normAx_ne ha hb).1 hne
  suffices H : ∃ y T, rot90 P x k [a, b] = .ok y ∧ Rep P y T ∧ Turned G (normAx G.ndim a) (normAx G.ndim b) (k % 4).toNat T by
    obtain ⟨y, T, e, hR, ht⟩ := H
    refine ⟨y, T, e, hR, ?_⟩
    intro n hn
    exact rotN_of_turned hne hi hj hR.1 ht n (by omega)
  unfold rot90
  simp only [hlen]
  rw [if_neg hchk, if_neg (by omega)]
  cases hs : x.split with
  | none =>
    obtain ⟨T, ht, hR⟩ := rep_rot_local hP h hs k hne hi hj
    exact ⟨_, T, rfl, hR, ht⟩
  | some s =>
    dsimp only
    have hm : k % 4 = 0 ∨ k % 4 = 1 ∨ k % 4 = 2 ∨ k % 4 = 3 := by omega
    have hperm := swapOrder_perm G.ndim (normAx G.ndim a) (normAx G.ndim b) hi hj
    rcases hm with hm | hm | hm | hm
    · rw [if_pos hm]
      refine ⟨x, G, rfl, h, ?_⟩
      rw [hm]; exact turned_zero h.1 ⟨rfl, fun _ _ => rfl, fun _ _ => rfl⟩
    · rw [if_neg (by omega), if_neg (by omega), pyIndex_ok ha, pyIndex_ok hb]
      dsimp only
      rw [if_pos hm]
      obtain ⟨y, F, e1, hF, hR1, _⟩ := flip_one hP x G h b hb
      rw [e1]
      dsimp only
      obtain ⟨z, T, e2, hT, hR2⟩ := transpose_nat P y F hR1 (swapOrder G.ndim (normAx G.ndim a) (normAx G.ndim b)) (by rw [hF.1]; exact hperm)
      refine ⟨z, T, e2, hR2, ?_⟩
      rw [hm]; exact turned_one hne hi hj hR2.1 hF hT
    · rw [if_neg (by omega), if_pos hm]
      obtain ⟨y, F, e1, hF, hR1, _⟩ := flip_one hP x G h a ha
      rw [e1]
      dsimp only
      obtain ⟨z, T, e2, hT, hR2, _⟩ := flip_one hP y F hR1 b (by rw [hF.1]; exact hb)
      refine ⟨z, T, e2, hR2, ?_⟩
      rw [hF.1] at hT
      rw [hm]; exact turned_two hne hi hj hR2.1 hF hT
    · rw [if_neg (by omega), if_neg (by omega), pyIndex_ok ha, pyIndex_ok hb]
      dsimp only
      rw [if_neg (by omega)]
      obtain ⟨y, F, e1, hF, hR1⟩ := transpose_nat P x G h (swapOrder G.ndim (normAx G.ndim a) (normAx G.ndim b)) hperm
      have e1' : transpose x (some ((swapOrder G.ndim (a % (G.ndim : Int)).toNat (b % (G.ndim : Int)).toNat).map Int.ofNat)) = .ok y := e1
      rw [e1']
      dsimp only
      obtain ⟨z, T, e2, hT, hR2, _⟩ := flip_one hP y F hR1 b (by rw [hF.1]; exact hb)
      refine ⟨z, T, e2, hR2, ?_⟩
      rw [hF.1] at hT
      rw [hm]; exact turned_three hne hi hj hR2.1 hF hT

/-- **C161, refusals.** Anything but two axes in range that denote different axes is a ValueError, for every array and distribution. -/
theorem rot90_refused (P : Nat) (x : DND α) (k : Int) (axes : List Int)
    (h : ¬ ∃ a b, axes = [a, b] ∧ (-(x.gshape.length : Int) ≤ a ∧ a < x.gshape.length) ∧ (-(x.gshape.length : Int) ≤ b ∧ b < x.gshape.length) ∧
      normAx x.gshape.length a ≠ normAx x.gshape.length b) : rot90 P x k axes = .error .valueError := by
  unfold rot90
  match axes, h with
  | [], _ => rfl
  | [_], _ => rfl
  | _ :: _ :: _ :: _, _ => rfl
  | [a, b], h =>
    dsimp only
    by_cases h1 : a = b ∨ ((a - b).natAbs : Int) = x.gshape.length
    · rw [if_pos h1]
    · rw [if_neg h1]
      by_cases h2 : a ≥ x.gshape.length ∨ a < -(x.gshape.length : Int) ∨ b ≥ x.gshape.length ∨ b < -(x.gshape.length : Int)
      · rw [if_pos h2]
      · exfalso
        exact h ⟨a, b, rfl, by omega, by omega, (normAx_ne (by omega) (by omega)).2 h1⟩

/-- Four quarter turns give the array back, and turning in the plane with exchanged axes undoes a turn: the specification describes rotations. -/
theorem rot_four {G T : NArr α} {a b : Nat} (hab : a ≠ b) (ha : a < G.ndim) (hb : b < G.ndim) (hT : Local T) (h : SameArr G T) : IsRotN a b 4 G T :=
  rotN_of_turned hab ha hb hT (turned_zero hT h) 4 rfl

theorem rot_reverse {G T U : NArr α} {a b : Nat} (hab : a ≠ b) (ha : a < G.ndim) (hb : b < G.ndim) (hT : IsRot a b G T) (hU : IsRot b a T U) (hl : Local U) :
    SameArr G U := by
  obtain ⟨a1, a2, a3, a4, a5⟩ := hT
  obtain ⟨b1, b2, b3, b4, b5⟩ := hU
  have hba : b ≠ a := fun h => hab h.symm
  refine ⟨by omega, ?_, ?_⟩
  · intro k hk
    by_cases hka : k = a
    · subst hka; rw [b3, a3]
    · by_cases hkb : k = b
      · subst hkb; rw [b2, a2]
      · rw [b4 k (by omega) hkb hka, a4 k hk hka hkb]
  · intro idx hin
    rw [← a5 idx hin, ← b5]
    · apply hl
      intro k hk
      have i1 := hin a ha
      have i2 := hin b hb
      unfold turn
      simp only [if_true, if_neg hab, if_neg hba]
      by_cases hka : k = a
      · subst hka; rw [if_neg hab, if_pos rfl]
      · by_cases hkb : k = b
        · subst hkb; rw [if_pos rfl, a2]; omega
        · rw [if_neg hkb, if_neg hka, if_neg hka, if_neg hkb]
    · intro k hk
      have i1 := hin a ha
      have i2 := hin b hb
      unfold turn
      by_cases hka : k = a
      · subst hka; rw [if_pos rfl, a2]; omega
      · by_cases hkb : k = b
        · subst hkb; rw [if_neg hka, if_pos rfl, a3]; exact i1
        · rw [if_neg hka, if_neg hkb, a4 k (by omega) hka hkb]; exact hin k (by omega)

/-- 2 x 3 array on two processes, split along the columns: 2 + 1. -/
def rotEx : DND Nat := ⟨[2, 3], some 1, fun r => ⟨2, fun k => if k = 0 then 2 else if r = 0 then 2 else 1, fun i => 10 * i 0 + (i 1 + 2 * r)⟩, some true⟩
def rotExG : NArr Nat := ⟨2, fun k => if k = 0 then 2 else 3, fun i => 10 * i 0 + i 1⟩

theorem rotEx_rep : Rep 2 rotEx rotExG := by
  refine ⟨?_, rfl, ?_, fun _ _ => rfl, by decide, by decide, ?_⟩
  · intro i j h
    show 10 * i 0 + i 1 = 10 * j 0 + j 1
    rw [h 0 (by decide), h 1 (by decide)]
  · intro k hk
    match k, hk with
    | 0, _ => rfl
    | 1, _ => rfl
  · intro r hr
    refine ⟨?_, ?_⟩
    · intro k hk hne
      match k, hk with
      | 0, _ => rfl
      | 1, _ => exact absurd rfl hne
    · intro idx _
      match r, hr with
      | 0, _ => rfl
      | 1, _ => rfl

/-- numpy.rot90([[0,1,2],[10,11,12]]) is [[2,12],[1,11],[0,10]]; distributed along axis 0 (which was axis 1): 2 rows and 1 row. -/
example : ((rot90 2 rotEx 1 [0, 1]).map fun y => (y.gshape, y.split, (List.range 2).map fun r => ((y.loc r).shape, (y.loc r).flat))) =
    .ok ([3, 2], some 0, [([2, 2], [2, 12, 1, 11]), ([1, 2], [0, 10])]) := by decide +kernel
example : ((rot90 2 rotEx (-1) [0, 1]).map fun y => (y.gshape, y.split, (List.range 2).map fun r => ((y.loc r).shape, (y.loc r).flat))) =
    .ok ([3, 2], some 0, [([2, 2], [10, 0, 11, 1]), ([1, 2], [12, 2])]) := by decide +kernel
example : ((rot90 2 rotEx 6 [-2, 1]).map fun y => (y.gshape, y.split, (List.range 2).map fun r => ((y.loc r).shape, (y.loc r).flat))) =
    .ok ([2, 3], some 1, [([2, 2], [12, 11, 2, 1]), ([2, 1], [10, 0])]) := by decide +kernel
example : ∃ y T, rot90 2 rotEx 7 [-2, 1] = .ok y ∧ Rep 2 y T ∧ ∀ n : Nat, (n : Int) % 4 = 7 % 4 → IsRotN 0 1 n rotExG T :=
  rot90_spec (by decide) rotEx rotExG rotEx_rep 7 (-2) 1 (by decide) (by decide) (by decide)
example : ∃ y T, flipND 2 rotEx [1, -2] = .ok y ∧ IsFlip rotExG [1, 0] T ∧ Rep 2 y T := by
  obtain ⟨y, T, h1, h2, h3, _⟩ := flip_nd_spec (P := 2) (by decide) rotEx rotExG rotEx_rep (by decide) [1, -2] (by decide) (by decide)
  exact ⟨y, T, h1, h2, h3⟩
example : rot90 2 rotEx 1 [0, -2] = .error .valueError := rot90_refused 2 rotEx 1 [0, -2] (by
  rintro ⟨a, b, h, _, _, h4⟩
  cases h
  exact h4 (by decide))

end Heat
