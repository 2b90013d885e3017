import Verif.Model.Reshape
import Verif.Props.ND
import Verif.Props.Dist
import Verif.Props.Datatype
/-!
# C41: reshape keeps the row-major order of the elements
-/
namespace Heat
open Heat.Spec
variable {α : Type}

theorem shape_length (a : NArr α) : a.shape.length = a.ndim := by simp [NArr.shape]

theorem shape_getD (a : NArr α) (k : Nat) (h : k < a.ndim) : a.shape.getD k 0 = a.dim k := by
  simp [NArr.shape, List.getD_eq_getElem?_getD, h]

theorem rep_gshape {P : Nat} {x : DND α} {G : NArr α} (h : Rep P x G) : x.gshape = G.shape := by
  obtain ⟨_, h1, h2, _⟩ := h
  apply List.ext_getElem (by rw [h1, shape_length])
  intro k hk _
  have := h2 k (by omega)
  rw [List.getD_eq_getElem?_getD, List.getElem?_eq_getElem hk] at this
  simpa [NArr.shape] using this

theorem dot_cStrides_indices (sh : List Nat) : (indices sh).map (fun l => dot l (cStrides sh)) = List.range sh.prod := by
  have h := contiguous_describes sh.prod 1 sh (Nat.le_refl _)
  obtain ⟨t, c, h1, h2, _⟩ := h
  simp only [mpiTypeAndElements, if_true] at h1
  rw [if_neg (by omega)] at h1
  simp only [Except.ok.injEq, Buf.plain.injEq] at h1
  obtain ⟨rfl, rfl⟩ := h1
  have e : (MType.basic 1).message sh.prod = List.range sh.prod := by
    have := contiguous_offs 1 sh.prod
    simp only [MType.contiguous] at this
    rw [this]; simp
  rw [e] at h2
  rw [h2, byteOffsets]
  simp

theorem dot_cStrides_lt : ∀ (sh l : List Nat), l ∈ indices sh → dot l (cStrides sh) < sh.prod := by
  intro sh l h
  have : dot l (cStrides sh) ∈ (indices sh).map (fun l => dot l (cStrides sh)) := List.mem_map_of_mem h
  rw [dot_cStrides_indices] at this
  exact List.mem_range.1 this

theorem range_map_getD [Inhabited α] (l : List α) : (List.range l.length).map (fun i => l.getD i default) = l := by
  apply List.ext_getElem (by simp)
  intro k h1 h2
  simp [List.getD_eq_getElem?_getD, h2]

theorem map_range_getD (l : List Nat) : (List.range l.length).map (fun k => l.getD k 0) = l := range_map_getD l

theorem ofFlat_shape [Inhabited α] (shape : List Nat) (l : List α) : (NArr.ofFlat shape l).shape = shape := map_range_getD shape

theorem ofFlat_flat [Inhabited α] (shape : List Nat) (l : List α) (h : l.length = shape.prod) : (NArr.ofFlat shape l).flat = l := by
  unfold NArr.flat
  rw [ofFlat_shape]
  have e : (indices shape).map (fun i => (NArr.ofFlat shape l).get fun k => i.getD k 0) =
      ((indices shape).map fun i => dot i (cStrides shape)).map fun j => l.getD j default := by
    rw [List.map_map]
    apply List.map_congr_left
    intro i hi
    have := indices_length hi
    simp only [NArr.ofFlat, Function.comp]
    rw [← this, map_range_getD]
  rw [e, dot_cStrides_indices, ← h, range_map_getD]

theorem ofFlat_local [Inhabited α] (shape : List Nat) (l : List α) : Local (NArr.ofFlat shape l) := by
  intro i j h
  simp only [NArr.ofFlat] at h ⊢
  have : (List.range shape.length).map i = (List.range shape.length).map j := by
    apply List.map_congr_left
    intro k hk
    exact h k (List.mem_range.1 hk)
  rw [this]

theorem flat_length (a : NArr α) : a.flat.length = a.shape.prod := by
  rw [NArr.flat, List.length_map, ← List.length_range (n := a.shape.prod), ← dot_cStrides_indices, List.length_map]

/-- The elements of the ranks, one rank after the other, in a distribution along the first axis. -/
theorem content_rows {β : Type} (g : Nat → List β) (loc : Nat → NArr α) (s : Nat) (P : Nat) :
    content P (fun r => (List.range ((loc r).dim s)).flatMap fun i => g (axisStart loc s r + i)) =
      (List.range (axisStart loc s P)).flatMap g := by
  induction P with
  | zero => simp [content_zero, axisStart]
  | succ P ih =>
    rw [content_succ, ih, axisStart_succ, List.range_add, List.flatMap_append]
    simp [List.flatMap_map]

theorem shape_cons (a : NArr α) (h : a.ndim ≠ 0) : a.shape = a.dim 0 :: (List.range (a.ndim - 1)).map fun k => a.dim (k + 1) := by
  obtain ⟨n, hn⟩ : ∃ n, a.ndim = n + 1 := ⟨a.ndim - 1, by omega⟩
  simp [NArr.shape, hn, List.range_succ_eq_map, Function.comp_def]

/-- The elements of an array split along axis 0, rank after rank, are the elements of the array in row-major order. -/
theorem rep_flat {P : Nat} {x : DND α} {G : NArr α} (h : Rep P x G) (hs : x.split = some 0) :
    content P (fun r => (x.loc r).flat) = G.flat := by
  obtain ⟨hG, h1, h2, h3, h4⟩ := h
  rw [hs] at h4
  obtain ⟨hs1, hs2, hs3⟩ := h4
  have hn : G.ndim ≠ 0 := by omega
  let rest := (List.range (G.ndim - 1)).map fun k => G.dim (k + 1)
  let g : Nat → List α := fun i => (indices rest).map fun l => G.get fun k => (i :: l).getD k 0
  have hloc : ∀ r < P, (x.loc r).flat = (List.range ((x.loc r).dim 0)).flatMap fun i => g (axisStart x.loc 0 r + i) := by
    intro r hr
    obtain ⟨d, e⟩ := hs3 r hr
    have hrest : ((List.range ((x.loc r).ndim - 1)).map fun k => (x.loc r).dim (k + 1)) = rest := by
      rw [h3 r hr]
      apply List.map_congr_left
      intro k hk
      exact d (k + 1) (by have := List.mem_range.1 hk; omega) (by omega)
    unfold NArr.flat
    rw [shape_cons _ (by rw [h3 r hr]; exact hn), hrest]
    simp only [indices, List.map_flatMap, List.map_map]
    apply List.flatMap_congr
    intro i hi
    apply List.map_congr_left
    intro l hl
    simp only [Function.comp]
    rw [e]
    · apply hG
      intro k _
      unfold shift
      cases k with
      | zero => simp [Nat.add_comm]
      | succ k => simp
    · intro k hk
      rw [h3 r hr] at hk
      cases k with
      | zero => simpa using hi
      | succ k =>
        have hk' : k < rest.length := by simp [rest]; omega
        have := (mem_indices.1 hl).2 k hk'
        rw [d (k + 1) hk (by omega)]
        simp only [rest, List.getD_eq_getElem?_getD, List.getElem?_map, List.getElem?_range (show k < G.ndim - 1 by omega),
          Option.map_some, Option.getD_some] at this
        simpa [List.getD_eq_getElem?_getD] using this
  rw [content_congr hloc, content_rows, hs2]
  unfold NArr.flat
  rw [shape_cons _ hn]
  simp only [indices, List.map_flatMap, List.map_map, g]
  rfl

theorem chunkRange_len (n r P : Nat) : (chunkRange n r P).2 - (chunkRange n r P).1 = evenSize n P r := by
  rw [chunkRange_snd]; omega

theorem axisStart_even (loc : Nat → NArr α) (s n P : Nat) (h : ∀ r < P, (loc r).dim s = evenSize n P r) (r : Nat) (hr : r ≤ P) :
    axisStart loc s r = (chunkRange n r P).1 := by
  induction r with
  | zero => rw [chunkRange_zero]; rfl
  | succ r ih => rw [axisStart_succ, ih (by omega), h r (by omega), chunkRange_succ, chunkRange_snd]

/-- Every rank keeping its canonical chunk of a replicated array distributes the array. -/
theorem rep_slices {P : Nat} (hP : 0 < P) {x : DND α} {G : NArr α} (h : Rep P x G) (hs : x.split = none) (ax : Nat) (hax : ax < G.ndim)
    (b : Option Bool) :
    Rep P ⟨x.gshape, some ax, fun r => (x.loc r).slice ax (chunkRange (x.gshape.getD ax 0) r P).1
      ((chunkRange (x.gshape.getD ax 0) r P).2 - (chunkRange (x.gshape.getD ax 0) r P).1), b⟩ G := by
  obtain ⟨hG, h1, h2, h3, h4⟩ := h
  rw [hs] at h4
  simp only at h4
  have hst : ∀ r ≤ P, axisStart (fun r => (x.loc r).slice ax (chunkRange (x.gshape.getD ax 0) r P).1
      ((chunkRange (x.gshape.getD ax 0) r P).2 - (chunkRange (x.gshape.getD ax 0) r P).1)) ax r = (chunkRange (G.dim ax) r P).1 := by
    intro r hr
    apply axisStart_even _ _ _ P _ r hr
    intro q _
    simp only [NArr.slice, if_true]
    rw [chunkRange_len, h2 ax hax]
  refine ⟨hG, h1, h2, h3, hax, ?_, ?_⟩
  · rw [hst P (Nat.le_refl _), chunkRange_at_P _ _ hP]
  · intro r hr
    obtain ⟨d, e⟩ := h4 r hr
    refine ⟨fun k hk hne => by simp only [NArr.slice, hne, if_false]; exact d k hk, ?_⟩
    intro idx hin
    simp only [hst r (by omega)]
    show (x.loc r).get (shift ax _ idx) = _
    rw [h2 ax hax, e]
    intro k hk
    have hin' := hin k hk
    simp only [NArr.slice] at hin'
    unfold shift
    by_cases hka : k = ax
    · subst hka
      simp only [if_true] at hin' ⊢
      rw [h2 k hax, chunkRange_len] at hin'
      rw [d k hax]
      have := chunkRange_mono (G.dim k) P (show r + 1 ≤ P by omega)
      rw [chunkRange_at_P _ _ hP, chunkRange_succ, chunkRange_snd] at this
      omega
    · simp only [hka, if_false] at hin' ⊢
      exact hin'

theorem resplitNone_split (P : Nat) (x : DND α) : (resplitNone P x).split = none := by
  unfold resplitNone
  cases h : x.split with
  | none => exact h
  | some s => rfl

theorem resplitNone_gshape (P : Nat) (x : DND α) : (resplitNone P x).gshape = x.gshape := by
  unfold resplitNone
  cases h : x.split <;> rfl

/-- `resplit_(axis)` keeps the array. -/
theorem rep_resplitTo {P : Nat} (hP : 0 < P) {x : DND α} {G : NArr α} (h : Rep P x G) (ax : Nat) (hax : ax < G.ndim) :
    Rep P (resplitTo P x ax) G ∧ (resplitTo P x ax).split = some ax := by
  unfold resplitTo
  by_cases hs : x.split = some ax
  · rw [if_pos hs]; exact ⟨h, hs⟩
  · rw [if_neg hs]
    refine ⟨?_, rfl⟩
    have := rep_slices hP (rep_resplitNone P x G h) (resplitNone_split P x) ax hax (some true)
    rw [resplitNone_gshape] at this
    exact this

/-- Reshaping every copy of a replicated array. -/
theorem rep_reshape_none [Inhabited α] {P : Nat} {x : DND α} {G : NArr α} (h : Rep P x G) (hs : x.split = none ∨ P = 1) (shape : List Nat)
    (b : Option Bool) : Rep P ⟨shape, none, fun r => (x.loc r).reshape shape, b⟩ (NArr.ofFlat shape G.flat) := by
  have hflat : ∀ r < P, (x.loc r).flat = G.flat := by
    intro r hr
    obtain ⟨hG, h1, h2, h3, h4⟩ := h
    have key : (∀ k < G.ndim, (x.loc r).dim k = G.dim k) ∧ ∀ idx, InB (x.loc r) idx → (x.loc r).get idx = G.get idx := by
      cases hsp : x.split with
      | none => rw [hsp] at h4; exact h4 r hr
      | some s =>
        have hP1 : P = 1 := by
          rcases hs with hs | hs
          · rw [hs] at hsp; cases hsp
          · exact hs
        subst hP1
        have hr0 : r = 0 := by omega
        subst hr0
        rw [hsp] at h4
        obtain ⟨a1, a2, a3⟩ := h4
        obtain ⟨d, e⟩ := a3 0 hr
        have z : axisStart x.loc s 0 = 0 := rfl
        have hd : (x.loc 0).dim s = G.dim s := by
          rw [axisStart_succ] at a2
          omega
        refine ⟨fun k hk => ?_, fun idx hin => ?_⟩
        · by_cases hks : k = s
          · subst hks; exact hd
          · exact d k hk hks
        · rw [e idx hin, z]
          congr 1
          funext k
          unfold shift
          split <;> rfl
    obtain ⟨d, e⟩ := key
    have hsh : (x.loc r).shape = G.shape := by
      unfold NArr.shape
      rw [h3 r hr]
      apply List.map_congr_left
      intro k hk
      exact d k (List.mem_range.1 hk)
    unfold NArr.flat
    rw [hsh]
    apply List.map_congr_left
    intro l hl
    apply e
    intro k hk
    rw [h3 r hr] at hk
    have := (mem_indices.1 hl).2 k (by rw [shape_length]; exact hk)
    rw [shape_getD _ _ hk] at this
    rw [d k hk]
    exact this
  refine ⟨ofFlat_local _ _, rfl, fun k _ => rfl, fun r hr => rfl, ?_⟩
  intro r hr
  refine ⟨fun k _ => rfl, fun idx _ => ?_⟩
  simp only [NArr.reshape, hflat r hr]

theorem chunk0_nil (r P : Nat) : chunk0 [] r P = [] := by
  simp [chunk0, chunk, sanitizeAxis]

theorem chunk0_cons (m : Nat) (sh : List Nat) (r P : Nat) : chunk0 (m :: sh) r P = evenSize m P r :: sh := by
  have hsa : sanitizeAxis (m :: sh).length (some 0) = .ok (some 0) := by
    simp [sanitizeAxis]
  simp only [chunk0, chunk, hsa]
  simp only [List.length_cons, List.range_succ_eq_map, List.map_cons, List.map_map]
  simp only [show ((m :: sh).getD 0 0) = m from rfl, chunkRange_len, ne_eq, not_true_eq_false, if_false]
  congr 1
  have : ((fun i => if ¬i = 0 then (m :: sh).getD i 0 else evenSize m P r) ∘ Nat.succ) = fun i => sh.getD i 0 := by
    funext i
    simp
  rw [this]
  exact map_range_getD sh

theorem sum_mul_right (f : Nat → Nat) (w P : Nat) : ((List.range P).map fun r => f r * w).sum = ((List.range P).map f).sum * w := by
  induction P with
  | zero => simp
  | succ P ih => rw [List.range_succ, List.map_append, List.map_append, List.sum_append, List.sum_append, ih]; simp [Nat.add_mul]

theorem sum_even (m P r : Nat) (hr : r ≤ P) : ((List.range r).map (evenSize m P)).sum = (chunkRange m r P).1 := by
  induction r with
  | zero => rw [chunkRange_zero]; rfl
  | succ r ih =>
    rw [List.range_succ, List.map_append, List.sum_append, ih (by omega), chunkRange_succ, chunkRange_snd]
    simp

theorem content_length_sum {β : Type} (P : Nat) (d : Nat → List β) : (content P d).length = ((List.range P).map fun r => (d r).length).sum := by
  induction P with
  | zero => simp [content_zero]
  | succ P ih => rw [content_succ, List.length_append, ih, List.range_succ, List.map_append, List.sum_append]; simp

/-- Pieces with the right numbers of elements, reshaped locally, distribute the reshaped array along axis 0. -/
theorem rep_pieces [Inhabited α] {P : Nat} (hP : 0 < P) (m : Nat) (sh : List Nat) (f : Nat → List α) (l : List α)
    (hc : content P f = l) (hlen : ∀ r < P, (f r).length = evenSize m P r * sh.prod) (b : Option Bool) :
    Rep P ⟨m :: sh, some 0, fun r => .ofFlat (chunk0 (m :: sh) r P) (f r), b⟩ (NArr.ofFlat (m :: sh) l) := by
  have hst : ∀ r ≤ P, axisStart (fun r => NArr.ofFlat (chunk0 (m :: sh) r P) (f r)) 0 r = (chunkRange m r P).1 := by
    intro r hr
    apply axisStart_even _ _ _ P _ r hr
    intro q _
    simp [NArr.ofFlat, chunk0_cons]
  have hstart : ∀ r ≤ P, startOf f r = (chunkRange m r P).1 * sh.prod := by
    intro r hr
    rw [startOf, content_length_sum]
    have : ((List.range r).map fun q => (f q).length) = (List.range r).map fun q => evenSize m P q * sh.prod := by
      apply List.map_congr_left
      intro q hq
      exact hlen q (by have := List.mem_range.1 hq; omega)
    rw [this, sum_mul_right, sum_even _ _ _ hr]
  refine ⟨ofFlat_local _ _, rfl, fun k _ => rfl, fun r hr => by simp [NArr.ofFlat, chunk0_cons], ?_⟩
  refine ⟨by simp [NArr.ofFlat], ?_, ?_⟩
  · rw [hst P (Nat.le_refl _), chunkRange_at_P _ _ hP]; rfl
  · intro r hr
    refine ⟨fun k hk hne => ?_, fun idx hin => ?_⟩
    · simp only [NArr.ofFlat, chunk0_cons]
      cases k with
      | zero => exact absurd rfl hne
      | succ k => rfl
    · simp only [hst r (by omega)]
      simp only [NArr.ofFlat, chunk0_cons, List.length_cons, cStrides, List.range_succ_eq_map, List.map_cons, List.map_map, dot_cons]
      have he : (List.range sh.length).map ((shift 0 (chunkRange m r P).1 idx) ∘ Nat.succ) = (List.range sh.length).map (idx ∘ Nat.succ) := by
        apply List.map_congr_left
        intro k _
        simp [shift]
      rw [he]
      have h0 : idx 0 < evenSize m P r := by
        have := hin 0 (by simp [NArr.ofFlat, chunk0_cons])
        simpa [NArr.ofFlat, chunk0_cons] using this
      have hd : dot ((List.range sh.length).map (idx ∘ Nat.succ)) (cStrides sh) < sh.prod := by
        apply dot_cStrides_lt
        refine mem_indices.2 ⟨by simp, fun k hk => ?_⟩
        have := hin (k + 1) (by simp [NArr.ofFlat, chunk0_cons]; omega)
        simpa [NArr.ofFlat, chunk0_cons, List.getD_eq_getElem?_getD, hk] using this
      generalize dot ((List.range sh.length).map (idx ∘ Nat.succ)) (cStrides sh) = d at hd ⊢
      have hb : idx 0 * sh.prod + d < (f r).length := by
        rw [hlen r hr]
        calc idx 0 * sh.prod + d < idx 0 * sh.prod + sh.prod := by omega
          _ = (idx 0 + 1) * sh.prod := by rw [Nat.add_mul, Nat.one_mul]
          _ ≤ evenSize m P r * sh.prod := Nat.mul_le_mul_right _ (by omega)
      have hg := content_get f P r _ hr hb
      rw [hc, hstart r (by omega)] at hg
      simp only [shift, if_true]
      rw [Nat.add_mul, show idx 0 * sh.prod + (chunkRange m r P).1 * sh.prod + d = (chunkRange m r P).1 * sh.prod + (idx 0 * sh.prod + d) by omega]
      rw [List.getD_eq_getElem?_getD, List.getD_eq_getElem?_getD, hg, List.getElem?_eq_getElem hb]

/-- C41.  `reshape` on every number of processes, for every array, every distribution of it (balanced or not, split along any axis or not
split) and every shape with the same number of elements (not 0-d if the array is distributed): it succeeds, the result represents the
array with the same elements in row-major order, split along the requested axis, and the argument still represents the same
array. -/
theorem reshape_spec_partial [Inhabited α] (fuel P : Nat) (hP : 0 < P) (hf : 2 ≤ fuel) (x : DND α) (G : NArr α) (h : Rep P x G) (shape : List Nat)
    (newSplit : Option Int) (hprod : shape.prod = G.shape.prod) (hne : shape ≠ [] ∨ x.split = none ∨ P = 1)
    (ns : Option Nat) (hns : sanitizeAxis shape.length (match newSplit, x.split with
      | some v, _ => some v
      | none, none => none
      | none, some s => if shape.length = G.ndim then some (s : Int) else some 0) = .ok ns) :
    ∃ y x', reshape fuel P x shape newSplit = .ok (y, x') ∧ (∃ T, IsReshape G shape T ∧ Rep P y T) ∧ y.split = ns ∧ Rep P x' G := by
  have hns : sanitizeAxis shape.length (reshapeSplit newSplit x.split shape.length G.ndim) = .ok ns := by
    rw [← hns]
    unfold reshapeSplit
    cases newSplit with
    | some v => rfl
    | none =>
      cases x.split with
      | none => rfl
      | some s => by_cases hh : shape.length = G.ndim <;> simp [hh]
  have hg := rep_gshape h
  have hl : G.flat.length = shape.prod := by rw [flat_length, hprod]
  have hT : IsReshape G shape (NArr.ofFlat shape G.flat) := ⟨ofFlat_shape _ _, ofFlat_flat _ _ hl⟩
  have hnslt : ∀ s, ns = some s → s < shape.length := by
    intro s hs
    subst hs
    revert hns
    generalize reshapeSplit newSplit x.split shape.length G.ndim = o
    intro hns
    unfold sanitizeAxis at hns
    by_cases h0 : shape.length = 0
    · simp [h0] at hns
    · simp only [h0, if_false] at hns
      cases o with
      | none => simp at hns
      | some a =>
        simp only at hns
        by_cases h1 : 0 ≤ a ∧ a < shape.length
        · rw [if_pos h1] at hns
          simp only [Except.ok.injEq, Option.some.injEq] at hns
          omega
        · rw [if_neg h1] at hns
          by_cases h2 : (if a < 0 then a + (shape.length : Int) else a) < 0 ∨ (if a < 0 then a + (shape.length : Int) else a) ≥ shape.length
          · rw [if_pos h2] at hns; simp at hns
          · rw [if_neg h2] at hns
            simp only [Except.ok.injEq, Option.some.injEq] at hns
            omega
  -- the argument after `resplit_(0)`
  obtain ⟨a, ha, hRa, hsa⟩ : ∃ a : DND α, a = reshapeArg P x ∧ Rep P a G ∧
      (a.split = none ∧ x.split = none ∨ a.split = some 0 ∧ x.split ≠ none) := by
    unfold reshapeArg
    cases hs : x.split with
    | none => exact ⟨x, rfl, h, Or.inl ⟨hs, rfl⟩⟩
    | some s =>
      have hn : 0 < G.ndim := by
        have := h.2.2.2.2
        rw [hs] at this
        have := this.1
        omega
      obtain ⟨r1, r2⟩ := rep_resplitTo hP h 0 hn
      exact ⟨_, rfl, r1, Or.inr ⟨r2, by simp⟩⟩
  have hga : a.gshape.length = G.ndim := hRa.2.1
  unfold reshape
  rw [if_neg (by rw [hg, hprod]; simp)]
  simp only [← ha, hga, hns]
  by_cases hd : a.split = none ∨ P ≤ 1
  · rw [if_pos hd]
    refine ⟨_, _, rfl, ⟨_, hT, ?_⟩, rfl, hRa⟩
    have hd' : a.split = none ∨ P = 1 := hd.imp id (fun h => by omega)
    have hrep := rep_reshape_none hRa hd' shape (some true)
    cases hn : ns with
    | none => exact hrep
    | some s =>
      have hs := hnslt s hn
      by_cases h1 : 1 < P
      · simp only [h1, if_true]
        exact rep_slices hP hrep rfl s (by simpa [NArr.ofFlat] using hs) (some true)
      · have hP1 : P = 1 := by omega
        subst hP1
        simp only [Nat.lt_irrefl, if_false]
        obtain ⟨a1, a2, a3, a4, a5⟩ := hrep
        simp only at a5
        refine ⟨a1, a2, a3, a4, by simpa [NArr.ofFlat] using hs, ?_, ?_⟩
        · simp only [axisStart_succ]
          show 0 + _ = _
          rw [(a5 0 (by omega)).1 s (by simpa [NArr.ofFlat] using hs)]
          omega
        · intro r hr
          obtain ⟨d, e⟩ := a5 r hr
          refine ⟨fun k hk _ => d k hk, fun idx hin => ?_⟩
          rw [e idx hin]
          have hr0 : r = 0 := by omega
          subst hr0
          congr 1
          funext k
          unfold shift axisStart
          split <;> simp
  · have hP1 : 1 < P := by omega
    have hsp : a.split = some 0 ∧ x.split ≠ none := by
      rcases hsa with h | h
      · exact absurd (Or.inl h.1) hd
      · exact h
    rw [if_neg hd]
    have hshape : shape ≠ [] := by
      rcases hne with h | h | h
      · exact h
      · exact absurd h hsp.2
      · omega
    obtain ⟨m, sh, rfl⟩ : ∃ m sh, shape = m :: sh := by
      cases shape with
      | nil => exact absurd rfl hshape
      | cons m sh => exact ⟨m, sh, rfl⟩
    have hflat := rep_flat hRa hsp.1
    have htarget : ∀ r, (chunk0 (m :: sh) r P).prod = evenSize m P r * sh.prod := by
      intro r; rw [chunk0_cons, List.prod_cons]
    have hmoved : ∃ f, (if ((List.range P).all fun r => (chunk0 (m :: sh) r P).prod == ((a.loc r).flat).length) = true
          then Except.ok (fun r => (a.loc r).flat)
          else redistribute fuel (((List.range P).map fun r => ((a.loc r).flat).length).sum) P
            (some fun r => (((chunk0 (m :: sh) r P).prod : Nat) : Int)) (fun r => (a.loc r).flat)) = .ok f ∧
        content P f = G.flat ∧ ∀ r < P, (f r).length = evenSize m P r * sh.prod := by
      by_cases hall : ((List.range P).all fun r => (chunk0 (m :: sh) r P).prod == ((a.loc r).flat).length) = true
      · rw [if_pos hall]
        refine ⟨_, rfl, hflat, fun r hr => ?_⟩
        have := List.all_eq_true.1 hall r (List.mem_range.2 hr)
        rw [← htarget r]
        exact (by simpa using this : _ = _).symm
      · rw [if_neg hall, ← content_length_sum]
        obtain ⟨f, f1, f2, f3⟩ := redistribute_spec P hP1 (fun r => (a.loc r).flat) (fun r => (chunk0 (m :: sh) r P).prod) (by
          rw [hflat, hl, List.prod_cons]
          simp only [htarget]
          rw [sum_mul_right, sum_even _ _ _ (Nat.le_refl _), chunkRange_at_P _ _ hP]) fuel hf
        exact ⟨f, f1, by rw [f2, hflat], fun r hr => by rw [f3 r hr, htarget]⟩
    obtain ⟨f, f1, f2, f3⟩ := hmoved
    rw [f1]
    have hfin := rep_pieces hP m sh f G.flat f2 f3 none
    simp only
    refine ⟨_, _, rfl, ⟨_, hT, ?_⟩, ?_, hRa⟩
    · cases hn : ns with
      | none => exact rep_resplitNone P _ _ hfin
      | some s => exact (rep_resplitTo hP hfin s (by simpa [NArr.ofFlat] using hnslt s hn)).1
    · cases hn : ns with
      | none => exact resplitNone_split P _
      | some s => exact (rep_resplitTo hP hfin s (by simpa [NArr.ofFlat] using hnslt s hn)).2

/-- A wrong number of elements is refused. -/
theorem reshape_wrong_size [Inhabited α] (fuel P : Nat) (x : DND α) (shape : List Nat) (newSplit : Option Int) (h : shape.prod ≠ x.gshape.prod) :
    reshape fuel P x shape newSplit = .error .valueError := by
  unfold reshape; rw [if_pos h]

/-- C41 fails for 0-d results: a distributed array with one element cannot be reshaped to shape `()`: every rank is assigned one element,
and `redistribute_` refuses a target map with the wrong sum. -/
theorem reshape_to_0d_violated : (reshape 5 2 (⟨[1], some 0, fun r => ⟨1, fun _ => 1 - r, fun _ => (7 : Nat)⟩, some true⟩ : DND Nat) [] none).map (fun p => p.1.gshape) =
    .error .valueError := by decide +kernel

/-- `reshape` changes its argument: a 2×2 array split along axis 1 is split along axis 0 afterwards. -/
theorem reshape_mutates_violated : (reshape 5 2 (⟨[2, 2], some 1, fun r => ⟨2, fun k => if k = 0 then 2 else 1, fun i => 2 * i 0 + i 1 + r⟩, some true⟩ : DND Nat) [4] none).map (fun p => p.2.split) =
    .ok (some 0) := by decide +kernel

/-- Non-vacuity: a 2×3 array split unevenly along axis 1 (2 + 1 columns), reshaped to 3×2 on two processes. -/
def exReshape : DND Nat := ⟨[2, 3], some 1, fun r => ⟨2, fun k => if k = 0 then 2 else 2 - r, fun i => 3 * i 0 + (i 1 + 2 * r)⟩, none⟩

example : Rep 2 exReshape ⟨2, fun k => if k = 0 then 2 else 3, fun i => 3 * i 0 + i 1⟩ := by
  refine ⟨?_, rfl, ?_, fun r _ => rfl, ?_⟩
  · intro i j h
    simp only
    rw [h 0 (by simp), h 1 (by simp)]
  · intro k hk
    have : k = 0 ∨ k = 1 := by simp only at hk; omega
    rcases this with rfl | rfl <;> rfl
  · refine ⟨by simp, by decide, fun r hr => ⟨fun k hk hne => ?_, fun idx _ => ?_⟩⟩
    · have : k = 0 := by simp only at hk; omega
      subst this; rfl
    · have : r = 0 ∨ r = 1 := by omega
      rcases this with rfl | rfl
      · simp [exReshape, shift, axisStart]
      · simp [exReshape, shift, axisStart]

example : (reshape 5 2 exReshape [3, 2] none).map (fun p => (p.1.split, (p.1.loc 0).flat, (p.1.loc 1).flat)) = .ok (some 1, [0, 2, 4], [1, 3, 5]) := by
  decide +kernel
example : (reshape 5 2 exReshape [3, 2] (some 0)).map (fun p => (p.1.split, (p.1.loc 0).flat, (p.1.loc 1).flat)) = .ok (some 0, [0, 1, 2, 3], [4, 5]) := by
  decide +kernel

end Heat
