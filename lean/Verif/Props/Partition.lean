import Verif.Model.Partition
import Verif.Spec.Diag
import Verif.Props.ND
import Verif.Props.Reshape
import Verif.Props.Chunk
/-!
# C51: the partition interface
-/
namespace Heat
open Spec
variable {α : Type}

theorem dictFold_distinct {β : Type} (key : Nat → List Nat) (v : Nat → β) (P : Nat) (hinj : ∀ i j, i < P → j < P → key i = key j → i = j) :
    ∀ k ≤ P, (List.range k).foldl (fun d r => dictSet d (key r) (v r)) [] = (List.range k).map fun r => (key r, v r) := by
  intro k
  induction k with
  | zero => intro _; rfl
  | succ k ih =>
    intro hk
    rw [List.range_succ, List.foldl_append, ih (by omega), List.map_append]
    simp only [List.foldl_cons, List.foldl_nil, List.map_cons, List.map_nil, dictSet]
    rw [if_neg]
    rw [Bool.not_eq_true, List.any_eq_false]
    intro p hp
    obtain ⟨i, hi, rfl⟩ := List.mem_map.1 hp
    have hi' := List.mem_range.1 hi
    simp only [decide_eq_true_eq]
    intro he
    have := hinj i k (by omega) (by omega) he
    omega

theorem dictFold_const {β : Type} (key : Nat → List Nat) (v : Nat → β) (k0 : List Nat) (hc : ∀ i, key i = k0) :
    ∀ k, (List.range (k + 1)).foldl (fun d r => dictSet d (key r) (v r)) [] = [(k0, v k)] := by
  intro k
  induction k with
  | zero => simp [List.range_succ, dictSet, hc]
  | succ k ih =>
    rw [List.range_succ, List.foldl_append, ih]
    simp [dictSet, hc]

theorem partKey_getD (s n r : Nat) (hs : s < n) : (partKey (some s) n r).getD s 0 = r := by
  simp [partKey, List.getD_eq_getElem?_getD, hs]

/-- The items of the dictionary of a split array: one per rank. -/
theorem partition_items (rnd : Nat → Nat) (P : Nat) (lmap : Nat → List Nat) (s n me : Nat) (hs : s < n) :
    partitionInterface rnd P lmap (some s) n me = (List.range P).map fun r => (partKey (some s) n r,
      ⟨startIdx rnd lmap (some s) n r, lmap r, decide (r = me), r⟩) := by
  unfold partitionInterface
  have hinj : ∀ i j, i < P → j < P → partKey (some s) n i = partKey (some s) n j → i = j := by
    intro i j _ _ h
    rw [← partKey_getD s n i hs, h, partKey_getD s n j hs]
  refine (dictFold_distinct (fun r => partKey (some s) n r) _ P hinj P (Nat.le_refl _)).trans ?_
  apply List.map_congr_left
  intro r _
  simp

theorem startIdx_getD (rnd : Nat → Nat) (lmap : Nat → List Nat) (s n r k : Nat) (hk : k < n) :
    (startIdx rnd lmap (some s) n r).getD k 0 = if k = s then rnd (((List.range r).map fun q => (lmap q).getD s 0).sum) else 0 := by
  simp [startIdx, List.getD_eq_getElem?_getD, hk]

/-- The conversion of the starts to the type of the array is exact for the extents of the array. -/
def ExactUpTo (rnd : Nat → Nat) (n : Nat) : Prop := ∀ m ≤ n, rnd m = m

/-- C51.  The `__partitioned__` dictionary of a split array: one entry per rank; the blocks tile the array; the block's element at a
position relative to its start is the element of the array.  (The starts must be exactly representable in the type of the array, cf.
`partition_float_violated`.) -/
theorem partition_split_partial {P : Nat} {x : DND α} {G : NArr α} (h : Rep P x G) (s : Nat) (hs : x.split = some s) (rnd : Nat → Nat)
    (hrnd : ExactUpTo rnd (G.dim s)) (me : Nat) :
    let parts := (partitionInterface rnd P (fun r => (x.loc r).shape) x.split G.ndim me).map Prod.snd
    parts.length = P ∧ Tiles G.shape (parts.map fun p => (p.start, p.shape)) ∧
    ∀ r, ∀ hr : r < parts.length, parts[r].location = r ∧ (parts[r].hasData = true ↔ r = me) ∧
      ∀ idx, InTile parts[r].start parts[r].shape idx →
        (x.loc r).get (fun k => idx.getD k 0 - parts[r].start.getD k 0) = G.get fun k => idx.getD k 0 := by
  obtain ⟨hG, h1, h2, h3, h4⟩ := h
  rw [hs] at h4
  obtain ⟨hsn, htot, h5⟩ := h4
  have hst : ∀ r ≤ P, rnd (((List.range r).map fun q => ((x.loc q).shape).getD s 0).sum) = axisStart x.loc s r := by
    intro r hr
    have : ((List.range r).map fun q => ((x.loc q).shape).getD s 0).sum = axisStart x.loc s r := by
      unfold axisStart
      congr 1
      apply List.map_congr_left
      intro q hq
      exact shape_getD _ _ (by rw [h3 q (by have := List.mem_range.1 hq; omega)]; exact hsn)
    rw [this]
    apply hrnd
    rw [← htot]
    exact axisStart_mono _ _ hr
  simp only
  rw [hs, partition_items rnd P _ s G.ndim me hsn]
  have hstart : ∀ r < P, ∀ k < G.ndim, (startIdx rnd (fun r => (x.loc r).shape) (some s) G.ndim r).getD k 0 = if k = s then axisStart x.loc s r else 0 := by
    intro r hr k hk
    rw [startIdx_getD _ _ _ _ _ _ hk, hst r (by omega)]
  have hsl : ∀ r, (startIdx rnd (fun r => (x.loc r).shape) (some s) G.ndim r).length = G.ndim := by intro r; simp [startIdx]
  have htile : ∀ r < P, ∀ idx : List Nat, InTile (startIdx rnd (fun r => (x.loc r).shape) (some s) G.ndim r) (x.loc r).shape idx ↔
      idx ∈ indices G.shape ∧ axisStart x.loc s r ≤ idx.getD s 0 ∧ idx.getD s 0 < axisStart x.loc s (r + 1) := by
    intro r hr idx
    have hsucc := axisStart_succ x.loc s r
    have hle := axisStart_mono x.loc s (show r + 1 ≤ P by omega)
    rw [mem_indices, shape_length]
    constructor
    · rintro ⟨t1, t2, t3⟩
      rw [hsl] at t1
      have hb : ∀ k < G.ndim, (if k = s then axisStart x.loc s r else 0) ≤ idx.getD k 0 ∧ idx.getD k 0 < (if k = s then axisStart x.loc s r else 0) + (x.loc r).dim k := by
        intro k hk
        have := t3 k (by omega)
        rw [hstart r hr k hk, shape_getD _ _ (by rw [h3 r hr]; exact hk)] at this
        exact this
      have hbs := hb s hsn
      rw [if_pos rfl] at hbs
      refine ⟨⟨by omega, ?_⟩, hbs.1, by omega⟩
      intro k hk
      rw [shape_getD G k hk]
      by_cases hks : k = s
      · subst hks; omega
      · have := hb k hk
        rw [if_neg hks, (h5 r hr).1 k hk hks] at this
        omega
    · rintro ⟨⟨t1, t2⟩, t3, t4⟩
      refine ⟨by rw [hsl, t1], by rw [shape_length, h3 r hr, t1], ?_⟩
      intro k hk
      rw [t1] at hk
      rw [hstart r hr k hk, shape_getD _ _ (by rw [h3 r hr]; exact hk)]
      by_cases hks : k = s
      · subst hks; rw [if_pos rfl]; omega
      · rw [if_neg hks, (h5 r hr).1 k hk hks]
        have := t2 k hk
        rw [shape_getD G k hk] at this
        omega
  refine ⟨by simp, ⟨?_, ?_⟩, ?_⟩
  · intro idx hidx
    have hi : idx.getD s 0 < axisStart x.loc s P := by
      rw [htot, ← shape_getD G s hsn]
      exact (mem_indices.1 hidx).2 s (by rw [shape_length]; exact hsn)
    obtain ⟨hr, hlo, hhi⟩ : (locate P x.loc s (idx.getD s 0)).1 < P ∧ axisStart x.loc s (locate P x.loc s (idx.getD s 0)).1 ≤ idx.getD s 0 ∧
        idx.getD s 0 < axisStart x.loc s ((locate P x.loc s (idx.getD s 0)).1 + 1) := by
      have := locate_spec P x.loc s _ hi
      have h2 := axisStart_succ x.loc s (locate P x.loc s (idx.getD s 0)).1
      omega
    refine ⟨(locate P x.loc s (idx.getD s 0)).1, by simpa using hr, ?_, ?_⟩
    · simp only [List.getElem_map, List.getElem_range]
      exact (htile _ hr idx).2 ⟨hidx, hlo, hhi⟩
    · intro j hj hin
      simp only [List.getElem_map, List.getElem_range] at hin
      have hj' : j < P := by simpa using hj
      obtain ⟨_, j1, j2⟩ := (htile j hj' idx).1 hin
      rcases Nat.lt_trichotomy j (locate P x.loc s (idx.getD s 0)).1 with hc | hc | hc
      · have := axisStart_mono x.loc s (show j + 1 ≤ (locate P x.loc s (idx.getD s 0)).1 by omega); omega
      · exact hc
      · have := axisStart_mono x.loc s (show (locate P x.loc s (idx.getD s 0)).1 + 1 ≤ j by omega); omega
  · intro t ht idx hin
    simp only [List.mem_map, List.mem_range] at ht
    obtain ⟨p, ⟨q, ⟨r, hr, rfl⟩, rfl⟩, rfl⟩ := ht
    exact ((htile r hr idx).1 hin).1
  · intro r hr
    have hr' : r < P := by simpa using hr
    simp only [List.getElem_map, List.getElem_range, decide_eq_true_eq, true_and]
    intro idx hin
    have hm := (htile r hr' idx).1 hin
    have hsucc := axisStart_succ x.loc s r
    obtain ⟨m1, m2⟩ := mem_indices.1 hm.1
    rw [shape_length] at m1 m2
    rw [(h5 r hr').2]
    · apply hG
      intro k hk
      unfold shift
      simp only [hstart r hr' k hk]
      by_cases hks : k = s
      · subst hks; simp only [if_true]; omega
      · simp only [hks, if_false]; omega
    · intro k hk
      rw [h3 r hr'] at hk
      simp only [hstart r hr' k hk]
      by_cases hks : k = s
      · subst hks; simp only [if_true]; omega
      · simp only [hks, if_false]
        rw [(h5 r hr').1 k hk hks, ← shape_getD G k hk]
        have := m2 k hk
        omega

/-- C51.  The dictionary of an array that is not split has one entry: the whole array, with data on every rank. -/
theorem partition_none {P : Nat} (hP : 0 < P) {x : DND α} {G : NArr α} (h : Rep P x G) (hs : x.split = none) (rnd : Nat → Nat) (me : Nat) :
    ∃ key p, partitionInterface rnd P (fun r => (x.loc r).shape) x.split G.ndim me = [(key, p)] ∧ key = partLocal x.split G.ndim me ∧
      p.hasData = true ∧ Tiles G.shape [(p.start, p.shape)] := by
  obtain ⟨hG, h1, h2, h3, h4⟩ := h
  rw [hs] at h4 ⊢
  obtain ⟨P', rfl⟩ : ∃ P', P = P' + 1 := ⟨P - 1, by omega⟩
  have hshape : (x.loc P').shape = G.shape := by
    unfold NArr.shape; rw [h3 P' (by omega)]
    apply List.map_congr_left
    intro k hk; exact (h4 P' (by omega)).1 k (List.mem_range.1 hk)
  refine ⟨_, ⟨startIdx rnd (fun r => (x.loc r).shape) none G.ndim P', (x.loc P').shape, true, P'⟩, ?_, rfl, ?_, ?_⟩
  · unfold partitionInterface
    rw [dictFold_const (fun r => partKey none G.ndim r) _ (partLocal none G.ndim me) (fun i => by simp [partKey, partLocal])]
    simp
  · rfl
  · have hst : ∀ k, (startIdx rnd (fun r => (x.loc r).shape) none G.ndim P').getD k 0 = 0 := by
      intro k
      simp only [startIdx, List.getD_eq_getElem?_getD, List.getElem?_map]
      cases (List.range G.ndim)[k]? <;> rfl
    have hsl : (startIdx rnd (fun r => (x.loc r).shape) none G.ndim P').length = G.ndim := by simp [startIdx]
    have hiff : ∀ idx, InTile (startIdx rnd (fun r => (x.loc r).shape) none G.ndim P') (x.loc P').shape idx ↔ idx ∈ indices G.shape := by
      intro idx
      rw [mem_indices, hshape]
      constructor
      · rintro ⟨t1, t2, t3⟩
        refine ⟨t2.symm, fun k hk => ?_⟩
        have := t3 k (by omega)
        rw [hst] at this; omega
      · rintro ⟨t1, t2⟩
        refine ⟨by rw [hsl, t1, shape_length], t1.symm, fun k hk => ?_⟩
        have := t2 k (by omega)
        rw [hst]; omega
    refine ⟨?_, ?_⟩
    · intro idx hidx
      exact ⟨0, by simp, (hiff idx).2 hidx, fun j hj _ => by simpa using hj⟩
    · intro t ht idx hin
      rw [List.mem_singleton.1 ht] at hin
      exact (hiff idx).1 hin

/-- The starts pass through the type of the array: for float32 arrays with more than 2^24 rows they are rounded.  With local sizes 2^24+1 and 1 the
block of rank 1 starts one row too early: both blocks contain row 2^24, and the last row is in no block. -/
theorem partition_float_violated :
    (partitionInterface f32 2 (fun r => [if r = 0 then 16777217 else 1]) (some 0) 1 0).map (fun p => (p.2.start, p.2.shape)) =
      [([0], [16777217]), ([16777216], [1])] := by decide +kernel

example : ExactUpTo f32 (2 ^ 24) := fun _ hm => f32_exact hm

/-! ## Round trip -/

theorem filter_single (n s : Nat) (p : Nat → Bool) (hs : s < n) (h : ∀ k < n, p k = true ↔ k = s) : (List.range n).filter p = [s] := by
  have hnd : ((List.range n).filter p).Nodup := List.Pairwise.filter _ List.nodup_range
  have hmem : ∀ k, k ∈ (List.range n).filter p ↔ k ∈ [s] := by
    intro k
    rw [List.mem_filter, List.mem_range, List.mem_singleton]
    constructor
    · rintro ⟨a, b⟩; exact (h k a).1 b
    · rintro rfl; exact ⟨hs, (h k hs).2 rfl⟩
  exact List.perm_singleton.1 ((List.perm_ext_iff_of_nodup hnd (by simp)).2 hmem)

theorem chunkShape_split (gshape : List Nat) (s r P : Nat) (hs : s < gshape.length) :
    chunkShape gshape (some s) r P = some ((List.range gshape.length).map fun i => if i ≠ s then gshape.getD i 0 else evenSize (gshape.getD s 0) P r) := by
  unfold chunkShape chunk
  simp only [Option.map_some]
  rw [sanitizeAxis_nat _ _ hs]
  simp only [Except.toOption, Option.map_some, chunkRange_len]

/-- C51.  Round trip: `from_partitioned` of the dictionary of a split array of which no rank holds the whole split axis finds the split axis on every
rank, and marks the array as balanced exactly when it is.  (Global shape and local data are taken over unchanged.) -/
theorem from_partitioned_split_partial {P : Nat} {x : DND α} {G : NArr α} (h : Rep P x G) (s : Nat) (hs : x.split = some s) (rnd : Nat → Nat)
    (hne : ∀ r < P, (x.loc r).dim s ≠ G.dim s) (me : Nat) (hme : me < P) :
    ∃ b, fromPartition P x.gshape (partitionInterface rnd P (fun r => (x.loc r).shape) x.split G.ndim me) (x.loc me).shape = .ok (x.split, b) ∧
      (b = true ↔ BalancedND P x G s) := by
  have hgs := rep_gshape h
  obtain ⟨hG, h1, h2, h3, h4⟩ := h
  rw [hs] at h4
  obtain ⟨hsn, htot, h5⟩ := h4
  have hinf : inferSplit x.gshape (x.loc me).shape = .ok (some s) := by
    unfold inferSplit
    rw [filter_single _ s _ (by rw [h1, shape_length, h3 me hme]; omega)]
    intro k hk
    rw [h1, shape_length, h3 me hme, Nat.min_self] at hk
    rw [hgs, shape_getD _ _ hk, shape_getD _ _ (by rw [h3 me hme]; exact hk)]
    simp only [ne_eq, decide_eq_true_eq]
    constructor
    · intro hc
      exact Classical.byContradiction fun hks => hc ((h5 me hme).1 k hk hks).symm
    · rintro rfl hc; exact hne me hme hc.symm
  unfold fromPartition
  rw [hinf, hs]
  refine ⟨_, rfl, ?_⟩
  rw [partition_items _ _ _ _ _ _ hsn, List.all_map, List.all_eq_true]
  have hper : ∀ r < P, (chunkShape x.gshape (some s) r P = some (x.loc r).shape ↔ (x.loc r).dim s = evenSize (G.dim s) P r) := by
    intro r hr
    rw [chunkShape_split _ _ _ _ (by omega), Option.some.injEq]
    have hsh : (x.loc r).shape = (List.range x.gshape.length).map (x.loc r).dim := by unfold NArr.shape; rw [h3 r hr, h1]
    rw [hsh, List.map_inj_left]
    constructor
    · intro hc
      have := hc s (List.mem_range.2 (by omega))
      rw [if_neg (by simp), h2 s hsn] at this
      exact this.symm
    · intro hc k hk
      have hk' : k < G.ndim := by have := List.mem_range.1 hk; omega
      by_cases hks : k = s
      · subst hks; rw [if_neg (by simp), h2 k hk', hc]
      · rw [if_pos hks, h2 k hk', (h5 r hr).1 k hk' hks]
  constructor
  · intro hall r hr
    have := hall r (List.mem_range.2 hr)
    exact (hper r hr).1 (by simpa using this)
  · intro hb r hr
    have hr' := List.mem_range.1 hr
    simpa using (hper r hr').2 (hb r hr')

/-- C51.  Round trip of an array that is not split. -/
theorem from_partitioned_none {P : Nat} {x : DND α} {G : NArr α} (h : Rep P x G) (hs : x.split = none) (rnd : Nat → Nat) (me : Nat) (hme : me < P) :
    fromPartition P x.gshape (partitionInterface rnd P (fun r => (x.loc r).shape) x.split G.ndim me) (x.loc me).shape = .ok (x.split, true) := by
  have hgs := rep_gshape h
  obtain ⟨hG, h1, h2, h3, h4⟩ := h
  rw [hs] at h4 ⊢
  have hshape : ∀ r < P, (x.loc r).shape = G.shape := by
    intro r hr
    unfold NArr.shape; rw [h3 r hr]
    apply List.map_congr_left
    intro k hk; exact (h4 r hr).1 k (List.mem_range.1 hk)
  have hinf : inferSplit x.gshape (x.loc me).shape = .ok none := by
    unfold inferSplit
    rw [hgs, hshape me hme]
    have : (List.range (min G.shape.length G.shape.length)).filter (fun k => G.shape.getD k 0 ≠ G.shape.getD k 0) = [] := by simp
    rw [this]
  unfold fromPartition
  rw [hinf]
  obtain ⟨P', rfl⟩ : ∃ P', P = P' + 1 := ⟨P - 1, by omega⟩
  have : partitionInterface rnd (P' + 1) (fun r => (x.loc r).shape) none G.ndim me =
      [(partLocal none G.ndim me, ⟨startIdx rnd (fun r => (x.loc r).shape) none G.ndim P', (x.loc P').shape, true, P'⟩)] := by
    unfold partitionInterface
    rw [dictFold_const (fun r => partKey none G.ndim r) _ (partLocal none G.ndim me) (fun i => by simp [partKey, partLocal])]
    simp
  simp only [this, List.all_cons, List.all_nil, Bool.and_true]
  rw [hshape P' (by omega), hgs]
  have : chunkShape G.shape none P' (P' + 1) = some G.shape := by
    unfold chunkShape
    rw [show (Option.map (fun (s : Nat) => (s : Int)) none) = none from rfl, chunk_none]
    rfl
  rw [this]; simp

/-- C51 fails when one rank holds everything: that rank takes the array for a replicated one, the others find the split axis. -/
theorem from_partitioned_violated :
    let lmap := fun (r : Nat) => [if r = 0 then 3 else 0]
    (fromPartition 2 [3] (partitionInterface id 2 lmap (some 0) 1 0) (lmap 0)).map (·.1) = .ok none ∧
    (fromPartition 2 [3] (partitionInterface id 2 lmap (some 0) 1 1) (lmap 1)).map (·.1) = .ok (some 0) := by decide +kernel

example : let lmap := fun (r : Nat) => [4, if r = 1 then 1 else 2]
    (fromPartition 3 [4, 5] (partitionInterface id 3 lmap (some 1) 2 0) (lmap 0)) = .ok (some 1, false) ∧
    (partitionInterface id 3 lmap (some 1) 2 0).map (fun p => p.2.start) = [[0, 0], [0, 2], [0, 3]] := by decide +kernel

end Heat
