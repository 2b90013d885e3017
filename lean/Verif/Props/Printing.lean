import Verif.Model.Printing
import Verif.Proof.Chunk
import Mathlib.Tactic.Ring
/-!
# C141: the printed representation of a distributed array
-/
namespace Heat

/-- Specification: what torch shows of a tensor with the slabs `xs` along an axis when it summarizes (`_tensor_str_with_formatter`): all of them, or the first and the last `e` with an ellipsis (`none`) in between. -/
def shown {α : Type _} (e : Nat) (xs : List α) : List (Option α) :=
  if 2 * e < xs.length then (xs.take e).map some ++ [none] ++ (xs.drop (xs.length - e)).map some else xs.map some

theorem shown_map {α β : Type _} (f : α → β) (e : Nat) (xs : List α) : shown e (xs.map f) = (shown e xs).map (Option.map f) := by
  unfold shown
  rw [List.length_map]
  split
  · simp [List.map_take, List.map_drop]
  · simp

theorem prChunk_map {α β : Type _} (f : α → β) (xs : List α) (P r : Nat) : prChunk (xs.map f) P r = (prChunk xs P r).map f := by
  unfold prChunk
  rw [List.length_map, List.map_take, List.map_drop]

theorem prLocal_map {α β : Type _} (f : α → β) (e n o : Nat) (data : List α) : prLocal e n o (data.map f) = (prLocal e n o data).map f := by
  unfold prLocal
  rw [List.length_map]
  split
  · rw [List.map_take]
  · split
    · rw [List.map_drop]
    · rfl

theorem prGather_map {α β : Type _} (f : α → β) (e : Nat) (xs : List α) (P : Nat) : prGather e (xs.map f) P = (prGather e xs P).map f := by
  unfold prGather
  rw [List.map_flatMap, List.length_map]
  congr 1
  funext r
  rw [prChunk_map, prLocal_map]

theorem prSplitAxis_map {α β : Type _} (f : α → β) (e : Nat) (xs : List α) (P : Nat) : prSplitAxis e (xs.map f) P = (prSplitAxis e xs P).map f := by
  unfold prSplitAxis
  rw [List.length_map]
  split
  · rw [List.map_flatMap]
    congr 1
    funext r
    rw [prChunk_map]
  · rw [prGather_map]

theorem chunkRange_le (n : Nat) {P r : Nat} (hP : 0 < P) (hr : r ≤ P) : (chunkRange n r P).1 ≤ n := by
  have := chunkRange_mono n P hr
  rwa [chunkRange_at_P n P hP] at this

theorem prChunk_range (n : Nat) {P r : Nat} (hP : 0 < P) (hr : r < P) : prChunk (List.range n) P r = List.range' (chunkRange n r P).1 ((chunkRange n (r + 1) P).1 - (chunkRange n r P).1) := by
  have h1 : (chunkRange n (r + 1) P).1 ≤ n := chunkRange_le n hP hr
  unfold prChunk
  rw [List.length_range, ← chunkRange_succ]
  apply List.ext_getElem
  · simp; omega
  · intro i h2 h3
    simp

/-- The branch that should cut off all but the last slabs never cuts anything. -/
theorem prLocal_late {α : Type _} {e n o : Nat} (h : e < o) (data : List α) : prLocal e n o data = data := by
  unfold prLocal
  rw [if_neg (by omega)]
  split
  · next h1 =>
    have : (max 0 ((n : Int) - e - o)).toNat = 0 := by omega
    rw [this, List.drop_zero]
  · rfl

/-- What rank 0 receives: the slabs up to `e`, and all from the first process on that begins after `e`. -/
theorem prGather_range {e n P o : Nat} (hP : 0 < P) (hn : e < n) (ho : e < o) (hex : ∃ r ≤ P, o = (chunkRange n r P).1) (hmin : ∀ r ≤ P, e < (chunkRange n r P).1 → o ≤ (chunkRange n r P).1) :
    prGather e (List.range n) P = List.range (e + 1) ++ List.range' o (n - o) := by
  obtain ⟨r0, hr0, hor⟩ := hex
  have key : ∀ k ≤ P, ((List.range k).flatMap fun r => prLocal e (List.range n).length (chunkRange (List.range n).length r P).1 (prChunk (List.range n) P r)) = List.range (min (e + 1) (chunkRange n k P).1) ++ List.range' o ((chunkRange n k P).1 - o) := by
    intro k
    induction k with
    | zero => intro _; simp [chunkRange_zero]
    | succ k ih =>
      intro hk
      rw [List.range_succ, List.flatMap_append, ih (by omega), List.flatMap_singleton, List.length_range, prChunk_range n hP (by omega)]
      have hm := chunkRange_mono n P (Nat.le_succ k)
      by_cases hs : (chunkRange n k P).1 ≤ e
      · have hko : (chunkRange n (k + 1) P).1 ≤ o := by
          rw [hor]
          apply chunkRange_mono
          by_contra hlt
          have := chunkRange_mono n P (show r0 ≤ k by omega)
          omega
        rw [Nat.sub_eq_zero_of_le hko, Nat.sub_eq_zero_of_le (by omega), List.range'_zero, List.append_nil, List.append_nil]
        unfold prLocal
        rw [if_pos (by omega), List.length_range']
        have hr' : ∀ a b m, List.range a ++ (List.range' a b).take m = List.range (a + min m b) := by
          intro a b m
          apply List.ext_getElem
          · simp
          · intro i h1 h2
            rw [List.getElem_range]
            by_cases hia : i < a
            · rw [List.getElem_append_left (by simpa using hia)]; simp
            · rw [List.getElem_append_right (by simpa using hia)]
              simp
              omega
        rw [Nat.min_eq_right (by omega : (chunkRange n k P).1 ≤ e + 1), hr']
        congr 1
        dsimp only [Nat.succ_eq_add_one] at hm
        omega
      · rw [prLocal_late (by omega)]
        have hko := hmin k (by omega) (by omega)
        dsimp only [Nat.succ_eq_add_one] at hm
        rw [Nat.min_eq_left (by omega), Nat.min_eq_left (by omega), List.append_assoc]
        congr 1
        have e1 : (chunkRange n k P).1 = o + 1 * ((chunkRange n k P).1 - o) := by omega
        conv_lhs => arg 2; rw [show List.range' (chunkRange n k P).1 ((chunkRange n (k + 1) P).1 - (chunkRange n k P).1) = List.range' (o + 1 * ((chunkRange n k P).1 - o)) ((chunkRange n (k + 1) P).1 - (chunkRange n k P).1) by rw [← e1]]
        rw [List.range'_append]
        congr 1
        omega
  have := key P le_rfl
  rw [chunkRange_at_P n P hP, Nat.min_eq_left (by omega)] at this
  exact this

/-- **C141, exactly when the printed array is right**: let the array have more than `2 e` slabs along its split axis (`e` = `edgeitems`), and let `o` be the first slab of the first process that begins after slab `e`. The printed representation shows the first and last `e` slabs with an ellipsis if `o ≤ n - e`; otherwise slabs are missing and there is no ellipsis. -/
theorem print_exact {e n P o : Nat} (hP : 0 < P) (hn : 2 * e < n) (ho : e < o) (hex : ∃ r ≤ P, o = (chunkRange n r P).1) (hmin : ∀ r ≤ P, e < (chunkRange n r P).1 → o ≤ (chunkRange n r P).1) :
    (o + e ≤ n → shown e (prSplitAxis e (List.range n) P) = shown e (List.range n)) ∧
    (n < o + e → none ∉ shown e (prSplitAxis e (List.range n) P) ∧ none ∈ shown e (List.range n) ∧ (prSplitAxis e (List.range n) P).length < n) := by
  have hon : o ≤ n := by
    obtain ⟨r, hr, rfl⟩ := hex
    exact chunkRange_le n hP hr
  unfold prSplitAxis
  rw [List.length_range, if_neg (by omega), prGather_range hP (by omega) ho hex hmin]
  constructor
  · intro h
    unfold shown
    rw [List.length_append, List.length_range, List.length_range', List.length_range, if_pos (by omega), if_pos (by omega)]
    congr 2
    · congr 1
      rw [List.take_append_of_le_length (by simp)]
      apply List.ext_getElem
      · simp; omega
      · intro i h1 h2; simp
    · rw [show e + 1 + (n - o) - e = (List.range (e + 1)).length + (n - o - e) by rw [List.length_range]; omega, List.drop_length_add_append]
      apply List.ext_getElem
      · simp; omega
      · intro i h1 h2
        simp
        omega
  · intro h
    refine ⟨?_, ?_, ?_⟩
    · unfold shown
      rw [List.length_append, List.length_range, List.length_range', if_neg (by omega)]
      simp
    · unfold shown
      rw [List.length_range, if_pos hn]
      simp
    · rw [List.length_append, List.length_range, List.length_range']
      omega

theorem exists_late {e n P : Nat} (hP : 0 < P) (hn : e < n) : ∃ o, e < o ∧ (∃ r < P, (chunkRange n r P).1 ≤ e ∧ o = (chunkRange n (r + 1) P).1) ∧ ∀ r ≤ P, e < (chunkRange n r P).1 → o ≤ (chunkRange n r P).1 := by
  classical
  have hex : ∃ r, r ≤ P ∧ e < (chunkRange n r P).1 := ⟨P, le_rfl, by rw [chunkRange_at_P n P hP]; exact hn⟩
  have h1 := Nat.find_spec hex
  have h2 : ∀ r ≤ P, e < (chunkRange n r P).1 → Nat.find hex ≤ r := fun r hr h => Nat.find_min' hex ⟨hr, h⟩
  generalize Nat.find hex = r0 at h1 h2
  rcases r0 with _ | r0
  · rw [chunkRange_zero] at h1; omega
  · refine ⟨_, h1.2, ⟨r0, h1.1, ?_, rfl⟩, fun r hr h => chunkRange_mono n P (h2 r hr h)⟩
    by_contra hlt
    have := h2 r0 (by omega) (by omega)
    omega

theorem prSplit_short {α : Type _} {e P : Nat} {xs : List α} (hP : 0 < P) (hn : xs.length ≤ 2 * e) : prSplitAxis e xs P = xs := by
  unfold prSplitAxis
  rw [if_pos hn]
  have key : ∀ k ≤ P, ((List.range k).flatMap fun r => prChunk xs P r) = xs.take (chunkRange xs.length k P).1 := by
    intro k
    induction k with
    | zero => intro _; simp [chunkRange_zero]
    | succ k ih =>
      intro hk
      rw [List.range_succ, List.flatMap_append, ih (by omega), List.flatMap_singleton]
      unfold prChunk
      have hm := chunkRange_mono xs.length P (Nat.le_succ k)
      dsimp only [Nat.succ_eq_add_one] at hm
      rw [← chunkRange_succ, ← List.take_add]
      congr 1
      omega
  rw [key P le_rfl, chunkRange_at_P _ P hP, List.take_length]

/-- **C141, whenever it is right, for arrays of any content**: process `r` begins at or before slab `e`, the next one after it, and at most at slab `n - e`. -/
theorem print_split_of {α : Type _} {e : Nat} {xs : List α} {P : Nat} (hP : 0 < P) (hn : 2 * e < xs.length) {r : Nat} (hr : r < P) (hre : (chunkRange xs.length r P).1 ≤ e) (hrl : e < (chunkRange xs.length (r + 1) P).1) (h : (chunkRange xs.length (r + 1) P).1 + e ≤ xs.length) :
    shown e (prSplitAxis e xs P) = shown e xs := by
  have hmap : xs = (List.range xs.length).map fun i => if h : i < xs.length then xs[i] else xs[0] := by
    apply List.ext_getElem
    · simp
    · intro i h1 h2
      simp [h1]
  have hmin : ∀ s ≤ P, e < (chunkRange xs.length s P).1 → (chunkRange xs.length (r + 1) P).1 ≤ (chunkRange xs.length s P).1 := by
    intro s _ hs
    apply chunkRange_mono
    by_contra hlt
    have := chunkRange_mono xs.length P (show s ≤ r by omega)
    omega
  have hkey := (print_exact hP hn hrl ⟨r + 1, hr, rfl⟩ hmin).1 h
  rw [hmap, prSplitAxis_map, shown_map, ← hmap] 
  rw [hkey, ← shown_map, ← hmap]

/-- **C141, a condition that is enough**: the printed representation is right along the split axis, for every content, if the axis is short or no process has more than `n - 2 e` slabs. -/
theorem print_split_partial {α : Type _} (e : Nat) (xs : List α) {P : Nat} (hP : 0 < P) (h : xs.length ≤ 2 * e ∨ ∀ r < P, (chunkRange xs.length r P).2 - (chunkRange xs.length r P).1 + 2 * e ≤ xs.length) :
    shown e (prSplitAxis e xs P) = shown e xs := by
  by_cases hs : xs.length ≤ 2 * e
  · rw [prSplit_short hP hs]
  · have hb := h.resolve_left hs
    obtain ⟨o, ho, ⟨r, hr, hre, hor⟩, hmin⟩ := exists_late (e := e) (n := xs.length) hP (by omega)
    have hoe : o + e ≤ xs.length := by
      have := hb r hr
      rw [← chunkRange_succ] at this
      omega
    exact print_split_of hP (by omega) hr hre (by omega) (by omega)

/-- With two processes the printed representation is always right. -/
theorem print_two {α : Type _} (e : Nat) (xs : List α) : shown e (prSplitAxis e xs 2) = shown e xs := by
  by_cases hs : xs.length ≤ 2 * e
  · rw [prSplit_short (by omega) hs]
  · apply print_split_of (by omega) (by omega) (r := 0) (by omega)
    · rw [chunkRange_zero]; omega
    · rw [chunkRange_fst]; omega
    · rw [chunkRange_fst]; omega

/-- Along every other axis the printed representation is right. -/
theorem print_other {α : Type _} (e : Nat) (xs : List α) : shown e (prOtherAxis e xs) = shown e xs := by
  unfold prOtherAxis
  split
  · rfl
  · next h =>
    unfold shown
    have hl : (xs.take (e + 1) ++ xs.drop (xs.length - e)).length = 2 * e + 1 := by
      rw [List.length_append, List.length_take, List.length_drop]; omega
    rw [hl, if_pos (by omega), if_pos (by omega)]
    congr 2
    · congr 1
      rw [List.take_append_of_le_length (by rw [List.length_take]; omega), List.take_take, Nat.min_eq_left (by omega)]
    · rw [show 2 * e + 1 - e = (xs.take (e + 1)).length by rw [List.length_take]; omega, List.drop_left]

/-- **C141 is violated**: 7 slabs (say a 7 x 200 array) on 3 processes with the default `edgeitems = 3`: slabs 0, 1, 2, 3, 5, 6 are printed, without ellipsis and without slab 4. -/
theorem print_violated : shown 3 (prSplitAxis 3 (List.range 7) 3) = [some 0, some 1, some 2, some 3, some 5, some 6] ∧ shown 3 (List.range 7) = [some 0, some 1, some 2, none, some 4, some 5, some 6] := by
  decide +kernel

example : shown 3 (prSplitAxis 3 (List.range 100) 4) = [some 0, some 1, some 2, none, some 97, some 98, some 99] := by decide +kernel

example : ∀ r < 4, (chunkRange 100 r 4).2 - (chunkRange 100 r 4).1 + 2 * 3 ≤ 100 := by decide

end Heat
