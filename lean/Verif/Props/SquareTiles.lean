import Verif.Model.SquareTiles
import Verif.Proof.Chunk
import Mathlib.Tactic.SplitIfs
import Mathlib.Algebra.Order.BigOperators.Group.List
/-!
# C186, C187: square tiles
-/
namespace Heat

theorem sdCum_succ (L : List Nat) (r : Nat) (h : r < L.length) : sdCum L (r + 1) = sdCum L r + L.getD r 0 := by
  unfold sdCum
  rw [List.take_add_one, List.getElem?_eq_getElem h]
  simp [h]

theorem sdCum_mono (L : List Nat) {r s : Nat} (h : r ≤ s) : sdCum L r ≤ sdCum L s := by
  unfold sdCum
  obtain ⟨k, rfl⟩ := Nat.exists_eq_add_of_le h
  rw [List.take_add]
  simp

theorem sdCum_all (L : List Nat) : sdCum L L.length = L.sum := by simp [sdCum]

theorem sdFirst_spec (L : List Nat) (k : Nat) (hL : 0 < L.length) (hk : k ≤ L.sum) :
    sdFirst L k < L.length ∧ k ≤ sdCum L (sdFirst L k + 1) ∧ ∀ p < sdFirst L k, sdCum L (p + 1) < k := by
  unfold sdFirst
  cases hf : (List.range L.length).find? fun p => decide (k ≤ sdCum L (p + 1)) with
  | none =>
    exfalso
    rw [List.find?_eq_none] at hf
    have := hf (L.length - 1) (by simp; omega)
    rw [show L.length - 1 + 1 = L.length by omega, sdCum_all] at this
    simp at this; omega
  | some i =>
    rw [List.find?_range_eq_some] at hf
    obtain ⟨h1, h2, h3⟩ := hf
    simp only [Option.getD_some]
    refine ⟨by simpa using h2, by simpa using h1, fun p hp => ?_⟩
    have := h3 p hp
    simpa using this

section
variable (L : List Nat) (m n : Nat) (hL : 0 < L.length) (hk : min m n ≤ L.sum)
include hL hk

theorem sdCross_lt {r : Nat} (h : r ≤ sdFirst L (min m n)) : sdCross L m n r = sdCum L r := by
  unfold sdCross; rw [if_neg (by omega)]

theorem sdCross_last : sdCross L m n (sdFirst L (min m n) + 1) = min m n := by
  unfold sdCross; rw [if_pos rfl]
  have := (sdFirst_spec L _ hL hk).2.1
  split_ifs <;> omega

theorem sdCum_last_le : sdCum L (sdFirst L (min m n)) ≤ min m n := by
  rcases Nat.eq_zero_or_pos (sdFirst L (min m n)) with h | h
  · rw [h]; simp [sdCum]
  · have := (sdFirst_spec L _ hL hk).2.2 (sdFirst L (min m n) - 1) (by omega)
    rw [show sdFirst L (min m n) - 1 + 1 = sdFirst L (min m n) by omega] at this
    omega

theorem sdCross_step {r : Nat} (h : r ≤ sdFirst L (min m n)) : sdCross L m n r ≤ sdCross L m n (r + 1) := by
  rw [sdCross_lt L m n hL hk h]
  rcases Nat.lt_or_ge r (sdFirst L (min m n)) with h' | h'
  · rw [sdCross_lt L m n hL hk (by omega)]; exact sdCum_mono L (by omega)
  · rw [show r = sdFirst L (min m n) by omega, sdCross_last L m n hL hk]
    exact sdCum_last_le L m n hL hk

/-- The sum of the first `i` tile columns. -/
theorem sdCols_take (T : Nat) (hT : 0 < T) : ∀ i ≤ T * sdFirst L (min m n) + T,
    ((sdCols L m n T).take i).sum = if i = T * sdFirst L (min m n) + T then ((min m n : Nat) : Int) else
      ((sdCross L m n (i / T) + (chunkRange (sdCross L m n (i / T + 1) - sdCross L m n (i / T)) (i % T) T).1 : Nat) : Int) := by
  intro i
  induction i with
  | zero =>
    intro _
    rw [if_neg (by omega)]
    simp [chunkRange_zero, sdCross_lt L m n hL hk (Nat.zero_le _), sdCum]
  | succ i ih =>
    intro hi
    have hlen : (sdCols L m n T).length = T * sdFirst L (min m n) + T := by simp [sdCols]
    have h0 := ih (by omega)
    rw [if_neg (by omega)] at h0
    rw [List.take_add_one, List.sum_append, h0, List.getElem?_eq_getElem (by omega)]
    have hg : (sdCols L m n T)[i]'(by omega) = sdColSize L m n T i := by simp [sdCols]
    rw [hg]
    simp only [Option.toList_some, List.sum_cons, List.sum_nil, add_zero]
    unfold sdColSize
    have hq : i / T ≤ sdFirst L (min m n) := by
      have : i / T < sdFirst L (min m n) + 1 := by
        rw [Nat.div_lt_iff_lt_mul hT]; rw [Nat.add_mul, Nat.mul_comm _ T]; omega
      omega
    have hst := sdCross_step L m n hL hk hq
    have hmod := Nat.mod_lt i hT
    have hdm := Nat.div_add_mod i T
    have hmono := chunkRange_mono (sdCross L m n (i / T + 1) - sdCross L m n (i / T)) T (show i % T ≤ i % T + 1 by omega)
    dsimp only
    rw [← chunkRange_succ]
    rcases Nat.lt_or_ge (i % T + 1) T with h1 | h1
    · have hd : (i + 1) / T = i / T := by
        rw [Nat.div_eq_iff hT]
        have : i / T * T = T * (i / T) := Nat.mul_comm _ _
        constructor
        · omega
        · omega
      have hm : (i + 1) % T = i % T + 1 := by
        have := Nat.div_add_mod (i + 1) T
        rw [hd] at this; omega
      have hne : ¬ i + 1 = T * sdFirst L (min m n) + T := by
        intro h
        rw [h] at hm
        simp at hm
      rw [if_neg hne, hd, hm]
      push_cast
      omega
    · have he : i % T + 1 = T := by omega
      rw [he, chunkRange_at_P _ _ hT]
      have hi1 : i + 1 = T * (i / T) + T := by omega
      have hd : (i + 1) / T = i / T + 1 := by
        rw [hi1, show T * (i / T) + T = T * (i / T + 1) by rw [Nat.mul_add, Nat.mul_one], Nat.mul_div_cancel_left _ hT]
      have hm : (i + 1) % T = 0 := by
        rw [hi1, show T * (i / T) + T = T * (i / T + 1) by rw [Nat.mul_add, Nat.mul_one]]; simp
      have hmono2 := chunkRange_mono (sdCross L m n (i / T + 1) - sdCross L m n (i / T)) T (show i % T ≤ T by omega)
      rw [chunkRange_at_P _ _ hT] at hmono2
      have hchunk : (chunkRange (sdCross L m n (i / T + 1) - sdCross L m n (i / T)) (i % T) T).1 ≤ sdCross L m n (i / T + 1) - sdCross L m n (i / T) := hmono2
      split_ifs with hend
      · have hlast : i / T = sdFirst L (min m n) := by
          have : T * (i / T) = T * sdFirst L (min m n) := by omega
          exact Nat.eq_of_mul_eq_mul_left hT this
        rw [hlast] at hst hchunk ⊢
        rw [sdCross_last L m n hL hk] at hst hchunk ⊢
        omega
      · rw [hd, hm, chunkRange_zero]
        push_cast
        omega
end

theorem sdCols_length (L : List Nat) (m n T : Nat) : (sdCols L m n T).length = T * sdFirst L (min m n) + T := by simp [sdCols]

theorem sdCols_nonneg (L : List Nat) (m n T : Nat) : ∀ x ∈ sdCols L m n T, 0 ≤ x := by
  intro x hx
  simp only [sdCols, List.mem_map] at hx
  obtain ⟨c, -, rfl⟩ := hx
  unfold sdColSize
  dsimp only
  omega

theorem sdCols_sum (L : List Nat) (m n T : Nat) (hL : 0 < L.length) (hk : min m n ≤ L.sum) (hT : 0 < T) : (sdCols L m n T).sum = ((min m n : Nat) : Int) := by
  have h := sdCols_take L m n hL hk T hT _ (Nat.le_refl _)
  rw [if_pos rfl, ← sdCols_length L m n T, List.take_length] at h
  exact h

theorem sdCols_at (L : List Nat) (m n T : Nat) (hL : 0 < L.length) (hk : min m n ≤ L.sum) (hT : 0 < T) {r : Nat} (hr : r ≤ sdFirst L (min m n)) :
    ((sdCols L m n T).take (T * r)).sum = ((sdCum L r : Nat) : Int) := by
  have hle : T * r ≤ T * sdFirst L (min m n) := Nat.mul_le_mul_left T hr
  rw [sdCols_take L m n hL hk T hT _ (by omega), if_neg (by omega), Nat.mul_div_cancel_left _ hT, Nat.mul_mod_right, chunkRange_zero, sdCross_lt L m n hL hk hr]
  simp

theorem list_sum_nonneg {S : List Int} (h : ∀ x ∈ S, 0 ≤ x) : 0 ≤ S.sum := by
  induction S with
  | nil => simp
  | cons a S ih =>
    rw [List.sum_cons]
    have := h a (by simp)
    have := ih fun x hx => h x (by simp [hx])
    omega

/-- Bounds of tiles that are non-negative and fit into the axis are monotone. -/
theorem sdBound_mono (S : List Int) (N : Nat) (h0 : ∀ x ∈ S.dropLast, 0 ≤ x) (hs : S.dropLast.sum ≤ N) (i : Nat) : sdBound S N i ≤ sdBound S N (i + 1) := by
  unfold sdBound
  by_cases h1 : i + 1 < S.length
  · rw [if_pos (by omega), if_pos h1, List.take_add_one, List.getElem?_eq_getElem (by omega)]
    have hm : S[i] ∈ S.dropLast := by
      rw [List.mem_iff_getElem]
      exact ⟨i, by simp; omega, by simp⟩
    have := h0 _ hm
    rw [List.sum_append]
    simp only [Option.toList_some, List.sum_cons, List.sum_nil]
    omega
  · rw [if_neg h1]
    split_ifs with h2
    · have : S.take i = S.dropLast := by rw [List.dropLast_eq_take]; congr 1; omega
      rw [this]; exact hs
    · exact Int.le_refl _

theorem dropLast_sum_le {S : List Int} (h : ∀ x ∈ S, 0 ≤ x) : S.dropLast.sum ≤ S.sum := by
  by_cases hn : S = []
  · simp [hn]
  · conv_rhs => rw [← List.dropLast_append_getLast hn]
    rw [List.sum_append]
    have := h _ (List.getLast_mem hn)
    simpa using this

theorem sdBound_mono' (S : List Int) (N : Nat) (h0 : ∀ x ∈ S, 0 ≤ x) (hs : S.sum ≤ N) (i : Nat) : sdBound S N i ≤ sdBound S N (i + 1) :=
  sdBound_mono S N (fun x hx => h0 x (List.dropLast_subset S hx)) (Int.le_trans (dropLast_sum_le h0) hs) i

theorem sdBound_of_prefix {S S' : List Int} {N N' i : Nat} (h : i < S.length) (h' : i < S'.length) (ht : S.take i = S'.take i) : sdBound S N i = sdBound S' N' i := by
  unfold sdBound; rw [if_pos h, if_pos h', ht]

theorem flatMap_take {f : Nat → List Int} {T : Nat} (hf : ∀ k, (f k).length = T) {N k : Nat} (hk : k ≤ N) :
    (((List.range N).flatMap f).take (T * k)) = (List.range k).flatMap f := by
  obtain ⟨d, rfl⟩ := Nat.exists_eq_add_of_le hk
  rw [List.range_add, List.flatMap_append, List.take_left']
  induction k with
  | zero => simp
  | succ k ih => rw [List.range_succ, List.flatMap_append, List.length_append, ih (by omega)]; simp [hf]; rw [Nat.mul_add, Nat.mul_one]

theorem chunks_sum (x T : Nat) (hT : 0 < T) :
    (((List.range T).map fun t => (((chunkRange x t T).2 - (chunkRange x t T).1 : Nat) : Int))).sum = x := by
  have : ∀ k, ((List.range k).map fun t => (((chunkRange x t T).2 - (chunkRange x t T).1 : Nat) : Int)).sum = ((chunkRange x k T).1 : Int) := by
    intro k
    induction k with
    | zero => simp [chunkRange_zero]
    | succ k ih =>
      rw [List.range_succ, List.map_append, List.sum_append, ih]
      have := chunkRange_mono x T (show k ≤ k + 1 by omega)
      rw [chunkRange_succ] at this ⊢
      simp
      omega
  rw [this, chunkRange_at_P _ _ hT]

theorem sdEnds_sum (L : List Nat) (m n T : Nat) (hT : 0 < T) (k : Nat) (hk : sdFirst L (min m n) + 1 + k ≤ L.length) :
    ((sdEnds L m n T).take (T * k)).sum = (sdCum L (sdFirst L (min m n) + 1 + k) : Int) - sdCum L (sdFirst L (min m n) + 1) := by
  unfold sdEnds
  rw [flatMap_take (by simp) (by omega)]
  induction k with
  | zero => simp
  | succ k ih =>
    rw [List.range_succ, List.flatMap_append, List.sum_append, ih (by omega)]
    simp only [List.flatMap_cons, List.flatMap_nil, List.append_nil]
    have hc := sdCum_succ L (sdFirst L (min m n) + 1 + k) (by omega)
    rw [chunks_sum _ _ hT, ← Nat.add_assoc, hc]
    push_cast
    omega

theorem sdEnds_pos (L : List Nat) (m n T : Nat) (hT : 0 < T) (h : ∀ c ∈ L, T ≤ c) : ∀ x ∈ sdEnds L m n T, 0 < x := by
  intro x hx
  simp only [sdEnds, List.mem_flatMap, List.mem_map, List.mem_range] at hx
  obtain ⟨k, hk, t, ht, rfl⟩ := hx
  have hc : T ≤ L.getD (sdFirst L (min m n) + 1 + k) 0 := by
    rw [List.getD_eq_getElem?_getD, List.getElem?_eq_getElem (by omega)]; exact h _ (List.getElem_mem _)
  have := Nat.div_pos hc hT
  have he : 0 < Spec.evenSize (L.getD (sdFirst L (min m n) + 1 + k) 0) T t := by
    unfold Spec.evenSize
    split_ifs <;> omega
  rw [chunkRange_snd]
  omega

theorem sdEnds_length (L : List Nat) (m n T : Nat) : (sdEnds L m n T).length = T * (L.length - (sdFirst L (min m n) + 1)) := by
  unfold sdEnds
  simp [Nat.mul_comm]

theorem sdPush_fold : ∀ (xs rows : List Int), rows.getLast? ≠ some 0 → (∀ x ∈ xs, 0 < x) → xs.foldl sdPush rows = rows ++ xs
  | [], rows, _, _ => by simp
  | x :: xs, rows, h, hx => by
    rw [List.foldl_cons, show sdPush rows x = rows ++ [x] by unfold sdPush; rw [if_neg h]]
    rw [sdPush_fold xs _ _ fun y hy => hx y (by simp [hy])]
    · simp
    · have := hx x (by simp)
      simp; omega

/-- Specification: the bounds `b 0 = 0 ≤ b 1 ≤ ... ≤ b R = N` cut an axis of extent `N` into `R` consecutive tiles. -/
structure TileCuts (b : Nat → Int) (R N : Nat) : Prop where
  first : b 0 = 0
  step : ∀ i, b i ≤ b (i + 1)
  final : ∀ i, R ≤ i → b i = N

/-- Specification: both axes are cut into consecutive tiles, and along the split axis the tiles of a process are exactly its rows (columns): the tiles of the processes before `r` end where the data of process `r` begin, and no tile of the split axis is without a process. -/
structure GoodTiles (A : SDTiles) (L : List Nat) : Prop where
  procs : A.P = L.length
  rows : TileCuts (sdBound A.rows A.m) A.rows.length A.m
  cols : TileCuts (sdBound A.cols A.n) A.cols.length A.n
  extent : L.sum = if A.split = 0 then A.m else A.n
  aligned : ∀ r < L.length, (if A.split = 0 then sdBound A.rows A.m else sdBound A.cols A.n) (A.per.take r).sum = ((L.take r).sum : Int)
  enough : A.split ≠ 0 → A.cols.length ≤ (A.per.take L.length).sum

theorem cuts_of {S : List Int} {N : Nat} (hne : S ≠ []) (h0 : ∀ x ∈ S.dropLast, 0 ≤ x) (hs : S.dropLast.sum ≤ N) : TileCuts (sdBound S N) S.length N where
  first := by
    unfold sdBound
    rw [if_pos (List.length_pos_iff.2 hne)]
    simp
  step := sdBound_mono S N h0 hs
  final := fun i hi => by unfold sdBound; rw [if_neg (by omega)]

theorem cuts_of' {S : List Int} {N : Nat} (hne : S ≠ []) (h0 : ∀ x ∈ S, 0 ≤ x) (hs : S.sum ≤ N) : TileCuts (sdBound S N) S.length N :=
  cuts_of hne (fun x hx => h0 x (List.dropLast_subset S hx)) (Int.le_trans (dropLast_sum_le h0) hs)

theorem sdCols_ne (L : List Nat) (m n T : Nat) (hT : 0 < T) : sdCols L m n T ≠ [] := by
  intro h
  have := sdCols_length L m n T
  rw [h] at this; simp at this; omega

theorem sdRowPer_eq (L : List Nat) (T : Nat) (h : T ≠ 1 ∨ ∀ c ∈ L, T ≤ c) : sdRowPer L T = List.replicate L.length T := by
  unfold sdRowPer
  split_ifs with h1
  · subst h1
    rcases h with h | h
    · exact absurd rfl h
    · rw [List.eq_replicate_iff]
      refine ⟨by simp, fun x hx => ?_⟩
      simp only [List.mem_map] at hx
      obtain ⟨c, hc, rfl⟩ := hx
      have := h c hc
      rw [if_neg (by omega)]
  · rfl

theorem take_replicate_sum (P T r : Nat) (h : r ≤ P) : ((List.replicate P T).take r).sum = T * r := by
  rw [List.take_replicate, Nat.min_eq_left h]
  simp [Nat.mul_comm]

/-- The columns of the diagonal are aligned with the processes. -/
theorem sdCols_bound (L : List Nat) (m n T N : Nat) (hL : 0 < L.length) (hk : min m n ≤ L.sum) (hT : 0 < T) {r : Nat} (hr : r ≤ sdFirst L (min m n)) :
    sdBound (sdCols L m n T) N (T * r) = (sdCum L r : Int) := by
  have hle : T * r ≤ T * sdFirst L (min m n) := Nat.mul_le_mul_left T hr
  unfold sdBound
  rw [if_pos (by rw [sdCols_length]; omega), sdCols_at L m n T hL hk hT hr]

theorem sdCum_le_sum (L : List Nat) (r : Nat) : sdCum L r ≤ L.sum := by
  rcases Nat.le_total r L.length with h | h
  · rw [← sdCum_all]; exact sdCum_mono L h
  · unfold sdCum; rw [List.take_of_length_le h]

theorem sdGetD_ge (L : List Nat) (T : Nat) (h : ∀ c ∈ L, T ≤ c) (r : Nat) (hr : r < L.length) : T ≤ L.getD r 0 := by
  rw [List.getD_eq_getElem?_getD, List.getElem?_eq_getElem hr]; exact h _ (List.getElem_mem _)

/-- No process is empty and all rows are on the diagonal: it ends on the last process. -/
theorem sdFirst_eq_last (L : List Nat) (k : Nat) (hL : 0 < L.length) (hk : k = L.sum) (h : ∀ c ∈ L, 1 ≤ c) : sdFirst L k = L.length - 1 := by
  obtain ⟨h1, h2, -⟩ := sdFirst_spec L k hL (by omega)
  by_contra hne
  have h3 : sdCum L (sdFirst L k + 1) ≤ sdCum L (L.length - 1) := sdCum_mono L (by omega)
  have h4 := sdCum_succ L (L.length - 1) (by omega)
  have h5 := sdGetD_ge L 1 h (L.length - 1) (by omega)
  rw [show L.length - 1 + 1 = L.length by omega, sdCum_all] at h4
  omega

theorem evenSize_pos {x T t : Nat} (hT : 0 < T) (h : T ≤ x) : 0 < Spec.evenSize x T t := by
  have := Nat.div_pos h hT
  unfold Spec.evenSize
  omega

/-- Tiles of processes with enough rows are not empty. -/
theorem sdCols_pos (L : List Nat) (m n T : Nat) (hT : 0 < T) (hL : 0 < L.length) (hk : min m n = L.sum) (h : ∀ c ∈ L, T ≤ c) : ∀ x ∈ sdCols L m n T, 0 < x := by
  intro x hx
  simp only [sdCols, List.mem_map, List.mem_range] at hx
  obtain ⟨c, hc, rfl⟩ := hx
  unfold sdColSize
  dsimp only
  have hlast := sdFirst_eq_last L (min m n) hL hk fun c hc => Nat.le_trans hT (h c hc)
  have hq : c / T ≤ sdFirst L (min m n) := by
    have : c / T < sdFirst L (min m n) + 1 := by
      rw [Nat.div_lt_iff_lt_mul hT]; rw [Nat.add_mul, Nat.mul_comm _ T]; omega
    omega
  have hx : sdCross L m n (c / T + 1) - sdCross L m n (c / T) = L.getD (c / T) 0 := by
    have hs := sdCum_succ L (c / T) (by omega)
    rw [sdCross_lt L m n hL (by omega) hq]
    rcases Nat.lt_or_ge (c / T) (sdFirst L (min m n)) with h' | h'
    · rw [sdCross_lt L m n hL (by omega) (by omega)]; omega
    · have he : c / T = sdFirst L (min m n) := by omega
      rw [he, sdCross_last L m n hL (by omega), ← he]
      have ha := sdCum_all L
      rw [show L.length = c / T + 1 by omega] at ha
      omega
  rw [hx, chunkRange_snd]
  have := evenSize_pos (t := c % T) hT (sdGetD_ge L T h (c / T) (by omega))
  omega

theorem modify_last_take {S : List Int} {k : Nat} (f : Int → Int) {i : Nat} (h : i ≤ k) : (S.modify k f).take i = S.take i := by
  apply List.ext_getElem?
  intro j
  simp only [List.getElem?_take]
  by_cases h1 : j < i
  · rw [if_pos h1, if_pos h1, List.getElem?_modify]
    have : k ≠ j := by omega
    simp [this]
  · rw [if_neg h1, if_neg h1]

theorem modify_sum {S : List Int} {k : Nat} (d : Int) (h : k < S.length) : (S.modify k (· + d)).sum = S.sum + d := by
  induction S generalizing k with
  | nil => simp at h
  | cons a S ih =>
    cases k with
    | zero => simp; omega
    | succ k =>
      simp only [List.modify_succ_cons, List.sum_cons]
      rw [ih (by simpa using h)]; omega

/-- Tall matrix with rows below the diagonal: the tile rows. -/
theorem sdRows0_tall (L : List Nat) (m n T : Nat) (hT : 0 < T) (hL : 0 < L.length) (hm : L.sum = m) (hnm : n < m) (h : ∀ c ∈ L, T ≤ c)
    (hl : sdFirst L (min m n) < L.length - 1) :
    ∃ (C : List Int) (e : Nat), sdRows0 L m n T = (C ++ sdEnds L m n T, (List.replicate L.length T).modify (sdFirst L (min m n)) (· + e)) ∧
      C.length = T * sdFirst L (min m n) + T + e ∧ C.sum = sdCum L (sdFirst L (min m n) + 1) ∧ (∀ x ∈ C, 0 ≤ x) ∧
      ∀ i ≤ T * sdFirst L (min m n), C.take i = (sdCols L m n T).take i := by
  have hmin : min m n = n := by omega
  have hper := sdRowPer_eq L T (Or.inr h)
  obtain ⟨hs1, hs2, hs3⟩ := sdFirst_spec L (min m n) hL (by omega)
  have hlen := sdCols_length L m n T
  have hsum := sdCols_sum L m n T hL (by omega) hT
  have hnn := sdCols_nonneg L m n T
  have hge := sdGetD_ge L T h (sdFirst L (min m n)) hs1
  have hend := sdEnds_pos L m n T hT h
  have hdiff : (0 : Int) ≤ (sdCum L (sdFirst L (min m n) + 1) : Int) - n := by omega
  have hcum := sdCum_succ L (sdFirst L (min m n)) hs1
  unfold sdRows0
  dsimp only
  rw [if_pos hl, if_pos hnm, if_neg (show ¬ m < n by omega), hper]
  unfold sdLastRow
  dsimp only
  split_ifs with hd
  · refine ⟨sdCols L m n T ++ [(sdCum L (sdFirst L (min m n) + 1) : Int) - n], 1, ?_, by simp [hlen], ?_, ?_, ?_⟩
    · rw [sdPush_fold _ _ _ hend]
      simp; omega
    · rw [List.sum_append, hsum, hmin]; simp
    · intro x hx
      rw [List.mem_append] at hx
      rcases hx with hx | hx
      · exact hnn x hx
      · simp at hx; omega
    · intro i hi
      rw [List.take_append_of_le_length (by omega)]
  · have hidx : T * sdFirst L (min m n) + T - 1 < (sdCols L m n T).length := by omega
    refine ⟨(sdCols L m n T).modify (T * sdFirst L (min m n) + T - 1) (· + ((sdCum L (sdFirst L (min m n) + 1) : Int) - n)), 0, ?_, by simp [hlen], ?_, ?_, ?_⟩
    · rw [sdPush_fold _ _ _ hend]
      · have : (List.replicate L.length T).modify (sdFirst L (min m n)) (· + 0) = List.replicate L.length T := by
          apply List.ext_getElem?; intro j; simp [List.getElem?_modify]
        rw [this]
      · rw [List.getLast?_eq_getElem?, List.length_modify, List.getElem?_modify, hlen, List.getElem?_eq_getElem (by omega)]
        have hg : (sdCols L m n T)[T * sdFirst L (min m n) + T - 1] = sdColSize L m n T (T * sdFirst L (min m n) + T - 1) := by simp [sdCols]
        have h0 := hnn _ (List.getElem_mem hidx)
        simp only [Option.map_eq_map, Option.map_some, ne_eq, Option.some.injEq, if_true]
        intro hz
        have hd0 : (sdCum L (sdFirst L (min m n) + 1) : Int) - n = 0 := by omega
        rw [hg] at hz h0
        unfold sdColSize at hz
        dsimp only at hz
        have hdv : (T * sdFirst L (min m n) + T - 1) / T = sdFirst L (min m n) := by
          rw [Nat.div_eq_iff hT, Nat.mul_comm]; omega
        have hx : sdCross L m n (sdFirst L (min m n) + 1) - sdCross L m n (sdFirst L (min m n)) = L.getD (sdFirst L (min m n)) 0 := by
          rw [sdCross_last L m n hL (by omega), sdCross_lt L m n hL (by omega) (Nat.le_refl _)]
          omega
        rw [hdv, hx, chunkRange_snd] at hz
        have := evenSize_pos (t := (T * sdFirst L (min m n) + T - 1) % T) hT hge
        omega
    · rw [modify_sum _ hidx, hsum, hmin]; omega
    · intro x hx
      rw [List.mem_iff_getElem?] at hx
      obtain ⟨j, hj⟩ := hx
      rw [List.getElem?_modify] at hj
      cases hc : (sdCols L m n T)[j]? with
      | none => rw [hc] at hj; simp at hj
      | some y =>
        have := hnn y (List.mem_of_getElem? hc)
        rw [hc] at hj
        simp only [Option.map_eq_map, Option.map_some, Option.some.injEq] at hj
        split_ifs at hj <;> omega
    · intro i hi
      exact modify_last_take _ (by omega)

theorem replicate_modify_sum (P T l e r : Nat) (h : r ≤ P) : (((List.replicate P T).modify l (· + e)).take r).sum = T * r + if l < r then e else 0 := by
  induction r with
  | zero => simp
  | succ r ih =>
    have hrep : (List.replicate P T)[r]? = some T := by rw [List.getElem?_replicate, if_pos (by omega)]
    rw [List.take_add_one, List.sum_append, ih (by omega), List.getElem?_modify, hrep, Nat.mul_add]
    simp only [Option.map_eq_map, Option.map_some, Option.toList_some, List.sum_cons, List.sum_nil]
    split_ifs <;> omega

/-- C186 (partial).  Tiles of a matrix distributed along the rows or along the columns, with `T` tiles per process.  If it is split along the columns and not wider than high, or split along the rows with at least `T` rows on every process (or square, `T ≥ 2`), then the tile rows and columns cut both axes into consecutive tiles, and the tiles of a process are exactly its part of the split axis. -/
theorem square_tiles_partial (L : List Nat) (m n T split : Nat) (hT : 0 < T) (hL : 0 < L.length) (hsp : split < 2)
    (hsum : L.sum = if split = 0 then m else n)
    (h1 : split = 1 → n ≤ m) (h0 : split = 0 → (∀ c ∈ L, T ≤ c) ∨ (m = n ∧ 2 ≤ T)) :
    GoodTiles (sdMake L m n T split) L ∧ (sdMake L m n T split).m = m ∧ (sdMake L m n T split).n = n ∧ (sdMake L m n T split).split = split := by
  have hne := sdCols_ne L m n T hT
  have hnn := sdCols_nonneg L m n T
  have hlen := sdCols_length L m n T
  rcases (show split = 0 ∨ split = 1 by omega) with rfl | rfl
  · rw [if_pos rfl] at hsum
    have hk : min m n ≤ L.sum := by omega
    have hcs := sdCols_sum L m n T hL hk hT
    obtain ⟨hs1, hs2, hs3⟩ := sdFirst_spec L (min m n) hL hk
    have hdl := dropLast_sum_le hnn
    have hcols : TileCuts (sdBound (sdCols0 L m n T) n) (sdCols0 L m n T).length n := by
      unfold sdCols0
      split_ifs with hmn
      · refine cuts_of (by simp) (fun x hx => hnn x ?_) ?_
        · rw [List.dropLast_concat] at hx; exact List.dropLast_subset _ hx
        · rw [List.dropLast_concat]; omega
      · exact cuts_of' hne hnn (by omega)
    have key : TileCuts (sdBound (sdRows0 L m n T).1 m) (sdRows0 L m n T).1.length m ∧
        ∀ r < L.length, sdBound (sdRows0 L m n T).1 m ((sdRows0 L m n T).2.take r).sum = ((L.take r).sum : Int) := by
      by_cases hall : n < m ∧ sdFirst L (min m n) < L.length - 1
      · obtain ⟨hnm, hl⟩ := hall
        have h : ∀ c ∈ L, T ≤ c := by
          rcases h0 rfl with h | h
          · exact h
          · omega
        obtain ⟨C, e, he, hCl, hCs, hCn, hCt⟩ := sdRows0_tall L m n T hT hL hsum hnm h hl
        have hE := sdEnds_pos L m n T hT h
        have hEl := sdEnds_length L m n T
        have hEs := sdEnds_sum L m n T hT (L.length - (sdFirst L (min m n) + 1)) (by omega)
        rw [← hEl, List.take_length, show sdFirst L (min m n) + 1 + (L.length - (sdFirst L (min m n) + 1)) = L.length by omega, sdCum_all] at hEs
        rw [he]
        dsimp only
        refine ⟨cuts_of' ?_ ?_ ?_, fun r hr => ?_⟩
        · intro hc
          have := congrArg List.length hc
          rw [List.length_append, hCl] at this; simp at this; omega
        · intro x hx
          rw [List.mem_append] at hx
          rcases hx with hx | hx
          · exact hCn x hx
          · exact Int.le_of_lt (hE x hx)
        · rw [List.sum_append, hCs, hEs]; omega
        · rw [replicate_modify_sum _ _ _ _ _ (by omega)]
          unfold sdBound
          have hpos : 0 < T * (L.length - r) := Nat.mul_pos hT (by omega)
          rcases Nat.lt_or_ge (sdFirst L (min m n)) r with hr' | hr'
          · have hmul : T * r = T * sdFirst L (min m n) + T + T * (r - (sdFirst L (min m n) + 1)) := by
              rw [show r = sdFirst L (min m n) + 1 + (r - (sdFirst L (min m n) + 1)) by omega, Nat.mul_add, Nat.mul_add, Nat.mul_one]
              congr 2; omega
            have hmul2 : T * (L.length - (sdFirst L (min m n) + 1)) = T * (r - (sdFirst L (min m n) + 1)) + T * (L.length - r) := by
              rw [← Nat.mul_add]; congr 1; omega
            rw [if_pos hr', if_pos (by rw [List.length_append, hCl, hEl]; omega)]
            rw [show T * r + e = C.length + T * (r - (sdFirst L (min m n) + 1)) by omega, List.take_length_add_append, List.sum_append, hCs,
              sdEnds_sum L m n T hT _ (by omega)]
            rw [show sdFirst L (min m n) + 1 + (r - (sdFirst L (min m n) + 1)) = r by omega]
            show _ = ((sdCum L r : Nat) : Int)
            omega
          · have hle := Nat.mul_le_mul_left T hr'
            rw [if_neg (show ¬ sdFirst L (min m n) < r by omega), Nat.add_zero, if_pos (by rw [List.length_append, hCl]; omega), List.take_append_of_le_length (by omega), hCt _ hle,
              sdCols_at L m n T hL hk hT hr']
            rfl
      · -- the rows are the diagonal
        have hrow : (sdRows0 L m n T).1 = sdCols L m n T ∧ (sdRows0 L m n T).2 = List.replicate L.length T := by
          have hper : sdRowPer L T = List.replicate L.length T := by
            apply sdRowPer_eq
            rcases h0 rfl with h | h
            · exact Or.inr h
            · left; omega
          by_cases hl : sdFirst L (min m n) < L.length - 1
          · have hnm : m ≤ n := by by_contra hc; exact hall ⟨by omega, hl⟩
            have hmn : m = n := by
              rcases h0 rfl with h | h
              · by_contra hne'
                have := sdFirst_eq_last L (min m n) hL (by omega) fun c hc => Nat.le_trans hT (h c hc)
                omega
              · exact h.1
            have hcum : sdCum L (sdFirst L (min m n) + 1) = n := by
              have := sdCum_le_sum L (sdFirst L (min m n) + 1)
              omega
            unfold sdRows0 sdLastRow
            dsimp only
            rw [if_pos hl, if_neg (show ¬ n < m by omega), if_neg (show ¬ m < n by omega), hcum]
            have hz : ¬ ((L.getD (sdFirst L (min m n)) 0 : Nat) : Int) < 2 * ((n : Int) - n) := by omega
            rw [if_neg hz]
            refine ⟨?_, hper⟩
            apply List.ext_getElem?; intro j
            simp [List.getElem?_modify]
          · unfold sdRows0
            dsimp only
            rw [if_neg hl]
            dsimp only
            have hE : sdEnds L m n T = [] := by
              have := sdEnds_length L m n T
              rw [show L.length - (sdFirst L (min m n) + 1) = 0 by omega, Nat.mul_zero] at this
              exact List.length_eq_zero_iff.1 this
            rw [hE]
            refine ⟨?_, hper⟩
            by_cases hmn : m < n
            · rw [if_pos hmn, if_neg (by omega)]
              have h : ∀ c ∈ L, T ≤ c := by
                rcases h0 rfl with h | h
                · exact h
                · omega
              have hp := sdCols_pos L m n T hT hL (by omega) h
              rw [List.filter_eq_self]
              intro x hx
              have := hp x hx
              simp; omega
            · rw [if_neg hmn]; simp
        rw [hrow.1, hrow.2]
        refine ⟨cuts_of' hne hnn (by omega), fun r hr => ?_⟩
        rw [take_replicate_sum _ _ _ (by omega)]
        rcases Nat.lt_or_ge (sdFirst L (min m n)) r with hr' | hr'
        · have hmn : m ≤ n := by by_contra hc; exact hall ⟨by omega, by omega⟩
          have hmul : T * (sdFirst L (min m n) + 1) ≤ T * r := Nat.mul_le_mul_left T hr'
          rw [Nat.mul_add, Nat.mul_one] at hmul
          unfold sdBound
          rw [if_neg (by rw [hlen]; omega)]
          have h5 : sdCum L (sdFirst L (min m n) + 1) ≤ sdCum L r := sdCum_mono L hr'
          have h6 := sdCum_le_sum L r
          show (m : Int) = ((sdCum L r : Nat) : Int)
          omega
        · rw [sdCols_bound L m n T m hL hk hT hr']; rfl
    unfold sdMake
    rw [if_pos rfl]
    exact ⟨⟨rfl, key.1, hcols, by simpa using hsum, by simpa using key.2, fun h => absurd rfl h⟩, rfl, rfl, rfl⟩
  · have hnm := h1 rfl
    rw [if_neg (by omega)] at hsum
    have hmin : min m n = n := by omega
    have hk : min m n ≤ L.sum := by omega
    have hcs := sdCols_sum L m n T hL hk hT
    obtain ⟨hs1, hs2, hs3⟩ := sdFirst_spec L (min m n) hL hk
    have hdl := dropLast_sum_le hnn
    have hc1 : sdCols1 L m n T = (sdCols L m n T, sdColPer L m n T 1) := by unfold sdCols1; rw [if_neg (by omega)]
    have hrows : TileCuts (sdBound (sdRows1 L m n T) m) (sdRows1 L m n T).length m := by
      unfold sdRows1
      dsimp only
      rw [if_neg (show ¬ m < n by omega)]
      split_ifs with ha hb
      · refine cuts_of (by simp) (fun x hx => hnn x ?_) ?_
        · rw [List.dropLast_concat] at hx; exact hx
        · rw [List.dropLast_concat]; omega
      · refine cuts_of (by simp) (fun x hx => hnn x ?_) ?_
        · rw [List.dropLast_concat] at hx; exact List.dropLast_subset _ hx
        · rw [List.dropLast_concat]; omega
      · exact cuts_of' hne hnn (by omega)
    have hper : ∀ r ≤ L.length, (((sdColPer L m n T 1).take r).sum = T * r ∧ r ≤ sdFirst L (min m n)) ∨ T * sdFirst L (min m n) + T ≤ ((sdColPer L m n T 1).take r).sum ∧ sdFirst L (min m n) < r := by
      intro r hr
      unfold sdColPer
      dsimp only
      rw [List.take_append, List.sum_append, List.length_replicate]
      rcases Nat.lt_or_ge (sdFirst L (min m n)) r with hr' | hr'
      · right
        refine ⟨?_, hr'⟩
        rw [List.take_of_length_le (by simp; omega)]
        rw [show (List.replicate (sdFirst L (min m n) + 1) T).sum = T * sdFirst L (min m n) + T by
          rw [List.sum_replicate_nat, Nat.add_mul, Nat.one_mul, Nat.mul_comm]]
        omega
      · left
        rw [take_replicate_sum _ _ _ (by omega), show r - (sdFirst L (min m n) + 1) = 0 by omega]
        simp [hr']
    unfold sdMake
    rw [if_neg (by omega), hc1]
    refine ⟨⟨rfl, hrows, cuts_of' hne hnn (by dsimp only; omega), by simpa using hsum, ?_, ?_⟩, rfl, rfl, rfl⟩
    · intro r hr
      dsimp only
      rw [if_neg (by omega)]
      rcases hper r (by omega) with ⟨h2, h3⟩ | ⟨h2, h3⟩
      · rw [h2, sdCols_bound L m n T n hL hk hT h3]; rfl
      · unfold sdBound
        rw [if_neg (by omega)]
        have h5 : sdCum L (sdFirst L (min m n) + 1) ≤ sdCum L r := sdCum_mono L h3
        have h6 := sdCum_le_sum L r
        show (n : Int) = ((sdCum L r : Nat) : Int)
        omega
    · intro _
      dsimp only
      rcases hper L.length (Nat.le_refl _) with ⟨h2, h3⟩ | ⟨h2, h3⟩
      · omega
      · omega

/-- The key is inside the tiles of an axis of `R` tiles. -/
def keyValid (R : Nat) : SDKey → Prop
  | .int i => i < R
  | .slice a b => a.getD 0 ≤ R ∧ ∀ x, b = some x → x ≤ R

theorem keyValid_range {R : Nat} {k : SDKey} (h : keyValid R k) : (sdRange R k).1 ≤ R ∧ (sdRange R k).2 ≤ R := by
  cases k with
  | int i => exact ⟨Nat.le_of_lt h, h⟩
  | slice a b =>
    refine ⟨h.1, ?_⟩
    cases b with
    | none => exact Nat.le_refl _
    | some b => exact Nat.min_le_right _ _

theorem sdLookup_eq {S : List Int} {N : Nat} (hc : TileCuts (sdBound S N) S.length N) {k : SDKey} (h : keyValid S.length k) :
    sdLookup S N k = some (sdBound S N (sdRange S.length k).1, sdBound S N (sdRange S.length k).2) := by
  have hN := hc.final S.length (Nat.le_refl _)
  have h0 := hc.first
  cases k with
  | int i =>
    have hi : i < S.length := h
    show (if i + 1 ≤ S.length then _ else _) = _
    rw [if_pos (by omega)]; rfl
  | slice a b =>
    obtain ⟨ha, hb⟩ := h
    cases a with
    | none =>
      cases b with
      | none => simp [sdLookup, sdRange, hN, h0]
      | some b => have := hb b rfl; simp [sdLookup, sdRange, h0, this]
    | some a =>
      simp at ha
      cases b with
      | none => simp [sdLookup, sdRange, hN, ha]
      | some b => have := hb b rfl; simp [sdLookup, sdRange, ha, this]

theorem sdCuts_mono {b : Nat → Int} {R N : Nat} (h : TileCuts b R N) {i j : Nat} (hij : i ≤ j) : b i ≤ b j := by
  obtain ⟨d, rfl⟩ := Nat.exists_eq_add_of_le hij
  induction d with
  | zero => exact Int.le_refl _
  | succ d ih => exact Int.le_trans (ih (by omega)) (h.step (i + d))

/-- The process of a tile. -/
theorem sdOwner_spec (A : SDTiles) (L : List Nat) (hL : 0 < L.length) (h : GoodTiles A L) (i j : Nat) (ht : A.split ≠ 0 → j < A.cols.length) :
    sdOwner A i j < A.P ∧ (A.per.take (sdOwner A i j)).sum ≤ sdAxisTile A i j ∧
      (sdOwner A i j + 1 < A.P → sdAxisTile A i j < (A.per.take (sdOwner A i j + 1)).sum) := by
  unfold sdOwner
  cases hf : (List.range A.P).find? fun p => decide (sdAxisTile A i j < (A.per.take (p + 1)).sum) with
  | none =>
    rw [List.find?_eq_none] at hf
    have hP := h.procs
    have hlast := hf (A.P - 1) (by simp; omega)
    rw [show A.P - 1 + 1 = A.P by omega] at hlast
    simp only [decide_eq_true_eq, not_lt] at hlast
    by_cases hs : A.split = 0
    · simp only [Option.getD_none, if_pos hs]
      refine ⟨by omega, Nat.le_trans (sdCum_mono A.per (show A.P - 1 ≤ A.P by omega)) hlast, fun hc => by omega⟩
    · exfalso
      have h1 := h.enough hs
      have h2 := ht hs
      unfold sdAxisTile at hlast
      rw [if_neg hs, hP] at hlast
      omega
  | some p =>
    rw [List.find?_range_eq_some] at hf
    obtain ⟨h1, h2, h3⟩ := hf
    simp only [Option.getD_some]
    simp at h1 h2
    refine ⟨h2, ?_, fun _ => h1⟩
    rcases Nat.eq_zero_or_pos p with rfl | hp
    · simp
    · have := h3 (p - 1) (by omega)
      rw [show p - 1 + 1 = p by omega] at this
      simpa using this

/-- Rows (split 0) before the data of process `p`, and columns. -/
def offRow (A : SDTiles) (L : List Nat) (p : Nat) : Int := if A.split = 0 then ((L.take p).sum : Int) else 0
def offCol (A : SDTiles) (L : List Nat) (p : Nat) : Int := if A.split = 0 then 0 else ((L.take p).sum : Int)
/-- Rows and columns of the local data of process `p`. -/
def locRows (A : SDTiles) (L : List Nat) (p : Nat) : Int := if A.split = 0 then (L.getD p 0 : Int) else A.m
def locCols (A : SDTiles) (L : List Nat) (p : Nat) : Int := if A.split = 0 then A.n else (L.getD p 0 : Int)

theorem sdInvolved_all {A : SDTiles} {k0 k1 : SDKey} {p : Nat}
    (hr : (sdRange A.rows.length k0).1 < (sdRange A.rows.length k0).2) (hc : (sdRange A.cols.length k1).1 < (sdRange A.cols.length k1).2)
    (hown : ∀ i j, (sdRange A.rows.length k0).1 ≤ i → i < (sdRange A.rows.length k0).2 → (sdRange A.cols.length k1).1 ≤ j → j < (sdRange A.cols.length k1).2 → sdOwner A i j = p) :
    ∃ ps, sdInvolved A k0 k1 = p :: ps ∧ ps.all (· == p) = true := by
  have hall : ∀ x ∈ sdInvolved A k0 k1, x = p := by
    intro x hx
    simp only [sdInvolved, List.mem_flatMap, List.mem_map, List.mem_range] at hx
    obtain ⟨i, hi, j, hj, rfl⟩ := hx
    exact hown _ _ (by omega) (by omega) (by omega) (by omega)
  have hne : p ∈ sdInvolved A k0 k1 := by
    simp only [sdInvolved, List.mem_flatMap, List.mem_map, List.mem_range]
    exact ⟨0, by omega, 0, by omega, hown _ _ (by omega) (by omega) (by omega) (by omega)⟩
  cases hd : sdInvolved A k0 k1 with
  | nil => rw [hd] at hne; simp at hne
  | cons q ps =>
    rw [hd] at hall
    have hq := hall q (by simp)
    refine ⟨ps, by rw [hq], ?_⟩
    rw [List.all_eq_true]
    intro x hx
    have := hall x (by simp [hx])
    simp [this]

/-- C187.  Reading tiles `[i0, i1) × [j0, j1)` that all lie on process `p`: process `p` gets the local slice that holds exactly the global block between the bounds of these tiles, inside its local data; every other process gets nothing. -/
theorem square_tile_get (A : SDTiles) (L : List Nat) (hL : 0 < L.length) (hsp : A.split < 2) (h : GoodTiles A L) (k0 k1 : SDKey) (p : Nat)
    (v0 : keyValid A.rows.length k0) (v1 : keyValid A.cols.length k1)
    (hr : (sdRange A.rows.length k0).1 < (sdRange A.rows.length k0).2) (hc : (sdRange A.cols.length k1).1 < (sdRange A.cols.length k1).2)
    (hown : ∀ i j, (sdRange A.rows.length k0).1 ≤ i → i < (sdRange A.rows.length k0).2 → (sdRange A.cols.length k1).1 ≤ j → j < (sdRange A.cols.length k1).2 → sdOwner A i j = p) :
    (∃ r c : Int × Int, sdGet A p k0 k1 = .block r c ∧
      r.1 + offRow A L p = sdBound A.rows A.m (sdRange A.rows.length k0).1 ∧ r.2 + offRow A L p = sdBound A.rows A.m (sdRange A.rows.length k0).2 ∧
      c.1 + offCol A L p = sdBound A.cols A.n (sdRange A.cols.length k1).1 ∧ c.2 + offCol A L p = sdBound A.cols A.n (sdRange A.cols.length k1).2 ∧
      0 ≤ r.1 ∧ r.1 ≤ r.2 ∧ r.2 ≤ locRows A L p ∧ 0 ≤ c.1 ∧ c.1 ≤ c.2 ∧ c.2 ≤ locCols A L p) ∧
    p < L.length ∧ ∀ q, q ≠ p → sdGet A q k0 k1 = .nothing := by
  obtain ⟨hr1, hr2⟩ := keyValid_range v0
  obtain ⟨hc1, hc2⟩ := keyValid_range v1
  have hl0 := sdLookup_eq h.rows v0
  have hl1 := sdLookup_eq h.cols v1
  obtain ⟨ps, hps, hall⟩ := sdInvolved_all hr hc hown
  have hP := h.procs
  revert hl0 hl1 hown
  generalize hi0 : (sdRange A.rows.length k0).1 = i0 at *
  generalize hi1 : (sdRange A.rows.length k0).2 = i1 at *
  generalize hj0 : (sdRange A.cols.length k1).1 = j0 at *
  generalize hj1 : (sdRange A.cols.length k1).2 = j1 at *
  intro hown hl0 hl1
  have o1 := sdOwner_spec A L hL h i0 j0 (by omega)
  have o2 := sdOwner_spec A L hL h (i1 - 1) (j1 - 1) (by omega)
  rw [hown i0 j0 (by omega) (by omega) (by omega) (by omega)] at o1
  rw [hown (i1 - 1) (j1 - 1) (by omega) (by omega) (by omega) (by omega)] at o2
  have hpL : p < L.length := by omega
  have hal := h.aligned p hpL
  have hcum := sdCum_succ L p hpL
  have hrm := sdCuts_mono h.rows (show i0 ≤ i1 by omega)
  have hcm := sdCuts_mono h.cols (show j0 ≤ j1 by omega)
  have hr0 := sdCuts_mono h.rows (Nat.zero_le i0)
  have hc0 := sdCuts_mono h.cols (Nat.zero_le j0)
  have hrN := sdCuts_mono h.rows hr2
  have hcN := sdCuts_mono h.cols hc2
  rw [h.rows.first] at hr0
  rw [h.cols.first] at hc0
  rw [h.rows.final _ (Nat.le_refl _)] at hrN
  rw [h.cols.final _ (Nat.le_refl _)] at hcN
  refine ⟨?_, hpL, ?_⟩
  · unfold sdGet
    rw [hps]
    dsimp only
    rw [if_pos hall, if_pos rfl]
    unfold sdStartStop
    rw [hl0, hl1]
    dsimp only
    refine ⟨_, _, rfl, ?_⟩
    dsimp only
    unfold offRow offCol locRows locCols
    rcases (show A.split = 0 ∨ A.split = 1 by omega) with hs | hs
    · simp only [hs, if_true] at hal ⊢
      have ht1 : (A.per.take p).sum ≤ i0 := by have := o1.2.1; unfold sdAxisTile at this; rwa [if_pos hs] at this
      have hb := sdCuts_mono h.rows ht1
      have hend : sdBound A.rows A.m i1 ≤ ((sdCum L (p + 1) : Nat) : Int) := by
        by_cases hpP : p + 1 < L.length
        · have ht2 : i1 - 1 < (A.per.take (p + 1)).sum := by have := o2.2.2 (by omega); unfold sdAxisTile at this; rwa [if_pos hs] at this
          have hal2 := h.aligned (p + 1) hpP
          rw [if_pos hs] at hal2
          have := sdCuts_mono h.rows (show i1 ≤ (A.per.take (p + 1)).sum by omega)
          rw [hal2] at this
          exact this
        · have := h.extent
          rw [if_pos hs] at this
          rw [show p + 1 = L.length by omega, sdCum_all]
          omega
      rw [hal] at hb ⊢
      have hcs : ((L.take p).sum : Nat) = sdCum L p := rfl
      rw [hcs] at hb ⊢
      simp only [show ¬ (0 : Nat) = 1 by omega, if_false]
      refine ⟨by omega, by omega, by omega, by omega, by omega, by omega, by omega, by omega, by omega, by omega⟩
    · have hs0 : ¬ A.split = 0 := by omega
      rw [if_neg hs0] at hal
      simp only [hs0, hs, if_false, if_true]
      have ht1 : (A.per.take p).sum ≤ j0 := by have := o1.2.1; unfold sdAxisTile at this; rwa [if_neg hs0] at this
      have hb := sdCuts_mono h.cols ht1
      have hend : sdBound A.cols A.n j1 ≤ ((sdCum L (p + 1) : Nat) : Int) := by
        by_cases hpP : p + 1 < L.length
        · have ht2 : j1 - 1 < (A.per.take (p + 1)).sum := by have := o2.2.2 (by omega); unfold sdAxisTile at this; rwa [if_neg hs0] at this
          have hal2 := h.aligned (p + 1) hpP
          rw [if_neg hs0] at hal2
          have := sdCuts_mono h.cols (show j1 ≤ (A.per.take (p + 1)).sum by omega)
          rw [hal2] at this
          exact this
        · have := h.extent
          rw [if_neg hs0] at this
          rw [show p + 1 = L.length by omega, sdCum_all]
          omega
      rw [hal] at hb ⊢
      have hcs : ((L.take p).sum : Nat) = sdCum L p := rfl
      rw [hcs] at hb ⊢
      simp only [show ¬ (1 : Nat) = 0 by omega, if_false]
      refine ⟨by omega, by omega, by omega, by omega, by omega, by omega, by omega, by omega, by omega, by omega⟩
  · intro q hq
    unfold sdGet
    rw [hps]
    dsimp only
    rw [if_pos hall, if_neg (fun hc => hq hc.symm)]

/-- The data of different processes do not overlap. -/
theorem off_disjoint (L : List Nat) {p q : Nat} (hq : q < L.length) (hp : p < L.length) (hne : q ≠ p) {a x : Int} (h1 : 0 ≤ a) (h2 : a < (L.getD q 0 : Int))
    (h3 : ((L.take p).sum : Int) ≤ x) (h4 : x < ((sdCum L (p + 1) : Nat) : Int)) : a + ((L.take q).sum : Int) ≠ x := by
  have hs := sdCum_succ L q hq
  have e1 : (L.take p).sum = sdCum L p := rfl
  have e2 : (L.take q).sum = sdCum L q := rfl
  rw [e1] at h3
  rw [e2]
  rcases Nat.lt_or_gt_of_ne hne with h | h
  · have := sdCum_mono L (show q + 1 ≤ p by omega)
    omega
  · have := sdCum_mono L (show p + 1 ≤ q by omega)
    omega

/-- C187.  Writing a value to tiles on one process changes exactly the elements of the global array in the block of these tiles: on every process, every local element (whatever the local data) becomes the value iff its global position is in the block. -/
theorem square_tile_set {α : Type _} (A : SDTiles) (L : List Nat) (hL : 0 < L.length) (hsp : A.split < 2) (h : GoodTiles A L) (k0 k1 : SDKey) (p : Nat)
    (v0 : keyValid A.rows.length k0) (v1 : keyValid A.cols.length k1)
    (hr : (sdRange A.rows.length k0).1 < (sdRange A.rows.length k0).2) (hc : (sdRange A.cols.length k1).1 < (sdRange A.cols.length k1).2)
    (hown : ∀ i j, (sdRange A.rows.length k0).1 ≤ i → i < (sdRange A.rows.length k0).2 → (sdRange A.cols.length k1).1 ≤ j → j < (sdRange A.cols.length k1).2 → sdOwner A i j = p)
    (v : α) (loc : Nat → Int → Int → α) (q : Nat) (hq : q < L.length) (a b : Int) (ha : 0 ≤ a) (ha' : a < locRows A L q) (hb : 0 ≤ b) (hb' : b < locCols A L q) :
    sdSet A q k0 k1 v (loc q) a b =
      if sdBound A.rows A.m (sdRange A.rows.length k0).1 ≤ a + offRow A L q ∧ a + offRow A L q < sdBound A.rows A.m (sdRange A.rows.length k0).2 ∧
         sdBound A.cols A.n (sdRange A.cols.length k1).1 ≤ b + offCol A L q ∧ b + offCol A L q < sdBound A.cols A.n (sdRange A.cols.length k1).2 then v else loc q a b := by
  obtain ⟨⟨r, c, hg, e1, e2, e3, e4, b1, b2, b3, b4, b5, b6⟩, hpL, hoth⟩ := square_tile_get A L hL hsp h k0 k1 p v0 v1 hr hc hown
  by_cases hqp : q = p
  · subst hqp
    unfold sdSet
    rw [hg]
    dsimp only
    rw [← e1, ← e2, ← e3, ← e4]
    apply if_congr _ rfl rfl
    omega
  · unfold sdSet
    rw [hoth q hqp]
    dsimp only
    rw [if_neg]
    rintro ⟨f1, f2, f3, f4⟩
    have hs := sdCum_succ L p hpL
    have es : (L.take p).sum = sdCum L p := rfl
    unfold offRow at *
    unfold offCol at *
    unfold locRows at *
    unfold locCols at *
    rcases (show A.split = 0 ∨ A.split = 1 by omega) with hsplit | hsplit
    · simp only [hsplit, if_true] at *
      exact off_disjoint L hq hpL hqp ha ha' (by omega) (by omega) rfl
    · have hs0 : ¬ A.split = 0 := by omega
      simp only [hs0, if_false] at *
      exact off_disjoint L hq hpL hqp hb hb' (by omega) (by omega) rfl

/-- C187.  A key across processes is refused. -/
theorem square_tile_cross (A : SDTiles) (k0 k1 : SDKey) (me i j i' j' : Nat)
    (h1 : (sdRange A.rows.length k0).1 ≤ i ∧ i < (sdRange A.rows.length k0).2) (h2 : (sdRange A.cols.length k1).1 ≤ j ∧ j < (sdRange A.cols.length k1).2)
    (h1' : (sdRange A.rows.length k0).1 ≤ i' ∧ i' < (sdRange A.rows.length k0).2) (h2' : (sdRange A.cols.length k1).1 ≤ j' ∧ j' < (sdRange A.cols.length k1).2)
    (hne : sdOwner A i j ≠ sdOwner A i' j') : sdGet A me k0 k1 = .valueError := by
  have mem : ∀ i j, ((sdRange A.rows.length k0).1 ≤ i ∧ i < (sdRange A.rows.length k0).2) → ((sdRange A.cols.length k1).1 ≤ j ∧ j < (sdRange A.cols.length k1).2) → sdOwner A i j ∈ sdInvolved A k0 k1 := by
    intro i j hi hj
    simp only [sdInvolved, List.mem_flatMap, List.mem_map, List.mem_range]
    refine ⟨i - (sdRange A.rows.length k0).1, by omega, j - (sdRange A.cols.length k1).1, by omega, ?_⟩
    congr 1 <;> omega
  have m1 := mem i j h1 h2
  have m2 := mem i' j' h1' h2'
  unfold sdGet
  cases hd : sdInvolved A k0 k1 with
  | nil => rw [hd] at m1; simp at m1
  | cons q ps =>
    rw [hd] at m1 m2
    dsimp only
    rw [if_neg]
    intro hall
    rw [List.all_eq_true] at hall
    have e : ∀ x ∈ q :: ps, x = q := by
      intro x hx
      rw [List.mem_cons] at hx
      rcases hx with rfl | hx
      · rfl
      · simpa using hall x hx
    exact hne ((e _ m1).trans (e _ m2).symm)

/-- C187.  A local key inside the tiles of the process: the number of a local tile, or a slice of local tiles, becomes the key of the same tiles in the global map. -/
theorem square_local_key (A : SDTiles) (me : Nat) :
    (∀ i, sdToGlobal A me (.int i) = .int (i + (A.per.take me).sum)) ∧
    (∀ a b, a ≤ b → b ≤ A.per.getD me 0 → sdToGlobal A me (.slice (some a) (some b)) = .slice (some (a + (A.per.take me).sum)) (some (b + (A.per.take me).sum))) ∧
    sdToGlobal A me (.slice none none) = .slice (some (A.per.take me).sum) (some ((A.per.take me).sum + A.per.getD me 0)) := by
  refine ⟨fun i => rfl, fun a b hab hb => ?_, ?_⟩
  · unfold sdToGlobal
    dsimp only [Option.map_some, Option.getD_some]
    congr 2
    split_ifs <;> omega
  · unfold sdToGlobal
    dsimp only [Option.map_none, Option.getD_none]
    congr 2
    split_ifs <;> omega

/-- C187.  Tile `i` of process `me` in local numbers is on process `me`. -/
theorem square_local_owner (A : SDTiles) (me i j : Nat) (hme : me < A.P) (hmono : ∀ r, r ≤ me → (A.per.take r).sum ≤ (A.per.take me).sum)
    (h1 : (A.per.take me).sum ≤ sdAxisTile A i j) (h2 : sdAxisTile A i j < (A.per.take (me + 1)).sum) : sdOwner A i j = me := by
  unfold sdOwner
  have : (List.range A.P).find? (fun p => decide (sdAxisTile A i j < (A.per.take (p + 1)).sum)) = some me := by
    rw [List.find?_range_eq_some]
    refine ⟨by simpa using h2, by simpa using hme, fun q hq => ?_⟩
    have := hmono (q + 1) (by omega)
    simp
    omega
  rw [this]; rfl

example : GoodTiles (sdMake [6, 6] 12 10 2 0) [6, 6] := (square_tiles_partial [6, 6] 12 10 2 0 (by decide) (by decide) (by decide) rfl (by decide) (fun _ => Or.inl (by decide))).1
example : (sdMake [6, 6] 12 10 2 0).cols = [3, 3, 2, 2] ∧ (sdMake [109, 107, 107] 323 49 1 0).rows = [49, 60, 107, 107] ∧ (sdMake [109, 107, 107] 323 49 1 0).per = [2, 1, 1] := by decide
example : GoodTiles (sdMake [17, 16, 16] 323 49 2 1) [17, 16, 16] := (square_tiles_partial [17, 16, 16] 323 49 2 1 (by decide) (by decide) (by decide) rfl (by decide) (by decide)).1
/-- The examples of the documentation: `a_tiles[2, 3]` and `a_tiles[0:2, 1]` of a 12 × 10 matrix on two processes. -/
example : sdGet (sdMake [6, 6] 12 10 2 0) 1 (.int 2) (.int 3) = .block (0, 2) (8, 10) ∧ sdGet (sdMake [6, 6] 12 10 2 0) 0 (.int 2) (.int 3) = .nothing ∧
    sdGet (sdMake [6, 6] 12 10 2 0) 0 (.slice (some 0) (some 2)) (.int 1) = .block (0, 6) (3, 6) := by decide
example : sdLocalGet (sdMake [6, 6] 12 10 2 0) 1 (.slice none none) (.int 1) = .block (0, 6) (3, 6) := by decide

/-- C186, violation.  Wide matrix split along the columns (38 × 128 on three processes, as in the tests): the tile columns add up to more than the matrix; the fifth and sixth start at 128 and 171. -/
theorem square_tiles_wide_violated : ¬ GoodTiles (sdMake [43, 43, 42] 38 128 1 1) [43, 43, 42] ∧
    (sdMake [43, 43, 42] 38 128 1 1).cols = [38, 5, 43, 42, 43, 42] ∧ sdBound (sdMake [43, 43, 42] 38 128 1 1).cols 128 5 = 171 := by
  refine ⟨fun h => ?_, by decide, by decide⟩
  have := h.cols.step 5
  revert this
  decide

/-- C186, violation.  A process with fewer rows than tiles: empty tile rows are removed without counting, the last tile row of a 4 × 6 matrix on three processes is given to process 1 although process 2 holds it; process 2 has no tile, and reading the tile on process 1 gives a slice outside of its data. -/
theorem square_tiles_small_violated : ¬ GoodTiles (sdMake [2, 1, 1] 4 6 2 0) [2, 1, 1] ∧
    sdGet (sdMake [2, 1, 1] 4 6 2 0) 1 (.int 3) (.int 0) = .block (1, 2) (0, 1) ∧ (∀ i < 4, sdGet (sdMake [2, 1, 1] 4 6 2 0) 2 (.int i) (.int 0) = .nothing) := by
  refine ⟨fun h => ?_, by decide, by decide⟩
  have := h.aligned 2 (by decide)
  revert this
  decide

/-- C186.  The first redistribution the constructor asks for keeps the number of rows (columns). -/
theorem square_target_sum (L : List Nat) (m n T split : Nat) : (sdTarget L m n T split).sum = (L.sum : Int) := by
  have hs : (L.map Int.ofNat).sum = (L.sum : Int) := by
    induction L with
    | nil => rfl
    | cons a L ih => simp [ih]
  unfold sdTarget
  dsimp only
  split
  · exact hs
  · rename_i p hf
    rw [List.find?_range_eq_some] at hf
    have hp : p < L.length := by simpa using hf.2.1
    split_ifs with hc
    · have e : ∀ (S : List Int) (d : Int), S.modify (p + 1) (· - d) = S.modify (p + 1) (· + -d) := fun S d => rfl
      rw [e, modify_sum _ (by simp; omega), modify_sum _ (by simpa using hp), hs]
      omega
    · exact hs

set_option maxRecDepth 8000 in
/-- C186, violation.  The constructor redistributes the array: it asks for negative numbers of rows (columns).  A 6 × 5 matrix on three processes with four tiles per process; a 3 × 2 matrix split along the columns on three processes; a 17 × 17 matrix on eight processes with one tile per process. -/
theorem square_tiles_target_violated : sdTarget [2, 2, 2] 6 5 4 0 = [5, -1, 2] ∧ sdTarget [1, 1, 0] 3 2 1 1 = [1, 2, -1] ∧
    sdAdjust (sdCols [3, 2, 2, 2, 2, 2, 2, 2] 17 17 1) ([3, 2, 2, 2, 2, 2, 2, 2].map Int.ofNat) = [3, 3, 3, 3, 3, 3, -1, 0] := by
  decide

/-- C187, violation.  A local slice with a stop beyond the tiles of the process is not cut at the end (the documentation says it is adjusted): from the second of two local tiles on, it reaches into the tiles of the next process and is refused; on the last process the lookup fails. -/
theorem square_local_slice_violated : sdLocalGet (sdMake [6, 6] 12 10 2 0) 0 (.slice (some 1) (some 10)) (.int 1) = .valueError ∧
    sdLocalGet (sdMake [6, 6] 12 10 2 0) 1 (.slice (some 1) (some 10)) (.int 1) = .indexError := by decide

end Heat
