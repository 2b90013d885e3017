import Verif.Model.Tile
import Verif.Props.Split
import Verif.Props.Factories
/-!
# C104: `tile` along the split axis
-/
namespace Heat
open Heat.Spec
variable {α : Type}

/-- Everything the bookkeeping needs: boundaries of the result. -/
theorem tileSend_total (d : Nat → List α) (P reps k q : Nat) (hq : q < P) (hk : k < reps) :
    ((List.range P).map fun j => tileCount d (startOf d P) k (startOf d P * reps) P q j).sum = (d q).length := by
  have hP : 0 < P := by omega
  generalize hN : startOf d P * reps = N
  have hb : startOf d P * k + startOf d P ≤ N := by
    rw [← hN, ← Nat.mul_succ]; exact Nat.mul_le_mul_left _ hk
  have hm := startOf_mono d (show q + 1 ≤ P by omega)
  have hs := startOf_succ d q
  generalize hA : startOf d q + startOf d P * k = A
  have hB : startOf d q + (d q).length + startOf d P * k = A + (d q).length := by omega
  have := sum_telescope (fun i => clipTo A (A + (d q).length) (chunkRange N i P).1 - A) (by
    rw [chunkRange_zero]; unfold clipTo; omega) (fun i => Nat.sub_le_sub_right (clipTo_mono _ _ (chunkRange_mono N P (Nat.le_succ i))) A) P
  rw [chunkRange_at_P N P hP] at this
  rw [show (d q).length = clipTo A (A + (d q).length) N - A by unfold clipTo; omega, ← this]
  congr 1
  refine List.map_congr_left fun j _ => ?_
  have h1 := chunkRange_succ N j P
  have h2 := chunkRange_mono N P (Nat.le_succ j)
  unfold tileCount tileHi tileLo tileFrom tileTo
  rw [hA, hB]
  unfold clipTo
  simp only [Nat.succ_eq_add_one] at h2
  omega

theorem tileRecv_total (d : Nat → List α) (n P k N j : Nat) :
    ((List.range P).map fun q => tileCount d n k N P q j).sum = clipTo (chunkRange N j P).1 (chunkRange N j P).2 (startOf d P + n * k) - clipTo (chunkRange N j P).1 (chunkRange N j P).2 (n * k) := by
  have h2 := chunkRange_mono N P (Nat.le_succ j)
  have h1 := chunkRange_succ N j P
  rw [Nat.succ_eq_add_one, h1] at h2
  clear h1
  generalize hT0 : (chunkRange N j P).1 = T0 at *
  generalize hT1 : (chunkRange N j P).2 = T1 at *
  have := sum_telescope (fun i => clipTo T0 T1 (startOf d i + n * k) - clipTo T0 T1 (n * k)) (by
    rw [startOf_zero, Nat.zero_add, Nat.sub_self]) (fun i => Nat.sub_le_sub_right (clipTo_mono _ _ (by have := startOf_mono d (Nat.le_succ i); simp only [Nat.succ_eq_add_one] at this; omega)) _) P
  rw [← this]
  congr 1
  refine List.map_congr_left fun q _ => ?_
  unfold tileCount tileHi tileLo tileFrom tileTo
  have hs := startOf_succ d q
  rw [hs, hT0, hT1]
  unfold clipTo
  omega

theorem tileSendBuf_eq (d : Nat → List α) (P reps k q : Nat) (hq : q < P) (hk : k < reps) :
    tileSendBuf d (startOf d P) k (startOf d P * reps) P q = d q := by
  unfold tileSendBuf
  rw [tileSend_total d P reps k q hq hk]
  have : tileSendDispl d (startOf d P) k (startOf d P * reps) P q 0 = 0 := by
    unfold tileSendDispl tileLo tileFrom
    rw [chunkRange_zero]
    split
    · rfl
    · omega
  rw [this, List.drop_zero, List.take_length]

/-- The row of rank `j` at position `p` is written in repetition `k` exactly if it lies in that repetition, and then with the right row. -/
theorem tileMsg_get (d : Nat → List α) (P reps k q j p : Nat) (hq : q < P) (hk : k < reps)
    (h1 : tileRecvDispl d (startOf d P) k (startOf d P * reps) P q j ≤ p)
    (h2 : p < tileRecvDispl d (startOf d P) k (startOf d P * reps) P q j + tileCount d (startOf d P) k (startOf d P * reps) P q j) :
    startOf d P * k ≤ (chunkRange (startOf d P * reps) j P).1 + p ∧ startOf d q + startOf d P * k ≤ (chunkRange (startOf d P * reps) j P).1 + p ∧
    (tileMsg d (startOf d P) k (startOf d P * reps) P q j)[p - tileRecvDispl d (startOf d P) k (startOf d P * reps) P q j]? =
      (content P d)[(chunkRange (startOf d P * reps) j P).1 + p - startOf d P * k]? ∧
      (chunkRange (startOf d P * reps) j P).1 + p < startOf d P * (k + 1) := by
  have hc : tileCount d (startOf d P) k (startOf d P * reps) P q j ≠ 0 := by omega
  have hm := startOf_mono d (show q + 1 ≤ P by omega)
  have hs := startOf_succ d q
  unfold tileMsg
  rw [tileSendBuf_eq d P reps k q hq hk]
  have hps := part_slice d P q hq
  rw [hps]
  have e1 : tileRecvDispl d (startOf d P) k (startOf d P * reps) P q j = tileLo d (startOf d P) k (startOf d P * reps) P q j - (chunkRange (startOf d P * reps) j P).1 := by
    unfold tileRecvDispl; rw [if_neg hc]
  have e2 : tileSendDispl d (startOf d P) k (startOf d P * reps) P q j = tileLo d (startOf d P) k (startOf d P * reps) P q j - startOf d P * k - startOf d q := by
    unfold tileSendDispl; rw [if_neg hc]
  rw [e1] at h1 h2 ⊢
  rw [e2]
  rw [Nat.mul_succ]
  generalize startOf d P * reps = N at *
  have hT := chunkRange_mono N P (Nat.le_succ j)
  rw [Nat.succ_eq_add_one, chunkRange_succ] at hT
  unfold tileCount tileLo tileHi tileFrom tileTo at *
  generalize startOf d P * k = K at *
  generalize (chunkRange N j P).1 = T0 at *
  generalize (chunkRange N j P).2 = T1 at *
  refine ⟨by omega, by omega, ?_, by omega⟩
  rw [List.getElem?_take_of_lt (by omega), List.getElem?_drop, List.getElem?_drop, List.getElem?_take_of_lt (by omega)]
  congr 1
  omega

theorem tileRecv_hit (d : Nat → List α) (n P k N q j p : Nat) (h1 : startOf d q + n * k ≤ (chunkRange N j P).1 + p) (h2 : (chunkRange N j P).1 + p < startOf d (q + 1) + n * k)
    (hp : (chunkRange N j P).1 + p < (chunkRange N j P).2) :
    tileRecvDispl d n k N P q j ≤ p ∧ p < tileRecvDispl d n k N P q j + tileCount d n k N P q j := by
  have hs := startOf_succ d q
  unfold tileRecvDispl tileCount tileLo tileHi tileFrom tileTo
  split <;> omega

theorem foldl_pick {β : Type} (P : Nat) (c : Nat → Prop) [DecidablePred c] (v : Nat → β) (V b : β) (hv : ∀ q < P, c q → v q = V) :
    (List.range P).foldl (fun b q => if c q then v q else b) b = if (∃ q, q < P ∧ c q) then V else b := by
  induction P with
  | zero => simp
  | succ k ih =>
    rw [List.range_succ, List.foldl_append, ih fun q hq => hv q (by omega)]
    simp only [List.foldl_cons, List.foldl_nil]
    by_cases hk : c k
    · rw [if_pos hk, if_pos ⟨k, by omega, hk⟩, hv k (by omega) hk]
    · rw [if_neg hk]
      by_cases he : ∃ q, q < k ∧ c q
      · obtain ⟨q, h1, h2⟩ := he
        rw [if_pos ⟨q, h1, h2⟩, if_pos ⟨q, by omega, h2⟩]
      · rw [if_neg he, if_neg]
        rintro ⟨q, h1, h2⟩
        by_cases hqk : q = k
        · exact hk (hqk ▸ h2)
        · exact he ⟨q, by omega, h2⟩

/-- One `Alltoallv`. -/
theorem tileRecv_spec (d : Nat → List α) (P reps k j p : Nat) (hk : k < reps) (buf : Nat → Option α)
    (hp : (chunkRange (startOf d P * reps) j P).1 + p < (chunkRange (startOf d P * reps) j P).2) :
    tileRecv d (startOf d P) k (startOf d P * reps) P j buf p =
      if startOf d P * k ≤ (chunkRange (startOf d P * reps) j P).1 + p ∧ (chunkRange (startOf d P * reps) j P).1 + p < startOf d P * (k + 1)
      then (content P d)[(chunkRange (startOf d P * reps) j P).1 + p - startOf d P * k]? else buf p := by
  unfold tileRecv
  rw [foldl_pick P (fun q => tileRecvDispl d (startOf d P) k (startOf d P * reps) P q j ≤ p ∧ p < tileRecvDispl d (startOf d P) k (startOf d P * reps) P q j + tileCount d (startOf d P) k (startOf d P * reps) P q j)
    (fun q => (tileMsg d (startOf d P) k (startOf d P * reps) P q j)[p - tileRecvDispl d (startOf d P) k (startOf d P * reps) P q j]?)
    ((content P d)[(chunkRange (startOf d P * reps) j P).1 + p - startOf d P * k]?) (buf p)
    (fun q hq hc => (tileMsg_get d P reps k q j p hq hk hc.1 hc.2).2.2.1)]
  by_cases h : startOf d P * k ≤ (chunkRange (startOf d P * reps) j P).1 + p ∧ (chunkRange (startOf d P * reps) j P).1 + p < startOf d P * (k + 1)
  · rw [if_pos h, if_pos]
    have h2 := h.2
    rw [Nat.mul_succ] at h2
    obtain ⟨q, hq, ha, hb⟩ := startOf_owner d P ((chunkRange (startOf d P * reps) j P).1 + p - startOf d P * k) (by omega)
    exact ⟨q, hq, tileRecv_hit d _ P k _ q j p (by omega) (by omega) hp⟩
  · rw [if_neg h, if_neg]
    rintro ⟨q, hq, hc⟩
    have := tileMsg_get d P reps k q j p hq hk hc.1 hc.2
    exact h ⟨this.1, this.2.2.2⟩

/-- The part of the receive buffer that is copied in repetition `k` contains all rows of that repetition if rank 0 is not empty. -/
theorem tileCopy_spec (d : Nat → List α) (P reps k j p : Nat) (hP : 0 < P) (h0 : d 0 ≠ []) (buf out : Nat → Option α)
    (hp : (chunkRange (startOf d P * reps) j P).1 + p < (chunkRange (startOf d P * reps) j P).2)
    (h1 : startOf d P * k ≤ (chunkRange (startOf d P * reps) j P).1 + p) (h2 : (chunkRange (startOf d P * reps) j P).1 + p < startOf d P * (k + 1)) :
    tileCopy d (startOf d P) k (startOf d P * reps) P j buf out p = buf p := by
  unfold tileCopy
  rw [if_pos]
  rw [tileRecv_total]
  have hl : 0 < (d 0).length := List.length_pos_iff.2 h0
  have hs := startOf_succ d 0
  rw [startOf_zero] at hs
  rw [Nat.mul_succ] at h2
  unfold tileRecvDispl tileCount tileLo tileHi tileFrom tileTo clipTo
  rw [startOf_zero]
  split <;> omega

theorem tileLoop_spec (d : Nat → List α) (P reps j p : Nat) (hP : 0 < P) (h0 : d 0 ≠ [])
    (hp : (chunkRange (startOf d P * reps) j P).1 + p < (chunkRange (startOf d P * reps) j P).2) : ∀ k ≤ reps,
    (chunkRange (startOf d P * reps) j P).1 + p < startOf d P * k →
    (tileLoop d (startOf d P) (startOf d P * reps) P j k).1 p = (content P d)[((chunkRange (startOf d P * reps) j P).1 + p) % startOf d P]? ∧
    (tileLoop d (startOf d P) (startOf d P * reps) P j k).2 p = (content P d)[((chunkRange (startOf d P * reps) j P).1 + p) % startOf d P]?
  | 0, _, h => by omega
  | k + 1, hk, h => by
    unfold tileLoop
    dsimp only
    by_cases hlt : (chunkRange (startOf d P * reps) j P).1 + p < startOf d P * k
    · have ih := tileLoop_spec d P reps j p hP h0 hp k (by omega) hlt
      have hr := tileRecv_spec d P reps k j p (by omega) (tileLoop d (startOf d P) (startOf d P * reps) P j k).1 hp
      rw [if_neg (by omega)] at hr
      refine ⟨by rw [hr, ih.1], ?_⟩
      unfold tileCopy
      split
      · rw [hr, ih.1]
      · exact ih.2
    · have hr := tileRecv_spec d P reps k j p (by omega) (tileLoop d (startOf d P) (startOf d P * reps) P j k).1 hp
      rw [if_pos ⟨by omega, h⟩] at hr
      have hmod : (chunkRange (startOf d P * reps) j P).1 + p - startOf d P * k = ((chunkRange (startOf d P * reps) j P).1 + p) % startOf d P := by
        have h' := h
        rw [Nat.mul_succ] at h'
        rw [← Nat.mod_eq_of_lt (show (chunkRange (startOf d P * reps) j P).1 + p - startOf d P * k < startOf d P by omega)]
        exact (Nat.sub_mul_mod (by omega))
      rw [hmod] at hr
      refine ⟨hr, ?_⟩
      rw [tileCopy_spec d P reps k j p hP h0 _ _ hp (by omega) h]
      exact hr

theorem replicate_flatten_get {β : Type} (l : List β) (reps g : Nat) (hg : g < l.length * reps) : (List.replicate reps l).flatten[g]? = l[g % l.length]? := by
  induction reps generalizing g with
  | zero => omega
  | succ k ih =>
    rw [List.replicate_succ, List.flatten_cons]
    by_cases h : g < l.length
    · rw [List.getElem?_append_left h, Nat.mod_eq_of_lt h]
    · rw [List.getElem?_append_right (by omega), ih _ (by rw [Nat.mul_succ] at hg; omega)]
      congr 1
      have := Nat.sub_mul_mod (x := g) (k := 1) (n := l.length) (by omega)
      rwa [Nat.mul_one] at this

/-- C104: if rank 0 holds a row, `tile` returns the repeated rows, every row initialised, evenly distributed. -/
theorem tile_partial (P reps : Nat) (hP : 0 < P) (d : Nat → List α) (h0 : d 0 ≠ []) :
    content P (tile P reps d) = ((List.replicate reps (content P d)).flatten).map some ∧ Balanced P (tile P reps d) := by
  have hlen : (List.replicate reps (content P d)).flatten.length = startOf d P * reps := by
    rw [List.length_flatten, List.map_replicate, List.sum_replicate_nat, Nat.mul_comm]; rfl
  have hc : content P (tile P reps d) = ((List.replicate reps (content P d)).flatten).map some := by
    have := content_chunks (startOf d P * reps) P hP (fun g => (List.replicate reps (content P d)).flatten[g]?)
    have e2 : (List.range (startOf d P * reps)).map (fun g => (List.replicate reps (content P d)).flatten[g]?) = ((List.replicate reps (content P d)).flatten).map some := by
      refine List.ext_getElem (by rw [List.length_map, List.length_map, List.length_range, hlen]) fun i h1 h2 => ?_
      simp only [List.getElem_map, List.getElem_range]
      rw [List.getElem?_eq_getElem]
    rw [← e2, ← this]
    refine List.flatMap_congr fun j hj => ?_
    unfold tile
    dsimp only
    rw [chunkRange_len]
    refine List.map_congr_left fun p hp => ?_
    have hp := List.mem_range.1 hp
    have hpp : (chunkRange (startOf d P * reps) j P).1 + p < (chunkRange (startOf d P * reps) j P).2 := by
      rw [← chunkRange_len] at hp; omega
    have hN : (chunkRange (startOf d P * reps) j P).2 ≤ startOf d P * reps := (chunk_bounds _ P j (List.mem_range.1 hj)).2
    rw [(tileLoop_spec d P reps j p hP h0 hpp reps (Nat.le_refl _) (by omega)).2, replicate_flatten_get _ _ _ (by show _ < startOf d P * reps; omega)]
    rfl
  refine ⟨hc, fun j hj => ?_⟩
  rw [hc, List.length_map, hlen]
  unfold tile
  dsimp only
  rw [List.length_map, List.length_range, chunkRange_len]

/-- The hypotheses are met by an uneven distribution over three ranks, one of them empty. -/
example : (fun r : Nat => if r = 0 then [1] else if r = 2 then [2, 3, 4] else []) 0 ≠ [] ∧
    (List.range 3).map (tile 3 2 (fun r : Nat => if r = 0 then [1] else if r = 2 then [2, 3, 4] else [])) = [[some 1, some 2, some 3], [some 4, some 1, some 2], [some 3, some 4]] := by decide +kernel

/-- C104 fails if rank 0 holds no rows: the part of the receive buffer that is copied starts at 0 instead of the first received row, and rows of the result stay uninitialised. -/
theorem tile_empty_first_violated :
    (List.range 2).map (tile 2 3 (fun r : Nat => if r = 1 then [7, 8] else [])) = [[some 7, some 8, none], [some 8, some 7, none]] := by decide +kernel

end Heat
