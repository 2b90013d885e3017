import Verif.Model.Resplit
import Verif.Props.Dist
/-!
# C12, C13: resplit
-/
namespace Heat
open Heat.Spec

/-- sum of the first `r` entries -/
def psum (f : Nat → Nat) (r : Nat) : Nat := ((List.range r).map f).sum

theorem psum_succ (f : Nat → Nat) (r : Nat) : psum f (r + 1) = psum f r + f r := by
  simp [psum, List.range_succ]

theorem psum_mono (f : Nat → Nat) {r s : Nat} (h : r ≤ s) : psum f r ≤ psum f s := by
  induction s with
  | zero => simp [Nat.le_zero.1 h]
  | succ k ih =>
    by_cases h2 : r = k + 1
    · subst h2; exact Nat.le_refl _
    · have := ih (by omega); rw [psum_succ]; omega

theorem psum_congr {f g : Nat → Nat} {r : Nat} (h : ∀ i < r, f i = g i) : psum f r = psum g r := by
  unfold psum; congr 1; apply List.map_congr_left; intro i hi; exact h i (List.mem_range.1 hi)

theorem psum_owner (f : Nat → Nat) (P i : Nat) (hi : i < psum f P) :
    ∃ r, r < P ∧ psum f r ≤ i ∧ i < psum f r + f r := by
  induction P with
  | zero => simp [psum] at hi
  | succ k ih =>
    by_cases h : i < psum f k
    · obtain ⟨r, h1, h2⟩ := ih h; exact ⟨r, by omega, h2⟩
    · exact ⟨k, by omega, by omega, by rw [← psum_succ]; exact hi⟩

theorem psum_owner_unique (f : Nat → Nat) (i r s : Nat) (h1 : psum f r ≤ i) (h2 : i < psum f r + f r)
    (h3 : psum f s ≤ i) (h4 : i < psum f s + f s) : r = s := by
  rw [← psum_succ] at h2 h4
  rcases Nat.lt_trichotomy r s with h | h | h
  · have := psum_mono f (show r + 1 ≤ s by omega); omega
  · exact h
  · have := psum_mono f (show s + 1 ≤ r by omega); omega

theorem tileStart_eq (f : Nat → Nat) (r : Nat) (h : psum f r ≤ 2 ^ 24) : tileStart f r = psum f r := by
  unfold tileStart
  split
  · rename_i h0; subst h0; rfl
  · rename_i h0
    unfold tileEnd
    rw [show r - 1 + 1 = r by omega]
    exact f32_exact h

theorem tileDimsOther_eq (n P r : Nat) (h : n ≤ 2 ^ 24) :
    tileDimsOther n P r = evenSize n P r := by
  have hd : n / P ≤ 2 ^ 24 := Nat.le_trans (Nat.div_le_self _ _) h
  unfold tileDimsOther evenSize
  simp only
  split
  · rename_i hr
    rw [f32_exact hd, f32_exact]
    -- n / P + 1 ≤ n because the remainder is positive
    by_cases hP : P = 0
    · subst hP; simp at hr ⊢
    · have := Nat.div_add_mod n P
      have h2 : n / P ≤ P * (n / P) := Nat.le_mul_of_pos_left _ (by omega)
      omega
  · rw [f32_exact hd]; rfl

theorem psum_even (n P r : Nat) (hr : r ≤ P) : psum (evenSize n P) r = (chunkRange n r P).1 := by
  rw [← before_evenSizes n P r hr]
  unfold psum before evenSizes
  rw [← List.map_take, List.take_range, Nat.min_eq_left hr]

theorem find_owner (l : List Nat) (p : Nat → Bool) (r : Nat) (hr : r ∈ l) (hp : p r = true)
    (hu : ∀ s ∈ l, p s = true → s = r) : l.find? p = some r := by
  cases h : l.find? p with
  | none => rw [List.find?_eq_none] at h; exact absurd hp (h r hr)
  | some s =>
    have h1 := List.find?_some h
    have h2 := List.mem_of_find?_eq_some h
    rw [hu s h2 h1]

/-- what `alltoallw` delivers when the row tiles partition the rows -/
theorem alltoallw_spec {β : Type} (P : Nat) (src : Nat → Loc β) (rd cd : Nat → Nat) (n : Nat) (me : Nat)
    (hme : me < P) (hrow : psum rd P ≤ 2 ^ 24) (hcol : psum cd P ≤ 2 ^ 24) (hn : n = psum rd P)
    (G : Nat → Nat → β)
    (hsrc : ∀ r < P, ∀ i < rd r, ∀ j < psum cd P, (src r).at_ i j = some (G (psum rd r + i) j)) :
    ∃ L, alltoallw P src (srcBlock rd cd) (dstBlock rd cd) n (cd me) me = some L ∧
      L.rows = n ∧ L.cols = cd me ∧ ∀ i < n, ∀ j < cd me, L.at_ i j = some (G i (psum cd me + j)) := by
  have hrs : ∀ r ≤ P, tileStart rd r = psum rd r := fun r hr =>
    tileStart_eq rd r (Nat.le_trans (psum_mono rd hr) hrow)
  have hcs : ∀ r ≤ P, tileStart cd r = psum cd r := fun r hr =>
    tileStart_eq cd r (Nat.le_trans (psum_mono cd hr) hcol)
  unfold alltoallw
  rw [if_pos (by simp [srcBlock, dstBlock])]
  refine ⟨_, rfl, rfl, rfl, ?_⟩
  intro i hi j hj
  rw [hn] at hi
  obtain ⟨r, hr, h1, h2⟩ := psum_owner rd P i hi
  have hfind : (List.range P).reverse.find? (fun r =>
        decide ((dstBlock rd cd me r).r0 ≤ i ∧ i < (dstBlock rd cd me r).r0 + (dstBlock rd cd me r).rn ∧
          (dstBlock rd cd me r).c0 ≤ j ∧ j < (dstBlock rd cd me r).c0 + (dstBlock rd cd me r).cn)) = some r := by
    apply find_owner
    · simp [hr]
    · simp [dstBlock, hrs r (by omega), h1, h2, hj]
    · intro s hs hp
      simp at hs
      simp [dstBlock, hrs s (by omega)] at hp
      exact psum_owner_unique rd i s r hp.1 hp.2.1 h1 h2
  simp only [hfind, Option.bind_some]
  simp only [srcBlock, dstBlock, hrs r (by omega), hcs me (by omega), Nat.add_zero, Nat.sub_zero]
  have hb := psum_mono cd (show me + 1 ≤ P by omega)
  rw [psum_succ] at hb
  rw [hsrc r hr _ (by omega) _ (by omega), show psum rd r + (i - psum rd r) = i by omega, Nat.add_comm j]

/-- C12 (partial).  In-place `resplit_` between two axes, from *any* row distribution `lens` (empty ranks
allowed) of an `n × m` array: rank `me` ends up with all `n` rows and exactly the chunk of columns that
`chunk` assigns to it, every element in its place.
Missing: sizes above 2^24 along the two axes, where the tile sizes (kept in float32) are rounded and the
property is false, see `resplit_inplace_large_violated`. -/
theorem resplit_inplace_partial {β : Type} (P n m : Nat) (hP : 0 < P) (lens : Nat → Nat)
    (hn : ((List.range P).map lens).sum = n) (hn24 : n ≤ 2 ^ 24) (hm24 : m ≤ 2 ^ 24)
    (G : Nat → Nat → β) (src : Nat → Loc β)
    (hsrc : ∀ r < P, ∀ i < lens r, ∀ j < m,
      (src r).at_ i j = some (G (((List.range r).map lens).sum + i) j))
    (me : Nat) (hme : me < P) :
    ∃ L c, resplitInplace P n m lens src me = some L ∧ chunk [n, m] (some 1) me P = .ok c ∧
      [L.rows, L.cols] = c.lshape ∧
      ∀ i < n, ∀ j < L.cols, L.at_ i j = some (G i (c.offset + j)) := by
  have hlens : ∀ r < P, tileDimsSplit lens r = lens r := by
    intro r hr
    apply f32_exact
    have := psum_mono lens (show r + 1 ≤ P by omega)
    rw [psum_succ] at this
    have : psum lens P = n := hn
    omega
  have hcols : ∀ r, tileDimsOther m P r = evenSize m P r := fun r => tileDimsOther_eq m P r hm24
  have hprow : ∀ r ≤ P, psum (tileDimsSplit lens) r = psum lens r :=
    fun r hr => psum_congr fun i hi => hlens i (by omega)
  have hpcol : ∀ r ≤ P, psum (tileDimsOther m P) r = (chunkRange m r P).1 := by
    intro r hr; rw [← psum_even m P r hr]; exact psum_congr fun i _ => hcols i
  have hpn : psum lens P = n := hn
  obtain ⟨L, h1, h2, h3, h4⟩ := alltoallw_spec P src (tileDimsSplit lens) (tileDimsOther m P) n me hme
    (by rw [hprow P (Nat.le_refl _), hpn]; exact hn24)
    (by rw [hpcol P (Nat.le_refl _), chunkRange_at_P _ _ hP]; exact hm24)
    (by rw [hprow P (Nat.le_refl _), hpn]) G
    (by
      intro r hr i hi j hj
      rw [hlens r hr] at hi
      rw [hpcol P (Nat.le_refl _), chunkRange_at_P _ _ hP] at hj
      rw [hprow r (by omega)]
      exact hsrc r hr i hi j hj)
  refine ⟨L, ⟨(chunkRange m me P).1, [n, (chunkRange m me P).2 - (chunkRange m me P).1],
    [(0, n), chunkRange m me P]⟩, h1, rfl, ?_, ?_⟩
  · simp only [h2, h3, hcols, chunkRange_size]
  · intro i hi j hj
    rw [h3] at hj
    rw [h4 i hi j hj, hpcol me (by omega)]

/-- Non-vacuity of `resplit_inplace_partial`: a 4 × 3 array on 2 ranks, all rows on rank 1. -/
example : ∃ L c, resplitInplace 2 4 3 (fun r => [0, 4].getD r 0)
      (fun r => ⟨[0, 4].getD r 0, 3, fun i j => some (i * 10 + j)⟩) 1 = some L ∧
    chunk [4, 3] (some 1) 1 2 = .ok c ∧ [L.rows, L.cols] = c.lshape ∧
    ∀ i < 4, ∀ j < L.cols, L.at_ i j = some (i * 10 + (c.offset + j)) := by
  refine resplit_inplace_partial 2 4 3 (by decide) _ (by decide) (by decide) (by decide)
    (fun i j => i * 10 + j) _ ?_ 1 (by decide)
  intro r hr i hi j hj
  have hr' : r = 0 ∨ r = 1 := by omega
  rcases hr' with rfl | rfl
  · simp at hi
  · simp

/-- C12 is violated for large axes: 2^25 + 2 rows on two ranks (2^24 + 1 rows each, a chunked, balanced array),
2 columns: after `resplit_` the last row of rank 0 is never written. -/
theorem resplit_inplace_large_violated :
    ∃ (P n m : Nat) (lens : Nat → Nat) (src : Nat → Loc Nat) (L : Loc Nat),
      ((List.range P).map lens).sum = n ∧ (∀ r < P, lens r = evenSize n P r) ∧
      (∀ r < P, ∀ i < lens r, ∀ j < m, (src r).at_ i j = some 7) ∧
      resplitInplace P n m lens src 0 = some L ∧ 0 < L.cols ∧ L.at_ (n - 1) 0 = none := by
  refine ⟨2, 33554434, 2, fun _ => 16777217, fun _ => ⟨16777217, 2, fun _ _ => some 7⟩, _, rfl, ?_, ?_, rfl, ?_, ?_⟩
  · intro r hr
    have hr' : r = 0 ∨ r = 1 := by omega
    rcases hr' with rfl | rfl <;> decide
  · intro r _ i _ j _; rfl
  · decide
  · decide

/-- C13 (partial).  Out-of-place `resplit` between two axes from a *balanced* source.
Missing: unbalanced sources, where the property is false (`resplit_unbalanced_violated`), and sizes above 2^24. -/
theorem resplit_balanced_partial {β : Type} (P n m : Nat) (hP : 0 < P) (hn24 : n ≤ 2 ^ 24) (hm24 : m ≤ 2 ^ 24)
    (G : Nat → Nat → β) (src : Nat → Loc β)
    (hsrc : ∀ r < P, ∀ i < evenSize n P r, ∀ j < m,
      (src r).at_ i j = some (G (((List.range r).map (evenSize n P)).sum + i) j))
    (me : Nat) (hme : me < P) :
    ∃ L c, resplitNew P n m (evenSize n P) src me = some L ∧ chunk [n, m] (some 1) me P = .ok c ∧
      [L.rows, L.cols] = c.lshape ∧
      ∀ i < n, ∀ j < L.cols, L.at_ i j = some (G i (c.offset + j)) := by
  have hsum : ((List.range P).map (evenSize n P)).sum = n := sum_evenSizes n P hP
  obtain ⟨L, c, h1, h2, h3, h4⟩ := resplit_inplace_partial P n m hP (evenSize n P) hsum hn24 hm24 G src hsrc me hme
  refine ⟨L, c, ?_, h2, h3, h4⟩
  have hle : ∀ (k : Nat), k ≤ 2 ^ 24 → ∀ r < P, evenSize k P r ≤ 2 ^ 24 := by
    intro k hk r hr
    have h1 := psum_even k P (r + 1) (by omega)
    rw [psum_succ] at h1
    have h2 := chunkRange_mono k P (show r + 1 ≤ P by omega)
    rw [chunkRange_at_P k P hP] at h2
    omega
  have hd : ∀ (k : Nat), k ≤ 2 ^ 24 → ∀ r < P, tileDimsSplit (evenSize k P) r = tileDimsOther k P r := by
    intro k hk r hr
    rw [tileDimsOther_eq k P r hk]
    exact f32_exact (hle k hk r hr)
  rw [← h1]
  unfold resplitNew resplitInplace
  simp only [chunkRange_size]
  have hst : ∀ (k : Nat), k ≤ 2 ^ 24 → ∀ r ≤ P,
      tileStart (tileDimsOther k P) r = tileStart (tileDimsSplit (evenSize k P)) r := by
    intro k hk r hr
    unfold tileStart tileEnd
    split
    · rfl
    · congr 2
      apply List.map_congr_left
      intro i hi
      rw [List.mem_range] at hi
      exact (hd k hk i (by omega)).symm
  have hblk : ∀ r < P, dstBlock (tileDimsOther n P) (tileDimsSplit fun r => evenSize m P r) me r =
      dstBlock (tileDimsSplit (evenSize n P)) (tileDimsOther m P) me r := by
    intro r hr
    unfold dstBlock
    rw [hst n hn24 r (by omega), hd n hn24 r hr]
    congr 1
    exact hd m hm24 me hme
  unfold alltoallw
  have hall : ((List.range P).all fun r =>
        (srcBlock (tileDimsSplit (evenSize n P)) (tileDimsOther m P) r me).rn ==
          (dstBlock (tileDimsOther n P) (tileDimsSplit fun r => evenSize m P r) me r).rn &&
        (srcBlock (tileDimsSplit (evenSize n P)) (tileDimsOther m P) r me).cn ==
          (dstBlock (tileDimsOther n P) (tileDimsSplit fun r => evenSize m P r) me r).cn) = true := by
    rw [List.all_eq_true]
    intro r hr
    rw [hblk r (List.mem_range.1 hr)]
    simp [srcBlock, dstBlock]
  rw [if_pos hall, if_pos (by simp [srcBlock, dstBlock])]
  congr 1
  congr 1
  · exact (tileDimsOther_eq m P me hm24).symm
  · funext i j
    have hf : (List.range P).reverse.find? (fun r =>
        decide ((dstBlock (tileDimsOther n P) (tileDimsSplit fun r => evenSize m P r) me r).r0 ≤ i ∧
          i < (dstBlock (tileDimsOther n P) (tileDimsSplit fun r => evenSize m P r) me r).r0 +
            (dstBlock (tileDimsOther n P) (tileDimsSplit fun r => evenSize m P r) me r).rn ∧
          (dstBlock (tileDimsOther n P) (tileDimsSplit fun r => evenSize m P r) me r).c0 ≤ j ∧
          j < (dstBlock (tileDimsOther n P) (tileDimsSplit fun r => evenSize m P r) me r).c0 +
            (dstBlock (tileDimsOther n P) (tileDimsSplit fun r => evenSize m P r) me r).cn)) =
        (List.range P).reverse.find? (fun r =>
        decide ((dstBlock (tileDimsSplit (evenSize n P)) (tileDimsOther m P) me r).r0 ≤ i ∧
          i < (dstBlock (tileDimsSplit (evenSize n P)) (tileDimsOther m P) me r).r0 +
            (dstBlock (tileDimsSplit (evenSize n P)) (tileDimsOther m P) me r).rn ∧
          (dstBlock (tileDimsSplit (evenSize n P)) (tileDimsOther m P) me r).c0 ≤ j ∧
          j < (dstBlock (tileDimsSplit (evenSize n P)) (tileDimsOther m P) me r).c0 +
            (dstBlock (tileDimsSplit (evenSize n P)) (tileDimsOther m P) me r).cn)) := by
      have gen : ∀ (l : List Nat) (p q : Nat → Bool), (∀ x ∈ l, p x = q x) → l.find? p = l.find? q := by
        intro l p q
        induction l with
        | nil => intro _; rfl
        | cons x l ih =>
          intro h
          simp only [List.find?_cons, h x (by simp), ih fun y hy => h y (by simp [hy])]
      apply gen
      intro x hx
      rw [hblk x (by simpa using hx)]
    simp only [hf]
    cases hr : (List.range P).reverse.find? (fun r =>
        decide ((dstBlock (tileDimsSplit (evenSize n P)) (tileDimsOther m P) me r).r0 ≤ i ∧
          i < (dstBlock (tileDimsSplit (evenSize n P)) (tileDimsOther m P) me r).r0 +
            (dstBlock (tileDimsSplit (evenSize n P)) (tileDimsOther m P) me r).rn ∧
          (dstBlock (tileDimsSplit (evenSize n P)) (tileDimsOther m P) me r).c0 ≤ j ∧
          j < (dstBlock (tileDimsSplit (evenSize n P)) (tileDimsOther m P) me r).c0 +
            (dstBlock (tileDimsSplit (evenSize n P)) (tileDimsOther m P) me r).cn)) with
    | none => rfl
    | some r =>
      have := List.mem_of_find?_eq_some hr
      simp only [Option.bind_some]
      rw [hblk r (by simpa using this)]

/-- Non-vacuity: a 3 × 2 array on 2 ranks. -/
example : ∃ L c, resplitNew 2 3 2 (evenSize 3 2)
      (fun r => ⟨evenSize 3 2 r, 2, fun i j => some ((((List.range r).map (evenSize 3 2)).sum + i) * 10 + j)⟩) 1 = some L ∧
    chunk [3, 2] (some 1) 1 2 = .ok c ∧ [L.rows, L.cols] = c.lshape ∧
    ∀ i < 3, ∀ j < L.cols, L.at_ i j = some (i * 10 + (c.offset + j)) :=
  resplit_balanced_partial 2 3 2 (by decide) (by decide) (by decide) (fun i j => i * 10 + j) _
    (fun _ _ _ _ _ _ => rfl) 1 (by decide)

/-- C13 is violated: out-of-place `resplit` of an unbalanced 3 × 2 array (sizes 1 and 2 on two ranks) ends in an
MPI type mismatch. -/
theorem resplit_unbalanced_violated (src : Nat → Loc Nat) :
    resplitNew 2 3 2 (fun r => [1, 2].getD r 0) src 0 = none := by
  rfl

/-- C12, split to None: every rank gathers the whole array in order, from any distribution. -/
theorem resplit_to_none {α : Type} (P : Nat) (parts : Nat → List α) (g : Nat)
    (hg : g < (content P parts).length) :
    resplitGather P parts (content P parts).length g = (content P parts)[g]? := by
  obtain ⟨r, ⟨hr, c, d, h1, h2, h3, h4, h5⟩, hu⟩ := counts_displs_ownership P parts g hg
  unfold resplitGather
  simp only
  have hf : (List.range P).find? (fun r =>
      decide (((countsDispls P (lshapeMapForced (content P parts).length P parts)).2.getD r 0 ≤ (g : Int)) ∧
        (g : Int) < (countsDispls P (lshapeMapForced (content P parts).length P parts)).2.getD r 0 +
          (countsDispls P (lshapeMapForced (content P parts).length P parts)).1.getD r 0)) = some r := by
    apply find_owner
    · simp [hr]
    · simp only [List.getD_eq_getElem?_getD, h1, h2, Option.getD_some, decide_eq_true_eq]; omega
    · intro s hs hp
      rw [List.mem_range] at hs
      have hg2 := countsDispls_get P (lshapeMapForced (content P parts).length P parts) s hs
      apply hu s
      refine ⟨hs, (parts s).length, startOf parts s, ?_, ?_, ?_⟩
      · rw [hg2.1, lshapeMapForced_eq _ _ _ _ hs]
      · rw [hg2.2, cum_eq_content _ parts s (fun i hi => lshapeMapForced_eq _ _ _ _ (by omega))]; rfl
      · simp only [List.getD_eq_getElem?_getD, hg2.1, hg2.2, Option.getD_some, decide_eq_true_eq] at hp
        rw [cum_eq_content _ parts s (fun i hi => lshapeMapForced_eq _ _ _ _ (by omega)),
          lshapeMapForced_eq _ _ _ _ hs] at hp
        unfold startOf
        omega
  rw [hf]
  simp only [Option.bind_some, List.getD_eq_getElem?_getD, h2, Option.getD_some, Int.toNat_natCast]
  rw [h5]

/-- C12, None to split: the ranks' chunks together are the array, and each rank has its chunk. -/
theorem resplit_from_none {α : Type} (P : Nat) (hP : 0 < P) (whole : List α) :
    content P (resplitSlice P whole) = whole ∧ Balanced P (resplitSlice P whole) := by
  have hlen : ∀ r < P, (resplitSlice P whole r).length = evenSize whole.length P r := by
    intro r hr
    have h1 := chunkRange_mono whole.length P (show r + 1 ≤ P by omega)
    rw [chunkRange_at_P _ _ hP, chunkRange_succ] at h1
    have h2 := chunkRange_snd whole.length r P
    unfold resplitSlice
    simp only [List.length_drop, List.length_take]
    omega
  have hpre : ∀ k, k ≤ P → content k (resplitSlice P whole) = whole.take (chunkRange whole.length k P).1 := by
    intro k
    induction k with
    | zero => intro _; simp [content_zero, chunkRange_zero]
    | succ k ih =>
      intro hk
      rw [content_succ, ih (by omega), chunkRange_succ]
      unfold resplitSlice
      simp only
      have h2 := chunkRange_snd whole.length k P
      have : whole.take (chunkRange whole.length k P).1 =
          (whole.take (chunkRange whole.length k P).2).take (chunkRange whole.length k P).1 := by
        rw [List.take_take, Nat.min_eq_left (by omega)]
      rw [this, List.take_append_drop]
  have hall : content P (resplitSlice P whole) = whole := by
    rw [hpre P (Nat.le_refl _), chunkRange_at_P _ _ hP, List.take_length]
  exact ⟨hall, fun r hr => by rw [hall]; exact hlen r hr⟩

example : (List.range 3).map (resplitSlice 3 [10, 11, 12, 13]) = [[10, 11], [12], [13]] := by decide

end Heat
