import Verif.Model.Matmul
import Verif.Props.LinAlg
/-!
# C72, C73: matmul
-/
namespace Heat

open Spec

/-! ## Elements of matrices -/

@[simp] theorem ix_zero (i j : Nat) : ix i j 0 = i := rfl
@[simp] theorem ix_one (i j : Nat) : ix i j 1 = j := rfl

theorem get_ix {G : NArr Int} (hG : Local G) (h2 : G.ndim = 2) (idx : Nat → Nat) : G.get idx = G.get (ix (idx 0) (idx 1)) :=
  hG _ _ fun k hk => by
    rw [h2] at hk
    have : k = 0 ∨ k = 1 := by omega
    rcases this with rfl | rfl <;> rfl

theorem inB_ix {A : NArr Int} (h2 : A.ndim = 2) {i j : Nat} (hi : i < A.dim 0) (hj : j < A.dim 1) : InB A (ix i j) := by
  intro k hk
  rw [h2] at hk
  have : k = 0 ∨ k = 1 := by omega
  rcases this with rfl | rfl
  · exact hi
  · exact hj

theorem inB_two {A : NArr Int} (h2 : A.ndim = 2) {idx : Nat → Nat} (h : InB A idx) : idx 0 < A.dim 0 ∧ idx 1 < A.dim 1 :=
  ⟨h 0 (by omega), h 1 (by omega)⟩

theorem product_local (A B : NArr Int) : Local (product A B) := by
  intro i j h
  have e0 : i 0 = j 0 := h 0 (by show 0 < 2; decide)
  have e1 : i 1 = j 1 := h 1 (by show 1 < 2; decide)
  show sumTo _ _ = sumTo _ _
  rw [e0, e1]

/-- The elements of a replicated matrix. -/
theorem rep_get_none {P : Nat} {x : DND Int} {G : NArr Int} (h : Rep P x G) (h2 : G.ndim = 2) (hs : x.split = none) {r : Nat} (hr : r < P) :
    (x.loc r).ndim = 2 ∧ (x.loc r).dim 0 = G.dim 0 ∧ (x.loc r).dim 1 = G.dim 1 ∧
    ∀ i k, i < G.dim 0 → k < G.dim 1 → (x.loc r).get (ix i k) = G.get (ix i k) := by
  obtain ⟨_, _, _, g3, g4⟩ := h
  simp only [hs] at g4
  obtain ⟨a, b⟩ := g4 r hr
  have n2 : (x.loc r).ndim = 2 := by rw [g3 r hr, h2]
  have d0 := a 0 (by omega)
  have d1 := a 1 (by omega)
  exact ⟨n2, d0, d1, fun i k hi hk => b _ (inB_ix n2 (by omega) (by omega))⟩

/-- The elements of a matrix split along its rows. -/
theorem rep_get_zero {P : Nat} {x : DND Int} {G : NArr Int} (h : Rep P x G) (h2 : G.ndim = 2) (hs : x.split = some 0) {r : Nat} (hr : r < P) :
    (x.loc r).ndim = 2 ∧ (x.loc r).dim 1 = G.dim 1 ∧
    ∀ i k, i < (x.loc r).dim 0 → k < G.dim 1 → (x.loc r).get (ix i k) = G.get (ix (axisStart x.loc 0 r + i) k) := by
  obtain ⟨hG, _, _, g3, g4⟩ := h
  simp only [hs] at g4
  obtain ⟨a, b⟩ := g4.2.2 r hr
  have n2 : (x.loc r).ndim = 2 := by rw [g3 r hr, h2]
  have d1 := a 1 (by omega) (by omega)
  refine ⟨n2, d1, fun i k hi hk => ?_⟩
  rw [b _ (inB_ix n2 hi (by omega)), get_ix hG h2]
  congr 2
  show i + _ = _
  omega

/-- The elements of a matrix split along its columns. -/
theorem rep_get_one {P : Nat} {x : DND Int} {G : NArr Int} (h : Rep P x G) (h2 : G.ndim = 2) (hs : x.split = some 1) {r : Nat} (hr : r < P) :
    (x.loc r).ndim = 2 ∧ (x.loc r).dim 0 = G.dim 0 ∧
    ∀ i k, i < G.dim 0 → k < (x.loc r).dim 1 → (x.loc r).get (ix i k) = G.get (ix i (axisStart x.loc 1 r + k)) := by
  obtain ⟨hG, _, _, g3, g4⟩ := h
  simp only [hs] at g4
  obtain ⟨a, b⟩ := g4.2.2 r hr
  have n2 : (x.loc r).ndim = 2 := by rw [g3 r hr, h2]
  have d0 := a 0 (by omega) (by omega)
  refine ⟨n2, d0, fun i k hi hk => ?_⟩
  rw [b _ (inB_ix n2 (by omega) hk), get_ix hG h2]
  congr 2
  show k + _ = _
  omega

theorem rep_total {P : Nat} {x : DND Int} {G : NArr Int} {s : Nat} (h : Rep P x G) (hs : x.split = some s) : axisStart x.loc s P = G.dim s := by
  obtain ⟨_, _, _, _, g4⟩ := h
  simp only [hs] at g4
  exact g4.2.1

theorem rep_gshape2 {P : Nat} {x : DND Int} {G : NArr Int} (h : Rep P x G) (h2 : G.ndim = 2) : x.gshape.getD 0 0 = G.dim 0 ∧ x.gshape.getD 1 0 = G.dim 1 :=
  ⟨h.2.2.1 0 (by omega), h.2.2.1 1 (by omega)⟩

/-- To represent a matrix along axis `s`: the extents along `s` add up, the other extent is the global one, the elements are those of the block. -/
theorem rep_of_blocks {P : Nat} {T : NArr Int} (hT : Local T) (h2 : T.ndim = 2) (s : Nat) (hs : s < 2) (loc : Nat → NArr Int) (bal : Option Bool)
    (hn : ∀ r < P, (loc r).ndim = 2) (htot : axisStart loc s P = T.dim s) (hoth : ∀ r < P, (loc r).dim (1 - s) = T.dim (1 - s))
    (hget : ∀ r < P, ∀ idx, idx 0 < (loc r).dim 0 → idx 1 < (loc r).dim 1 → (loc r).get idx = T.get (shift s (axisStart loc s r) idx)) :
    Rep P ⟨[T.dim 0, T.dim 1], some s, loc, bal⟩ T := by
  refine ⟨hT, by rw [h2]; rfl, ?_, fun r hr => by rw [h2]; exact hn r hr, ?_⟩
  · intro k hk
    rw [h2] at hk
    have : k = 0 ∨ k = 1 := by omega
    rcases this with rfl | rfl <;> rfl
  · refine ⟨by omega, htot, fun r hr => ⟨?_, ?_⟩⟩
    · intro k hk hks
      have : k = 1 - s := by omega
      rw [this]; exact hoth r hr
    · intro idx hi
      have := inB_two (hn r hr) hi
      exact hget r hr idx this.1 this.2

theorem rep_of_full {P : Nat} {T : NArr Int} (hT : Local T) (h2 : T.ndim = 2) (loc : Nat → NArr Int) (bal : Option Bool)
    (hn : ∀ r < P, (loc r).ndim = 2) (h0 : ∀ r < P, (loc r).dim 0 = T.dim 0) (h1 : ∀ r < P, (loc r).dim 1 = T.dim 1)
    (hget : ∀ r < P, ∀ idx, idx 0 < T.dim 0 → idx 1 < T.dim 1 → (loc r).get idx = T.get idx) :
    Rep P ⟨[T.dim 0, T.dim 1], none, loc, bal⟩ T := by
  refine ⟨hT, by rw [h2]; rfl, ?_, fun r hr => by rw [h2]; exact hn r hr, ?_⟩
  · intro k hk
    rw [h2] at hk
    have : k = 0 ∨ k = 1 := by omega
    rcases this with rfl | rfl <;> rfl
  · intro r hr
    refine ⟨?_, ?_⟩
    · intro k hk
      have : k = 0 ∨ k = 1 := by omega
      rcases this with rfl | rfl
      · exact h0 r hr
      · exact h1 r hr
    · intro idx hi
      have := inB_two (hn r hr) hi
      exact hget r hr idx (by rw [← h0 r hr]; exact this.1) (by rw [← h1 r hr]; exact this.2)

/-! ## Blocks added one after the other -/

/-- The step adds `F` to every matrix with the extents of `D`. -/
def AddsOn (D : NArr Int) (step : NArr Int → Option (NArr Int)) (F : (Nat → Nat) → Int) : Prop :=
  ∀ C : NArr Int, C.ndim = 2 → C.dim = D.dim → ∃ C', step C = some C' ∧ C'.ndim = 2 ∧ C'.dim = D.dim ∧
    ∀ idx, idx 0 < D.dim 0 → idx 1 < D.dim 1 → C'.get idx = C.get idx + F idx

theorem accumulate_succ (c : NArr Int) (step : Nat → NArr Int → Option (NArr Int)) (P : Nat) :
    accumulate c step (P + 1) = (accumulate c step P).bind (step P) := by
  unfold accumulate
  rw [List.range_succ, List.foldl_append]
  rfl

theorem accumulate_adds {c : NArr Int} (hc : c.ndim = 2) {step : Nat → NArr Int → Option (NArr Int)} {F : Nat → (Nat → Nat) → Int} :
    ∀ P, (∀ q < P, AddsOn c (step q) (F q)) → ∃ out, accumulate c step P = some out ∧ out.ndim = 2 ∧ out.dim = c.dim ∧
      ∀ idx, idx 0 < c.dim 0 → idx 1 < c.dim 1 → out.get idx = c.get idx + sumTo P fun q => F q idx
  | 0, _ => ⟨c, rfl, hc, rfl, fun idx _ _ => by simp [sumTo_zero]⟩
  | P + 1, h => by
    obtain ⟨out, e1, e2, e3, e4⟩ := accumulate_adds hc P fun q hq => h q (by omega)
    obtain ⟨C', f1, f2, f3, f4⟩ := h P (by omega) out e2 e3
    refine ⟨C', by rw [accumulate_succ, e1]; exact f1, f2, f3, fun idx h0 h1 => ?_⟩
    rw [f4 idx h0 h1, e4 idx h0 h1, sumTo_succ]
    omega

/-- If all blocks have been added, each of them could be added to a matrix with the extents of `c`. -/
theorem accumulate_some {c : NArr Int} {step : Nat → NArr Int → Option (NArr Int)}
    (hd : ∀ q C C', step q C = some C' → C'.dim = C.dim) :
    ∀ P out, accumulate c step P = some out → out.dim = c.dim ∧ ∀ q < P, ∃ C C', C.dim = c.dim ∧ step q C = some C'
  | 0, out, h => ⟨by rw [← Option.some.inj h], fun q hq => absurd hq (by omega)⟩
  | P + 1, out, h => by
    rw [accumulate_succ] at h
    cases hm : accumulate c step P with
    | none => rw [hm] at h; exact absurd h (by simp)
    | some mid =>
      rw [hm] at h
      have h' : step P mid = some out := h
      obtain ⟨e1, e2⟩ := accumulate_some hd P mid hm
      refine ⟨by rw [hd P mid out h', e1], fun q hq => ?_⟩
      by_cases hqP : q = P
      · exact ⟨mid, out, e1, by rw [hqP]; exact h'⟩
      · exact e2 q (by omega)

theorem addRegion_dim {C X C' : NArr Int} {m lo hi : Nat} (h : addRegion C m lo hi X = some C') : C'.dim = C.dim := by
  unfold addRegion at h
  split at h
  · rw [← Option.some.inj h]
  · exact absurd h (by simp)

theorem addRegion_fits {C X C' : NArr Int} {m lo hi : Nat} (h : addRegion C m lo hi X = some C') :
    (X.dim 0 = min m (C.dim 0) ∨ X.dim 0 = 1) ∧ (X.dim 1 = min hi (C.dim 1) - min lo (C.dim 1) ∨ X.dim 1 = 1) := by
  unfold addRegion at h
  split at h
  · assumption
  · exact absurd h (by simp)

theorem addRegion_exact (C X : NArr Int) (m lo hi : Nat) (h0 : X.dim 0 = min m (C.dim 0)) (h1 : X.dim 1 = min hi (C.dim 1) - min lo (C.dim 1)) :
    ∃ C', addRegion C m lo hi X = some C' ∧ C'.ndim = C.ndim ∧ C'.dim = C.dim ∧
      ∀ idx, C'.get idx = if (idx 0 < m ∧ lo ≤ idx 1) ∧ idx 1 < hi then C.get idx + X.get (ix (idx 0) (idx 1 - lo)) else C.get idx := by
  refine ⟨⟨C.ndim, C.dim, addedAt C X m lo hi (min m (C.dim 0)) (min hi (C.dim 1) - min lo (C.dim 1))⟩, by unfold addRegion; rw [if_pos ⟨Or.inl h0, Or.inl h1⟩], rfl, rfl, fun idx => ?_⟩
  show addedAt C X m lo hi _ _ idx = _
  unfold addedAt
  rw [if_pos h0, if_pos h1]

/-- Adding a block as large as the matrix. -/
theorem addRegion_all (C X : NArr Int) (hC : C.ndim = 2) (h0 : X.dim 0 = C.dim 0) (h1 : X.dim 1 = C.dim 1) :
    ∃ C', addRegion C (C.dim 0) 0 (C.dim 1) X = some C' ∧ C'.ndim = 2 ∧ C'.dim = C.dim ∧
      ∀ idx, idx 0 < C.dim 0 → idx 1 < C.dim 1 → C'.get idx = C.get idx + X.get (ix (idx 0) (idx 1)) := by
  obtain ⟨C', e1, e2, e3, e4⟩ := addRegion_exact C X (C.dim 0) 0 (C.dim 1) (by omega) (by omega)
  refine ⟨C', e1, by omega, e3, fun idx i0 i1 => ?_⟩
  rw [e4, if_pos ⟨⟨i0, by omega⟩, i1⟩, Nat.sub_zero]

/-! ## Sizes -/

theorem chunk_le (n P q : Nat) (hP : 0 < P) (hq : q < P) : (chunkRange n q P).1 ≤ (chunkRange n q P).2 ∧ (chunkRange n q P).2 ≤ n := by
  refine ⟨by rw [chunkRange_snd]; omega, ?_⟩
  rw [← chunkRange_succ]
  calc (chunkRange n (q + 1) P).1 ≤ (chunkRange n P P).1 := chunkRange_mono n P (by omega)
    _ = n := chunkRange_at_P n P hP

theorem evenSize_near (n P r q : Nat) : evenSize n P r ≤ evenSize n P q + 1 := by
  unfold evenSize; split <;> split <;> omega

theorem cut_dim (A : NArr Int) (ax lo hi : Nat) (h : hi ≤ A.dim ax) (hlo : lo ≤ hi) : (A.cut ax lo hi).dim ax = hi - lo := by
  show (if ax = ax then _ else _) = _
  rw [if_pos rfl]; omega

theorem cut_get_one (A : NArr Int) (lo hi i k : Nat) (h : lo ≤ A.dim 1) : (A.cut 1 lo hi).get (ix i k) = A.get (ix i (lo + k)) := by
  show A.get _ = A.get _
  congr 1
  funext a
  by_cases ha : a = 1
  · subst ha; simp only [if_true, ix_one]; omega
  · rw [if_neg ha]; unfold ix; rw [if_neg ha, if_neg ha]

theorem cut_get_zero (A : NArr Int) (lo hi i k : Nat) (h : lo ≤ A.dim 0) : (A.cut 0 lo hi).get (ix i k) = A.get (ix (lo + i) k) := by
  show A.get _ = A.get _
  congr 1
  funext a
  by_cases ha : a = 0
  · subst ha; simp only [if_true, ix_zero]; omega
  · rw [if_neg ha]; unfold ix; rw [if_neg ha]; simp only [if_neg ha]

/-- If the extents along an axis are not canonical, some rank's extent is neither the canonical one nor 1. -/
theorem axis_bad (loc : Nat → NArr Int) (s n P : Nat) (htot : axisStart loc s P = n) (hnb : ¬ ∀ r < P, (loc r).dim s = evenSize n P r) :
    ∃ q < P, (loc q).dim s ≠ evenSize n P q ∧ (loc q).dim s ≠ 1 := by
  have hlen : (content P fun r => List.replicate ((loc r).dim s) ()).length = n := by
    rw [← htot]
    clear hnb htot
    induction P with
    | zero => rfl
    | succ P ih => rw [content_succ, List.length_append, ih, axisStart_succ, List.length_replicate]
  obtain ⟨q, hq, h1, h2⟩ := exists_bad (fun r => List.replicate ((loc r).dim s) ()) P (by
    intro hb
    refine hnb fun r hr => ?_
    have := hb r hr
    rw [hlen, List.length_replicate] at this
    exact this)
  rw [hlen, List.length_replicate] at h1
  rw [List.length_replicate] at h2
  exact ⟨q, hq, h1, h2⟩

/-! ## The cases -/

theorem torchMatmul_ok {A B : NArr Int} (h : A.dim 1 = B.dim 0) : torchMatmul A B = some (product A B) := by
  unfold torchMatmul; rw [if_pos h]

theorem torchMatmul_some {A B X : NArr Int} (h : torchMatmul A B = some X) : A.dim 1 = B.dim 0 ∧ X = product A B := by
  unfold torchMatmul at h
  split at h
  · exact ⟨by assumption, (Option.some.inj h).symm⟩
  · exact absurd h (by simp)

variable {P : Nat} {a b : DND Int} {G H : NArr Int}

theorem matmul_nn (ha : Rep P a G) (hb : Rep P b H) (hG : G.ndim = 2) (hH : H.ndim = 2) (hk : G.dim 1 = H.dim 0) (sa : a.split = none) (sb : b.split = none) :
    Returned P none (fun r => torchMatmul (a.loc r) (b.loc r)) (product G H) := by
  refine ⟨fun r => product (a.loc r) (b.loc r), fun r hr => ?_, ?_⟩
  · obtain ⟨_, _, a1, _⟩ := rep_get_none ha hG sa hr
    obtain ⟨_, b0, _, _⟩ := rep_get_none hb hH sb hr
    exact torchMatmul_ok (by omega)
  · refine rep_of_full (product_local G H) rfl _ none (fun _ _ => rfl) ?_ ?_ ?_
    · intro r hr; exact (rep_get_none ha hG sa hr).2.1
    · intro r hr; exact (rep_get_none hb hH sb hr).2.2.1
    · intro r hr idx h0 h1
      obtain ⟨_, a0, a1, ga⟩ := rep_get_none ha hG sa hr
      obtain ⟨_, b0, b1, gb⟩ := rep_get_none hb hH sb hr
      show sumTo _ _ = sumTo _ _
      rw [a1]
      refine sumTo_congr fun k hk' => ?_
      rw [ga _ _ h0 hk', gb _ _ (by omega) h1]

theorem matmul_0n (ha : Rep P a G) (hb : Rep P b H) (hG : G.ndim = 2) (hH : H.ndim = 2) (hk : G.dim 1 = H.dim 0) (sa : a.split = some 0) (sb : b.split = none) :
    Returned P (some 0) (fun r => torchMatmul (a.loc r) (b.loc r)) (product G H) := by
  refine ⟨fun r => product (a.loc r) (b.loc r), fun r hr => ?_, ?_⟩
  · obtain ⟨_, a1, _⟩ := rep_get_zero ha hG sa hr
    obtain ⟨_, b0, _, _⟩ := rep_get_none hb hH sb hr
    exact torchMatmul_ok (by omega)
  · refine rep_of_blocks (product_local G H) rfl 0 (by omega) _ none (fun _ _ => rfl) (show axisStart a.loc 0 P = G.dim 0 from rep_total ha sa) ?_ ?_
    · intro r hr; exact (rep_get_none hb hH sb hr).2.2.1
    · intro r hr idx h0 h1
      obtain ⟨_, a1, ga⟩ := rep_get_zero ha hG sa hr
      obtain ⟨_, b0, b1, gb⟩ := rep_get_none hb hH sb hr
      show sumTo _ _ = sumTo _ _
      rw [a1]
      refine sumTo_congr fun k hk' => ?_
      rw [ga _ _ h0 hk', gb _ _ (by omega) (by rw [← b1]; exact h1)]
      congr 3
      show _ = idx 0 + _
      exact Nat.add_comm _ _

theorem matmul_n1 (ha : Rep P a G) (hb : Rep P b H) (hG : G.ndim = 2) (hH : H.ndim = 2) (hk : G.dim 1 = H.dim 0) (sa : a.split = none) (sb : b.split = some 1) :
    Returned P (some 1) (fun r => torchMatmul (a.loc r) (b.loc r)) (product G H) := by
  refine ⟨fun r => product (a.loc r) (b.loc r), fun r hr => ?_, ?_⟩
  · obtain ⟨_, _, a1, _⟩ := rep_get_none ha hG sa hr
    obtain ⟨_, b0, _⟩ := rep_get_one hb hH sb hr
    exact torchMatmul_ok (by omega)
  · refine rep_of_blocks (product_local G H) rfl 1 (by omega) _ none (fun _ _ => rfl) (show axisStart b.loc 1 P = H.dim 1 from rep_total hb sb) ?_ ?_
    · intro r hr; exact (rep_get_none ha hG sa hr).2.1
    · intro r hr idx h0 h1
      obtain ⟨_, a0, a1, ga⟩ := rep_get_none ha hG sa hr
      obtain ⟨_, b0, gb⟩ := rep_get_one hb hH sb hr
      show sumTo _ _ = sumTo _ _
      rw [a1]
      refine sumTo_congr fun k hk' => ?_
      rw [ga _ _ (by rw [← a0]; exact h0) hk', gb _ _ (by omega) h1]
      congr 3
      exact Nat.add_comm _ _

theorem zerosLoc_dims (m n P r : Nat) (s : Nat) :
    (zerosLoc m n s P r).ndim = 2 ∧ (zerosLoc m n s P r).dim 0 = (if s = 0 then evenSize m P r else m) ∧ (zerosLoc m n s P r).dim 1 = (if s = 1 then evenSize n P r else n) := by
  refine ⟨rfl, ?_, ?_⟩
  · show (if 0 = s then (chunkRange m r P).2 - (chunkRange m r P).1 else m) = _
    rw [chunkRange_len]
    by_cases h : s = 0
    · rw [if_pos h, if_pos h.symm]
    · rw [if_neg h, if_neg fun e => h e.symm]
  · show (if 1 = s then (chunkRange n r P).2 - (chunkRange n r P).1 else n) = _
    rw [chunkRange_len]
    by_cases h : s = 1
    · rw [if_pos h, if_pos h.symm]
    · rw [if_neg h, if_neg fun e => h e.symm]

/-- Blocks of canonical size that have been accumulated hold the product. -/
theorem returned_of_acc (hP : 0 < P) (T : NArr Int) (hT : Local T) (h2 : T.ndim = 2) (s : Nat) (hs : s < 2) (step : Nat → Nat → NArr Int → Option (NArr Int))
    (F : Nat → Nat → (Nat → Nat) → Int)
    (hadd : ∀ r < P, ∀ q < P, AddsOn (zerosLoc (T.dim 0) (T.dim 1) s P r) (step r q) (F r q))
    (hsum : ∀ r < P, ∀ idx, idx 0 < (zerosLoc (T.dim 0) (T.dim 1) s P r).dim 0 → idx 1 < (zerosLoc (T.dim 0) (T.dim 1) s P r).dim 1 →
      sumTo P (fun q => F r q idx) = T.get (shift s (chunkRange (T.dim s) r P).1 idx)) :
    Returned P (some s) (fun r => accumulate (zerosLoc (T.dim 0) (T.dim 1) s P r) (step r) P) T := by
  have hex : ∀ r, ∃ out, r < P → accumulate (zerosLoc (T.dim 0) (T.dim 1) s P r) (step r) P = some out ∧ out.ndim = 2 ∧
      out.dim = (zerosLoc (T.dim 0) (T.dim 1) s P r).dim ∧ ∀ idx, idx 0 < out.dim 0 → idx 1 < out.dim 1 → out.get idx = T.get (shift s (chunkRange (T.dim s) r P).1 idx) := by
    intro r
    by_cases hr : r < P
    · obtain ⟨out, e1, e2, e3, e4⟩ := accumulate_adds (c := zerosLoc (T.dim 0) (T.dim 1) s P r) rfl P fun q hq => hadd r hr q hq
      refine ⟨out, fun _ => ⟨e1, e2, e3, fun idx h0 h1 => ?_⟩⟩
      rw [e3] at h0 h1
      rw [e4 idx h0 h1, hsum r hr idx h0 h1]
      show (0 : Int) + _ = _
      omega
    · exact ⟨T, fun h => absurd h hr⟩
  choose out hout using hex
  have hev : ∀ r < P, (out r).dim s = evenSize (T.dim s) P r := by
    intro r hr
    rw [(hout r hr).2.2.1]
    have := zerosLoc_dims (T.dim 0) (T.dim 1) P r s
    have : s = 0 ∨ s = 1 := by omega
    rcases this with rfl | rfl
    · rw [(zerosLoc_dims _ _ _ _ _).2.1]; rfl
    · rw [(zerosLoc_dims _ _ _ _ _).2.2]; rfl
  have hst := axisStart_even out s (T.dim s) P hev
  refine ⟨out, fun r hr => (hout r hr).1, rep_of_blocks hT h2 s hs out none (fun r hr => (hout r hr).2.1) ?_ ?_ ?_⟩
  · rw [hst P (Nat.le_refl _), chunkRange_at_P _ _ hP]
  · intro r hr
    rw [(hout r hr).2.2.1]
    have : s = 0 ∨ s = 1 := by omega
    rcases this with rfl | rfl
    · rw [(zerosLoc_dims _ _ _ _ _).2.2]; rfl
    · rw [(zerosLoc_dims _ _ _ _ _).2.1]; rfl
  · intro r hr idx h0 h1
    rw [hst r (by omega)]
    exact (hout r hr).2.2.2 idx h0 h1

/-- Split 0 of both. -/
theorem matmul_00 (hP : 0 < P) (ha : Rep P a G) (hb : Rep P b H) (hG : G.ndim = 2) (hH : H.ndim = 2) (hk : G.dim 1 = H.dim 0) (sa : a.split = some 0) (sb : b.split = some 0)
    (ba : BalancedND P a G 0) (bb : BalancedND P b H 0) :
    Returned P (some 0) (fun r => accumulate (zerosLoc (G.dim 0) (H.dim 1) 0 P r) (step00 P a b r) P) (product G H) := by
  have sta := axisStart_even a.loc 0 (G.dim 0) P ba
  have stb := axisStart_even b.loc 0 (H.dim 0) P bb
  refine returned_of_acc hP (product G H) (product_local G H) rfl 0 (by omega) _
    (fun r q idx => sumTo ((b.loc q).dim 0) fun k => (fun k => G.get (ix ((chunkRange (G.dim 0) r P).1 + idx 0) k) * H.get (ix k (idx 1))) (axisStart b.loc 0 q + k)) ?_ ?_
  · intro r hr q hq C hC hCd
    obtain ⟨_, a1, ga⟩ := rep_get_zero ha hG sa hr
    obtain ⟨_, b1, gb⟩ := rep_get_zero hb hH sb hq
    have hle := chunk_le (H.dim 0) P q hP hq
    have hz := zerosLoc_dims (G.dim 0) (H.dim 1) P r 0
    rw [if_pos rfl, if_neg (by omega)] at hz
    have hcut : ((a.loc r).cut 1 (chunkRange (H.dim 0) q P).1 (chunkRange (H.dim 0) q P).2).dim 1 = (b.loc q).dim 0 := by
      rw [cut_dim _ _ _ _ (by omega) hle.1, chunkRange_len, bb q hq]
    have hg : b.gshape.getD 0 0 = H.dim 0 := (rep_gshape2 hb hH).1
    unfold step00
    rw [hg]
    simp only
    rw [torchMatmul_ok hcut, Option.bind_some]
    obtain ⟨C', e1, e2, e3, e4⟩ := addRegion_all C (product ((a.loc r).cut 1 (chunkRange (H.dim 0) q P).1 (chunkRange (H.dim 0) q P).2) (b.loc q)) hC
      (by rw [hCd, show (zerosLoc ((product G H).dim 0) ((product G H).dim 1) 0 P r).dim 0 = _ from hz.2.1]; exact ba r hr)
      (by rw [hCd, show (zerosLoc ((product G H).dim 0) ((product G H).dim 1) 0 P r).dim 1 = _ from hz.2.2]; exact b1)
    refine ⟨C', e1, e2, by rw [e3, hCd], fun idx h0 h1 => ?_⟩
    rw [e4 idx (by rw [hCd]; exact h0) (by rw [hCd]; exact h1)]
    congr 1
    have h0' : idx 0 < evenSize (G.dim 0) P r := by rw [← hz.2.1]; exact h0
    have h1' : idx 1 < H.dim 1 := by rw [← hz.2.2]; exact h1
    show sumTo _ _ = sumTo _ _
    rw [hcut]
    refine sumTo_congr fun k hk' => ?_
    have hkb := bb q hq
    have hsz := chunkRange_snd (H.dim 0) q P
    simp only [ix_zero, ix_one]
    rw [cut_get_one _ _ _ _ _ (by omega), ga _ _ (by rw [ba r hr]; exact h0') (by omega), gb _ _ hk' h1', sta r (by omega), stb q (by omega)]
  · intro r hr idx h0 h1
    rw [sumTo_ranks b.loc 0 (fun k => G.get (ix ((chunkRange (G.dim 0) r P).1 + idx 0) k) * H.get (ix k (idx 1))) P, rep_total hb sb, ← hk]
    show sumTo _ _ = sumTo _ _
    refine sumTo_congr fun k hk' => ?_
    congr 3
    exact Nat.add_comm _ _

/-- Exactly one canonical chunk contains the position `j`. -/
theorem sumTo_pick (n P j : Nat) (V : Int) : ∀ Q, sumTo Q (fun q => if (chunkRange n q P).1 ≤ j ∧ j < (chunkRange n q P).2 then V else 0) = if j < (chunkRange n Q P).1 then V else 0
  | 0 => by rw [chunkRange_zero, if_neg (by omega), sumTo_zero]
  | Q + 1 => by
    rw [sumTo_succ, sumTo_pick n P j V Q, chunkRange_succ]
    have := chunkRange_snd n Q P
    by_cases h1 : j < (chunkRange n Q P).1
    · rw [if_pos h1, if_neg (by omega), if_pos (by omega)]; omega
    · rw [if_neg h1]
      by_cases h2 : j < (chunkRange n Q P).2
      · rw [if_pos ⟨by omega, h2⟩, if_pos h2]; omega
      · rw [if_neg (by omega), if_neg h2]; omega

/-- Split 0 of `a`, split 1 of `b`. -/
theorem matmul_01 (hP : 0 < P) (ha : Rep P a G) (hb : Rep P b H) (hG : G.ndim = 2) (hH : H.ndim = 2) (hk : G.dim 1 = H.dim 0) (sa : a.split = some 0) (sb : b.split = some 1)
    (ba : BalancedND P a G 0) (bb : BalancedND P b H 1) :
    Returned P (some 0) (fun r => accumulate (zerosLoc (G.dim 0) (H.dim 1) 0 P r) (step01 P a b r) P) (product G H) := by
  have sta := axisStart_even a.loc 0 (G.dim 0) P ba
  have stb := axisStart_even b.loc 1 (H.dim 1) P bb
  refine returned_of_acc hP (product G H) (product_local G H) rfl 0 (by omega) _
    (fun r q idx => if (chunkRange (H.dim 1) q P).1 ≤ idx 1 ∧ idx 1 < (chunkRange (H.dim 1) q P).2 then (product G H).get (ix ((chunkRange (G.dim 0) r P).1 + idx 0) (idx 1)) else 0) ?_ ?_
  · intro r hr q hq C hC hCd
    obtain ⟨_, a1, ga⟩ := rep_get_zero ha hG sa hr
    obtain ⟨_, b0, gb⟩ := rep_get_one hb hH sb hq
    have hle := chunk_le (H.dim 1) P q hP hq
    have hz := zerosLoc_dims (G.dim 0) (H.dim 1) P r 0
    rw [if_pos rfl, if_neg (by omega)] at hz
    have hg : b.gshape.getD 1 0 = H.dim 1 := (rep_gshape2 hb hH).2
    have hg' : a.gshape.getD 0 0 = G.dim 0 := (rep_gshape2 ha hG).1
    have hsz := chunkRange_snd (H.dim 1) q P
    have hsza := chunkRange_snd (G.dim 0) q P
    have hnear := evenSize_near (G.dim 0) P r q
    have hC0 : C.dim 0 = evenSize (G.dim 0) P r := by rw [hCd]; exact hz.2.1
    have hC1 : C.dim 1 = H.dim 1 := by rw [hCd]; exact hz.2.2
    unfold step01
    rw [hg, hg']
    simp only
    rw [torchMatmul_ok (by omega), Option.bind_some]
    obtain ⟨C', e1, e2, e3, e4⟩ := addRegion_exact C (product (a.loc r) (b.loc q)) ((chunkRange (G.dim 0) q P).2 + 1 - (chunkRange (G.dim 0) q P).1)
      (chunkRange (H.dim 1) q P).1 (chunkRange (H.dim 1) q P).2
      (by have := ba r hr; show (a.loc r).dim 0 = _; omega)
      (by have := bb q hq; show (b.loc q).dim 1 = _; omega)
    refine ⟨C', e1, by omega, by rw [e3, hCd], fun idx h0 h1 => ?_⟩
    have h0' : idx 0 < evenSize (G.dim 0) P r := by rw [← hz.2.1]; exact h0
    rw [e4 idx]
    by_cases hin : (chunkRange (H.dim 1) q P).1 ≤ idx 1 ∧ idx 1 < (chunkRange (H.dim 1) q P).2
    · rw [if_pos ⟨⟨by omega, hin.1⟩, hin.2⟩, if_pos hin]
      congr 1
      show sumTo _ _ = sumTo _ _
      rw [a1]
      refine sumTo_congr fun k hk' => ?_
      simp only [ix_zero, ix_one]
      have := bb q hq
      rw [ga _ _ (by rw [ba r hr]; exact h0') hk', gb _ _ (by omega) (by omega), sta r (by omega), stb q (by omega)]
      rw [show (chunkRange (H.dim 1) q P).1 + (idx 1 - (chunkRange (H.dim 1) q P).1) = idx 1 by omega]
    · rw [if_neg (by omega), if_neg hin]; omega
  · intro r hr idx h0 h1
    have hz := zerosLoc_dims (G.dim 0) (H.dim 1) P r 0
    rw [if_pos rfl, if_neg (by omega)] at hz
    have h1' : idx 1 < H.dim 1 := by rw [← hz.2.2]; exact h1
    rw [sumTo_pick, chunkRange_at_P _ _ hP, if_pos h1', get_ix (product_local G H) rfl (shift _ _ _)]
    congr 2
    exact Nat.add_comm _ _

/-- Split 1 of both. -/
theorem matmul_11 (hP : 0 < P) (ha : Rep P a G) (hb : Rep P b H) (hG : G.ndim = 2) (hH : H.ndim = 2) (hk : G.dim 1 = H.dim 0) (sa : a.split = some 1) (sb : b.split = some 1)
    (ba : BalancedND P a G 1) (bb : BalancedND P b H 1) :
    Returned P (some 1) (fun r => accumulate (zerosLoc (G.dim 0) (H.dim 1) 1 P r) (step11 P a b r) P) (product G H) := by
  have sta := axisStart_even a.loc 1 (G.dim 1) P ba
  have stb := axisStart_even b.loc 1 (H.dim 1) P bb
  refine returned_of_acc hP (product G H) (product_local G H) rfl 1 (by omega) _
    (fun r q idx => sumTo ((a.loc q).dim 1) fun k => (fun k => G.get (ix (idx 0) k) * H.get (ix k ((chunkRange (H.dim 1) r P).1 + idx 1))) (axisStart a.loc 1 q + k)) ?_ ?_
  · intro r hr q hq C hC hCd
    obtain ⟨_, a0, ga⟩ := rep_get_one ha hG sa hq
    obtain ⟨_, b0, gb⟩ := rep_get_one hb hH sb hr
    have hle := chunk_le (G.dim 1) P q hP hq
    have hz := zerosLoc_dims (G.dim 0) (H.dim 1) P r 1
    rw [if_neg (by omega), if_pos rfl] at hz
    have hcut : (a.loc q).dim 1 = ((b.loc r).cut 0 (chunkRange (G.dim 1) q P).1 (chunkRange (G.dim 1) q P).2).dim 0 := by
      rw [cut_dim _ _ _ _ (by omega) hle.1, chunkRange_len, ba q hq]
    have hg : a.gshape.getD 1 0 = G.dim 1 := (rep_gshape2 ha hG).2
    unfold step11
    rw [hg]
    simp only
    rw [torchMatmul_ok hcut, Option.bind_some]
    obtain ⟨C', e1, e2, e3, e4⟩ := addRegion_all C (product (a.loc q) ((b.loc r).cut 0 (chunkRange (G.dim 1) q P).1 (chunkRange (G.dim 1) q P).2)) hC
      (by rw [hCd, show (zerosLoc ((product G H).dim 0) ((product G H).dim 1) 1 P r).dim 0 = _ from hz.2.1]; exact a0)
      (by rw [hCd, show (zerosLoc ((product G H).dim 0) ((product G H).dim 1) 1 P r).dim 1 = _ from hz.2.2]; exact bb r hr)
    refine ⟨C', e1, e2, by rw [e3, hCd], fun idx h0 h1 => ?_⟩
    rw [e4 idx (by rw [hCd]; exact h0) (by rw [hCd]; exact h1)]
    congr 1
    have h0' : idx 0 < G.dim 0 := by rw [← hz.2.1]; exact h0
    have h1' : idx 1 < evenSize (H.dim 1) P r := by rw [← hz.2.2]; exact h1
    show sumTo _ _ = sumTo _ _
    refine sumTo_congr fun k hk' => ?_
    have hkb := ba q hq
    have hsz := chunkRange_snd (G.dim 1) q P
    simp only [ix_zero, ix_one]
    rw [cut_get_zero _ _ _ _ _ (by omega), ga _ _ h0' hk', gb _ _ (by omega) (by rw [bb r hr]; exact h1'), sta q (by omega), stb r (by omega)]
  · intro r hr idx h0 h1
    rw [sumTo_ranks a.loc 1 (fun k => G.get (ix (idx 0) k) * H.get (ix k ((chunkRange (H.dim 1) r P).1 + idx 1))) P, rep_total ha sa]
    show sumTo _ _ = sumTo _ _
    refine sumTo_congr fun k hk' => ?_
    congr 3
    exact Nat.add_comm _ _

/-- Contributions of all ranks summed. -/
theorem sumArr_adds (hP : 0 < P) {T : NArr Int} {part : Nat → Option (NArr Int)} {F : Nat → (Nat → Nat) → Int}
    (h : ∀ r < P, ∃ p, part r = some p ∧ p.ndim = 2 ∧ p.dim 0 = T.dim 0 ∧ p.dim 1 = T.dim 1 ∧ ∀ idx, idx 0 < T.dim 0 → idx 1 < T.dim 1 → p.get idx = F r idx) :
    ∃ out, sumArr P part = some out ∧ out.ndim = 2 ∧ out.dim 0 = T.dim 0 ∧ out.dim 1 = T.dim 1 ∧
      ∀ idx, idx 0 < T.dim 0 → idx 1 < T.dim 1 → out.get idx = sumTo P fun r => F r idx := by
  obtain ⟨p0, q0, q1, q2, q3, _⟩ := h 0 hP
  have hall : ((List.range P).all fun q => (part q).isSome) = true := by
    rw [List.all_eq_true]
    intro q hq
    obtain ⟨p, e, _⟩ := h q (List.mem_range.1 hq)
    rw [e]; rfl
  refine ⟨⟨p0.ndim, p0.dim, fun idx => sumTo P fun q => getOr (part q) idx⟩, ?_, q1, q2, q3, fun idx h0 h1 => ?_⟩
  · unfold sumArr
    rw [if_pos hall, q0]; rfl
  · refine sumTo_congr fun r hr => ?_
    obtain ⟨p, e, _, _, _, e4⟩ := h r hr
    rw [e]
    exact e4 idx h0 h1

/-- Canonical parts of a replicated matrix. -/
theorem returned_keep (hP : 0 < P) (T : NArr Int) (hT : Local T) (h2 : T.ndim = 2) (s : Nat) (hs : s < 2) {c : Option (NArr Int)}
    (hc : ∃ out, c = some out ∧ out.ndim = 2 ∧ out.dim 0 = T.dim 0 ∧ out.dim 1 = T.dim 1 ∧ ∀ idx, idx 0 < T.dim 0 → idx 1 < T.dim 1 → out.get idx = T.get idx) :
    Returned P (some s) (fun r => c.map (keepPart P s r)) T := by
  obtain ⟨out, rfl, e1, e2, e3, e4⟩ := hc
  have es : out.dim s = T.dim s := by
    have : s = 0 ∨ s = 1 := by omega
    rcases this with rfl | rfl
    · exact e2
    · exact e3
  have eo : out.dim (1 - s) = T.dim (1 - s) := by
    have : s = 0 ∨ s = 1 := by omega
    rcases this with rfl | rfl
    · exact e3
    · exact e2
  have hev : ∀ r < P, (keepPart P s r out).dim s = evenSize (T.dim s) P r := by
    intro r hr
    have := chunk_le (out.dim s) P r hP hr
    unfold keepPart
    rw [cut_dim _ _ _ _ this.2 this.1, chunkRange_len, es]
  have hst := axisStart_even (fun r => keepPart P s r out) s (T.dim s) P hev
  refine ⟨fun r => keepPart P s r out, fun r hr => rfl, rep_of_blocks hT h2 s hs _ none (fun _ _ => rfl) ?_ ?_ ?_⟩
  · rw [hst P (Nat.le_refl _), chunkRange_at_P _ _ hP]
  · intro r hr
    rw [← eo]
    show (if 1 - s = s then _ else out.dim (1 - s)) = _
    rw [if_neg (by omega)]
  · intro r hr idx h0 h1
    rw [hst r (by omega)]
    have hr' := chunk_le (out.dim s) P r hP hr
    have hsn := chunkRange_snd (T.dim s) r P
    have hmin : min (chunkRange (out.dim s) r P).1 (out.dim s) = (chunkRange (T.dim s) r P).1 := by rw [es] at hr' ⊢; omega
    have hev' := hev r hr
    have hoth : (keepPart P s r out).dim (1 - s) = T.dim (1 - s) := by
      rw [← eo]
      show (if 1 - s = s then _ else out.dim (1 - s)) = _
      rw [if_neg (by omega)]
    have hin : (shift s (chunkRange (T.dim s) r P).1 idx) s < T.dim s ∧ (shift s (chunkRange (T.dim s) r P).1 idx) (1 - s) < T.dim (1 - s) := by
      unfold shift
      rw [if_pos rfl, if_neg (by omega)]
      rw [es] at hr'
      have : s = 0 ∨ s = 1 := by omega
      rcases this with rfl | rfl
      · exact ⟨by omega, by rw [← hoth]; exact h1⟩
      · exact ⟨by omega, by rw [← hoth]; exact h0⟩
    rw [← e4 (shift s (chunkRange (T.dim s) r P).1 idx)]
    · show out.get (fun a => if a = s then idx a + min (chunkRange (out.dim s) r P).1 (out.dim s) else idx a) = _
      rw [hmin]; rfl
    · have : s = 0 ∨ s = 1 := by omega
      rcases this with rfl | rfl
      · exact hin.1
      · exact hin.2
    · have : s = 0 ∨ s = 1 := by omega
      rcases this with rfl | rfl
      · exact hin.2
      · exact hin.1

theorem sum_1n (hP : 0 < P) (ha : Rep P a G) (hb : Rep P b H) (hG : G.ndim = 2) (hH : H.ndim = 2) (hk : G.dim 1 = H.dim 0) (sa : a.split = some 1) (sb : b.split = none)
    (ba : BalancedND P a G 1) :
    ∃ out, sumArr P (part1None P a b) = some out ∧ out.ndim = 2 ∧ out.dim 0 = (product G H).dim 0 ∧ out.dim 1 = (product G H).dim 1 ∧
      ∀ idx, idx 0 < (product G H).dim 0 → idx 1 < (product G H).dim 1 → out.get idx = (product G H).get idx := by
  have sta := axisStart_even a.loc 1 (G.dim 1) P ba
  have hs := sumArr_adds (P := P) hP (T := product G H) (part := part1None P a b)
    (F := fun r idx => sumTo ((a.loc r).dim 1) fun k => (fun k => G.get (ix (idx 0) k) * H.get (ix k (idx 1))) (axisStart a.loc 1 r + k))
  obtain ⟨out, e0, e1, e2, e3, e4⟩ := hs (by
      intro r hr
      obtain ⟨_, a0, ga⟩ := rep_get_one ha hG sa hr
      obtain ⟨_, b0, b1, gb⟩ := rep_get_none hb hH sb hr
      have hle := chunk_le (G.dim 1) P r hP hr
      have hsz := chunkRange_snd (G.dim 1) r P
      have hbr := ba r hr
      unfold part1None
      rw [(rep_gshape2 ha hG).1, (rep_gshape2 ha hG).2, (rep_gshape2 hb hH).2]
      simp only
      have hcut : (a.loc r).dim 1 = ((b.loc r).cut 0 (chunkRange (G.dim 1) r P).1 ((chunkRange (G.dim 1) r P).1 + (a.loc r).dim 1)).dim 0 := by
        rw [cut_dim _ _ _ _ (by omega) (by omega)]; omega
      rw [torchMatmul_ok hcut, Option.bind_some]
      obtain ⟨C', f1, f2, f3, f4⟩ := addRegion_all ⟨2, fun k => if k = 0 then G.dim 0 else H.dim 1, fun _ => 0⟩
        (product (a.loc r) ((b.loc r).cut 0 (chunkRange (G.dim 1) r P).1 ((chunkRange (G.dim 1) r P).1 + (a.loc r).dim 1))) rfl a0 b1
      refine ⟨C', f1, f2, by rw [f3]; rfl, by rw [f3]; rfl, fun idx h0 h1 => ?_⟩
      rw [f4 idx h0 h1]
      show (0 : Int) + sumTo _ _ = sumTo _ _
      rw [Int.zero_add]
      refine sumTo_congr fun k hk' => ?_
      simp only [ix_zero, ix_one]
      have h0' : idx 0 < G.dim 0 := h0
      have h1' : idx 1 < H.dim 1 := h1
      rw [cut_get_zero _ _ _ _ _ (by omega), ga _ _ h0' hk', gb _ _ (by omega) h1', sta r (by omega)])
  refine ⟨out, e0, e1, e2, e3, fun idx h0 h1 => ?_⟩
  rw [e4 idx h0 h1, sumTo_ranks a.loc 1 (fun k => G.get (ix (idx 0) k) * H.get (ix k (idx 1))) P, rep_total ha sa]
  rfl

theorem matmul_1n (hP : 0 < P) (ha : Rep P a G) (hb : Rep P b H) (hG : G.ndim = 2) (hH : H.ndim = 2) (hk : G.dim 1 = H.dim 0) (sa : a.split = some 1) (sb : b.split = none)
    (ba : BalancedND P a G 1) :
    Returned P (some 1) (fun r => (sumArr P (part1None P a b)).map (keepPart P 1 r)) (product G H) :=
  returned_keep hP (product G H) (product_local G H) rfl 1 (by omega) (sum_1n hP ha hb hG hH hk sa sb ba)

theorem sum_n0 (hP : 0 < P) (ha : Rep P a G) (hb : Rep P b H) (hG : G.ndim = 2) (hH : H.ndim = 2) (hk : G.dim 1 = H.dim 0) (sa : a.split = none) (sb : b.split = some 0)
    (bb : BalancedND P b H 0) :
    ∃ out, sumArr P (partNone0 P a b) = some out ∧ out.ndim = 2 ∧ out.dim 0 = (product G H).dim 0 ∧ out.dim 1 = (product G H).dim 1 ∧
      ∀ idx, idx 0 < (product G H).dim 0 → idx 1 < (product G H).dim 1 → out.get idx = (product G H).get idx := by
  have stb := axisStart_even b.loc 0 (H.dim 0) P bb
  have hs := sumArr_adds (P := P) hP (T := product G H) (part := partNone0 P a b)
    (F := fun r idx => sumTo ((b.loc r).dim 0) fun k => (fun k => G.get (ix (idx 0) k) * H.get (ix k (idx 1))) (axisStart b.loc 0 r + k))
  obtain ⟨out, e0, e1, e2, e3, e4⟩ := hs (by
      intro r hr
      obtain ⟨_, a0, a1, ga⟩ := rep_get_none ha hG sa hr
      obtain ⟨_, b1, gb⟩ := rep_get_zero hb hH sb hr
      have hle := chunk_le (H.dim 0) P r hP hr
      have hsz := chunkRange_snd (H.dim 0) r P
      have hbr := bb r hr
      unfold partNone0
      rw [(rep_gshape2 ha hG).1, (rep_gshape2 hb hH).1, (rep_gshape2 hb hH).2]
      simp only
      have hcut : ((a.loc r).cut 1 (chunkRange (H.dim 0) r P).1 ((chunkRange (H.dim 0) r P).1 + (b.loc r).dim 0)).dim 1 = (b.loc r).dim 0 := by
        rw [cut_dim _ _ _ _ (by omega) (by omega)]; omega
      rw [torchMatmul_ok hcut, Option.bind_some]
      obtain ⟨C', f1, f2, f3, f4⟩ := addRegion_all ⟨2, fun k => if k = 0 then G.dim 0 else H.dim 1, fun _ => 0⟩
        (product ((a.loc r).cut 1 (chunkRange (H.dim 0) r P).1 ((chunkRange (H.dim 0) r P).1 + (b.loc r).dim 0)) (b.loc r)) rfl a0 b1
      refine ⟨C', f1, f2, by rw [f3]; rfl, by rw [f3]; rfl, fun idx h0 h1 => ?_⟩
      rw [f4 idx h0 h1]
      show (0 : Int) + sumTo _ _ = sumTo _ _
      rw [Int.zero_add, hcut]
      refine sumTo_congr fun k hk' => ?_
      simp only [ix_zero, ix_one]
      have h0' : idx 0 < G.dim 0 := h0
      have h1' : idx 1 < H.dim 1 := h1
      rw [cut_get_one _ _ _ _ _ (by omega), ga _ _ h0' (by omega), gb _ _ hk' h1', stb r (by omega)])
  refine ⟨out, e0, e1, e2, e3, fun idx h0 h1 => ?_⟩
  rw [e4 idx h0 h1, sumTo_ranks b.loc 0 (fun k => G.get (ix (idx 0) k) * H.get (ix k (idx 1))) P, rep_total hb sb, ← hk]
  rfl

theorem matmul_n0 (hP : 0 < P) (ha : Rep P a G) (hb : Rep P b H) (hG : G.ndim = 2) (hH : H.ndim = 2) (hk : G.dim 1 = H.dim 0) (sa : a.split = none) (sb : b.split = some 0)
    (bb : BalancedND P b H 0) :
    Returned P (some 0) (fun r => (sumArr P (partNone0 P a b)).map (keepPart P 0 r)) (product G H) :=
  returned_keep hP (product G H) (product_local G H) rfl 0 (by omega) (sum_n0 hP ha hb hG hH hk sa sb bb)

/-- A resplit array is balanced along its new axis. -/
theorem balanced_resplitTo (hP : 0 < P) (hb : Rep P b H) (ax : Nat) (hax : ax < H.ndim) (hs : b.split ≠ some ax) : BalancedND P (resplitTo P b ax) H ax := by
  intro r hr
  unfold resplitTo
  rw [if_neg hs]
  have hg := hb.2.2.1 ax hax
  show (if ax = ax then _ else _) = _
  rw [if_pos rfl, hg, chunkRange_len]

/-! ## C72 -/

/-- **C72.**  The product of two matrices whose split operands are balanced: whatever the splits, every process returns and together they hold `G H`, distributed along the
split axis of `a`, or that of `b` if `a` is not split. -/
theorem matmul_spec (hP : 0 < P) (ha : Rep P a G) (hb : Rep P b H) (hG : G.ndim = 2) (hH : H.ndim = 2) (hk : G.dim 1 = H.dim 0)
    (ba : ∀ s, a.split = some s → BalancedND P a G s) (bb : ∀ s, b.split = some s → BalancedND P b H s) :
    ∃ res, matmulHeat P a b = .ok res ∧ res.split = a.split.or b.split ∧ Returned P (a.split.or b.split) res.loc (product G H) := by
  have ga := rep_gshape2 ha hG
  have gb := rep_gshape2 hb hH
  have sal : ∀ s, a.split = some s → s = 0 ∨ s = 1 := by
    intro s hs
    obtain ⟨_, _, _, _, g4⟩ := ha
    simp only [hs] at g4
    omega
  have sbl : ∀ s, b.split = some s → s = 0 ∨ s = 1 := by
    intro s hs
    obtain ⟨_, _, _, _, g4⟩ := hb
    simp only [hs] at g4
    omega
  unfold matmulHeat
  rw [if_neg (by rw [ga.2, gb.1]; omega), ga.1, gb.2]
  cases sa : a.split with
  | none =>
    cases sb : b.split with
    | none => exact ⟨_, rfl, rfl, matmul_nn ha hb hG hH hk sa sb⟩
    | some t =>
      rcases sbl t sb with rfl | rfl
      · exact ⟨_, rfl, rfl, matmul_n0 hP ha hb hG hH hk sa sb (bb 0 sb)⟩
      · exact ⟨_, rfl, rfl, matmul_n1 ha hb hG hH hk sa sb⟩
  | some s =>
    rcases sal s sa with rfl | rfl
    · cases sb : b.split with
      | none => exact ⟨_, rfl, rfl, matmul_0n ha hb hG hH hk sa sb⟩
      | some t =>
        rcases sbl t sb with rfl | rfl
        · exact ⟨_, rfl, rfl, matmul_00 hP ha hb hG hH hk sa sb (ba 0 sa) (bb 0 sb)⟩
        · exact ⟨_, rfl, rfl, matmul_01 hP ha hb hG hH hk sa sb (ba 0 sa) (bb 1 sb)⟩
    · cases sb : b.split with
      | none => exact ⟨_, rfl, rfl, matmul_1n hP ha hb hG hH hk sa sb (ba 1 sa)⟩
      | some t =>
        rcases sbl t sb with rfl | rfl
        · have hr := rep_resplitTo hP hb 1 (by omega)
          exact ⟨_, rfl, rfl, matmul_11 hP ha hr.1 hG hH hk sa hr.2 (ba 1 sa) (balanced_resplitTo hP hb 1 (by omega) (by rw [sb]; decide))⟩
        · exact ⟨_, rfl, rfl, matmul_11 hP ha hb hG hH hk sa sb (ba 1 sa) (bb 1 sb)⟩

/-- **C72.**  Matrices whose inner extents differ are refused on every process. -/
theorem matmul_mismatch (ha : Rep P a G) (hb : Rep P b H) (hG : G.ndim = 2) (hH : H.ndim = 2) (hk : G.dim 1 ≠ H.dim 0) : matmulHeat P a b = .error .valueError := by
  unfold matmulHeat
  rw [if_pos (by rw [(rep_gshape2 ha hG).2, (rep_gshape2 hb hH).1]; exact hk)]

/-! ## C73: arrays of any distribution -/

theorem step00_dim (r q : Nat) (C C' : NArr Int) (h : step00 P a b r q C = some C') : C'.dim = C.dim := by
  unfold step00 at h
  obtain ⟨x, _, h2⟩ := Option.bind_eq_some_iff.1 h
  exact addRegion_dim h2

theorem step01_dim (r q : Nat) (C C' : NArr Int) (h : step01 P a b r q C = some C') : C'.dim = C.dim := by
  unfold step01 at h
  obtain ⟨x, _, h2⟩ := Option.bind_eq_some_iff.1 h
  exact addRegion_dim h2

theorem step11_dim (r q : Nat) (C C' : NArr Int) (h : step11 P a b r q C = some C') : C'.dim = C.dim := by
  unfold step11 at h
  obtain ⟨x, _, h2⟩ := Option.bind_eq_some_iff.1 h
  exact addRegion_dim h2

theorem some_of_isSome {o : Option (NArr Int)} (h : o.isSome = true) : ∃ x, o = some x := by
  cases o with
  | none => exact absurd h (by simp)
  | some x => exact ⟨x, rfl⟩

theorem balanced_of_00 (hP : 0 < P) (ha : Rep P a G) (hb : Rep P b H) (hG : G.ndim = 2) (hH : H.ndim = 2) (hk : G.dim 1 = H.dim 0) (sa : a.split = some 0) (sb : b.split = some 0)
    (h : ∀ r < P, (accumulate (zerosLoc (G.dim 0) (H.dim 1) 0 P r) (step00 P a b r) P).isSome = true) : BalancedND P a G 0 ∧ BalancedND P b H 0 := by
  have key : ∀ r < P, ∀ q < P, (b.loc q).dim 0 = evenSize (H.dim 0) P q ∧ ((a.loc r).dim 0 = evenSize (G.dim 0) P r ∨ (a.loc r).dim 0 = 1) := by
    intro r hr q hq
    obtain ⟨out, ho⟩ := some_of_isSome (h r hr)
    obtain ⟨C, C', hC, hst⟩ := (accumulate_some (fun q C C' => step00_dim r q C C') P out ho).2 q hq
    unfold step00 at hst
    rw [(rep_gshape2 hb hH).1] at hst
    obtain ⟨x, hx, h2⟩ := Option.bind_eq_some_iff.1 hst
    obtain ⟨hd, rfl⟩ := torchMatmul_some hx
    have hf := (addRegion_fits h2).1
    have hle := chunk_le (H.dim 0) P q hP hq
    have a1 := (rep_get_zero ha hG sa hr).2.1
    rw [cut_dim _ _ _ _ (by omega) hle.1, chunkRange_len] at hd
    rw [Nat.min_self, hC, (zerosLoc_dims _ _ _ _ _).2.1, if_pos rfl] at hf
    exact ⟨hd.symm, hf⟩
  refine ⟨?_, fun q hq => (key 0 hP q hq).1⟩
  refine Classical.byContradiction fun hnb => ?_
  obtain ⟨r, hr, n1, n2⟩ := axis_bad a.loc 0 (G.dim 0) P (rep_total ha sa) hnb
  rcases (key r hr 0 hP).2 with e | e
  · exact n1 e
  · exact n2 e

theorem balanced_of_01 (hP : 0 < P) (ha : Rep P a G) (hb : Rep P b H) (hG : G.ndim = 2) (hH : H.ndim = 2) (sa : a.split = some 0) (sb : b.split = some 1)
    (h : ∀ r < P, (accumulate (zerosLoc (G.dim 0) (H.dim 1) 0 P r) (step01 P a b r) P).isSome = true) : BalancedND P a G 0 ∧ BalancedND P b H 1 := by
  have key : ∀ r < P, ∀ q < P, ((b.loc q).dim 1 = evenSize (H.dim 1) P q ∨ (b.loc q).dim 1 = 1) ∧ ((a.loc r).dim 0 = evenSize (G.dim 0) P r ∨ (a.loc r).dim 0 = 1) := by
    intro r hr q hq
    obtain ⟨out, ho⟩ := some_of_isSome (h r hr)
    obtain ⟨C, C', hC, hst⟩ := (accumulate_some (fun q C C' => step01_dim r q C C') P out ho).2 q hq
    unfold step01 at hst
    rw [(rep_gshape2 hb hH).2, (rep_gshape2 ha hG).1] at hst
    obtain ⟨x, hx, h2⟩ := Option.bind_eq_some_iff.1 hst
    obtain ⟨hd, rfl⟩ := torchMatmul_some hx
    have hf := addRegion_fits h2
    have hle := chunk_le (H.dim 1) P q hP hq
    have hnear := evenSize_near (G.dim 0) P r q
    have hsz := chunkRange_snd (H.dim 1) q P
    have hsza := chunkRange_snd (G.dim 0) q P
    rw [hC, (zerosLoc_dims _ _ _ _ _).2.1, if_pos rfl, (zerosLoc_dims _ _ _ _ _).2.2, if_neg (by omega)] at hf
    have f1 : (b.loc q).dim 1 = _ ∨ (b.loc q).dim 1 = 1 := hf.2
    have f0 : (a.loc r).dim 0 = _ ∨ (a.loc r).dim 0 = 1 := hf.1
    constructor
    · rcases f1 with e | e
      · left; rw [e]; omega
      · exact Or.inr e
    · rcases f0 with e | e
      · left; rw [e]; omega
      · exact Or.inr e
  constructor
  · refine Classical.byContradiction fun hnb => ?_
    obtain ⟨r, hr, n1, n2⟩ := axis_bad a.loc 0 (G.dim 0) P (rep_total ha sa) hnb
    rcases (key r hr 0 hP).2 with e | e
    · exact n1 e
    · exact n2 e
  · refine Classical.byContradiction fun hnb => ?_
    obtain ⟨q, hq, n1, n2⟩ := axis_bad b.loc 1 (H.dim 1) P (rep_total hb sb) hnb
    rcases (key 0 hP q hq).1 with e | e
    · exact n1 e
    · exact n2 e

theorem balanced_of_11 (hP : 0 < P) (ha : Rep P a G) (hb : Rep P b H) (hG : G.ndim = 2) (hH : H.ndim = 2) (hk : G.dim 1 = H.dim 0) (sa : a.split = some 1) (sb : b.split = some 1)
    (h : ∀ r < P, (accumulate (zerosLoc (G.dim 0) (H.dim 1) 1 P r) (step11 P a b r) P).isSome = true) : BalancedND P a G 1 ∧ BalancedND P b H 1 := by
  have key : ∀ r < P, ∀ q < P, (a.loc q).dim 1 = evenSize (G.dim 1) P q ∧ ((b.loc r).dim 1 = evenSize (H.dim 1) P r ∨ (b.loc r).dim 1 = 1) := by
    intro r hr q hq
    obtain ⟨out, ho⟩ := some_of_isSome (h r hr)
    obtain ⟨C, C', hC, hst⟩ := (accumulate_some (fun q C C' => step11_dim r q C C') P out ho).2 q hq
    unfold step11 at hst
    rw [(rep_gshape2 ha hG).2] at hst
    obtain ⟨x, hx, h2⟩ := Option.bind_eq_some_iff.1 hst
    obtain ⟨hd, rfl⟩ := torchMatmul_some hx
    have hf := (addRegion_fits h2).2
    have hle := chunk_le (G.dim 1) P q hP hq
    have b0 := (rep_get_one hb hH sb hr).2.1
    rw [cut_dim _ _ _ _ (by omega) hle.1, chunkRange_len] at hd
    rw [Nat.min_self, Nat.zero_min, Nat.sub_zero, hC, (zerosLoc_dims _ _ _ _ _).2.2, if_pos rfl] at hf
    exact ⟨hd, hf⟩
  refine ⟨fun q hq => (key 0 hP q hq).1, ?_⟩
  refine Classical.byContradiction fun hnb => ?_
  obtain ⟨r, hr, n1, n2⟩ := axis_bad b.loc 1 (H.dim 1) P (rep_total hb sb) hnb
  rcases (key r hr 0 hP).2 with e | e
  · exact n1 e
  · exact n2 e

/-- **C73.**  Operands of any distribution, except a column-split matrix times a replicated one and a replicated matrix times a row-split one: if every process returns, they
hold the product (otherwise some process raises an error). -/
theorem matmul_right_or_raises (hP : 0 < P) (ha : Rep P a G) (hb : Rep P b H) (hG : G.ndim = 2) (hH : H.ndim = 2) (hk : G.dim 1 = H.dim 0)
    (h1 : ¬ (a.split = some 1 ∧ b.split = none)) (h2 : ¬ (a.split = none ∧ b.split = some 0)) {res : MatRes} (hres : matmulHeat P a b = .ok res)
    (hret : ∀ r < P, (res.loc r).isSome = true) : Returned P (a.split.or b.split) res.loc (product G H) := by
  have ga := rep_gshape2 ha hG
  have gb := rep_gshape2 hb hH
  have sal : ∀ s, a.split = some s → s = 0 ∨ s = 1 := by
    intro s hs
    obtain ⟨_, _, _, _, g4⟩ := ha
    simp only [hs] at g4
    omega
  have sbl : ∀ s, b.split = some s → s = 0 ∨ s = 1 := by
    intro s hs
    obtain ⟨_, _, _, _, g4⟩ := hb
    simp only [hs] at g4
    omega
  unfold matmulHeat at hres
  rw [if_neg (by rw [ga.2, gb.1]; omega), ga.1, gb.2] at hres
  cases sa : a.split with
  | none =>
    cases sb : b.split with
    | none =>
      rw [sa, sb] at hres
      obtain rfl := Except.ok.inj hres
      exact matmul_nn ha hb hG hH hk sa sb
    | some t =>
      rcases sbl t sb with rfl | rfl
      · exact absurd ⟨sa, sb⟩ h2
      · rw [sa, sb] at hres
        obtain rfl := Except.ok.inj hres
        exact matmul_n1 ha hb hG hH hk sa sb
  | some s =>
    rcases sal s sa with rfl | rfl
    · cases sb : b.split with
      | none =>
        rw [sa, sb] at hres
        obtain rfl := Except.ok.inj hres
        exact matmul_0n ha hb hG hH hk sa sb
      | some t =>
        rcases sbl t sb with rfl | rfl
        · rw [sa, sb] at hres
          obtain rfl := Except.ok.inj hres
          obtain ⟨x, y⟩ := balanced_of_00 hP ha hb hG hH hk sa sb hret
          exact matmul_00 hP ha hb hG hH hk sa sb x y
        · rw [sa, sb] at hres
          obtain rfl := Except.ok.inj hres
          obtain ⟨x, y⟩ := balanced_of_01 hP ha hb hG hH sa sb hret
          exact matmul_01 hP ha hb hG hH hk sa sb x y
    · cases sb : b.split with
      | none => exact absurd ⟨sa, sb⟩ h1
      | some t =>
        rcases sbl t sb with rfl | rfl
        · rw [sa, sb] at hres
          obtain rfl := Except.ok.inj hres
          have hr := rep_resplitTo hP hb 1 (by omega)
          obtain ⟨x, y⟩ := balanced_of_11 hP ha hr.1 hG hH hk sa hr.2 hret
          exact matmul_11 hP ha hr.1 hG hH hk sa hr.2 x y
        · rw [sa, sb] at hres
          obtain rfl := Except.ok.inj hres
          obtain ⟨x, y⟩ := balanced_of_11 hP ha hb hG hH hk sa sb hret
          exact matmul_11 hP ha hb hG hH hk sa sb x y

/-- A matrix distributed along axis `s` with the given extents. -/
def splitBy (G : NArr Int) (s : Nat) (sizes : Nat → Nat) : DND Int :=
  ⟨[G.dim 0, G.dim 1], some s, fun r => ⟨2, fun k => if k = s then sizes r else G.dim k, fun idx => G.get (shift s (((List.range r).map sizes).sum) idx)⟩, none⟩

theorem axisStart_splitBy (G : NArr Int) (s : Nat) (sizes : Nat → Nat) (r : Nat) : axisStart (splitBy G s sizes).loc s r = ((List.range r).map sizes).sum := by
  unfold axisStart
  congr 1
  refine List.map_congr_left fun q _ => ?_
  show (if s = s then _ else _) = _
  rw [if_pos rfl]

theorem rep_splitBy {G : NArr Int} (hG : Local G) (h2 : G.ndim = 2) (s : Nat) (hs : s < 2) (sizes : Nat → Nat) (P : Nat) (htot : ((List.range P).map sizes).sum = G.dim s) :
    Rep P (splitBy G s sizes) G := by
  refine rep_of_blocks hG h2 s hs (splitBy G s sizes).loc none (fun _ _ => rfl) (by rw [axisStart_splitBy]; exact htot) ?_ ?_
  · intro r hr
    show (if 1 - s = s then _ else G.dim (1 - s)) = _
    rw [if_neg (by omega)]
  · intro r hr idx _ _
    rw [axisStart_splitBy]; rfl

/-- A matrix given by its elements. -/
def mat (m n : Nat) (f : Nat → Nat → Int) : NArr Int := ⟨2, fun k => if k = 0 then m else n, fun idx => f (idx 0) (idx 1)⟩

theorem mat_local (m n : Nat) (f : Nat → Nat → Int) : Local (mat m n f) := by
  intro i j h
  show f _ _ = f _ _
  rw [h 0 (by show 0 < 2; omega), h 1 (by show 1 < 2; omega)]

theorem rep_whole {G : NArr Int} (hG : Local G) (h2 : G.ndim = 2) (P : Nat) : Rep P ⟨[G.dim 0, G.dim 1], none, fun _ => G, none⟩ G :=
  rep_of_full hG h2 (fun _ => G) none (fun _ _ => h2) (fun _ _ => rfl) (fun _ _ => rfl) fun _ _ _ _ _ => rfl

/-- C73 fails for a matrix whose columns are not evenly distributed, times a replicated matrix: rows of `b` are found with the canonical offset.  Here the four columns are on two
ranks as 3 + 1, `[1 1 1 1] (1 2 3 4)ᵀ` becomes 9. -/
theorem matmul_1n_violated : ∃ (a b : DND Int) (G H : NArr Int) (res : MatRes), Rep 2 a G ∧ Rep 2 b H ∧ G.ndim = 2 ∧ H.ndim = 2 ∧ G.dim 1 = H.dim 0 ∧
    a.split = some 1 ∧ b.split = none ∧ matmulHeat 2 a b = .ok res ∧ (res.loc 0).map NArr.flat = some [9] ∧ (res.loc 1).map NArr.flat = some [] ∧ (product G H).flat = [10] := by
  refine ⟨splitBy (mat 1 4 fun _ _ => 1) 1 fun r => if r = 0 then 3 else 1, ⟨[4, 1], none, fun _ => mat 4 1 fun i _ => i + 1, none⟩, mat 1 4 fun _ _ => 1, mat 4 1 fun i _ => i + 1, _,
    rep_splitBy (mat_local _ _ _) rfl 1 (by omega) _ 2 (by decide), rep_whole (mat_local 4 1 _) rfl 2, rfl, rfl, rfl, rfl, rfl, rfl, by decide +kernel, by decide +kernel, by decide +kernel⟩

/-- C73 fails for a replicated matrix times a matrix whose rows are not evenly distributed. -/
theorem matmul_n0_violated : ∃ (a b : DND Int) (G H : NArr Int) (res : MatRes), Rep 2 a G ∧ Rep 2 b H ∧ G.ndim = 2 ∧ H.ndim = 2 ∧ G.dim 1 = H.dim 0 ∧
    a.split = none ∧ b.split = some 0 ∧ matmulHeat 2 a b = .ok res ∧ (res.loc 0).map NArr.flat = some [9] ∧ (res.loc 1).map NArr.flat = some [] ∧ (product G H).flat = [10] := by
  refine ⟨⟨[1, 4], none, fun _ => mat 1 4 fun _ j => j + 1, none⟩, splitBy (mat 4 1 fun _ _ => 1) 0 fun r => if r = 0 then 3 else 1, mat 1 4 fun _ j => j + 1, mat 4 1 fun _ _ => 1, _,
    rep_whole (mat_local 1 4 _) rfl 2, rep_splitBy (mat_local _ _ _) rfl 0 (by omega) _ 2 (by decide), rfl, rfl, rfl, rfl, rfl, rfl, by decide +kernel, by decide +kernel, by decide +kernel⟩

/-- Non-vacuity of `matmul_spec` and an instance: 3×3 matrices on two ranks, rows of `a` 2 + 1, columns of `b` 2 + 1. -/
example : Rep 2 (splitBy (mat 3 3 fun i j => 3 * i + j) 0 fun r => 2 - r) (mat 3 3 fun i j => 3 * i + j) ∧
    BalancedND 2 (splitBy (mat 3 3 fun i j => 3 * i + j) 0 fun r => 2 - r) (mat 3 3 fun i j => 3 * i + j) 0 ∧
    (matmulHeat 2 (splitBy (mat 3 3 fun i j => 3 * i + j) 0 fun r => 2 - r) (splitBy (mat 3 3 fun i j => i - j) 1 fun r => 2 - r)).map
      (fun res => (res.split, (res.loc 0).map NArr.flat, (res.loc 1).map NArr.flat)) =
    .ok (some 0, some [5, 2, -1, 14, 2, -10], some [23, 2, -19]) := by
  refine ⟨rep_splitBy (mat_local _ _ _) rfl 0 (by omega) _ 2 (by decide), ?_, by decide +kernel⟩
  intro r hr
  match r, hr with
  | 0, _ => decide +kernel
  | 1, _ => decide +kernel

/-- Non-vacuity of `matmul_right_or_raises`: the rows of `a` are 1 + 2 (not canonical), `b` is replicated: the product is right; with `b` split, rank 1 raises. -/
example : Rep 2 (splitBy (mat 3 3 fun i j => 3 * i + j) 0 fun r => r + 1) (mat 3 3 fun i j => 3 * i + j) ∧
    (matmulHeat 2 (splitBy (mat 3 3 fun i j => 3 * i + j) 0 fun r => r + 1) ⟨[3, 3], none, fun _ => mat 3 3 fun i j => i - j, none⟩).map
      (fun res => (res.split, (res.loc 0).map NArr.flat, (res.loc 1).map NArr.flat)) =
    .ok (some 0, some [5, 2, -1], some [14, 2, -10, 23, 2, -19]) ∧
    (matmulHeat 2 (splitBy (mat 3 3 fun i j => 3 * i + j) 0 fun r => r + 1) (splitBy (mat 3 3 fun i j => i - j) 1 fun r => 2 - r)).map
      (fun res => ((res.loc 0).map NArr.flat, (res.loc 1).map NArr.flat)) = .ok (some [5, 2, -1, 5, 2, -1], none) :=
  ⟨rep_splitBy (mat_local _ _ _) rfl 0 (by omega) _ 2 (by decide), by decide +kernel, by decide +kernel⟩

/-! ## allow_resplit -/

theorem addRows_exact (C X : NArr Int) (lo hi : Nat) (h0 : X.dim 0 = hi - lo) (h1 : X.dim 1 = C.dim 1) :
    ∃ C', addRows C lo hi X = some C' ∧ C'.ndim = C.ndim ∧ C'.dim = C.dim ∧
      ∀ idx, C'.get idx = if lo ≤ idx 0 ∧ idx 0 < hi then C.get idx + X.get (ix (idx 0 - lo) (idx 1)) else C.get idx := by
  refine ⟨⟨C.ndim, C.dim, addedRow C X lo hi⟩, by unfold addRows; rw [if_pos ⟨Or.inl h0, Or.inl h1⟩], rfl, rfl, fun idx => ?_⟩
  show addedRow C X lo hi idx = _
  unfold addedRow
  rw [if_pos h0, if_pos h1]

/-- **C72.**  `matmul(a, b, allow_resplit=True)` of two replicated matrices: every process holds the whole product, and `a` is distributed along axis 0 afterwards. -/
theorem matmul_allow_spec (hP : 0 < P) (ha : Rep P a G) (hb : Rep P b H) (hG : G.ndim = 2) (hH : H.ndim = 2) (hk : G.dim 1 = H.dim 0) (sa : a.split = none) (sb : b.split = none) :
    ∃ res a', matmulAllow P a b = .ok (res, a') ∧ res.split = none ∧ Returned P none res.loc (product G H) ∧ Rep P a' G ∧ a'.split = some 0 := by
  have ga := rep_gshape2 ha hG
  have gb := rep_gshape2 hb hH
  have hr := rep_resplitTo hP ha 0 (by omega)
  have hbal := balanced_resplitTo hP ha 0 (by omega) (by rw [sa]; decide)
  have hst := axisStart_even (resplitTo P a 0).loc 0 (G.dim 0) P hbal
  unfold matmulAllow
  rw [if_neg (by rw [ga.2, gb.1]; omega), ga.1, gb.2]
  refine ⟨_, _, rfl, rfl, ?_, hr.1, hr.2⟩
  have hs := sumArr_adds (P := P) hP (T := product G H)
    (part := fun r => (torchMatmul ((resplitTo P a 0).loc r) (b.loc r)).bind fun x =>
      addRows ⟨2, fun k => if k = 0 then G.dim 0 else H.dim 1, fun _ => 0⟩ (chunkRange (G.dim 0) r P).1 (chunkRange (G.dim 0) r P).2 x)
    (F := fun r idx => if (chunkRange (G.dim 0) r P).1 ≤ idx 0 ∧ idx 0 < (chunkRange (G.dim 0) r P).2 then (product G H).get idx else 0)
  obtain ⟨out, e0, e1, e2, e3, e4⟩ := hs (by
    intro r hrP
    obtain ⟨_, a1, gra⟩ := rep_get_zero hr.1 hG hr.2 hrP
    obtain ⟨_, b0, b1, grb⟩ := rep_get_none hb hH sb hrP
    have hbr := hbal r hrP
    have hsz := chunkRange_snd (G.dim 0) r P
    obtain ⟨C', f1, f2, f3, f4⟩ := addRows_exact ⟨2, fun k => if k = 0 then G.dim 0 else H.dim 1, fun _ => 0⟩ (product ((resplitTo P a 0).loc r) (b.loc r))
      (chunkRange (G.dim 0) r P).1 (chunkRange (G.dim 0) r P).2 (by show ((resplitTo P a 0).loc r).dim 0 = _; omega) b1
    refine ⟨C', by rw [torchMatmul_ok (by omega), Option.bind_some]; exact f1, f2, by rw [f3]; rfl, by rw [f3]; rfl, fun idx h0 h1 => ?_⟩
    rw [f4]
    by_cases hin : (chunkRange (G.dim 0) r P).1 ≤ idx 0 ∧ idx 0 < (chunkRange (G.dim 0) r P).2
    · rw [if_pos hin, if_pos hin]
      show (0 : Int) + sumTo _ _ = sumTo _ _
      rw [Int.zero_add, a1]
      refine sumTo_congr fun k hk' => ?_
      simp only [ix_zero, ix_one]
      have h1' : idx 1 < H.dim 1 := h1
      rw [gra _ _ (by omega) hk', grb _ _ (by omega) h1', hst r (by omega), show (chunkRange (G.dim 0) r P).1 + (idx 0 - (chunkRange (G.dim 0) r P).1) = idx 0 by omega]
    · rw [if_neg hin, if_neg hin])
  refine ⟨fun _ => out, fun _ _ => e0, rep_of_full (product_local G H) rfl _ none (fun _ _ => e1) (fun _ _ => e2) (fun _ _ => e3) fun r _ idx h0 h1 => ?_⟩
  rw [e4 idx h0 h1, sumTo_pick, chunkRange_at_P _ _ hP, if_pos (show idx 0 < G.dim 0 from h0)]

end Heat
