import Verif.Model.Matvec
import Verif.Props.Matmul
/-!
# C72-C74: matmul with vectors
-/
namespace Heat

open Spec

variable {P : Nat} {a b x : DND Int} {G H X : NArr Int}

/-! ## Vectors as matrices -/

theorem rep_get_vec {P : Nat} {x : DND Int} {X : NArr Int} (h : Rep P x X) (h1 : X.ndim = 1) (hs : x.split = some 0) {r : Nat} (hr : r < P) (idx : Nat → Nat) (hi : idx 0 < (x.loc r).dim 0) :
    (x.loc r).get idx = X.get fun _ => axisStart x.loc 0 r + idx 0 := by
  obtain ⟨hX, _, _, g3, g4⟩ := h
  simp only [hs] at g4
  obtain ⟨_, c⟩ := g4.2.2 r hr
  rw [c _ (by intro k hk; rw [g3 r hr, h1] at hk; obtain rfl : k = 0 := by omega
              exact hi)]
  refine hX _ _ fun k hk => ?_
  obtain rfl : k = 0 := by omega
  show idx 0 + _ = _
  omega

theorem rep_get_vecn {P : Nat} {x : DND Int} {X : NArr Int} (h : Rep P x X) (h1 : X.ndim = 1) (hs : x.split = none) {r : Nat} (hr : r < P) :
    (x.loc r).dim 0 = X.dim 0 ∧ ∀ idx : Nat → Nat, idx 0 < X.dim 0 → (x.loc r).get idx = X.get fun _ => idx 0 := by
  obtain ⟨hX, _, _, g3, g4⟩ := h
  simp only [hs] at g4
  obtain ⟨c0, c⟩ := g4 r hr
  have d0 := c0 0 (by omega)
  refine ⟨d0, fun idx hi => ?_⟩
  rw [c _ (by intro k hk; rw [g3 r hr, h1] at hk; obtain rfl : k = 0 := by omega
              rw [d0]; exact hi)]
  exact hX _ _ fun k hk => by obtain rfl : k = 0 := by omega
                              rfl

/-- The vector as a column. -/
def colMat (X : NArr Int) : NArr Int := ⟨2, fun k => if k = 0 then X.dim 0 else 1, fun idx => X.get fun _ => idx 0⟩

/-- The vector as a row. -/
def rowMat (X : NArr Int) : NArr Int := ⟨2, fun k => if k = 0 then 1 else X.dim 0, fun idx => X.get fun _ => idx 1⟩

theorem colMat_local (X : NArr Int) : Local (colMat X) := fun i j h => by
  show X.get _ = X.get _
  rw [h 0 (by show 0 < 2; omega)]

theorem rowMat_local (X : NArr Int) : Local (rowMat X) := fun i j h => by
  show X.get _ = X.get _
  rw [h 1 (by show 1 < 2; omega)]

theorem rep_colDND (h : Rep P x X) (h1 : X.ndim = 1) : Rep P (colDND x) (colMat X) := by
  obtain ⟨n, hn⟩ : ∃ n, x.gshape = [n] := by
    have := h.2.1
    rw [h1] at this
    exact List.length_eq_one_iff.1 this
  have hg : n = X.dim 0 := by have := h.2.2.1 0 (by omega); rw [hn] at this; exact this
  cases hs : x.split with
  | none =>
    have := rep_of_full (P := P) (colMat_local X) rfl (colDND x).loc x.balanced (fun _ _ => rfl) (fun r hr => (rep_get_vecn h h1 hs hr).1) (fun _ _ => rfl)
      (fun r hr idx h0 _ => (rep_get_vecn h h1 hs hr).2 (fun _ => idx 0) h0)
    unfold colDND
    rw [hs, hn, hg]
    exact this
  | some s =>
    obtain rfl : s = 0 := by have := h.2.2.2.2; simp only [hs] at this; omega
    have hst : ∀ r, axisStart (colDND x).loc 0 r = axisStart x.loc 0 r := fun _ => rfl
    have := rep_of_blocks (P := P) (colMat_local X) rfl 0 (by omega) (colDND x).loc x.balanced (fun _ _ => rfl) (show axisStart x.loc 0 P = X.dim 0 from rep_total h hs) (fun _ _ => rfl)
      (fun r hr idx h0 _ => by
        have := rep_get_vec h h1 hs hr (fun _ => idx 0) h0
        rw [hst]
        show (x.loc r).get (fun _ => idx 0) = X.get fun _ => idx 0 + _
        rw [this, Nat.add_comm])
    unfold colDND
    rw [hs, hn, hg]
    exact this

theorem rep_rowDND (h : Rep P x X) (h1 : X.ndim = 1) : Rep P (rowDND x) (rowMat X) := by
  obtain ⟨n, hn⟩ : ∃ n, x.gshape = [n] := by
    have := h.2.1
    rw [h1] at this
    exact List.length_eq_one_iff.1 this
  have hg : n = X.dim 0 := by have := h.2.2.1 0 (by omega); rw [hn] at this; exact this
  cases hs : x.split with
  | none =>
    have := rep_of_full (P := P) (rowMat_local X) rfl (rowDND x).loc x.balanced (fun _ _ => rfl) (fun _ _ => rfl) (fun r hr => (rep_get_vecn h h1 hs hr).1)
      (fun r hr idx _ h0 => (rep_get_vecn h h1 hs hr).2 (fun _ => idx 1) h0)
    unfold rowDND
    rw [hs, hn, hg]
    exact this
  | some s =>
    obtain rfl : s = 0 := by have := h.2.2.2.2; simp only [hs] at this; omega
    have hst : ∀ r, axisStart (rowDND x).loc 1 r = axisStart x.loc 0 r := fun _ => rfl
    have := rep_of_blocks (P := P) (rowMat_local X) rfl 1 (by omega) (rowDND x).loc x.balanced (fun _ _ => rfl) (show axisStart x.loc 0 P = X.dim 0 from rep_total h hs) (fun _ _ => rfl)
      (fun r hr idx _ h0 => by
        have := rep_get_vec h h1 hs hr (fun _ => idx 1) h0
        rw [hst]
        show (x.loc r).get (fun _ => idx 1) = X.get fun _ => idx 1 + _
        rw [this, Nat.add_comm])
    unfold rowDND
    rw [hs, hn, hg]
    exact this

/-! ## Squeezing -/

theorem rep_vec_split {T : NArr Int} (hT : Local T) (h1 : T.ndim = 1) (loc : Nat → NArr Int) (hn : ∀ r < P, (loc r).ndim = 1) (htot : axisStart loc 0 P = T.dim 0)
    (hget : ∀ r < P, ∀ idx : Nat → Nat, idx 0 < (loc r).dim 0 → (loc r).get idx = T.get fun _ => axisStart loc 0 r + idx 0) : Rep P ⟨[T.dim 0], some 0, loc, none⟩ T := by
  refine ⟨hT, by rw [h1]; rfl, ?_, fun r hr => by rw [h1]; exact hn r hr, by omega, htot, fun r hr => ⟨?_, ?_⟩⟩
  · intro k hk
    obtain rfl : k = 0 := by omega
    rfl
  · intro k hk hk'; omega
  · intro idx hi
    rw [hget r hr idx (hi 0 (by rw [hn r hr]; omega))]
    refine hT _ _ fun k hk => ?_
    obtain rfl : k = 0 := by omega
    exact Nat.add_comm _ _

theorem squeeze_col {c : NArr Int} (hc : c.dim 1 = 1) : (squeezeLoc c).ndim = 1 ∧ (squeezeLoc c).dim 0 = c.dim 0 ∧
    ∀ idx : Nat → Nat, idx 0 < c.dim 0 → (squeezeLoc c).get idx = c.get (ix (idx 0) 0) := by
  unfold squeezeLoc
  rw [hc, Nat.mul_one]
  by_cases h0 : c.dim 0 = 0
  · rw [if_pos h0]; exact ⟨rfl, h0.symm, fun idx h => by omega⟩
  · rw [if_neg h0]
    by_cases h1 : c.dim 0 = 1
    · rw [if_pos h1]
      refine ⟨rfl, by rw [h1], fun idx h => ?_⟩
      rw [h1] at h
      show c.get (ix 0 (idx 0)) = _
      rw [show idx 0 = 0 by omega]
    · rw [if_neg h1]; exact ⟨rfl, rfl, fun _ _ => rfl⟩

theorem squeeze_row {c : NArr Int} (hc : c.dim 0 = 1) : (squeezeLoc c).ndim = 1 ∧ (squeezeLoc c).dim 0 = c.dim 1 ∧
    ∀ idx : Nat → Nat, idx 0 < c.dim 1 → (squeezeLoc c).get idx = c.get (ix 0 (idx 0)) := by
  unfold squeezeLoc
  rw [hc, Nat.one_mul]
  by_cases h0 : c.dim 1 = 0
  · rw [if_pos h0]; exact ⟨rfl, h0.symm, fun idx h => by omega⟩
  · rw [if_neg h0, if_pos rfl]; exact ⟨rfl, rfl, fun _ _ => rfl⟩

theorem matVec_product (G X : NArr Int) (idx : Nat → Nat) (j : Nat) : (matVec G X).get idx = (product G (colMat X)).get (ix (idx 0) j) := rfl

theorem vecMat_product (X H : NArr Int) (idx : Nat → Nat) (i : Nat) : (vecMat X H).get idx = (product (rowMat X) H).get (ix i (idx 0)) := rfl

theorem matVec_local (G X : NArr Int) : Local (matVec G X) := fun i j h => by
  show sumTo _ _ = sumTo _ _
  rw [h 0 (by show 0 < 1; omega)]

theorem vecMat_local (X H : NArr Int) : Local (vecMat X H) := fun i j h => by
  show sumTo _ _ = sumTo _ _
  rw [h 0 (by show 0 < 1; omega)]

/-- Row blocks of a product with one column. -/
theorem returned_col0 {loc : Nat → Option (NArr Int)} (h : Returned P (some 0) loc (product G (colMat X))) : ReturnedVec P (some 0) (fun r => (loc r).map squeezeLoc) (matVec G X) := by
  obtain ⟨l, hl, hrep⟩ := h
  have hb : ∀ r < P, (l r).dim 1 = 1 := fun r hr => (rep_get_zero hrep rfl rfl hr).2.1
  have hst : ∀ r ≤ P, axisStart (fun r => squeezeLoc (l r)) 0 r = axisStart l 0 r := by
    intro r hr
    unfold axisStart
    congr 1
    refine List.map_congr_left fun q hq => ?_
    exact (squeeze_col (hb q (by have := List.mem_range.1 hq; omega))).2.1
  refine ⟨fun r => squeezeLoc (l r), fun r hr => by show (loc r).map squeezeLoc = _; rw [hl r hr]; rfl,
    rep_vec_split (matVec_local G X) rfl _ (fun r hr => (squeeze_col (hb r hr)).1) (by rw [hst P (Nat.le_refl _)]; exact rep_total hrep rfl) ?_⟩
  intro r hr idx hi
  rw [(squeeze_col (hb r hr)).2.1] at hi
  rw [(squeeze_col (hb r hr)).2.2 idx hi, hst r (by omega), matVec_product G X _ 0]
  exact (rep_get_zero hrep rfl rfl hr).2.2 _ _ hi (by show 0 < 1; omega)

/-- Column blocks of a product with one column: one rank has everything. -/
theorem returned_col1 {loc : Nat → Option (NArr Int)} (h : Returned P (some 1) loc (product G (colMat X))) : ReturnedVec P (some 0) (fun r => (loc r).map squeezeLoc) (matVec G X) := by
  obtain ⟨l, hl, hrep⟩ := h
  have htot : axisStart l 1 P = 1 := rep_total hrep rfl
  have hrows : ∀ r < P, (l r).dim 0 = G.dim 0 := fun r hr => (rep_get_one hrep rfl rfl hr).2.1
  have hw : ∀ r < P, (l r).dim 1 = 0 ∨ ((l r).dim 1 = 1 ∧ axisStart l 1 r = 0) := by
    intro r hr
    have h1 := axisStart_succ l 1 r
    have h2 := axisStart_mono l 1 (show r + 1 ≤ P by omega)
    omega
  have hsq : ∀ r < P, (squeezeLoc (l r)).ndim = 1 ∧ (squeezeLoc (l r)).dim 0 = G.dim 0 * (l r).dim 1 := by
    intro r hr
    rcases hw r hr with e | ⟨e, _⟩
    · unfold squeezeLoc
      rw [e, Nat.mul_zero, if_pos rfl]
      exact ⟨rfl, rfl⟩
    · have := squeeze_col e
      exact ⟨this.1, by rw [this.2.1, hrows r hr, e, Nat.mul_one]⟩
  have hst : ∀ r ≤ P, axisStart (fun r => squeezeLoc (l r)) 0 r = G.dim 0 * axisStart l 1 r := by
    intro r hr
    induction r with
    | zero => rfl
    | succ r ih => rw [axisStart_succ, ih (by omega), (hsq r (by omega)).2, axisStart_succ, Nat.mul_add]
  refine ⟨fun r => squeezeLoc (l r), fun r hr => by show (loc r).map squeezeLoc = _; rw [hl r hr]; rfl,
    rep_vec_split (matVec_local G X) rfl _ (fun r hr => (hsq r hr).1) (by rw [hst P (Nat.le_refl _), htot, Nat.mul_one]; rfl) ?_⟩
  intro r hr idx hi
  rw [hst r (by omega)]
  rcases hw r hr with e | ⟨e, e0⟩
  · rw [(hsq r hr).2, e] at hi; omega
  · rw [(squeeze_col e).2.1] at hi
    rw [(squeeze_col e).2.2 idx hi, e0, Nat.mul_zero, Nat.zero_add, matVec_product G X _ 0]
    have := (rep_get_one hrep rfl rfl hr).2.2 (idx 0) 0 (by show idx 0 < G.dim 0; rw [← hrows r hr]; exact hi) (by show 0 < (l r).dim 1; omega)
    rw [show axisStart _ 1 r = 0 from e0] at this
    exact this

/-- Column blocks of a product with one row. -/
theorem returned_row1 {loc : Nat → Option (NArr Int)} (h : Returned P (some 1) loc (product (rowMat X) H)) : ReturnedVec P (some 0) (fun r => (loc r).map squeezeLoc) (vecMat X H) := by
  obtain ⟨l, hl, hrep⟩ := h
  have hb : ∀ r < P, (l r).dim 0 = 1 := fun r hr => (rep_get_one hrep rfl rfl hr).2.1
  have hst : ∀ r ≤ P, axisStart (fun r => squeezeLoc (l r)) 0 r = axisStart l 1 r := by
    intro r hr
    unfold axisStart
    congr 1
    refine List.map_congr_left fun q hq => ?_
    exact (squeeze_row (hb q (by have := List.mem_range.1 hq; omega))).2.1
  refine ⟨fun r => squeezeLoc (l r), fun r hr => by show (loc r).map squeezeLoc = _; rw [hl r hr]; rfl,
    rep_vec_split (vecMat_local X H) rfl _ (fun r hr => (squeeze_row (hb r hr)).1) (by rw [hst P (Nat.le_refl _)]; exact rep_total hrep rfl) ?_⟩
  intro r hr idx hi
  rw [(squeeze_row (hb r hr)).2.1] at hi
  rw [(squeeze_row (hb r hr)).2.2 idx hi, hst r (by omega), vecMat_product X H _ 0]
  exact (rep_get_one hrep rfl rfl hr).2.2 _ _ (by show 0 < 1; omega) hi

theorem returned_keepVec (hP : 0 < P) {T : NArr Int} (hT : Local T) (h1 : T.ndim = 1) {v : NArr Int} (hd : v.dim 0 = T.dim 0)
    (hv : ∀ idx : Nat → Nat, idx 0 < T.dim 0 → v.get idx = T.get fun _ => idx 0) : ReturnedVec P (some 0) (fun r => some (keepVec P r v)) T := by
  have hev : ∀ r < P, (keepVec P r v).dim 0 = evenSize (T.dim 0) P r := by
    intro r hr
    show (chunkRange (v.dim 0) r P).2 - (chunkRange (v.dim 0) r P).1 = _
    rw [chunkRange_len, hd]
  have hst := axisStart_even (fun r => keepVec P r v) 0 (T.dim 0) P hev
  refine ⟨fun r => keepVec P r v, fun _ _ => rfl, rep_vec_split hT h1 _ (fun _ _ => rfl) (by rw [hst P (Nat.le_refl _), chunkRange_at_P _ _ hP]) ?_⟩
  intro r hr idx hi
  rw [hev r hr] at hi
  have hle := chunk_le (T.dim 0) P r hP hr
  have hsz := chunkRange_snd (T.dim 0) r P
  rw [hst r (by omega)]
  show v.get (fun _ => idx 0 + (chunkRange (v.dim 0) r P).1) = _
  rw [hd, hv _ (by show idx 0 + _ < _; omega), Nat.add_comm]

theorem rep_vec_full {T : NArr Int} (hT : Local T) (h1 : T.ndim = 1) (loc : Nat → NArr Int) (hn : ∀ r < P, (loc r).ndim = 1) (hd : ∀ r < P, (loc r).dim 0 = T.dim 0)
    (hget : ∀ r < P, ∀ idx : Nat → Nat, idx 0 < T.dim 0 → (loc r).get idx = T.get idx) : Rep P ⟨[T.dim 0], none, loc, none⟩ T := by
  refine ⟨hT, by rw [h1]; rfl, ?_, fun r hr => by rw [h1]; exact hn r hr, fun r hr => ⟨?_, ?_⟩⟩
  · intro k hk
    obtain rfl : k = 0 := by omega
    rfl
  · intro k hk
    obtain rfl : k = 0 := by omega
    exact hd r hr
  · intro idx hi
    exact hget r hr idx (by rw [← hd r hr]; exact hi 0 (by rw [hn r hr]; omega))

theorem matvec_nn (ha : Rep P a G) (hx : Rep P x X) (hG : G.ndim = 2) (hX : X.ndim = 1) (hk : G.dim 1 = X.dim 0) (sa : a.split = none) (sx : x.split = none) :
    ReturnedVec P none (fun r => torchMatVec (a.loc r) (x.loc r)) (matVec G X) := by
  refine ⟨fun r => matVec (a.loc r) (x.loc r), fun r hr => ?_, rep_vec_full (matVec_local G X) rfl _ (fun _ _ => rfl) (fun r hr => (rep_get_none ha hG sa hr).2.1) ?_⟩
  · show torchMatVec (a.loc r) (x.loc r) = _
    unfold torchMatVec
    rw [if_pos (by rw [(rep_get_none ha hG sa hr).2.2.1, (rep_get_vecn hx hX sx hr).1]; exact hk)]
    rfl
  · intro r hr idx h0
    obtain ⟨_, a0, a1, ga⟩ := rep_get_none ha hG sa hr
    show sumTo _ _ = sumTo _ _
    rw [a1]
    refine sumTo_congr fun k hk' => ?_
    rw [ga _ _ h0 hk', (rep_get_vecn hx hX sx hr).2 _ (by omega)]

theorem vecmat_nn (hx : Rep P x X) (hb : Rep P b H) (hX : X.ndim = 1) (hH : H.ndim = 2) (hk : X.dim 0 = H.dim 0) (sx : x.split = none) (sb : b.split = none) :
    ReturnedVec P none (fun r => torchVecMat (x.loc r) (b.loc r)) (vecMat X H) := by
  refine ⟨fun r => vecMat (x.loc r) (b.loc r), fun r hr => ?_, rep_vec_full (vecMat_local X H) rfl _ (fun _ _ => rfl) (fun r hr => (rep_get_none hb hH sb hr).2.2.1) ?_⟩
  · show torchVecMat (x.loc r) (b.loc r) = _
    unfold torchVecMat
    rw [if_pos (by rw [(rep_get_none hb hH sb hr).2.1, (rep_get_vecn hx hX sx hr).1]; exact hk)]
    rfl
  · intro r hr idx h0
    obtain ⟨_, b0, b1, gb⟩ := rep_get_none hb hH sb hr
    show sumTo _ _ = sumTo _ _
    rw [(rep_get_vecn hx hX sx hr).1]
    refine sumTo_congr fun k hk' => ?_
    rw [gb _ _ (by omega) h0, (rep_get_vecn hx hX sx hr).2 _ (by omega)]

theorem keep_col (hP : 0 < P) {c : Option (NArr Int)}
    (hc : ∃ out, c = some out ∧ out.ndim = 2 ∧ out.dim 0 = (product G (colMat X)).dim 0 ∧ out.dim 1 = (product G (colMat X)).dim 1 ∧
      ∀ idx, idx 0 < (product G (colMat X)).dim 0 → idx 1 < (product G (colMat X)).dim 1 → out.get idx = (product G (colMat X)).get idx) :
    ReturnedVec P (some 0) (fun r => c.map fun c => keepVec P r (squeezeLoc c)) (matVec G X) := by
  obtain ⟨out, rfl, e1, e2, e3, e4⟩ := hc
  have h1 : out.dim 1 = 1 := e3
  have hs := squeeze_col h1
  refine returned_keepVec hP (matVec_local G X) rfl (hs.2.1.trans e2) fun idx hi => ?_
  rw [hs.2.2 idx (by rw [e2]; exact hi), e4 (ix (idx 0) 0) hi (by show 0 < 1; omega)]
  rfl

theorem keep_row (hP : 0 < P) {c : Option (NArr Int)}
    (hc : ∃ out, c = some out ∧ out.ndim = 2 ∧ out.dim 0 = (product (rowMat X) H).dim 0 ∧ out.dim 1 = (product (rowMat X) H).dim 1 ∧
      ∀ idx, idx 0 < (product (rowMat X) H).dim 0 → idx 1 < (product (rowMat X) H).dim 1 → out.get idx = (product (rowMat X) H).get idx) :
    ReturnedVec P (some 0) (fun r => c.map fun c => keepVec P r (squeezeLoc c)) (vecMat X H) := by
  obtain ⟨out, rfl, e1, e2, e3, e4⟩ := hc
  have h1 : out.dim 0 = 1 := e2
  have hs := squeeze_row h1
  refine returned_keepVec hP (vecMat_local X H) rfl (hs.2.1.trans e3) fun idx hi => ?_
  rw [hs.2.2 idx (by rw [e3]; exact hi), e4 (ix 0 (idx 0)) (by show 0 < 1; omega) hi]
  rfl

theorem split_vec {P : Nat} {x : DND Int} {X : NArr Int} (hx : Rep P x X) (hX : X.ndim = 1) : x.split = none ∨ x.split = some 0 := by
  cases hs : x.split with
  | none => exact Or.inl rfl
  | some s => have := hx.2.2.2.2; simp only [hs] at this; right; congr 1; omega

theorem split_mat {P : Nat} {x : DND Int} {X : NArr Int} (hx : Rep P x X) (hX : X.ndim = 2) : x.split = none ∨ x.split = some 0 ∨ x.split = some 1 := by
  cases hs : x.split with
  | none => exact Or.inl rfl
  | some s =>
    have := hx.2.2.2.2; simp only [hs] at this; right
    have : s = 0 ∨ s = 1 := by omega
    rcases this with rfl | rfl
    · exact Or.inl rfl
    · exact Or.inr rfl

/-! ## C72: the products -/

/-- **C72.**  A matrix times a vector, balanced operands: every process returns and together they hold `G v`, replicated if no operand is split and split along axis 0 otherwise. -/
theorem matvec_spec (hP : 0 < P) (ha : Rep P a G) (hx : Rep P x X) (hG : G.ndim = 2) (hX : X.ndim = 1) (hk : G.dim 1 = X.dim 0)
    (ba : ∀ s, a.split = some s → BalancedND P a G s) (bx : x.split = some 0 → BalancedND P x X 0) :
    ∃ res, matVecHeat P a x = .ok res ∧ res.split = (a.split.or x.split).map (fun _ => 0) ∧ ReturnedVec P res.split res.loc (matVec G X) := by
  have ga := rep_gshape2 ha hG
  have gx : x.gshape.getD 0 0 = X.dim 0 := hx.2.2.1 0 (by omega)
  have hc := rep_colDND hx hX
  unfold matVecHeat
  rw [if_neg (by rw [ga.2, gx]; omega), ga.1]
  rcases split_mat ha hG with sa | sa | sa <;> rcases split_vec hx hX with sx | sx <;> rw [sa, sx]
  · exact ⟨_, rfl, rfl, matvec_nn ha hx hG hX hk sa sx⟩
  · exact ⟨_, rfl, rfl, keep_col hP (sum_n0 hP ha hc hG rfl hk sa sx (bx sx))⟩
  · exact ⟨_, rfl, rfl, returned_col0 (matmul_0n ha hc hG rfl hk sa sx)⟩
  · exact ⟨_, rfl, rfl, returned_col0 (matmul_00 hP ha hc hG rfl hk sa sx (ba 0 sa) (bx sx))⟩
  · exact ⟨_, rfl, rfl, keep_col hP (sum_1n hP ha hc hG rfl hk sa sx (ba 1 sa))⟩
  · have hr := rep_resplitTo hP hc 1 (by show 1 < 2; omega)
    exact ⟨_, rfl, rfl, returned_col1 (matmul_11 hP ha hr.1 hG rfl hk sa hr.2 (ba 1 sa)
      (balanced_resplitTo hP hc 1 (by show 1 < 2; omega) (by show x.split ≠ _; rw [sx]; decide)))⟩

/-- **C72.**  A vector times a matrix, balanced operands. -/
theorem vecmat_spec (hP : 0 < P) (hx : Rep P x X) (hb : Rep P b H) (hX : X.ndim = 1) (hH : H.ndim = 2) (hk : X.dim 0 = H.dim 0)
    (bx : x.split = some 0 → BalancedND P x X 0) (bb : ∀ s, b.split = some s → BalancedND P b H s) :
    ∃ res, vecMatHeat P x b = .ok res ∧ res.split = (x.split.or b.split).map (fun _ => 0) ∧ ReturnedVec P res.split res.loc (vecMat X H) := by
  have gb := rep_gshape2 hb hH
  have gx : x.gshape.getD 0 0 = X.dim 0 := hx.2.2.1 0 (by omega)
  have hr := rep_rowDND hx hX
  have hrs : ∀ s, x.split = s → (rowDND x).split = s.map (· + 1) := fun s h => by rw [← h]; rfl
  unfold vecMatHeat
  rw [if_neg (by rw [gb.1, gx]; omega), gb.2]
  rcases split_vec hx hX with sx | sx <;> rcases split_mat hb hH with sb | sb | sb <;> rw [sx, sb]
  · exact ⟨_, rfl, rfl, vecmat_nn hx hb hX hH hk sx sb⟩
  · exact ⟨_, rfl, rfl, keep_row hP (sum_n0 hP hr hb rfl hH hk (hrs _ sx) sb (bb 0 sb))⟩
  · exact ⟨_, rfl, rfl, returned_row1 (matmul_n1 hr hb rfl hH hk (hrs _ sx) sb)⟩
  · exact ⟨_, rfl, rfl, keep_row hP (sum_1n hP hr hb rfl hH hk (hrs _ sx) sb (bx sx))⟩
  · have hr' := rep_resplitTo hP hb 1 (by omega)
    exact ⟨_, rfl, rfl, returned_row1 (matmul_11 hP hr hr'.1 rfl hH hk (hrs _ sx) hr'.2 (bx sx) (balanced_resplitTo hP hb 1 (by omega) (by rw [sb]; decide)))⟩
  · exact ⟨_, rfl, rfl, returned_row1 (matmul_11 hP hr hb rfl hH hk (hrs _ sx) sb (bx sx) (bb 1 sb))⟩

/-! ## C73: any distribution -/

/-- **C73.**  A matrix times a vector of any distributions, unless exactly one of them is split and that is along the summed axis: if every process returns, they hold `G v`. -/
theorem matvec_right_or_raises (hP : 0 < P) (ha : Rep P a G) (hx : Rep P x X) (hG : G.ndim = 2) (hX : X.ndim = 1) (hk : G.dim 1 = X.dim 0)
    (h1 : ¬ (a.split = some 1 ∧ x.split = none)) (h2 : ¬ (a.split = none ∧ x.split = some 0)) {res : MatRes} (hres : matVecHeat P a x = .ok res)
    (hret : ∀ r < P, (res.loc r).isSome = true) : ReturnedVec P res.split res.loc (matVec G X) := by
  have ga := rep_gshape2 ha hG
  have gx : x.gshape.getD 0 0 = X.dim 0 := hx.2.2.1 0 (by omega)
  have hc := rep_colDND hx hX
  unfold matVecHeat at hres
  rw [if_neg (by rw [ga.2, gx]; omega), ga.1] at hres
  rcases split_mat ha hG with sa | sa | sa <;> rcases split_vec hx hX with sx | sx
  · rw [sa, sx] at hres
    obtain rfl := Except.ok.inj hres
    exact matvec_nn ha hx hG hX hk sa sx
  · exact absurd ⟨sa, sx⟩ h2
  · rw [sa, sx] at hres
    obtain rfl := Except.ok.inj hres
    exact returned_col0 (matmul_0n ha hc hG rfl hk sa sx)
  · rw [sa, sx] at hres
    obtain rfl := Except.ok.inj hres
    obtain ⟨y, z⟩ := balanced_of_00 hP ha hc hG rfl hk sa sx fun r hr => by
      have := hret r hr
      simp only [Option.isSome_map] at this
      exact this
    exact returned_col0 (matmul_00 hP ha hc hG rfl hk sa sx y z)
  · exact absurd ⟨sa, sx⟩ h1
  · rw [sa, sx] at hres
    obtain rfl := Except.ok.inj hres
    have hr := rep_resplitTo hP hc 1 (by show 1 < 2; omega)
    obtain ⟨y, z⟩ := balanced_of_11 hP ha hr.1 hG rfl hk sa hr.2 fun r hr => by
      have := hret r hr
      simp only [Option.isSome_map] at this
      exact this
    exact returned_col1 (matmul_11 hP ha hr.1 hG rfl hk sa hr.2 y z)

/-- **C73.**  A vector times a matrix of any distributions, unless exactly one of them is split and that is along the summed axis. -/
theorem vecmat_right_or_raises (hP : 0 < P) (hx : Rep P x X) (hb : Rep P b H) (hX : X.ndim = 1) (hH : H.ndim = 2) (hk : X.dim 0 = H.dim 0)
    (h1 : ¬ (x.split = some 0 ∧ b.split = none)) (h2 : ¬ (x.split = none ∧ b.split = some 0)) {res : MatRes} (hres : vecMatHeat P x b = .ok res)
    (hret : ∀ r < P, (res.loc r).isSome = true) : ReturnedVec P res.split res.loc (vecMat X H) := by
  have gb := rep_gshape2 hb hH
  have gx : x.gshape.getD 0 0 = X.dim 0 := hx.2.2.1 0 (by omega)
  have hr := rep_rowDND hx hX
  have hrs : ∀ s, x.split = s → (rowDND x).split = s.map (· + 1) := fun s h => by rw [← h]; rfl
  unfold vecMatHeat at hres
  rw [if_neg (by rw [gb.1, gx]; omega), gb.2] at hres
  rcases split_vec hx hX with sx | sx <;> rcases split_mat hb hH with sb | sb | sb
  · rw [sx, sb] at hres
    obtain rfl := Except.ok.inj hres
    exact vecmat_nn hx hb hX hH hk sx sb
  · exact absurd ⟨sx, sb⟩ h2
  · rw [sx, sb] at hres
    obtain rfl := Except.ok.inj hres
    exact returned_row1 (matmul_n1 hr hb rfl hH hk (hrs _ sx) sb)
  · exact absurd ⟨sx, sb⟩ h1
  · rw [sx, sb] at hres
    obtain rfl := Except.ok.inj hres
    have hr' := rep_resplitTo hP hb 1 (by omega)
    obtain ⟨y, z⟩ := balanced_of_11 hP hr hr'.1 rfl hH hk (hrs _ sx) hr'.2 fun r hr => by
      have := hret r hr
      simp only [Option.isSome_map] at this
      exact this
    exact returned_row1 (matmul_11 hP hr hr'.1 rfl hH hk (hrs _ sx) hr'.2 y z)
  · rw [sx, sb] at hres
    obtain rfl := Except.ok.inj hres
    obtain ⟨y, z⟩ := balanced_of_11 hP hr hb rfl hH hk (hrs _ sx) sb fun r hr => by
      have := hret r hr
      simp only [Option.isSome_map] at this
      exact this
    exact returned_row1 (matmul_11 hP hr hb rfl hH hk (hrs _ sx) sb y z)

/-! ## C74: two vectors -/

theorem resplitVec_content (hP : 0 < P) (v : CatArr Int) : content P (fun r => resplitVec P r v) = v.glob P := by
  cases v with
  | along d => rfl
  | rep l =>
    show content P (fun r => (l.take (chunkRange l.length r P).2).drop (chunkRange l.length r P).1) = l
    have hpre : ∀ k ≤ P, content k (fun r => (l.take (chunkRange l.length r P).2).drop (chunkRange l.length r P).1) = l.take (chunkRange l.length k P).1 := by
      intro k hk
      induction k with
      | zero => rw [chunkRange_zero]; rfl
      | succ k ih =>
        rw [content_succ, ih (by omega), chunkRange_succ]
        have hle := chunk_le l.length P k hP (by omega)
        have := List.take_append_drop (chunkRange l.length k P).1 (l.take (chunkRange l.length k P).2)
        rw [List.take_take, Nat.min_eq_left hle.1] at this
        exact this
    rw [hpre P (Nat.le_refl _), chunkRange_at_P _ _ hP, List.take_length]

theorem inner_content (u v : Nat → List Int) : ∀ P, (∀ r < P, (u r).length = (v r).length) → (content P u).length = (content P v).length ∧
    sumTo P (fun r => inner (u r) (v r)) = inner (content P u) (content P v)
  | 0, _ => ⟨rfl, rfl⟩
  | P + 1, h => by
    obtain ⟨h1, h2⟩ := inner_content u v P fun r hr => h r (by omega)
    rw [content_succ, content_succ, sumTo_succ, h2, inner_append h1]
    exact ⟨by rw [List.length_append, List.length_append, h1, h P (by omega)], rfl⟩

/-- **C74.**  The product of two vectors, replicated or split in any way: if every process returns, the vectors have the same length and the result is their inner product. -/
theorem vecvec_right_or_raises (hP : 0 < P) (u v : CatArr Int) (c : Int) (h : (vecVecHeat P u v).1 = some c) :
    (u.glob P).length = (v.glob P).length ∧ c = inner (u.glob P) (v.glob P) := by
  unfold vecVecHeat at h
  simp only at h
  split at h
  · rename_i hall
    have hl : ∀ r < P, (resplitVec P r u).length = (resplitVec P r v).length := by
      intro r hr
      have := List.all_eq_true.1 hall r (List.mem_range.2 hr)
      simpa using this
    obtain ⟨h1, h2⟩ := inner_content (fun r => resplitVec P r u) (fun r => resplitVec P r v) P hl
    rw [resplitVec_content hP, resplitVec_content hP] at h1 h2
    exact ⟨h1, by rw [← Option.some.inj h]; exact h2⟩
  · exact absurd h (by simp)

/-- **C74.**  Vectors of the same length, replicated or in the canonical distribution: every process returns the inner product. -/
theorem vecvec_spec (hP : 0 < P) (u v : CatArr Int) (hu : u.Canonical P) (hv : v.Canonical P) (hl : (u.glob P).length = (v.glob P).length) :
    (vecVecHeat P u v).1 = some (inner (u.glob P) (v.glob P)) := by
  have hlen : ∀ w : CatArr Int, w.Canonical P → ∀ r < P, (resplitVec P r w).length = evenSize (w.glob P).length P r := by
    intro w hw r hr
    cases w with
    | along d => exact hw r hr
    | rep l =>
      show ((l.take (chunkRange l.length r P).2).drop (chunkRange l.length r P).1).length = evenSize l.length P r
      have hle := chunk_le l.length P r hP hr
      rw [List.length_drop, List.length_take, Nat.min_eq_left hle.2, chunkRange_len]
  have hall : ((List.range P).all fun r => (resplitVec P r u).length == (resplitVec P r v).length) = true := by
    rw [List.all_eq_true]
    intro r hr
    have hr := List.mem_range.1 hr
    rw [hlen u hu r hr, hlen v hv r hr, hl]
    simp
  have hs : (vecVecHeat P u v).1 = some (sumTo P fun r => inner (resplitVec P r u) (resplitVec P r v)) := by
    unfold vecVecHeat
    simp only
    rw [if_pos hall]
  rw [hs, (vecvec_right_or_raises hP u v _ hs).2]

/-- C74 fails: different lengths are noticed by some of the processes only. Lengths 3 and 4 on two ranks: rank 0 has two elements of each and waits for rank 1, which raises. -/
theorem vecvec_lengths_violated : (vecVecHeat 2 (.rep [1, 2, 3]) (.rep [1, 2, 3, 4])).1 = none ∧
    (resplitVec 2 0 (.rep [1, 2, 3])).length = (resplitVec 2 0 (.rep [1, 2, 3, 4])).length := ⟨by decide +kernel, by decide +kernel⟩

/-- C74 fails: replicated arguments are distributed afterwards. -/
theorem vecvec_inplace_violated : ∃ d, (vecVecHeat 2 (.rep [1, 2, 3]) (.rep [1, 2, 3])).2.1 = .along d ∧ d 0 = [1, 2] ∧ d 1 = [3] := ⟨_, rfl, by decide +kernel, by decide +kernel⟩

/-- Non-vacuity: one operand split canonically, one replicated. -/
example : (CatArr.along fun r => if r = 0 then [1, 2] else if r = 1 then [3] else ([] : List Int)).Canonical 2 ∧
    (vecVecHeat 2 (.along fun r => if r = 0 then [1, 2] else if r = 1 then [3] else []) (.rep [10, 20, 30])).1 = some 140 := by
  refine ⟨?_, by decide +kernel⟩
  intro r hr
  match r, hr with
  | 0, _ => simp [content_succ, content_zero, evenSize]
  | 1, _ => simp [content_succ, content_zero, evenSize]

/-- A vector distributed with the given sizes. -/
def vecBy (n : Nat) (f : Nat → Int) (sizes : Nat → Nat) : DND Int :=
  ⟨[n], some 0, fun r => ⟨1, fun _ => sizes r, fun idx => f (((List.range r).map sizes).sum + idx 0)⟩, none⟩

theorem rep_vecBy (n : Nat) (f : Nat → Int) (sizes : Nat → Nat) (P : Nat) (htot : ((List.range P).map sizes).sum = n) : Rep P (vecBy n f sizes) ⟨1, fun _ => n, fun idx => f (idx 0)⟩ :=
  rep_vec_split (P := P) (T := ⟨1, fun _ => n, fun idx => f (idx 0)⟩) (fun i j h => by show f _ = f _; rw [h 0 (by show 0 < 1; omega)]) rfl (vecBy n f sizes).loc (fun _ _ => rfl) htot fun _ _ _ _ => rfl

/-- Non-vacuity of `matvec_spec` and instances: a 3×3 matrix split along the columns (2 + 1) times a vector split 2 + 1: rank 0 obtains the whole result. -/
example : Rep 2 (vecBy 3 (fun i => i + 1) fun r => 2 - r) ⟨1, fun _ => 3, fun idx => (idx 0 : Int) + 1⟩ ∧
    BalancedND 2 (vecBy 3 (fun i => i + 1) fun r => 2 - r) ⟨1, fun _ => 3, fun idx => (idx 0 : Int) + 1⟩ 0 ∧
    (matVecHeat 2 (splitBy (mat 3 3 fun i j => 3 * i + j) 1 fun r => 2 - r) (vecBy 3 (fun i => i + 1) fun r => 2 - r)).map
      (fun res => (res.split, (res.loc 0).map NArr.flat, (res.loc 1).map NArr.flat)) = .ok (some 0, some [8, 26, 44], some []) ∧
    (vecMatHeat 2 (vecBy 3 (fun i => i + 1) fun r => 2 - r) (splitBy (mat 3 3 fun i j => 3 * i + j) 0 fun r => 2 - r)).map
      (fun res => (res.split, (res.loc 0).map NArr.flat, (res.loc 1).map NArr.flat)) = .ok (some 0, some [24, 30], some [36]) := by
  refine ⟨rep_vecBy _ _ _ 2 (by decide), ?_, by decide +kernel, by decide +kernel⟩
  intro r hr
  match r, hr with
  | 0, _ => decide +kernel
  | 1, _ => decide +kernel

end Heat
