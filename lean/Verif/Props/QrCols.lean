import Verif.Model.QrCols
import Verif.Props.Qr
import Mathlib.LinearAlgebra.Matrix.NonsingularInverse
/-!
# Block-wise Gram-Schmidt (C123)
-/
namespace Heat
open Spec Finset
variable {K : Type} [CommRing K]

theorem colOff_succ (c : Nat → Nat) (r : Nat) : colOff c (r + 1) = colOff c r + c r := by
  unfold colOff
  rw [List.range_succ, List.map_append, List.sum_append]
  simp

theorem colOff_mono (c : Nat → Nat) {r s : Nat} (h : r ≤ s) : colOff c r ≤ colOff c s := by
  induction s with
  | zero => rw [Nat.le_zero.1 h]
  | succ s ih =>
    rcases Nat.lt_or_ge r (s + 1) with h1 | h1
    · rw [colOff_succ]
      have := ih (by omega)
      omega
    · rw [show r = s + 1 by omega]

/-- A triangular matrix without zero on the diagonal can be cancelled. -/
theorem tri_cancel [NoZeroDivisors K] (c : Nat) (X : Nat → K) (R : Nat → Nat → K) (htri : ∀ t < c, ∀ j < c, j < t → R t j = 0) (hd : ∀ j < c, R j j ≠ 0)
    (h : ∀ j < c, ∑ t ∈ range c, X t * R t j = 0) : ∀ j < c, X j = 0 := by
  intro j
  induction j using Nat.strong_induction_on with
  | _ j ih =>
    intro hj
    have e := h j hj
    rw [sum_eq_single j] at e
    · rcases mul_eq_zero.1 e with e | e
      · exact e
      · exact absurd e (hd j hj)
    · intro t ht hne
      rw [mem_range] at ht
      rcases Nat.lt_or_gt_of_ne hne with h1 | h1
      · rw [ih t h1 ht, zero_mul]
      · rw [htri t ht j hj h1, mul_zero]
    · intro hn
      exact absurd (mem_range.2 hj) hn

variable [StarRing K]

theorem hmul_at {M : Nat} {Q A : DMat K} {t : Nat} (ht : t < Q.width) (j : Nat) : (Q.hmul M A).at t j = ∑ x ∈ range M, star (Q.at x t) * A.at x j := by
  unfold DMat.hmul
  rw [DMat.at_lt _ (by simpa using ht)]
  simp

theorem subMul_at {A Q R : DMat K} {x : Nat} (hx : x < A.rows.length) (j : Nat) : (A.subMul Q R).at x j = A.at x j - ∑ t ∈ range Q.width, Q.at x t * R.at t j := by
  unfold DMat.subMul
  rw [DMat.at_lt _ (by simpa using hx)]
  simp

omit [StarRing K] in
theorem gsStore_old {c : Nat → Nat} {k i row : Nat} (h : row < colOff c i) (Rloc : DMat K) (R : Nat → Nat → K) (j : Nat) : gsStore c k i Rloc R row j = R row j := by
  unfold gsStore
  rw [if_neg (by omega)]

omit [StarRing K] in
theorem gsStore_above {c : Nat → Nat} {k i row : Nat} (h : colOff c (i + 1) ≤ row) (Rloc : DMat K) (R : Nat → Nat → K) (j : Nat) : gsStore c k i Rloc R row j = R row j := by
  unfold gsStore
  rw [if_neg (by omega)]

omit [StarRing K] in
theorem gsStore_new {c : Nat → Nat} {k i t : Nat} (ht : t < c i) (hk : colOff c i + t < k) (Rloc : DMat K) (R : Nat → Nat → K) (j : Nat) : gsStore c k i Rloc R (colOff c i + t) j = Rloc.at t j := by
  unfold gsStore
  rw [if_pos (by rw [colOff_succ]; omega), Nat.add_sub_cancel_left]

/-- The state before block `i`. -/
structure GsInv (M P : Nat) (c : Nat → Nat) (A : Nat → DMat K) (i : Nat) (st : GsState K) : Prop where
  aw : ∀ r < P, (st.A r).width = c r ∧ (st.A r).rows.length = M
  qs : ∀ q < i, (st.Q q).width = c q ∧ (st.Q q).rows.length = M
  arem : ∀ r < P, i ≤ r → ∀ x < M, ∀ j < c r, (st.A r).at x j = (A r).at x j - ∑ q ∈ range i, ∑ t ∈ range (c q), (st.Q q).at x t * st.R r (colOff c q + t) j
  done : ∀ r < i, ∀ x < M, ∀ j < c r, ∑ q ∈ range i, ∑ t ∈ range (c q), (st.Q q).at x t * st.R r (colOff c q + t) j = (A r).at x j
  zero : ∀ r < P, ∀ row, colOff c i ≤ row → ∀ j, st.R r row j = 0
  tri : ∀ r < i, ∀ j < c r, ∀ row, colOff c r + j < row → st.R r row j = 0
  orth : (∀ q < i, ∀ j < c q, st.R q (colOff c q + j) j ≠ 0) →
    (∀ q < i, ∀ q' < i, ∀ a < c q, ∀ b < c q', ∑ x ∈ range M, star ((st.Q q).at x a) * (st.Q q').at x b = if q = q' ∧ a = b then 1 else 0) ∧
    (∀ q < i, ∀ r < P, i ≤ r → ∀ a < c q, ∀ j < c r, ∑ x ∈ range M, star ((st.Q q).at x a) * (st.A r).at x j = 0)

theorem gsStep_inv [NoZeroDivisors K] (qr : DMat K → DMat K × DMat K) {M P : Nat} {c : Nat → Nat} (A : Nat → DMat K) (hq : ∀ n, ∀ B : DMat K, B.width = n → QrOk n B (qr B).1 (qr B).2)
    {i k : Nat} (hi : i < P) (hoff : colOff c (i + 1) ≤ k) (hkM : k ≤ M) (st : GsState K) (inv : GsInv M P c A i st) : GsInv M P c A (i + 1) (gsStep qr M P k c st i) := by
  have hoff1 := colOff_succ c i
  have hci : c i ≤ M := by omega
  have Qok := hq (c i) (st.A i) (inv.aw i hi).1
  have hmin : min (st.A i).rows.length (c i) = c i := by rw [(inv.aw i hi).2]; omega
  have qw : (qr (st.A i)).1.width = c i := by rw [Qok.qwidth, hmin]
  have ql : (qr (st.A i)).1.rows.length = M := by rw [Qok.qrows, (inv.aw i hi).2]
  have prodI : ∀ x < M, ∀ j < c i, ∑ t ∈ range (c i), (qr (st.A i)).1.at x t * (qr (st.A i)).2.at t j = (st.A i).at x j := by
    have := Qok.prod
    rwa [hmin, (inv.aw i hi).2] at this
  have orthI : ∀ a < c i, ∀ b < c i, ∑ x ∈ range M, star ((qr (st.A i)).1.at x a) * (qr (st.A i)).1.at x b = if a = b then 1 else 0 := by
    have := Qok.orth
    rwa [hmin, (inv.aw i hi).2] at this
  have triI : ∀ t < c i, ∀ j < c i, j < t → (qr (st.A i)).2.at t j = 0 := by
    have := Qok.tri
    rwa [hmin] at this
  have hqoff : ∀ q < i, ∀ t < c q, colOff c q + t < colOff c i := by
    intro q hq t ht
    have := colOff_mono c (show q + 1 ≤ i by omega)
    rw [colOff_succ] at this
    omega
  -- old entries of `R` are kept
  have Rold : ∀ r, ∀ row < colOff c i, ∀ j, (gsStep qr M P k c st i).R r row j = st.R r row j := by
    intro r row hrow j
    unfold gsStep
    rw [if_pos hi]
    dsimp only
    split
    · exact gsStore_old hrow _ _ j
    · split
      · exact gsStore_old hrow _ _ j
      · rfl
  have Rabove : ∀ r, ∀ row, colOff c (i + 1) ≤ row → ∀ j, (gsStep qr M P k c st i).R r row j = st.R r row j := by
    intro r row hrow j
    unfold gsStep
    rw [if_pos hi]
    dsimp only
    split
    · exact gsStore_above hrow _ _ j
    · split
      · exact gsStore_above hrow _ _ j
      · rfl
  have Rsame : ∀ r < i, ∀ row j, (gsStep qr M P k c st i).R r row j = st.R r row j := by
    intro r hr row j
    unfold gsStep
    rw [if_pos hi]
    dsimp only
    rw [if_neg (by omega), if_neg (by omega)]
  have Rii : ∀ t < c i, ∀ j, (gsStep qr M P k c st i).R i (colOff c i + t) j = (qr (st.A i)).2.at t j := by
    intro t ht j
    unfold gsStep
    rw [if_pos hi]
    dsimp only
    rw [if_pos rfl, gsStore_new ht (by omega)]
  have Rri : ∀ r, i < r → ∀ t < c i, ∀ j, (gsStep qr M P k c st i).R r (colOff c i + t) j = ∑ x ∈ range M, star ((qr (st.A i)).1.at x t) * (st.A r).at x j := by
    intro r hr t ht j
    unfold gsStep
    rw [if_pos hi]
    dsimp only
    rw [if_neg (by omega), if_pos hr, gsStore_new ht (by omega), hmul_at (by rw [qw]; exact ht)]
  have Qold : ∀ q < i, (gsStep qr M P k c st i).Q q = st.Q q := by
    intro q hq
    unfold gsStep
    rw [if_pos hi]
    dsimp only
    rw [if_neg (by omega)]
  have Qi : (gsStep qr M P k c st i).Q i = (qr (st.A i)).1 := by
    unfold gsStep
    rw [if_pos hi]
    dsimp only
    rw [if_pos rfl]
  have Aw : ∀ r, ((gsStep qr M P k c st i).A r).width = (st.A r).width ∧ ((gsStep qr M P k c st i).A r).rows.length = (st.A r).rows.length := by
    intro r
    unfold gsStep
    rw [if_pos hi]
    dsimp only
    split
    · simp [DMat.subMul]
    · exact ⟨rfl, rfl⟩
  have Aat : ∀ r < P, i < r → ∀ x < M, ∀ j, ((gsStep qr M P k c st i).A r).at x j = (st.A r).at x j - ∑ t ∈ range (c i), (qr (st.A i)).1.at x t * ∑ y ∈ range M, star ((qr (st.A i)).1.at y t) * (st.A r).at y j := by
    intro r hr hir x hx j
    unfold gsStep
    rw [if_pos hi]
    dsimp only
    rw [if_pos hir, subMul_at (by rw [(inv.aw r hr).2]; exact hx), qw]
    congr 1
    apply sum_congr rfl
    intro t ht
    rw [mem_range] at ht
    rw [hmul_at (by rw [qw]; exact ht)]
  have sumOld : ∀ r x j, ∑ q ∈ range i, ∑ t ∈ range (c q), ((gsStep qr M P k c st i).Q q).at x t * (gsStep qr M P k c st i).R r (colOff c q + t) j =
      ∑ q ∈ range i, ∑ t ∈ range (c q), (st.Q q).at x t * st.R r (colOff c q + t) j := by
    intro r x j
    apply sum_congr rfl
    intro q hq
    rw [mem_range] at hq
    apply sum_congr rfl
    intro t ht
    rw [mem_range] at ht
    rw [Qold q hq, Rold r _ (hqoff q hq t ht)]
  constructor
  · intro r hr
    rw [(Aw r).1, (Aw r).2]
    exact inv.aw r hr
  · intro q hq
    rcases Nat.lt_or_ge q i with h | h
    · rw [Qold q h]
      exact inv.qs q h
    · rw [show q = i by omega, Qi]
      exact ⟨qw, ql⟩
  · intro r hr hir x hx j hj
    rw [Aat r hr (by omega) x hx j, inv.arem r hr (by omega) x hx j hj, sum_range_succ, sumOld, Qi, sub_sub]
    congr 2
    apply sum_congr rfl
    intro t ht
    rw [mem_range] at ht
    rw [Rri r (by omega) t ht]
  · intro r hr x hx j hj
    rw [sum_range_succ, sumOld]
    rcases Nat.lt_or_ge r i with h | h
    · have : ∀ t ∈ range (c i), ((gsStep qr M P k c st i).Q i).at x t * (gsStep qr M P k c st i).R r (colOff c i + t) j = 0 := by
        intro t _
        rw [Rsame r h, inv.zero r (by omega) _ (by omega), mul_zero]
      rw [sum_congr rfl this, sum_const_zero, add_zero]
      exact inv.done r h x hx j hj
    · have hri : r = i := by omega
      subst hri
      have : ∀ t ∈ range (c r), ((gsStep qr M P k c st r).Q r).at x t * (gsStep qr M P k c st r).R r (colOff c r + t) j = (qr (st.A r)).1.at x t * (qr (st.A r)).2.at t j := by
        intro t ht
        rw [mem_range] at ht
        rw [Qi, Rii t ht]
      rw [sum_congr rfl this, prodI x hx j hj, inv.arem r hi (Nat.le_refl _) x hx j hj]
      ring
  · intro r hr row hrow j
    rw [Rabove r row hrow]
    exact inv.zero r hr row (by omega) j
  · intro r hr j hj row hrow
    rcases Nat.lt_or_ge r i with h | h
    · rw [Rsame r h]
      exact inv.tri r h j hj row hrow
    · have hri : r = i := by omega
      subst hri
      rcases Nat.lt_or_ge row (colOff c (r + 1)) with h1 | h1
      · obtain ⟨t, rfl⟩ : ∃ t, row = colOff c r + t := ⟨row - colOff c r, by omega⟩
        rw [Rii t (by omega)]
        exact triI t (by omega) j hj (by omega)
      · rw [Rabove r row h1]
        exact inv.zero r hi row (by omega) j
  · intro hd
    have hd' : ∀ q < i, ∀ j < c q, st.R q (colOff c q + j) j ≠ 0 := by
      intro q hq j hj
      have := hd q (by omega) j hj
      rwa [Rsame q hq] at this
    have hdi : ∀ j < c i, (qr (st.A i)).2.at j j ≠ 0 := by
      intro j hj
      have := hd i (by omega) j hj
      rwa [Rii j hj] at this
    obtain ⟨o1, o2⟩ := inv.orth hd'
    have cross : ∀ q < i, ∀ a < c q, ∀ b < c i, ∑ x ∈ range M, star ((st.Q q).at x a) * (qr (st.A i)).1.at x b = 0 := by
      intro q hq a ha
      refine tri_cancel (c i) (fun b => ∑ x ∈ range M, star ((st.Q q).at x a) * (qr (st.A i)).1.at x b) (fun t j => (qr (st.A i)).2.at t j) triI hdi ?_
      intro j hj
      rw [← o2 q hq i hi (Nat.le_refl _) a ha j hj]
      have : ∀ x ∈ range M, star ((st.Q q).at x a) * (st.A i).at x j = ∑ t ∈ range (c i), star ((st.Q q).at x a) * ((qr (st.A i)).1.at x t * (qr (st.A i)).2.at t j) := by
        intro x hx
        rw [← prodI x (mem_range.1 hx) j hj, mul_sum]
      rw [sum_congr rfl this, sum_comm]
      apply sum_congr rfl
      intro t _
      rw [sum_mul]
      apply sum_congr rfl
      intro x _
      ring
    have cross' : ∀ q < i, ∀ a < c i, ∀ b < c q, ∑ x ∈ range M, star ((qr (st.A i)).1.at x a) * (st.Q q).at x b = 0 := by
      intro q hq a ha b hb
      have := congrArg star (cross q hq b hb a ha)
      rw [star_sum, star_zero] at this
      rw [← this]
      apply sum_congr rfl
      intro x _
      rw [star_mul', star_star]
      ring
    refine ⟨?_, ?_⟩
    · intro q hq q' hq' a ha b hb
      rcases Nat.lt_or_ge q i with h | h <;> rcases Nat.lt_or_ge q' i with h' | h'
      · rw [Qold q h, Qold q' h']
        exact o1 q h q' h' a ha b hb
      · have : q' = i := by omega
        subst this
        rw [Qold q h, Qi, cross q h a ha b hb, if_neg (by omega)]
      · have : q = i := by omega
        subst this
        rw [Qold q' h', Qi, cross' q' h' a ha b hb, if_neg (by omega)]
      · have e1 : q = i := by omega
        have e2 : q' = i := by omega
        subst e1
        subst e2
        rw [Qi, orthI a ha b hb]
        simp
    · intro q hq r hr hir a ha j hj
      have e : ∀ Qq : DMat K, ∑ x ∈ range M, star (Qq.at x a) * ((gsStep qr M P k c st i).A r).at x j =
          ∑ x ∈ range M, star (Qq.at x a) * (st.A r).at x j - ∑ t ∈ range (c i), (∑ x ∈ range M, star (Qq.at x a) * (qr (st.A i)).1.at x t) * ∑ y ∈ range M, star ((qr (st.A i)).1.at y t) * (st.A r).at y j := by
        intro Qq
        have : ∀ x ∈ range M, star (Qq.at x a) * ((gsStep qr M P k c st i).A r).at x j = star (Qq.at x a) * (st.A r).at x j - ∑ t ∈ range (c i), star (Qq.at x a) * ((qr (st.A i)).1.at x t * ∑ y ∈ range M, star ((qr (st.A i)).1.at y t) * (st.A r).at y j) := by
          intro x hx
          rw [Aat r hr (by omega) x (mem_range.1 hx) j, mul_sub, mul_sum]
        rw [sum_congr rfl this, sum_sub_distrib]
        congr 1
        rw [sum_comm]
        apply sum_congr rfl
        intro t _
        rw [sum_mul]
        apply sum_congr rfl
        intro x _
        ring
      rcases Nat.lt_or_ge q i with h | h
      · rw [Qold q h, e, o2 q h r hr (by omega) a ha j hj]
        have : ∀ t ∈ range (c i), (∑ x ∈ range M, star ((st.Q q).at x a) * (qr (st.A i)).1.at x t) * ∑ y ∈ range M, star ((qr (st.A i)).1.at y t) * (st.A r).at y j = 0 := by
          intro t ht
          rw [cross q h a ha t (mem_range.1 ht), zero_mul]
        rw [sum_congr rfl this, sum_const_zero, sub_zero]
      · have : q = i := by omega
        subst this
        rw [Qi, e]
        have : ∀ t ∈ range (c q), (∑ x ∈ range M, star ((qr (st.A q)).1.at x a) * (qr (st.A q)).1.at x t) * ∑ y ∈ range M, star ((qr (st.A q)).1.at y t) * (st.A r).at y j = if a = t then ∑ y ∈ range M, star ((qr (st.A q)).1.at y t) * (st.A r).at y j else 0 := by
          intro t ht
          rw [orthI a ha t (mem_range.1 ht)]
          split
          · rw [one_mul]
          · rw [zero_mul]
        rw [sum_congr rfl this, sum_ite_eq, if_pos (mem_range.2 ha), sub_self]

/-- **C123** (`_partial`: at most as many columns as rows; orthonormality for full column rank only): block-wise Gram-Schmidt of a matrix with split 1, for any number of processes and any sizes of the blocks: `Q R = A`, `R` is upper triangular; and if no diagonal entry of the result `R` is zero, the columns of `Q` are orthonormal over all blocks. -/
theorem gsQr_partial [NoZeroDivisors K] (qr : DMat K → DMat K × DMat K) {M P : Nat} (c : Nat → Nat) (A : Nat → DMat K) (hN : colOff c P ≤ M) (hq : ∀ n, ∀ B : DMat K, B.width = n → QrOk n B (qr B).1 (qr B).2)
    (hA : ∀ r < P, (A r).width = c r ∧ (A r).rows.length = M) :
    (∀ r < P, ((gsQr qr M P c A).Q r).width = c r ∧ ((gsQr qr M P c A).Q r).rows.length = M) ∧
    (∀ r < P, ∀ x < M, ∀ j < c r, ∑ q ∈ range P, ∑ t ∈ range (c q), ((gsQr qr M P c A).Q q).at x t * (gsQr qr M P c A).R r (colOff c q + t) j = (A r).at x j) ∧
    (∀ r < P, ∀ j < c r, ∀ row, colOff c r + j < row → (gsQr qr M P c A).R r row j = 0) ∧
    ((∀ r < P, ∀ j < c r, (gsQr qr M P c A).R r (colOff c r + j) j ≠ 0) →
      ∀ q < P, ∀ q' < P, ∀ a < c q, ∀ b < c q', ∑ x ∈ range M, star (((gsQr qr M P c A).Q q).at x a) * ((gsQr qr M P c A).Q q').at x b = if q = q' ∧ a = b then 1 else 0) := by
  have main : ∀ i ≤ P, GsInv M P c A i ((List.range i).foldl (gsStep qr M P (colOff c P) c) ⟨A, fun r => ⟨c r, List.replicate M (fun _ => 0)⟩, fun _ _ _ => 0⟩) := by
    intro i
    induction i with
    | zero =>
      intro _
      constructor
      · exact hA
      · intro q hq; omega
      · intro r _ _ x _ j _
        simp
      · intro r hr; omega
      · intro r _ row _ j; rfl
      · intro r hr; omega
      · intro _
        exact ⟨fun q hq => by omega, fun q hq => by omega⟩
    | succ i ih =>
      intro hi
      rw [List.range_succ, List.foldl_append]
      exact gsStep_inv qr A hq (by omega) (colOff_mono c hi) hN _ (ih (by omega))
  have inv := main P (Nat.le_refl _)
  have e : gsQr qr M P c A = (List.range P).foldl (gsStep qr M P (colOff c P) c) ⟨A, fun r => ⟨c r, List.replicate M (fun _ => 0)⟩, fun _ _ _ => 0⟩ := by
    unfold gsQr gsLast
    rw [if_pos hN, Nat.min_eq_right hN, List.range_succ, List.foldl_append, List.foldl_cons, List.foldl_nil]
    unfold gsStep
    rw [if_neg (by omega)]
  rw [e]
  exact ⟨inv.qs, inv.done, inv.tri, fun hd => (inv.orth hd).1⟩

/-! ## More columns than rows -/

omit [StarRing K] in
theorem sum_colOff (c : Nat → Nat) (f : Nat → K) (n : Nat) : ∑ g ∈ range (colOff c n), f g = ∑ q ∈ range n, ∑ t ∈ range (c q), f (colOff c q + t) := by
  induction n with
  | zero => simp [colOff]
  | succ n ih => rw [colOff_succ, sum_range_add, ih, sum_range_succ]

theorem colOff_inj {c : Nat → Nat} {q t q' t' : Nat} (ht : t < c q) (ht' : t' < c q') (h : colOff c q + t = colOff c q' + t') : q = q' ∧ t = t' := by
  have hq : q = q' := by
    rcases Nat.lt_trichotomy q q' with h1 | h1 | h1
    · have := colOff_mono c (show q + 1 ≤ q' by omega)
      rw [colOff_succ] at this
      omega
    · exact h1
    · have := colOff_mono c (show q' + 1 ≤ q by omega)
      rw [colOff_succ] at this
      omega
  subst hq
  exact ⟨rfl, by omega⟩

theorem colOff_owner (c : Nat → Nat) {n g : Nat} (h : g < colOff c n) : ∃ q t, q < n ∧ t < c q ∧ g = colOff c q + t := by
  induction n with
  | zero => simp [colOff] at h
  | succ n ih =>
    rcases Nat.lt_or_ge g (colOff c n) with h1 | h1
    · obtain ⟨q, t, hq, ht, e⟩ := ih h1
      exact ⟨q, t, by omega, ht, e⟩
    · rw [colOff_succ] at h
      exact ⟨n, g - colOff c n, by omega, by omega, by omega⟩

/-- A square matrix with orthonormal columns has orthonormal rows. -/
theorem orth_cols_rows (M : Nat) (u : Nat → Nat → K) (h : ∀ a < M, ∀ b < M, ∑ x ∈ range M, star (u x a) * u x b = if a = b then 1 else 0) (x : Nat) (hx : x < M) (y : Nat) (hy : y < M) :
    ∑ g ∈ range M, u x g * star (u y g) = if x = y then 1 else 0 := by
  let U : Matrix (Fin M) (Fin M) K := fun i j => u i j
  let V : Matrix (Fin M) (Fin M) K := fun i j => star (u j i)
  have e : V * U = 1 := by
    ext a b
    rw [Matrix.mul_apply, Matrix.one_apply]
    have := h a a.2 b b.2
    rw [sum_range] at this
    simp only [U, V]
    rw [this]
    simp [Fin.ext_iff]
  have e2 := mul_eq_one_comm.1 e
  have e3 := congrFun (congrFun e2 ⟨x, hx⟩) ⟨y, hy⟩
  rw [Matrix.mul_apply, Matrix.one_apply] at e3
  rw [sum_range]
  simp only [U, V] at e3
  rw [e3]
  simp [Fin.ext_iff]

theorem gsLast_wide {M P : Nat} {c : Nat → Nat} (h : M < colOff c P) : gsLast M P c < P ∧ M ≤ colOff c (gsLast M P c + 1) ∧ (0 < M → colOff c (gsLast M P c) < M) := by
  unfold gsLast
  rw [if_neg (by omega)]
  cases hf : (List.range P).find? (fun i => decide (M ≤ colOff c (i + 1))) with
  | none =>
    rw [List.find?_eq_none] at hf
    have hP : 0 < P := by
      rcases Nat.eq_zero_or_pos P with h0 | h0
      · subst h0
        simp [colOff] at h
      · exact h0
    have := hf (P - 1) (List.mem_range.2 (by omega))
    rw [show P - 1 + 1 = P by omega] at this
    simp at this
    omega
  | some i =>
    rw [Option.getD_some]
    have h1 := List.find?_some hf
    have h2 := List.mem_range.1 (List.mem_of_find?_eq_some hf)
    refine ⟨h2, by simpa using h1, fun hM => ?_⟩
    rcases Nat.eq_zero_or_pos i with h0 | h0
    · subst h0
      simpa [colOff] using hM
    · by_contra hc
      rw [List.find?_range_eq_some] at hf
      have := hf.2.2 (i - 1) (by omega)
      rw [show i - 1 + 1 = i by omega] at this
      simp at this
      omega

/-- **C123** (`_partial`: the first `M` columns are independent): a matrix with more columns than rows: the first `M` columns of `Q` are orthonormal, the product of them with `R` is `A`, and `R` is upper triangular. -/
theorem gsQr_wide_partial [NoZeroDivisors K] (qr : DMat K → DMat K × DMat K) {M P : Nat} (c : Nat → Nat) (A : Nat → DMat K) (hM : 0 < M) (hN : M < colOff c P) (hq : ∀ n, ∀ B : DMat K, B.width = n → QrOk n B (qr B).1 (qr B).2)
    (hA : ∀ r < P, (A r).width = c r ∧ (A r).rows.length = M)
    (hd : ∀ r < P, ∀ j < c r, colOff c r + j < M → (gsQr qr M P c A).R r (colOff c r + j) j ≠ 0) :
    (∀ q < P, ∀ q' < P, ∀ a < c q, ∀ b < c q', colOff c q + a < M → colOff c q' + b < M →
      ∑ x ∈ range M, star (((gsQr qr M P c A).Q q).at x a) * ((gsQr qr M P c A).Q q').at x b = if q = q' ∧ a = b then 1 else 0) ∧
    (∀ r < P, ∀ x < M, ∀ j < c r, ∑ q ∈ range P, ∑ t ∈ range (c q), (if colOff c q + t < M then ((gsQr qr M P c A).Q q).at x t * (gsQr qr M P c A).R r (colOff c q + t) j else 0) = (A r).at x j) ∧
    (∀ r < P, ∀ j < c r, ∀ row < M, colOff c r + j < row → (gsQr qr M P c A).R r row j = 0) := by
  obtain ⟨hl, hl1, hl2⟩ := gsLast_wide hN
  have hl2 := hl2 hM
  obtain ⟨l, hle⟩ : ∃ l, l = gsLast M P c := ⟨_, rfl⟩
  rw [← hle] at hl hl1 hl2
  have main : ∀ i ≤ l, GsInv M P c A i ((List.range i).foldl (gsStep qr M P M c) ⟨A, fun r => ⟨c r, List.replicate M (fun _ => 0)⟩, fun _ _ _ => 0⟩) := by
    intro i
    induction i with
    | zero =>
      intro _
      constructor
      · exact hA
      · intro q hq; omega
      · intro r _ _ x _ j _
        simp
      · intro r hr; omega
      · intro r _ row _ j; rfl
      · intro r hr; omega
      · intro _
        exact ⟨fun q hq => by omega, fun q hq => by omega⟩
    | succ i ih =>
      intro hi
      rw [List.range_succ, List.foldl_append]
      have := colOff_mono c hi
      exact gsStep_inv qr A hq (by omega) (by omega) (Nat.le_refl _) _ (ih (by omega))
  have inv := main l (Nat.le_refl _)
  have e : gsQr qr M P c A = gsStep qr M P M c ((List.range l).foldl (gsStep qr M P M c) ⟨A, fun r => ⟨c r, List.replicate M (fun _ => 0)⟩, fun _ _ _ => 0⟩) l := by
    unfold gsQr
    rw [← hle, Nat.min_eq_left (by omega), List.range_succ, List.foldl_append, List.foldl_cons, List.foldl_nil]
  rw [e] at hd ⊢
  obtain ⟨st, hst⟩ : ∃ st, st = (List.range l).foldl (gsStep qr M P M c) ⟨A, fun r => ⟨c r, List.replicate M (fun _ => 0)⟩, fun _ _ _ => 0⟩ := ⟨_, rfl⟩
  rw [← hst] at inv hd ⊢
  clear hst e main
  have hls := colOff_succ c l
  -- the last block
  have Qok := hq (c l) (st.A l) (inv.aw l hl).1
  have hrl := (inv.aw l hl).2
  have qw : (qr (st.A l)).1.width = min M (c l) := by rw [Qok.qwidth, hrl]
  have prodI : ∀ x < M, ∀ j < c l, ∑ t ∈ range (min M (c l)), (qr (st.A l)).1.at x t * (qr (st.A l)).2.at t j = (st.A l).at x j := by
    have := Qok.prod
    rwa [hrl] at this
  have orthI : ∀ a < min M (c l), ∀ b < min M (c l), ∑ x ∈ range M, star ((qr (st.A l)).1.at x a) * (qr (st.A l)).1.at x b = if a = b then 1 else 0 := by
    have := Qok.orth
    rwa [hrl] at this
  have triI : ∀ t < min M (c l), ∀ j < c l, j < t → (qr (st.A l)).2.at t j = 0 := by
    have := Qok.tri
    rwa [hrl] at this
  -- the entries after the last pass
  have Rold : ∀ r, ∀ row < colOff c l, ∀ j, (gsStep qr M P M c st l).R r row j = st.R r row j := by
    intro r row hrow j
    unfold gsStep
    rw [if_pos hl]
    dsimp only
    split
    · exact gsStore_old hrow _ _ j
    · split
      · exact gsStore_old hrow _ _ j
      · rfl
  have Rsame : ∀ r < l, ∀ row j, (gsStep qr M P M c st l).R r row j = st.R r row j := by
    intro r hr row j
    unfold gsStep
    rw [if_pos hl]
    dsimp only
    rw [if_neg (by omega), if_neg (by omega)]
  have Rll : ∀ t, colOff c l + t < M → ∀ j, (gsStep qr M P M c st l).R l (colOff c l + t) j = (qr (st.A l)).2.at t j := by
    intro t ht j
    unfold gsStep
    rw [if_pos hl]
    dsimp only
    rw [if_pos rfl, gsStore_new (by omega) ht]
  have Rrl : ∀ r, l < r → ∀ t, colOff c l + t < M → ∀ j, (gsStep qr M P M c st l).R r (colOff c l + t) j = ∑ x ∈ range M, star ((qr (st.A l)).1.at x t) * (st.A r).at x j := by
    intro r hr t ht j
    unfold gsStep
    rw [if_pos hl]
    dsimp only
    rw [if_neg (by omega), if_pos hr, gsStore_new (by omega) ht, hmul_at (by rw [qw]; omega)]
  have Qold : ∀ q < l, (gsStep qr M P M c st l).Q q = st.Q q := by
    intro q hq
    unfold gsStep
    rw [if_pos hl]
    dsimp only
    rw [if_neg (by omega)]
  have Ql : (gsStep qr M P M c st l).Q l = (qr (st.A l)).1 := by
    unfold gsStep
    rw [if_pos hl]
    dsimp only
    rw [if_pos rfl]
  have hqM : ∀ q < l, ∀ t < c q, colOff c q + t < colOff c l := by
    intro q hq t ht
    have := colOff_mono c (show q + 1 ≤ l by omega)
    rw [colOff_succ] at this
    omega
  have hbl : ∀ q t, t < c q → colOff c q + t < M → q ≤ l := by
    intro q t ht h
    by_contra hc
    have := colOff_mono c (show l + 1 ≤ q by omega)
    omega
  have hd' : ∀ q < l, ∀ j < c q, st.R q (colOff c q + j) j ≠ 0 := by
    intro q hq j hj
    have := hd q (by omega) j hj (by have := hqM q hq j hj; omega)
    rwa [Rsame q hq] at this
  have hdl : ∀ j, colOff c l + j < M → (qr (st.A l)).2.at j j ≠ 0 := by
    intro j hj
    have := hd l hl j (by omega) hj
    rwa [Rll j hj] at this
  obtain ⟨o1, o2⟩ := inv.orth hd'
  have cross : ∀ q < l, ∀ a < c q, ∀ b, colOff c l + b < M → ∑ x ∈ range M, star ((st.Q q).at x a) * (qr (st.A l)).1.at x b = 0 := by
    intro q hq a ha b hb
    refine tri_cancel (M - colOff c l) (fun b => ∑ x ∈ range M, star ((st.Q q).at x a) * (qr (st.A l)).1.at x b) (fun t j => (qr (st.A l)).2.at t j) (fun t ht j hj => triI t (by omega) j (by omega)) (fun j hj => hdl j (by omega)) ?_ b (by omega)
    intro j hj
    rw [← o2 q hq l hl (Nat.le_refl _) a ha j (by omega)]
    have e1 : ∀ x ∈ range M, star ((st.Q q).at x a) * (st.A l).at x j = ∑ t ∈ range (M - colOff c l), star ((st.Q q).at x a) * ((qr (st.A l)).1.at x t * (qr (st.A l)).2.at t j) := by
      intro x hx
      rw [← prodI x (mem_range.1 hx) j (by omega), mul_sum]
      symm
      apply sum_subset (range_mono (by omega))
      intro t ht hnt
      rw [mem_range] at ht hnt
      rw [triI t ht j (by omega) (by omega), mul_zero, mul_zero]
    rw [sum_congr rfl e1, sum_comm]
    apply sum_congr rfl
    intro t _
    rw [sum_mul]
    apply sum_congr rfl
    intro x _
    ring
  have cross' : ∀ q < l, ∀ a, colOff c l + a < M → ∀ b < c q, ∑ x ∈ range M, star ((qr (st.A l)).1.at x a) * (st.Q q).at x b = 0 := by
    intro q hq a ha b hb
    have := congrArg star (cross q hq b hb a ha)
    rw [star_sum, star_zero] at this
    rw [← this]
    apply sum_congr rfl
    intro x _
    rw [star_mul', star_star]
    ring
  have orth : ∀ q < P, ∀ q' < P, ∀ a < c q, ∀ b < c q', colOff c q + a < M → colOff c q' + b < M →
      ∑ x ∈ range M, star (((gsStep qr M P M c st l).Q q).at x a) * ((gsStep qr M P M c st l).Q q').at x b = if q = q' ∧ a = b then 1 else 0 := by
    intro q _ q' _ a ha b hb hqa hqb
    have h1 := hbl q a ha hqa
    have h2 := hbl q' b hb hqb
    rcases Nat.lt_or_ge q l with h | h <;> rcases Nat.lt_or_ge q' l with h' | h'
    · rw [Qold q h, Qold q' h']
      exact o1 q h q' h' a ha b hb
    · have : q' = l := by omega
      subst this
      rw [Qold q h, Ql, cross q h a ha b hqb, if_neg (by omega)]
    · have : q = l := by omega
      subst this
      rw [Qold q' h', Ql, cross' q' h' a hqa b hb, if_neg (by omega)]
    · have e1 : q = l := by omega
      have e2 : q' = l := by omega
      subst e1
      subst e2
      rw [Ql, orthI a (by omega) b (by omega)]
      simp
  refine ⟨orth, ?_, ?_⟩
  · intro r hr x hx j hj
    -- the square matrix of the first `M` columns
    let u : Nat → Nat → K := fun y g => ∑ q ∈ range P, ∑ t ∈ range (c q), if colOff c q + t = g then ((gsStep qr M P M c st l).Q q).at y t else 0
    have hu : ∀ q < P, ∀ t < c q, ∀ y, u y (colOff c q + t) = ((gsStep qr M P M c st l).Q q).at y t := by
      intro q hq t ht y
      simp only [u]
      rw [sum_eq_single q]
      · rw [sum_eq_single t]
        · rw [if_pos rfl]
        · intro t' _ hne
          rw [if_neg (by omega)]
        · intro h; exact absurd (mem_range.2 ht) h
      · intro q' _ hne
        apply sum_eq_zero
        intro t' ht'
        rw [if_neg]
        intro hc
        exact hne (colOff_inj (mem_range.1 ht') ht hc).1
      · intro h; exact absurd (mem_range.2 hq) h
    have horth : ∀ a < M, ∀ b < M, ∑ y ∈ range M, star (u y a) * u y b = if a = b then 1 else 0 := by
      intro a ha b hb
      obtain ⟨q, t, hq, ht, rfl⟩ := colOff_owner c (show a < colOff c P by omega)
      obtain ⟨q', t', hq', ht', rfl⟩ := colOff_owner c (show b < colOff c P by omega)
      simp only [hu q hq t ht, hu q' hq' t' ht']
      rw [orth q hq q' hq' t ht t' ht' ha hb]
      by_cases h : q = q' ∧ t = t'
      · rw [if_pos h, h.1, h.2, if_pos rfl]
      · rw [if_neg h, if_neg (fun hc => h (colOff_inj ht ht' hc))]
    have hrows := orth_cols_rows M u horth
    -- `R = Qᴴ A`
    have hR : ∀ q < P, ∀ t < c q, colOff c q + t < M → (gsStep qr M P M c st l).R r (colOff c q + t) j = ∑ y ∈ range M, star (((gsStep qr M P M c st l).Q q).at y t) * (A r).at y j := by
      intro q hq t ht hqt
      have hql := hbl q t ht hqt
      -- `A r` is the remainder and the blocks
      have hAr : ∃ rem : Nat → K, (∀ y < M, (A r).at y j = rem y + ∑ q ∈ range l, ∑ t ∈ range (c q), (st.Q q).at y t * st.R r (colOff c q + t) j) ∧ (l ≤ r → ∀ y < M, rem y = (st.A r).at y j) ∧ (r < l → ∀ y, rem y = 0) := by
        rcases Nat.lt_or_ge r l with h | h
        · exact ⟨fun _ => 0, fun y hy => by rw [inv.done r h y hy j hj, zero_add], fun hc => by omega, fun _ _ => rfl⟩
        · exact ⟨fun y => (st.A r).at y j, fun y hy => by dsimp only; rw [inv.arem r hr h y hy j hj]; ring, fun _ _ _ => rfl, fun hc => by omega⟩
      obtain ⟨rem, hrem, hrem1, hrem2⟩ := hAr
      have expand : ∀ Qq : Nat → K, ∑ y ∈ range M, star (Qq y) * (A r).at y j = ∑ y ∈ range M, star (Qq y) * rem y + ∑ q ∈ range l, ∑ t ∈ range (c q), (∑ y ∈ range M, star (Qq y) * (st.Q q).at y t) * st.R r (colOff c q + t) j := by
        intro Qq
        have : ∀ y ∈ range M, star (Qq y) * (A r).at y j = star (Qq y) * rem y + ∑ q ∈ range l, ∑ t ∈ range (c q), star (Qq y) * ((st.Q q).at y t * st.R r (colOff c q + t) j) := by
          intro y hy
          rw [hrem y (mem_range.1 hy), mul_add, mul_sum]
          congr 1
          apply sum_congr rfl
          intro q _
          rw [mul_sum]
        rw [sum_congr rfl this, sum_add_distrib]
        congr 1
        rw [sum_comm]
        apply sum_congr rfl
        intro q _
        rw [sum_comm]
        apply sum_congr rfl
        intro t _
        rw [sum_mul]
        apply sum_congr rfl
        intro y _
        ring
      rcases Nat.lt_or_ge q l with h | h
      · rw [Rold r _ (hqM q h t ht), Qold q h, expand (fun y => (st.Q q).at y t)]
        have z : ∑ y ∈ range M, star ((st.Q q).at y t) * rem y = 0 := by
          rcases Nat.lt_or_ge r l with h1 | h1
          · apply sum_eq_zero
            intro y _
            rw [hrem2 h1, mul_zero]
          · rw [← o2 q h r hr h1 t ht j hj]
            apply sum_congr rfl
            intro y hy
            rw [hrem1 h1 y (mem_range.1 hy)]
        rw [z, zero_add, sum_eq_single q]
        · rw [sum_eq_single t]
          · rw [o1 q h q h t ht t ht, if_pos ⟨rfl, rfl⟩, one_mul]
          · intro t' ht' hne
            rw [o1 q h q h t ht t' (mem_range.1 ht'), if_neg (by omega), zero_mul]
          · intro hc; exact absurd (mem_range.2 ht) hc
        · intro q' hq' hne
          apply sum_eq_zero
          intro t' ht'
          rw [o1 q h q' (mem_range.1 hq') t ht t' (mem_range.1 ht'), if_neg (by omega), zero_mul]
        · intro hc; exact absurd (mem_range.2 h) hc
      · have hql' : q = l := by omega
        subst hql'
        rw [Ql, expand (fun y => (qr (st.A q)).1.at y t)]
        have z : ∑ q' ∈ range q, ∑ t' ∈ range (c q'), (∑ y ∈ range M, star ((qr (st.A q)).1.at y t) * (st.Q q').at y t') * st.R r (colOff c q' + t') j = 0 := by
          apply sum_eq_zero
          intro q' hq'
          apply sum_eq_zero
          intro t' ht'
          rw [cross' q' (mem_range.1 hq') t hqt t' (mem_range.1 ht'), zero_mul]
        rw [z, add_zero]
        rcases Nat.lt_trichotomy r q with h1 | h1 | h1
        · rw [Rsame r h1, inv.zero r hr _ (by omega)]
          symm
          apply sum_eq_zero
          intro y _
          rw [hrem2 h1, mul_zero]
        · subst h1
          rw [Rll t hqt]
          have e1 : ∀ y ∈ range M, star ((qr (st.A r)).1.at y t) * rem y = ∑ v ∈ range (min M (c r)), star ((qr (st.A r)).1.at y t) * ((qr (st.A r)).1.at y v * (qr (st.A r)).2.at v j) := by
            intro y hy
            rw [hrem1 (Nat.le_refl _) y (mem_range.1 hy), ← prodI y (mem_range.1 hy) j hj, mul_sum]
          rw [sum_congr rfl e1, sum_comm]
          have e2 : ∀ v ∈ range (min M (c r)), ∑ y ∈ range M, star ((qr (st.A r)).1.at y t) * ((qr (st.A r)).1.at y v * (qr (st.A r)).2.at v j) = if t = v then (qr (st.A r)).2.at v j else 0 := by
            intro v hv
            have : ∀ y ∈ range M, star ((qr (st.A r)).1.at y t) * ((qr (st.A r)).1.at y v * (qr (st.A r)).2.at v j) = (star ((qr (st.A r)).1.at y t) * (qr (st.A r)).1.at y v) * (qr (st.A r)).2.at v j := fun y _ => by ring
            rw [sum_congr rfl this, ← sum_mul, orthI t (by omega) v (mem_range.1 hv)]
            split
            · rw [one_mul]
            · rw [zero_mul]
          rw [sum_congr rfl e2, sum_ite_eq, if_pos (mem_range.2 (by omega))]
        · rw [Rrl r h1 t hqt]
          apply sum_congr rfl
          intro y hy
          rw [hrem1 (by omega) y (mem_range.1 hy)]
    -- both together
    have e1 : ∑ q ∈ range P, ∑ t ∈ range (c q), (if colOff c q + t < M then ((gsStep qr M P M c st l).Q q).at x t * (gsStep qr M P M c st l).R r (colOff c q + t) j else 0) =
        ∑ g ∈ range (colOff c P), if g < M then u x g * ∑ y ∈ range M, star (u y g) * (A r).at y j else 0 := by
      rw [sum_colOff]
      apply sum_congr rfl
      intro q hq
      apply sum_congr rfl
      intro t ht
      rw [mem_range] at hq ht
      split
      · rename_i h
        simp only [hu q hq t ht]
        rw [hR q hq t ht h]
      · rfl
    have e2 : ∑ g ∈ range (colOff c P), (if g < M then u x g * ∑ y ∈ range M, star (u y g) * (A r).at y j else 0) = ∑ g ∈ range M, u x g * ∑ y ∈ range M, star (u y g) * (A r).at y j := by
      rw [← sum_subset (range_mono (show M ≤ colOff c P by omega))]
      · apply sum_congr rfl
        intro g hg
        rw [if_pos (mem_range.1 hg)]
      · intro g _ hg
        rw [if_neg (by simpa using hg)]
    rw [e1, e2]
    have e3 : ∀ g ∈ range M, u x g * ∑ y ∈ range M, star (u y g) * (A r).at y j = ∑ y ∈ range M, (u x g * star (u y g)) * (A r).at y j := by
      intro g _
      rw [mul_sum]
      apply sum_congr rfl
      intro y _
      ring
    rw [sum_congr rfl e3, sum_comm]
    have e4 : ∀ y ∈ range M, ∑ g ∈ range M, (u x g * star (u y g)) * (A r).at y j = if x = y then (A r).at y j else 0 := by
      intro y hy
      rw [← sum_mul, hrows x hx y (mem_range.1 hy)]
      split
      · rw [one_mul]
      · rw [zero_mul]
    rw [sum_congr rfl e4, sum_ite_eq, if_pos (mem_range.2 hx)]
  · intro r hr j hj row hrow hjr
    rcases Nat.lt_trichotomy r l with h | h | h
    · rw [Rsame r h]
      exact inv.tri r h j hj row hjr
    · subst h
      obtain ⟨t, rfl⟩ : ∃ t, row = colOff c r + t := ⟨row - colOff c r, by omega⟩
      rw [Rll t hrow]
      exact triI t (by omega) j hj (by omega)
    · have := colOff_mono c (show l + 1 ≤ r by omega)
      omega

end Heat
