import Verif.Model.QrInPlace
import Verif.Props.QrCols
import Verif.Props.Polar
import Verif.Props.QrReal
import Mathlib.LinearAlgebra.Matrix.Block
import Mathlib.LinearAlgebra.Matrix.Determinant.Basic
/-!
# C197 the QR factorisation inside `polar` for column-distributed matrices
-/
namespace Heat
open Spec Finset Matrix

/-- The blocks of the processes are the columns of the matrix `G` with `M` rows. -/
def HoldsCols (M P : Nat) (c : Nat → Nat) (B : Nat → DMat ℝ) (G : Nat → Nat → ℝ) : Prop :=
  ∀ r < P, (B r).width = c r ∧ (B r).rows.length = M ∧ ∀ x < M, ∀ j < c r, (B r).at x j = G x (colOff c r + j)

/-- The rows of `T` on top of the rows of `B`. -/
def onTop {m n : ℕ} (T : Matrix (Fin m) (Fin n) ℝ) (B : RMat n) (x g : Nat) : ℝ :=
  if hg : g < n then (if hx : x < m then T ⟨x, hx⟩ ⟨g, hg⟩ else if hy : x - m < n then B ⟨x - m, hy⟩ ⟨g, hg⟩ else 0) else 0

theorem tmul_eq_hmul (M : Nat) (Q A : DMat ℝ) : Q.tmul M A = Q.hmul M A := by
  unfold DMat.tmul DMat.hmul
  simp

/-- The blocks are those of the distributed QR factorisation. -/
theorem qOnlyCols_eq (qr : DMat ℝ → DMat ℝ × DMat ℝ) (M P : Nat) (c : Nat → Nat) (A : Nat → DMat ℝ) (hN : colOff c P ≤ M) : ∀ r < P, qOnlyCols qr M P A r = (gsQr qr M P c A).Q r := by
  have e : gsQr qr M P c A = (List.range P).foldl (gsStep qr M P (colOff c P) c) ⟨A, fun r => ⟨c r, List.replicate M (fun _ => 0)⟩, fun _ _ _ => 0⟩ := by
    unfold gsQr gsLast
    rw [if_pos hN, Nat.min_eq_right hN, List.range_succ, List.foldl_append, List.foldl_cons, List.foldl_nil]
    unfold gsStep
    rw [if_neg (by omega)]
  rw [e]
  unfold qOnlyCols
  have main : ∀ i ≤ P, ∀ r, (List.range i).foldl (qOnlyStep qr M) A r =
      if r < i then ((List.range i).foldl (gsStep qr M P (colOff c P) c) ⟨A, fun r => ⟨c r, List.replicate M (fun _ => 0)⟩, fun _ _ _ => 0⟩).Q r
      else ((List.range i).foldl (gsStep qr M P (colOff c P) c) ⟨A, fun r => ⟨c r, List.replicate M (fun _ => 0)⟩, fun _ _ _ => 0⟩).A r := by
    intro i
    induction i with
    | zero => intro _ r; simp
    | succ i ih =>
      intro hi r
      have ih := ih (by omega)
      rw [List.range_succ, List.foldl_append, List.foldl_append, List.foldl_cons, List.foldl_nil, List.foldl_cons, List.foldl_nil]
      generalize (List.range i).foldl (gsStep qr M P (colOff c P) c) ⟨A, fun r => ⟨c r, List.replicate M (fun _ => 0)⟩, fun _ _ _ => 0⟩ = st at ih ⊢
      generalize (List.range i).foldl (qOnlyStep qr M) A = B at ih ⊢
      have hi' : i < P := by omega
      have hB : B i = st.A i := by rw [ih i, if_neg (by omega)]
      unfold qOnlyStep gsStep
      rw [if_pos hi']
      rcases Nat.lt_trichotomy r i with h | h | h
      · rw [if_pos h, if_pos (by omega : r < i + 1), ih r, if_pos h]
        simp only []
        rw [if_neg (by omega)]
      · subst h
        rw [if_neg (by omega), if_pos rfl, if_pos (by omega : r < r + 1), hB]
        simp
      · rw [if_neg (by omega), if_neg (by omega), if_neg (by omega : ¬ r < i + 1), hB, ih r, if_neg (by omega), tmul_eq_hmul]
        simp only []
        rw [if_pos h]
  intro r hr
  rw [main P (Nat.le_refl _) r, if_pos hr]

theorem polarStacked_holds {m n : ℕ} (s : ℝ) (X : Matrix (Fin m) (Fin n) ℝ) (P : Nat) (c : Nat → Nat) (hn : colOff c P = n) :
    HoldsCols (m + n) P c (polarStacked m n s (fun x g => if h : x < m ∧ g < n then X ⟨x, h.1⟩ ⟨g, h.2⟩ else 0) c) (onTop X (s • (1 : RMat n))) := by
  intro r hr
  refine ⟨rfl, by simp [polarStacked], ?_⟩
  intro x hx j hj
  have h1 := colOff_mono c (show r + 1 ≤ P by omega)
  rw [colOff_succ] at h1
  have hg : colOff c r + j < n := by omega
  unfold onTop
  rw [dif_pos hg]
  unfold DMat.at polarStacked
  by_cases hm : x < m
  · rw [dif_pos hm]
    have : (List.map (fun x j => if h : x < m ∧ colOff c r + j < n then X ⟨x, h.1⟩ ⟨colOff c r + j, h.2⟩ else 0) (List.range m) ++
        List.map (fun x j => if x = colOff c r + j then s else 0) (List.range n)).getD x (fun _ => 0) = fun j => if h : x < m ∧ colOff c r + j < n then X ⟨x, h.1⟩ ⟨colOff c r + j, h.2⟩ else 0 := by
      rw [List.getD_eq_getElem?_getD, List.getElem?_append_left (by simpa using hm)]
      simp [hm]
    rw [this]
    simp [hm, hg]
  · rw [dif_neg hm, dif_pos (by omega)]
    have : (List.map (fun x j => if h : x < m ∧ colOff c r + j < n then X ⟨x, h.1⟩ ⟨colOff c r + j, h.2⟩ else 0) (List.range m) ++
        List.map (fun x j => if x = colOff c r + j then s else 0) (List.range n)).getD x (fun _ => 0) = fun j => if x - m = colOff c r + j then s else 0 := by
      rw [List.getD_eq_getElem?_getD, List.getElem?_append_right (by simpa using (by omega : m ≤ x))]
      simp [show x - m < n by omega]
    rw [this]
    simp [Matrix.one_apply, Fin.ext_iff]

/-- **C197:** for every number of processes and every distribution of the columns, `polar` replaces the stacked matrix (the iterate on top of a positive multiple of the identity) by a matrix with orthonormal
columns that is a factor of it, the other factor being upper triangular: the hypotheses of one step of the iteration (C156) hold for column-distributed matrices. -/
theorem polar_cols_qr (qr : DMat ℝ → DMat ℝ × DMat ℝ) (hq : ∀ k, ∀ B : DMat ℝ, B.width = k → QrOk k B (qr B).1 (qr B).2) {m n : ℕ} (P : Nat) (c : Nat → Nat) (hn : colOff c P = n)
    (X : Matrix (Fin m) (Fin n) ℝ) (d : ℝ) (hd : 0 < d) (A : Nat → DMat ℝ) (hA : HoldsCols (m + n) P c A (onTop X (Real.sqrt d • (1 : RMat n)))) :
    ∃ (Q1 : Matrix (Fin m) (Fin n) ℝ) (Q2 R : RMat n), HoldsCols (m + n) P c (qOnlyCols qr (m + n) P A) (onTop Q1 Q2) ∧
      X = Q1 * R ∧ Real.sqrt d • (1 : RMat n) = Q2 * R ∧ (Q1)ᵀ * Q1 + (Q2)ᵀ * Q2 = 1 ∧ ∀ i j, j < i → R i j = 0 := by
  have hN : colOff c P ≤ m + n := by omega
  obtain ⟨g1, g2, g3, g4⟩ := gsQr_partial qr (M := m + n) (P := P) c A hN hq (fun r hr => ⟨(hA r hr).1, (hA r hr).2.1⟩)
  have hQ := qOnlyCols_eq qr (m + n) P c A hN
  generalize gsQr qr (m + n) P c A = st at g1 g2 g3 g4 hQ
  have own : ∀ g : Fin n, ∃ q t, q < P ∧ t < c q ∧ (g : Nat) = colOff c q + t := fun g => colOff_owner c (by rw [hn]; exact g.2)
  choose oq ot ho1 ho2 ho3 using own
  have lt : ∀ q < P, ∀ t < c q, colOff c q + t < n := by
    intro q hq t ht
    have h1 := colOff_mono c (show q + 1 ≤ P by omega)
    rw [colOff_succ] at h1
    omega
  have own_eq : ∀ q (_ : q < P) t (_ : t < c q) (h : colOff c q + t < n), oq ⟨colOff c q + t, h⟩ = q ∧ ot ⟨colOff c q + t, h⟩ = t := by
    intro q hq t ht h
    have := colOff_inj ht (ho2 ⟨colOff c q + t, h⟩) (ho3 ⟨colOff c q + t, h⟩)
    exact ⟨this.1.symm, this.2.symm⟩
  let Qg : Nat → Fin n → ℝ := fun x g => (st.Q (oq g)).at x (ot g)
  let R : RMat n := fun i g => st.R (oq g) i (ot g)
  have sumFin : ∀ f : Fin n → ℝ, ∑ g, f g = ∑ q ∈ range P, ∑ t ∈ range (c q), if h : colOff c q + t < n then f ⟨colOff c q + t, h⟩ else 0 := by
    intro f
    rw [← sum_colOff c (fun g => if h : g < n then f ⟨g, h⟩ else 0) P, hn, Finset.sum_range]
    exact Finset.sum_congr rfl fun g _ => by rw [dif_pos g.2]
  -- the product
  have prod : ∀ x < m + n, ∀ g : Fin n, ∑ i : Fin n, Qg x i * R i g = onTop X (Real.sqrt d • (1 : RMat n)) x g := by
    intro x hx g
    have h := g2 (oq g) (ho1 g) x hx (ot g) (ho2 g)
    rw [(hA (oq g) (ho1 g)).2.2 x hx (ot g) (ho2 g), ← ho3 g] at h
    rw [← h, sumFin]
    apply Finset.sum_congr rfl; intro q hq
    apply Finset.sum_congr rfl; intro t ht
    have hq' := Finset.mem_range.1 hq
    have ht' := Finset.mem_range.1 ht
    have hl := lt q hq' t ht'
    rw [dif_pos hl]
    obtain ⟨e1, e2⟩ := own_eq q hq' t ht' hl
    simp only [Qg, R, e1, e2]
  have tri : ∀ i j : Fin n, j < i → R i j = 0 := by
    intro i j hij
    exact g3 (oq j) (ho1 j) (ot j) (ho2 j) i (by rw [← ho3 j]; exact hij)
  let Q1 : Matrix (Fin m) (Fin n) ℝ := fun x g => Qg x g
  let Q2 : RMat n := fun x g => Qg (m + x) g
  have p1 : X = Q1 * R := by
    ext x g
    have := prod x (by omega) g
    rw [Matrix.mul_apply]
    rw [this]
    simp [onTop]
  have p2 : Real.sqrt d • (1 : RMat n) = Q2 * R := by
    ext x g
    have := prod (m + x) (by omega) g
    rw [Matrix.mul_apply]
    rw [this]
    simp [onTop]
  have hs : Real.sqrt d ≠ 0 := (Real.sqrt_pos.2 hd).ne'
  have det : R.det ≠ 0 := by
    intro h0
    have := congrArg Matrix.det p2
    rw [Matrix.det_mul, h0, mul_zero, Matrix.det_smul, Matrix.det_one, mul_one] at this
    exact pow_ne_zero _ hs this
  have diag : ∀ g, R g g ≠ 0 := by
    rw [Matrix.det_of_upperTriangular (M := R) (fun i j h => tri i j h)] at det
    exact fun g => Finset.prod_ne_zero_iff.1 det g (Finset.mem_univ _)
  have orth := g4 (by
    intro r hr j hj
    have hl := lt r hr j hj
    have := diag ⟨_, hl⟩
    obtain ⟨e1, e2⟩ := own_eq r hr j hj hl
    simpa only [R, e1, e2] using this)
  refine ⟨Q1, Q2, R, ?_, p1, p2, ?_, tri⟩
  · intro r hr
    rw [hQ r hr]
    refine ⟨(g1 r hr).1, (g1 r hr).2, ?_⟩
    intro x hx j hj
    have hl := lt r hr j hj
    obtain ⟨e1, e2⟩ := own_eq r hr j hj hl
    unfold onTop
    rw [dif_pos hl]
    by_cases hm : x < m
    · rw [dif_pos hm]; simp only [Q1, Qg, e1, e2]
    · rw [dif_neg hm, dif_pos (by omega)]
      simp only [Q2, Qg, e1, e2, show m + (x - m) = x by omega]
  · ext a b
    rw [Matrix.add_apply, Matrix.mul_apply, Matrix.mul_apply, Matrix.one_apply]
    have h := orth (oq a) (ho1 a) (oq b) (ho1 b) (ot a) (ho2 a) (ot b) (ho2 b)
    rw [sum_range_add, Finset.sum_range, Finset.sum_range] at h
    simp only [star_trivial] at h
    refine Eq.trans h ?_
    congr 1
    rw [eq_iff_iff]
    constructor
    · rintro ⟨e1, e2⟩
      apply Fin.ext
      rw [ho3 a, ho3 b, e1, e2]
    · rintro rfl; exact ⟨rfl, rfl⟩

/-- A local factorisation exists, and the blocks that `polar` builds are the stacked matrix: three processes with 2, 0 and 1 columns. -/
example (X : Matrix (Fin 5) (Fin 3) ℝ) : ∃ (Q1 : Matrix (Fin 5) (Fin 3) ℝ) (Q2 R : RMat 3), X = Q1 * R ∧ Real.sqrt 4 • (1 : RMat 3) = Q2 * R ∧ (Q1)ᵀ * Q1 + (Q2)ᵀ * Q2 = 1 := by
  obtain ⟨Q1, Q2, R, _, h1, h2, h3, _⟩ := polar_cols_qr realQr realQr_ok 3 (fun r => if r = 0 then 2 else if r = 1 then 0 else 1) (by simp [colOff, List.range_succ]) X 4 (by norm_num) _ (polarStacked_holds _ X 3 _ (by simp [colOff, List.range_succ]))
  exact ⟨Q1, Q2, R, h1, h2, h3⟩

end Heat
