import Verif.Model.Svd
import Verif.Props.QrReal
import Verif.Props.Hsvd
import Mathlib.Tactic.Ring
/-!
# The full singular value decomposition of tall skinny and short fat matrices (C134)
-/
namespace Heat
variable {K : Type} [CommRing K]

/-! ## Specification -/

open Spec Finset

/-- What a singular value decomposition of a square matrix on one process is. -/
structure SvdOk [LinearOrder K] [StarRing K] (n : Nat) (R U : DMat K) (S : Nat → K) (Vt : DMat K) : Prop where
  urows : U.rows.length = n
  uwidth : U.width = n
  vrows : Vt.rows.length = n
  vwidth : Vt.width = n
  nonneg : ∀ t < n, 0 ≤ S t
  anti : ∀ s < n, ∀ t < n, s ≤ t → S t ≤ S s
  uorth : ∀ a < n, ∀ b < n, ∑ i ∈ range n, star (U.at i a) * U.at i b = if a = b then 1 else 0
  vorth : ∀ a < n, ∀ b < n, ∑ j ∈ range n, Vt.at a j * star (Vt.at b j) = if a = b then 1 else 0
  prod : ∀ i < n, ∀ j < n, ∑ t ∈ range n, U.at i t * S t * Vt.at t j = R.at i j

variable [LinearOrder K] [StarRing K]

/-- **C134, tall and skinny** (partial: only the branch for tall skinny matrices that are split along the rows, and under the conditions of `tsqr_partial`). For every number of processes, every merge count from 2 and every distribution of the rows in which each process has at least half as many rows as there are columns and one at least as many: `svd` returns orthonormal `U`, `Vt` and nonnegative nonincreasing `S` with `U diag(S) Vt = A`, and the rows of `U` lie on the processes like those of `A`. -/
theorem svdTall_partial (qr : DMat K → DMat K × DMat K) (svd : DMat K → DMat K × (Nat → K) × DMat K) {n m P : Nat} (hP : 0 < P) (hm : 2 ≤ m) (A : Nat → DMat K) (hq : ∀ B : DMat K, B.width = n → QrOk n B (qr B).1 (qr B).2)
    (hs : ∀ B : DMat K, B.rows.length = n → B.width = n → SvdOk n B (svd B).1 (svd B).2.1 (svd B).2.2)
    (hw : ∀ r < P, (A r).width = n) (hhalf : ∀ r < P, n ≤ 2 * (A r).rows.length) (hbig : ∃ r < P, n ≤ (A r).rows.length) :
    ∃ U S Vt, svdTall qr svd n m P A = some (U, S, Vt) ∧ (∀ t < n, 0 ≤ S t) ∧ (∀ s < n, ∀ t < n, s ≤ t → S t ≤ S s) ∧
      (∀ r < P, (U r).rows.length = (A r).rows.length ∧ (U r).width = n) ∧ Vt.rows.length = n ∧ Vt.width = n ∧
      (∀ r < P, ∀ i < (A r).rows.length, ∀ j < n, ∑ t ∈ range n, (U r).at i t * S t * Vt.at t j = (A r).at i j) ∧
      (∀ a < n, ∀ b < n, ∑ r ∈ range P, ∑ i ∈ range (A r).rows.length, star ((U r).at i a) * (U r).at i b = if a = b then 1 else 0) ∧
      (∀ a < n, ∀ b < n, ∑ j ∈ range n, Vt.at a j * star (Vt.at b j) = if a = b then 1 else 0) := by
  obtain ⟨Q, R, e, h1, h2, -, h4, h5, h6⟩ := tsqr_partial qr hP hm A hq hw hhalf hbig
  have ok := hs R h1 h2
  have hmul : ∀ r < P, (Q r).mul (svd R).1 = some ⟨n, (Q r).rows.map (fun v j => ∑ t ∈ range n, v t * (svd R).1.at t j)⟩ := by
    intro r hr
    unfold DMat.mul
    rw [(h4 r hr).2, ok.urows, if_pos rfl, ok.uwidth]
  have hat : ∀ r < P, ∀ i < (A r).rows.length, ∀ t, (((Q r).mul (svd R).1).getD (Q r)).at i t = ∑ x ∈ range n, (Q r).at i x * (svd R).1.at x t := by
    intro r hr i hi t
    rw [hmul r hr, Option.getD_some, DMat.at_lt _ (by simpa [(h4 r hr).1] using hi)]
    rw [List.getElem_map]
    apply sum_congr rfl
    intro x _
    rw [DMat.at_lt (Q r) (by rw [(h4 r hr).1]; exact hi)]
  refine ⟨fun r => ((Q r).mul (svd R).1).getD (Q r), (svd R).2.1, (svd R).2.2, ?_, ok.nonneg, ok.anti, ?_, ok.vrows, ok.vwidth, ?_, ?_, ok.vorth⟩
  · unfold svdTall
    rw [e, Option.bind_some]
    dsimp only
    rw [if_pos fun r hr => by rw [hmul r hr]; rfl]
  · intro r hr
    dsimp only
    rw [hmul r hr, Option.getD_some]
    exact ⟨by simpa using (h4 r hr).1, rfl⟩
  · intro r hr i hi j hj
    rw [← h5 r hr i hi j hj]
    simp only [hat r hr i hi]
    have : ∀ x ∈ range n, (Q r).at i x * R.at x j = ∑ t ∈ range n, (Q r).at i x * (svd R).1.at x t * (svd R).2.1 t * (svd R).2.2.at t j := by
      intro x hx
      rw [← ok.prod x (mem_range.1 hx) j hj, mul_sum]
      exact sum_congr rfl fun t _ => by ring
    rw [sum_congr rfl this, sum_comm]
    apply sum_congr rfl
    intro t _
    rw [sum_mul, sum_mul]
  · intro a ha b hb
    have e1 : ∑ r ∈ range P, ∑ i ∈ range (A r).rows.length, star ((((Q r).mul (svd R).1).getD (Q r)).at i a) * (((Q r).mul (svd R).1).getD (Q r)).at i b =
        ∑ r ∈ range P, ∑ i ∈ range (A r).rows.length, ∑ x ∈ range n, ∑ y ∈ range n, star ((svd R).1.at x a) * (svd R).1.at y b * (star ((Q r).at i x) * (Q r).at i y) := by
      apply sum_congr rfl
      intro r hr
      apply sum_congr rfl
      intro i hi
      rw [hat r (mem_range.1 hr) i (mem_range.1 hi), hat r (mem_range.1 hr) i (mem_range.1 hi), star_sum, sum_mul_sum]
      apply sum_congr rfl
      intro x _
      apply sum_congr rfl
      intro y _
      rw [star_mul]
      ring
    rw [e1]
    have e2 : ∑ r ∈ range P, ∑ i ∈ range (A r).rows.length, ∑ x ∈ range n, ∑ y ∈ range n, star ((svd R).1.at x a) * (svd R).1.at y b * (star ((Q r).at i x) * (Q r).at i y) =
        ∑ x ∈ range n, ∑ y ∈ range n, star ((svd R).1.at x a) * (svd R).1.at y b * ∑ r ∈ range P, ∑ i ∈ range (A r).rows.length, star ((Q r).at i x) * (Q r).at i y := by
      simp only [mul_sum]
      have : ∀ r ∈ range P, (∑ i ∈ range (A r).rows.length, ∑ x ∈ range n, ∑ y ∈ range n, star ((svd R).1.at x a) * (svd R).1.at y b * (star ((Q r).at i x) * (Q r).at i y)) = ∑ x ∈ range n, ∑ y ∈ range n, ∑ i ∈ range (A r).rows.length, star ((svd R).1.at x a) * (svd R).1.at y b * (star ((Q r).at i x) * (Q r).at i y) := by
        intro r _
        rw [sum_comm]
        apply sum_congr rfl
        intro x _
        rw [sum_comm]
      rw [sum_congr rfl this, sum_comm]
      apply sum_congr rfl
      intro x _
      rw [sum_comm]
    rw [e2]
    have e3 : ∀ x ∈ range n, ∑ y ∈ range n, star ((svd R).1.at x a) * (svd R).1.at y b * (∑ r ∈ range P, ∑ i ∈ range (A r).rows.length, star ((Q r).at i x) * (Q r).at i y) = star ((svd R).1.at x a) * (svd R).1.at x b := by
      intro x hx
      have : ∀ y ∈ range n, star ((svd R).1.at x a) * (svd R).1.at y b * (∑ r ∈ range P, ∑ i ∈ range (A r).rows.length, star ((Q r).at i x) * (Q r).at i y) = if x = y then star ((svd R).1.at x a) * (svd R).1.at y b else 0 := by
        intro y hy
        rw [h6 x (mem_range.1 hx) y (mem_range.1 hy)]
        split <;> simp
      rw [sum_congr rfl this, sum_ite_eq, if_pos hx]
    rw [sum_congr rfl e3]
    exact ok.uorth a ha b hb

theorem DMat.tr_at {A : DMat K} {i j : Nat} (hj : j < A.width) : A.tr.at j i = A.at i j := by
  unfold DMat.tr
  rw [DMat.at_lt _ (by simpa using hj)]
  simp

theorem DMat.tr_rows (A : DMat K) : A.tr.rows.length = A.width := by simp [DMat.tr]

/-- **C134, short and fat** (partial, likewise): for a matrix split along the columns the factors are those of the transposed matrix, transposed. -/
theorem svdFat_partial (qr : DMat K → DMat K × DMat K) (svd : DMat K → DMat K × (Nat → K) × DMat K) {M m P : Nat} (hP : 0 < P) (hm : 2 ≤ m) (A : Nat → DMat K) (hq : ∀ B : DMat K, B.width = M → QrOk M B (qr B).1 (qr B).2)
    (hs : ∀ B : DMat K, B.rows.length = M → B.width = M → SvdOk M B (svd B).1 (svd B).2.1 (svd B).2.2)
    (hw : ∀ r < P, (A r).rows.length = M) (hhalf : ∀ r < P, M ≤ 2 * (A r).width) (hbig : ∃ r < P, M ≤ (A r).width) :
    ∃ U S Vt, svdFat qr svd M m P A = some (U, S, Vt) ∧ (∀ t < M, 0 ≤ S t) ∧ (∀ s < M, ∀ t < M, s ≤ t → S t ≤ S s) ∧
      (∀ r < P, (Vt r).rows.length = M ∧ (Vt r).width = (A r).width) ∧ U.rows.length = M ∧ U.width = M ∧
      (∀ r < P, ∀ i < M, ∀ j < (A r).width, ∑ t ∈ range M, U.at i t * S t * (Vt r).at t j = (A r).at i j) ∧
      (∀ a < M, ∀ b < M, ∑ i ∈ range M, U.at i a * star (U.at i b) = if a = b then 1 else 0) ∧
      (∀ a < M, ∀ b < M, ∑ r ∈ range P, ∑ j ∈ range (A r).width, star ((Vt r).at a j) * (Vt r).at b j = if a = b then 1 else 0) := by
  obtain ⟨V, S, Ut, e, h1, h2, h3, h4, h5, h6, h7, h8⟩ := svdTall_partial qr svd hP hm (fun r => (A r).tr) hq hs (fun r hr => hw r hr) (fun r hr => by rw [DMat.tr_rows]; exact hhalf r hr) (by simpa [DMat.tr_rows] using hbig)
  simp only [DMat.tr_rows] at h3 h6 h7
  refine ⟨Ut.tr, S, fun r => (V r).tr, by unfold svdFat; rw [e]; rfl, h1, h2, ?_, by rw [DMat.tr_rows, h5], h4, ?_, ?_, ?_⟩
  · intro r hr
    rw [DMat.tr_rows]
    exact ⟨(h3 r hr).2, (h3 r hr).1⟩
  · intro r hr i hi j hj
    have := h6 r hr j hj i hi
    rw [DMat.tr_at hj] at this
    rw [← this]
    apply sum_congr rfl
    intro t ht
    rw [DMat.tr_at (by rw [h5]; exact hi), DMat.tr_at (by rw [(h3 r hr).2]; exact mem_range.1 ht)]
    ring
  · intro a ha b hb
    rw [← h8 a ha b hb]
    apply sum_congr rfl
    intro i hi
    rw [DMat.tr_at (by rw [h5]; exact mem_range.1 hi), DMat.tr_at (by rw [h5]; exact mem_range.1 hi)]
  · intro a ha b hb
    rw [← h7 a ha b hb]
    apply sum_congr rfl
    intro r hr
    apply sum_congr rfl
    intro j hj
    rw [DMat.tr_at (by rw [(h3 r (mem_range.1 hr)).2]; exact ha), DMat.tr_at (by rw [(h3 r (mem_range.1 hr)).2]; exact hb)]

/-- **C134, choice of the algorithm**: the second call, with the transposed matrix, never transposes again, and uses the tall skinny or the general algorithm. -/
theorem svdBranch_transposed (P M N : Nat) (split : Option Nat) (hsp : ∀ s ∈ split, s < 2) (maxLoc : Nat) (hM : split = some 0 → maxLoc ≤ M) (hN : split = some 1 → maxLoc ≤ N) :
    (svdBranch P M N split maxLoc = .fat → svdBranch P N M (svdTrSplit split) maxLoc = .tall) ∧ (svdBranch P M N split maxLoc = .wide → svdBranch P N M (svdTrSplit split) maxLoc = .polar) := by
  rcases split with _ | s
  · simp [svdBranch]
  · have : s < 2 := hsp s rfl
    have h2 : s = 0 ∨ s = 1 := by omega
    rcases h2 with rfl | rfl
    · have hM := hM rfl
      constructor
      · intro h
        exfalso
        unfold svdBranch at h
        by_cases hP : P ≤ 1
        · simp [hP] at h
        · by_cases h1 : N ≤ maxLoc
          · simp [hP, h1] at h
          · simp [hP, h1] at h
            by_cases h2 : M < N
            · simp [h2] at h
            · simp [h2] at h
      · unfold svdBranch
        intro h
        by_cases hP : P ≤ 1
        · simp [hP] at h
        · by_cases h1 : N ≤ maxLoc
          · simp [hP, h1] at h
          · simp [hP, h1] at h
            simp [hP, svdTrSplit]
            rw [if_neg (by omega), if_neg (by omega)]
    · have hN := hN rfl
      constructor
      · unfold svdBranch
        intro h
        by_cases hP : P ≤ 1
        · simp [hP] at h
        · by_cases h1 : M ≤ maxLoc
          · simp [hP, svdTrSplit, h1]
          · simp [hP, h1] at h
            split at h <;> simp at h
      · unfold svdBranch
        intro h
        by_cases hP : P ≤ 1
        · simp [hP] at h
        · by_cases h1 : M ≤ maxLoc
          · simp [hP, h1] at h
          · simp [hP, h1] at h
            simp [hP, svdTrSplit, h1]
            omega


section Real
open Matrix

/-- **Every real matrix has a (reduced) singular value decomposition.** -/
theorem exists_svd_full {p q : Nat} (B : Matrix (Fin p) (Fin q) ℝ) : ∃ (U : Matrix (Fin p) (Fin (min p q)) ℝ) (s : Fin (min p q) → ℝ) (V : Matrix (Fin (min p q)) (Fin q) ℝ),
    Uᵀ * U = 1 ∧ V * Vᵀ = 1 ∧ (∀ k, 0 ≤ s k) ∧ (∀ j k, j ≤ k → s k ≤ s j) ∧ B = U * diagonal s * V := by
  obtain ⟨⟨L, σ⟩, hsvd⟩ := exists_svd (List.ofFn fun j i => B i j)
  dsimp only at hsvd
  have hlU := hsvd.lenU
  have hlS := hsvd.lenS
  rw [List.length_ofFn] at hlU hlS
  let u : Fin (min p q) → Fin p → ℝ := fun k => L[k.1]'(by omega)
  let s : Fin (min p q) → ℝ := fun k => σ[k.1]'(by omega)
  have hL : L = List.ofFn u := by
    apply List.ext_getElem
    · simp [hlU]
    · intro i h1 h2; simp [u]
  have hσ : σ = List.ofFn s := by
    apply List.ext_getElem
    · simp [hlS]
    · intro i h1 h2; simp [s]
  have hdot : ∀ j k, u j ⬝ᵥ u k = if j = k then 1 else 0 := by
    intro j k
    by_cases h : j = k
    · rw [if_pos h, h]
      exact hsvd.ortho.2 _ (List.getElem_mem _)
    · rw [if_neg h]
      have hp := List.pairwise_iff_getElem.1 hsvd.ortho.1
      rcases Nat.lt_or_ge j.1 k.1 with hl | hl
      · exact hp _ _ _ _ hl
      · rw [dotProduct_comm]
        exact hp _ _ _ _ (by have : j.1 ≠ k.1 := fun e => h (Fin.ext e); omega)
  have hgram : ∀ x y, ∑ j, ((fun i => B i j) ⬝ᵥ x) * ((fun i => B i j) ⬝ᵥ y) = ∑ k, s k * s k * (u k ⬝ᵥ x) * (u k ⬝ᵥ y) := by
    intro x y
    have h := hsvd.gram_eq x y
    rw [hL, hσ, gram_scale_ofFn] at h
    rw [← h]
    unfold Spec.gram
    rw [List.map_ofFn, List.sum_ofFn]
    rfl
  have hpos : ∀ k, 0 ≤ s k := fun k => hsvd.nonneg _ (List.getElem_mem _)
  -- the rows u_k B
  let w : Fin (min p q) → Fin q → ℝ := fun k j => (fun i => B i j) ⬝ᵥ u k
  have hw : ∀ a b, w a ⬝ᵥ w b = if a = b then s a * s a else 0 := by
    intro a b
    show ∑ j, _ = _
    have := hgram (u a) (u b)
    rw [this]
    simp only [hdot]
    by_cases h : a = b
    · subst h; simp
    · rw [if_neg h]
      apply Finset.sum_eq_zero
      intro k _
      by_cases h1 : k = a
      · rw [if_neg (fun e => h (h1 ▸ e))]; simp
      · rw [if_neg h1]; simp
  let f : Fin q → EuclideanSpace ℝ (Fin q) := fun i => if h : i.1 < min p q then WithLp.toLp 2 ((s ⟨i.1, h⟩)⁻¹ • w ⟨i.1, h⟩) else 0
  let T : Set (Fin q) := {i | ∃ h : i.1 < min p q, s ⟨i.1, h⟩ ≠ 0}
  have hT : Orthonormal ℝ (T.restrict f) := by
    rw [orthonormal_iff_ite]
    rintro ⟨i, hi, hsi⟩ ⟨j, hj, hsj⟩
    show inner ℝ (f i) (f j) = _
    have e1 : f i = WithLp.toLp 2 ((s ⟨i.1, hi⟩)⁻¹ • w ⟨i.1, hi⟩) := dif_pos hi
    have e2 : f j = WithLp.toLp 2 ((s ⟨j.1, hj⟩)⁻¹ • w ⟨j.1, hj⟩) := dif_pos hj
    rw [e1, e2, EuclideanSpace.inner_toLp_toLp]
    simp only [star_trivial]
    rw [dotProduct_smul, smul_dotProduct, hw]
    by_cases h : i = j
    · subst h
      simp only [if_true, smul_eq_mul]
      field_simp
    · have : (⟨j.1, hj⟩ : Fin (min p q)) ≠ ⟨i.1, hi⟩ := by
        intro e
        have := congrArg Fin.val e
        exact h (Fin.ext this.symm)
      rw [if_neg this, if_neg (by intro e; exact h (congrArg Subtype.val e))]
      simp
  obtain ⟨b, hb⟩ := hT.exists_orthonormalBasis_extension_of_card_eq (by simp)
  let v : Fin (min p q) → Fin q → ℝ := fun k => (b ⟨k.1, by omega⟩).ofLp
  have hv : ∀ j k, v j ⬝ᵥ v k = if j = k then 1 else 0 := by
    intro j k
    have := (orthonormal_iff_ite.1 b.orthonormal) ⟨j.1, by omega⟩ ⟨k.1, by omega⟩
    rw [EuclideanSpace.inner_eq_star_dotProduct] at this
    simp only [star_trivial, Fin.mk.injEq] at this
    rw [dotProduct_comm]
    refine this.trans ?_
    simp only [Fin.ext_iff]
  have hwv : ∀ k, w k = s k • v k := by
    intro k
    by_cases hk : s k = 0
    · have h1 := hw k k
      rw [if_pos rfl, hk, mul_zero] at h1
      rw [hdot_zero h1, hk, zero_smul]
    · have h1 := hb ⟨k.1, by omega⟩ ⟨k.2, hk⟩
      have e1 : f ⟨k.1, by omega⟩ = WithLp.toLp 2 ((s k)⁻¹ • w k) := dif_pos k.2
      have e2 : v k = (s k)⁻¹ • w k := by
        show (b _).ofLp = _
        rw [h1, e1]
      rw [e2, smul_smul, mul_inv_cancel₀ hk, one_smul]
  refine ⟨of fun i k => u k i, s, of fun k j => v k j, ?_, ?_, hpos, ?_, ?_⟩
  · ext j k
    rw [mul_apply, one_apply]
    exact hdot j k
  · ext j k
    rw [mul_apply, one_apply]
    exact hv j k
  · intro j k hjk
    rcases eq_or_lt_of_le hjk with e | e
    · rw [e]
    · exact List.pairwise_iff_getElem.1 hsvd.sorted _ _ _ _ e
  · -- the columns are in the span
    have hpe : Spec.projErr L (List.ofFn fun j i => B i j) ≤ Spec.frob2 ([] : List (Fin p → ℝ)) :=
      projErr_le hsvd.ortho (by rw [hlU, hlS]) (fun x y => by rw [hsvd.gram_eq x y]; simp [Spec.gram])
    ext i j
    have hcol : (fun i => B i j) = ∑ k, ((u k ⬝ᵥ fun i => B i j) • u k) := by
      unfold Spec.projErr Spec.frob2 at hpe
      rw [List.map_map, List.map_ofFn, List.sum_ofFn] at hpe
      simp only [List.map_nil, List.sum_nil, Function.comp] at hpe
      have hz := (Finset.sum_eq_zero_iff_of_nonneg (s := Finset.univ) (fun j _ => hdot_nonneg _)).1 (le_antisymm hpe (Finset.sum_nonneg fun j _ => hdot_nonneg _)) j (Finset.mem_univ j)
      have h0 := sub_eq_zero.1 (hdot_zero hz)
      refine h0.trans ?_
      rw [hL, List.map_ofFn, List.sum_ofFn]
      rfl
    rw [mul_apply]
    have := congrFun hcol i
    refine this.trans ?_
    rw [Finset.sum_apply]
    apply Finset.sum_congr rfl
    intro k _
    rw [mul_diagonal]
    have h2 : u k ⬝ᵥ (fun i => B i j) = s k * v k j := by
      have := congrFun (hwv k) j
      rw [Pi.smul_apply, smul_eq_mul] at this
      rw [← this]
      exact dotProduct_comm _ _
    rw [Pi.smul_apply, smul_eq_mul, h2]
    show _ * u k i = u k i * s k * v k j
    ring

/-- The decomposition of a square real matrix given by rows. -/
theorem exists_svdOk (n : Nat) (B : DMat ℝ) : ∃ q : DMat ℝ × (Nat → ℝ) × DMat ℝ, SvdOk n B q.1 q.2.1 q.2.2 := by
  obtain ⟨U, s, V, h1, h2, h3, h4, h5⟩ := exists_svd_full (p := n) (q := n) (of fun i j => B.at i j)
  have hk : min n n = n := min_self n
  generalize hg : min n n = k at U s V h1 h2 h3 h4 h5
  obtain rfl : k = n := by omega
  clear hg hk
  have hat : ∀ (f : Nat → Nat → ℝ) i j, i < k → (⟨k, (List.range k).map f⟩ : DMat ℝ).at i j = f i j := by
    intro f i j hi
    rw [DMat.at_lt _ (by simpa using hi)]
    simp
  refine ⟨(⟨k, (List.range k).map fun i j => if h : i < k ∧ j < k then U ⟨i, h.1⟩ ⟨j, h.2⟩ else 0⟩, fun t => if h : t < k then s ⟨t, h⟩ else 0, ⟨k, (List.range k).map fun i j => if h : i < k ∧ j < k then V ⟨i, h.1⟩ ⟨j, h.2⟩ else 0⟩), by simp, rfl, by simp, rfl, ?_, ?_, ?_, ?_, ?_⟩
  · intro t ht
    simp only [dif_pos ht]
    exact h3 _
  · intro a ha b hb hab
    simp only [dif_pos ha, dif_pos hb]
    exact h4 _ _ hab
  · intro a ha b hb
    have := congrFun (congrFun h1 ⟨a, ha⟩) ⟨b, hb⟩
    rw [mul_apply, one_apply] at this
    simp only [Fin.mk.injEq] at this
    rw [← this, Finset.sum_range]
    apply Finset.sum_congr rfl
    intro i _
    rw [hat _ _ _ i.2, hat _ _ _ i.2, dif_pos ⟨i.2, ha⟩, dif_pos ⟨i.2, hb⟩]
    rfl
  · intro a ha b hb
    have := congrFun (congrFun h2 ⟨a, ha⟩) ⟨b, hb⟩
    rw [mul_apply, one_apply] at this
    simp only [Fin.mk.injEq] at this
    rw [← this, Finset.sum_range]
    apply Finset.sum_congr rfl
    intro i _
    rw [hat _ _ _ ha, hat _ _ _ hb, dif_pos ⟨ha, i.2⟩, dif_pos ⟨hb, i.2⟩]
    rfl
  · intro a ha b hb
    have := congrFun (congrFun h5 ⟨a, ha⟩) ⟨b, hb⟩
    rw [mul_apply] at this
    simp only [mul_diagonal] at this
    refine Eq.trans ?_ this.symm
    rw [Finset.sum_range]
    apply Finset.sum_congr rfl
    intro i _
    rw [hat _ _ _ ha, hat _ _ _ i.2, dif_pos ⟨ha, i.2⟩, dif_pos ⟨i.2, hb⟩]
    dsimp only
    rw [dif_pos i.2]

/-- A decomposition routine for square real matrices. -/
noncomputable def someSvdFull (n : Nat) (B : DMat ℝ) : DMat ℝ × (Nat → ℝ) × DMat ℝ := (exists_svdOk n B).choose

/-- **Non-vacuity of C134**: all hypotheses of `svdTall_partial` and `svdFat_partial` are met for every real matrix of shape `(3, 2)` on two processes (two rows and one row), and its transpose. -/
example (A : Nat → DMat ℝ) (hw : ∀ r < 2, (A r).width = 2) (h0 : (A 0).rows.length = 2) (h1 : (A 1).rows.length = 1) :
    ∃ U S Vt, svdTall realQr (someSvdFull 2) 2 2 2 A = some (U, S, Vt) ∧ ∀ i < 2, ∀ j < 2, ∑ t ∈ Finset.range 2, (U 0).at i t * S t * Vt.at t j = (A 0).at i j := by
  obtain ⟨U, S, Vt, e, -, -, -, -, -, h, -⟩ := svdTall_partial realQr (someSvdFull 2) (n := 2) (m := 2) (P := 2) (by decide) (by decide) A (fun B hB => realQr_ok 2 B hB) (fun B _ _ => (exists_svdOk 2 B).choose_spec) hw (fun r hr => by interval_cases r <;> omega) ⟨0, by decide, by omega⟩
  exact ⟨U, S, Vt, e, fun i hi j hj => h 0 (by decide) i (by omega) j hj⟩

example (A : Nat → DMat ℝ) (hw : ∀ r < 2, (A r).rows.length = 2) (h0 : (A 0).width = 2) (h1 : (A 1).width = 1) :
    ∃ U S Vt, svdFat realQr (someSvdFull 2) 2 2 2 A = some (U, S, Vt) ∧ ∀ i < 2, ∀ j < 2, ∑ t ∈ Finset.range 2, U.at i t * S t * (Vt 0).at t j = (A 0).at i j := by
  obtain ⟨U, S, Vt, e, -, -, -, -, -, h, -⟩ := svdFat_partial realQr (someSvdFull 2) (M := 2) (m := 2) (P := 2) (by decide) (by decide) A (fun B hB => realQr_ok 2 B hB) (fun B _ _ => (exists_svdOk 2 B).choose_spec) hw (fun r hr => by interval_cases r <;> omega) ⟨0, by decide, by omega⟩
  exact ⟨U, S, Vt, e, fun i hi j hj => h 0 (by decide) i hi j (by omega)⟩

example : svdBranch 4 100 3 (some 0) 25 = .tall ∧ svdBranch 4 3 100 (some 1) 25 = .fat ∧ svdBranch 4 100 30 (some 0) 25 = .polar ∧ svdBranch 4 30 100 (some 0) 8 = .wide ∧ svdBranch 4 30 30 none 30 = .single := by decide

end Real

end Heat
