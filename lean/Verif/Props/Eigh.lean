import Verif.Model.Eigh
import Mathlib.LinearAlgebra.Matrix.PosDef
import Mathlib.Analysis.Matrix.Spectrum
import Mathlib.Analysis.Matrix.Order
import Mathlib.Tactic.Linarith
import Mathlib.Tactic.Ring
import Mathlib.Tactic.NoncommRing
import Mathlib.Tactic.FinCases
/-!
# C155: symmetric eigenvalue decomposition
-/
namespace Heat
open Matrix

/-- What is required of the external operations: LAPACK diagonalises symmetric matrices, the factor `Q` is orthogonal. -/
structure EighOk (o : EighOps) : Prop where
  asc : ∀ n A, A.IsSymm → ∀ i j, i ≤ j → (o.teigh n A).1 i ≤ (o.teigh n A).1 j
  orth : ∀ n A, A.IsSymm → (o.teigh n A).2ᵀ * (o.teigh n A).2 = 1
  dec : ∀ n A, A.IsSymm → A = (o.teigh n A).2 * diagonal (o.teigh n A).1 * (o.teigh n A).2ᵀ
  qr : ∀ it n X, (o.qr it n X)ᵀ * o.qr it n X = 1

section fro
variable {m n p q : Type} [Fintype m] [Fintype n] [Fintype p] [Fintype q]

theorem fro2_trace (M : Matrix m n ℝ) : fro2 M = (Mᵀ * M).trace := by
  unfold fro2 Matrix.trace
  rw [Finset.sum_comm]
  refine Finset.sum_congr rfl fun j _ => ?_
  rw [diag_apply, mul_apply]
  exact Finset.sum_congr rfl fun i _ => by rw [transpose_apply]; ring

theorem fro2_nonneg (M : Matrix m n ℝ) : 0 ≤ fro2 M :=
  Finset.sum_nonneg fun _ _ => Finset.sum_nonneg fun _ _ => sq_nonneg _

theorem fro2_transpose (M : Matrix m n ℝ) : fro2 Mᵀ = fro2 M := by
  unfold fro2; rw [Finset.sum_comm]; rfl

theorem fro2_orth [DecidableEq n] (M Q : Matrix n n ℝ) (h : Qᵀ * Q = 1) : fro2 (Qᵀ * M * Q) = fro2 M := by
  have h' : Q * Qᵀ = 1 := mul_eq_one_comm.mp h
  rw [fro2_trace, fro2_trace]
  have e : (Qᵀ * M * Q)ᵀ * (Qᵀ * M * Q) = Qᵀ * (Mᵀ * M) * Q := by
    rw [transpose_mul, transpose_mul, transpose_transpose]
    calc Qᵀ * (Mᵀ * Q) * (Qᵀ * M * Q) = Qᵀ * Mᵀ * (Q * Qᵀ) * M * Q := by simp only [Matrix.mul_assoc]
      _ = _ := by rw [h', Matrix.mul_one]; simp only [Matrix.mul_assoc]
  rw [e, Matrix.trace_mul_comm, ← Matrix.mul_assoc, h', Matrix.one_mul]

theorem fro2_equiv (M : Matrix m n ℝ) (e : p ≃ m) (f : q ≃ n) : fro2 (M.submatrix e f) = fro2 M := by
  unfold fro2
  rw [← e.sum_comp]
  exact Finset.sum_congr rfl fun i _ => by rw [← f.sum_comp]; rfl

theorem fro2_blocks (A : Matrix m n ℝ) (B : Matrix m q ℝ) (C : Matrix p n ℝ) (D : Matrix p q ℝ) :
    fro2 (fromBlocks A B C D) = fro2 A + fro2 B + (fro2 C + fro2 D) := by
  unfold fro2
  rw [Fintype.sum_sum_type]
  simp only [Fintype.sum_sum_type, fromBlocks_apply₁₁, fromBlocks_apply₁₂, fromBlocks_apply₂₁, fromBlocks_apply₂₂, Finset.sum_add_distrib]

theorem fro2_eq_zero (M : Matrix m n ℝ) (h : fro2 M = 0) : M = 0 := by
  ext i j
  have h1 := (Finset.sum_eq_zero_iff_of_nonneg (f := fun i => ∑ j, M i j ^ 2) (fun _ _ => Finset.sum_nonneg fun _ _ => sq_nonneg _)).1 h i (Finset.mem_univ _)
  have h2 := (Finset.sum_eq_zero_iff_of_nonneg (f := fun j => M i j ^ 2) (fun _ _ => sq_nonneg _)).1 h1 j (Finset.mem_univ _)
  exact pow_eq_zero_iff (two_ne_zero) |>.1 h2

@[simp] theorem fro2_zero : fro2 (0 : Matrix m n ℝ) = 0 := by simp [fro2]
end fro

/-- The residual of a decomposition. -/
noncomputable def eigRes {n : ℕ} (A : RMat n) (lam : Fin n → ℝ) (V : RMat n) : ℝ := fro2 (A - V * diagonal lam * Vᵀ)

theorem subIter_orth (o : EighOps) (ho : EighOk o) {k n : ℕ} (h : k ≤ n) (A C : RMat n) (left it : ℕ) (X : List (Fin n → ℝ)) :
    (subIter o h A C left it X).1ᵀ * (subIter o h A C left it X).1 = 1 := by
  induction left generalizing it X with
  | zero => exact ho.qr _ _ _
  | succ left ih =>
    rw [subIter]
    split
    · exact ho.qr _ _ _
    · exact ih _ _

theorem subIter_conv (o : EighOps) {k n : ℕ} (h : k ≤ n) (A C : RMat n) (left it : ℕ) (X : List (Fin n → ℝ))
    (hc : (subIter o h A C left it X).2 = true) : fro2 (eighE h A (subIter o h A C left it X).1) < o.tol ^ 2 * fro2 A := by
  induction left generalizing it X with
  | zero => simpa [subIter] using hc
  | succ left ih =>
    rw [subIter] at hc ⊢
    split
    · assumption
    · rename_i hn; rw [if_neg hn] at hc; exact ih _ _ hc

/-- Four blocks of `Qᵀ A Q`. -/
theorem blocks_eq {k n : ℕ} (h : k ≤ n) (A Q : RMat n) (hA : A.IsSymm) :
    (Qᵀ * A * Q).submatrix (blockEquiv h) (blockEquiv h) =
      fromBlocks ((Qᵀ * A * Q).submatrix (fun i => blockEquiv h (.inl i)) (fun i => blockEquiv h (.inl i))) (eighE h A Q)ᵀ (eighE h A Q)
        ((Qᵀ * A * Q).submatrix (fun i => blockEquiv h (.inr i)) (fun i => blockEquiv h (.inr i))) := by
  have hE : eighE h A Q = (Qᵀ * A * Q).submatrix (fun i => blockEquiv h (.inr i)) (fun i => blockEquiv h (.inl i)) := by
    unfold eighE lastCols firstCols
    rw [transpose_submatrix]
    ext i j
    simp only [mul_apply, submatrix_apply, id, Finset.sum_mul]
  have hs : (Qᵀ * A * Q)ᵀ = Qᵀ * A * Q := by
    rw [transpose_mul, transpose_mul, transpose_transpose, hA.eq, Matrix.mul_assoc]
  rw [hE, transpose_submatrix, hs]
  ext i j
  cases i <;> cases j <;> rfl

theorem merge_orth {k n : ℕ} (h : k ≤ n) (Q : RMat n) (hQ : Qᵀ * Q = 1) (r1 : EighRes k) (r2 : EighRes (n - k)) (nd : EighNode)
    (h1 : r1.Vᵀ * r1.V = 1) (h2 : r2.Vᵀ * r2.V = 1) : (eighMerge h Q r1 r2 nd).Vᵀ * (eighMerge h Q r1 r2 nd).V = 1 := by
  unfold eighMerge
  dsimp only
  rw [transpose_mul, Matrix.mul_assoc, ← Matrix.mul_assoc Qᵀ, hQ, Matrix.one_mul, transpose_submatrix, submatrix_mul_equiv, fromBlocks_transpose,
    fromBlocks_multiply]
  simp [h1, h2]

/-- The residual of the merged decomposition: those of the parts and twice the neglected block. -/
theorem merge_res {k n : ℕ} (h : k ≤ n) (A Q : RMat n) (hA : A.IsSymm) (hQ : Qᵀ * Q = 1) (r1 : EighRes k) (r2 : EighRes (n - k)) (nd : EighNode) :
    eigRes A (eighMerge h Q r1 r2 nd).lam (eighMerge h Q r1 r2 nd).V =
      2 * fro2 (eighE h A Q) +
      (eigRes ((Qᵀ * A * Q).submatrix (fun i => blockEquiv h (.inl i)) (fun i => blockEquiv h (.inl i))) r1.lam r1.V +
      eigRes ((Qᵀ * A * Q).submatrix (fun i => blockEquiv h (.inr i)) (fun i => blockEquiv h (.inr i))) r2.lam r2.V) := by
  unfold eigRes eighMerge
  dsimp only
  set W := (fromBlocks r1.V 0 0 r2.V).submatrix (blockEquiv h).symm (blockEquiv h).symm with hW
  set L := diagonal (fun i => Sum.elim r1.lam r2.lam ((blockEquiv h).symm i)) with hL
  have e1 : A - Q * W * L * (Q * W)ᵀ = Q * (Qᵀ * A * Q - W * L * Wᵀ) * Qᵀ := by
    have h' : Q * Qᵀ = 1 := mul_eq_one_comm.mp hQ
    rw [transpose_mul, Matrix.mul_sub, Matrix.sub_mul]
    congr 1
    · calc A = (Q * Qᵀ) * A * (Q * Qᵀ) := by rw [h', Matrix.one_mul, Matrix.mul_one]
        _ = _ := by simp only [Matrix.mul_assoc]
    · simp only [Matrix.mul_assoc]
  have e2 : fro2 (A - Q * W * L * (Q * W)ᵀ) = fro2 (Qᵀ * A * Q - W * L * Wᵀ) := by
    rw [e1]
    have := fro2_orth (Qᵀ * A * Q - W * L * Wᵀ) Qᵀ (by rw [transpose_transpose]; exact mul_eq_one_comm.mp hQ)
    rwa [transpose_transpose] at this
  rw [e2, ← fro2_equiv _ (blockEquiv h) (blockEquiv h)]
  have hLs : L = (fromBlocks (diagonal r1.lam) 0 0 (diagonal r2.lam)).submatrix (blockEquiv h).symm (blockEquiv h).symm := by
    rw [fromBlocks_diagonal, submatrix_diagonal_equiv]; rfl
  have hWL : (W * L * Wᵀ).submatrix (blockEquiv h) (blockEquiv h) =
      fromBlocks (r1.V * diagonal r1.lam * r1.Vᵀ) 0 0 (r2.V * diagonal r2.lam * r2.Vᵀ) := by
    rw [hLs, hW, transpose_submatrix, submatrix_mul_equiv, submatrix_mul_equiv, submatrix_submatrix, fromBlocks_transpose, fromBlocks_multiply,
      fromBlocks_multiply]
    simp
  rw [submatrix_sub, Pi.sub_apply, Pi.sub_apply, hWL, blocks_eq h A Q hA, sub_eq_add_neg, fromBlocks_neg, fromBlocks_add, fro2_blocks]
  simp only [← sub_eq_add_neg, neg_zero, add_zero]
  rw [fro2_transpose]
  ring

theorem conj_symm {n : ℕ} {m : Type} (A Q : RMat n) (hA : A.IsSymm) (f : m → Fin n) : ((Qᵀ * A * Q).submatrix f f).IsSymm := by
  unfold Matrix.IsSymm
  rw [transpose_submatrix, transpose_mul, transpose_mul, transpose_transpose, hA.eq, Matrix.mul_assoc]

theorem direct_orth (o : EighOps) (ho : EighOk o) {n : ℕ} (A : RMat n) (hA : A.IsSymm) : (eighDirect o n A).Vᵀ * (eighDirect o n A).V = 1 := by
  unfold eighDirect
  dsimp only
  rw [transpose_submatrix]
  have : ((o.teigh n A).2ᵀ.submatrix Fin.rev id) * ((o.teigh n A).2.submatrix id Fin.rev) = ((o.teigh n A).2ᵀ * (o.teigh n A).2).submatrix Fin.rev Fin.rev := by
    ext i j; simp [mul_apply]
  rw [this, ho.orth n A hA]
  exact submatrix_one _ Fin.rev_injective

theorem direct_dec (o : EighOps) (ho : EighOk o) {n : ℕ} (A : RMat n) (hA : A.IsSymm) :
    A = (eighDirect o n A).V * diagonal (eighDirect o n A).lam * (eighDirect o n A).Vᵀ := by
  conv_lhs => rw [ho.dec n A hA]
  unfold eighDirect
  dsimp only
  have hd : diagonal (fun i : Fin n => (o.teigh n A).1 i.rev) = (diagonal (o.teigh n A).1).submatrix Fin.revPerm Fin.revPerm := by
    rw [submatrix_diagonal_equiv]; rfl
  rw [hd, transpose_submatrix]
  have h1 : (o.teigh n A).2.submatrix id Fin.rev = (o.teigh n A).2.submatrix id Fin.revPerm := rfl
  have h2 : (o.teigh n A).2ᵀ.submatrix Fin.rev id = (o.teigh n A).2ᵀ.submatrix Fin.revPerm id := rfl
  rw [h1, h2, submatrix_mul_equiv, submatrix_mul_equiv, submatrix_id_id]

theorem eighProcs1_lt (o : EighOps) (k n : ℕ) {P : ℕ} (h : 1 < P) : eighProcs1 o k n P < P ∧ P - eighProcs1 o k n P < P ∧
    0 < eighProcs1 o k n P ∧ 0 < P - eighProcs1 o k n P := by
  unfold eighProcs1; omega

/-- Induction over the divisions. -/
theorem eigh_induct (o : EighOps) (motive : (P orig lmin depth n : ℕ) → (A : RMat n) → EighRes n → Prop)
    (hd : ∀ P orig lmin depth n A, n ≤ orig ∨ P ≤ 1 → motive P orig lmin depth n A (eighDirect o n A))
    (hs : ∀ P orig lmin depth n (A : RMat n), orig < n → 1 < P → ∀ (hk : eighK o P A ≤ n) (r1 : EighRes (eighK o P A)) (r2 : EighRes (n - eighK o P A)) orig' l1 l2,
      motive (eighProcs1 o (eighK o P A) n P) orig' l1 (depth + 1) (eighK o P A)
        (((subspaceIteration o depth hk A (eighC o P A)).1ᵀ * A * (subspaceIteration o depth hk A (eighC o P A)).1).submatrix
          (fun i => blockEquiv hk (.inl i)) (fun i => blockEquiv hk (.inl i))) r1 →
      motive (P - eighProcs1 o (eighK o P A) n P) orig' l2 (depth + 1) (n - eighK o P A)
        (((subspaceIteration o depth hk A (eighC o P A)).1ᵀ * A * (subspaceIteration o depth hk A (eighC o P A)).1).submatrix
          (fun i => blockEquiv hk (.inr i)) (fun i => blockEquiv hk (.inr i))) r2 →
      motive P orig lmin depth n A (eighMerge hk (subspaceIteration o depth hk A (eighC o P A)).1 r1 r2
        ⟨n, eighK o P A, hk, A, o.polar P n (A - medianDiag A • (1 : RMat n)), eighC o P A, (subspaceIteration o depth hk A (eighC o P A)).1,
          (subspaceIteration o depth hk A (eighC o P A)).2⟩))
    (P orig lmin depth n : ℕ) (A : RMat n) (r : EighRes n) (hr : eighRec o P orig lmin depth n A = some r) : motive P orig lmin depth n A r := by
  induction P using Nat.strong_induction_on generalizing orig lmin depth n A r with
  | _ P ih =>
    rw [eighRec] at hr
    split at hr
    · rename_i h; cases hr; exact hd _ _ _ _ _ _ h
    · rename_i h
      rw [not_or] at h
      split at hr
      · rename_i hk
        have hP := eighProcs1_lt o (eighK o P A) n (P := P) (by omega)
        dsimp only at hr
        split at hr
        · rename_i r1 r2 e1 e2
          cases hr
          exact hs P orig lmin depth n A (by omega) (by omega) hk r1 r2 _ _ _ (ih _ hP.1 _ _ _ _ _ _ e1) (ih _ hP.2.1 _ _ _ _ _ _ e2)
        · simp at hr
      · simp at hr

/-- The neglected parts of all divisions. -/
noncomputable def neglected (l : List EighNode) : ℝ := (l.map fun nd => 2 * fro2 (eighE nd.le nd.A nd.Q)).sum

/-- **C155, residual.**  For every symmetric matrix, number of processes and tolerance, whatever polar decomposition and starting columns deliver:
`V` is orthogonal, and the squared Frobenius residual of `A = V diag(Lambda) Vᵀ` is exactly the sum of the neglected blocks. -/
theorem eigh_residual (o : EighOps) (ho : EighOk o) (P orig lmin depth n : ℕ) (A : RMat n) (hA : A.IsSymm) (r : EighRes n)
    (hr : eighRec o P orig lmin depth n A = some r) :
    r.Vᵀ * r.V = 1 ∧ eigRes A r.lam r.V = neglected r.nodes := by
  revert hA
  refine eigh_induct o (fun _ _ _ _ _ A r => A.IsSymm → r.Vᵀ * r.V = 1 ∧ eigRes A r.lam r.V = neglected r.nodes) ?_ ?_ P orig lmin depth n A r hr
  · intro P orig lmin depth n A _ hA
    refine ⟨direct_orth o ho A hA, ?_⟩
    unfold eigRes
    rw [← direct_dec o ho A hA, sub_self, fro2_zero]
    rfl
  · intro P orig lmin depth n A _ _ hk r1 r2 orig' l1 l2 ih1 ih2 hA
    have hQ : (subspaceIteration o depth hk A (eighC o P A)).1ᵀ * (subspaceIteration o depth hk A (eighC o P A)).1 = 1 := subIter_orth o ho _ _ _ _ _ _
    obtain ⟨o1, e1⟩ := ih1 (conj_symm A _ hA _)
    obtain ⟨o2, e2⟩ := ih2 (conj_symm A _ hA _)
    refine ⟨merge_orth hk _ hQ r1 r2 _ o1 o2, ?_⟩
    rw [merge_res hk A _ hA hQ, e1, e2]
    unfold neglected eighMerge
    dsimp only
    rw [List.map_cons, List.sum_cons, List.map_append, List.sum_append]

/-- **C155, error bound.**  If every subspace iteration has met its criterion, the relative residual is at most `sqrt (2 (P - 1)) * tol`. -/
theorem eigh_bound (o : EighOps) (ho : EighOk o) (P orig lmin depth n : ℕ) (A : RMat n) (hA : A.IsSymm) (r : EighRes n)
    (hr : eighRec o P orig lmin depth n A = some r) (hc : ∀ nd ∈ r.nodes, nd.converged = true) :
    r.Vᵀ * r.V = 1 ∧ eigRes A r.lam r.V ≤ 2 * o.tol ^ 2 * ((P - 1 : ℕ) : ℝ) * fro2 A := by
  refine ⟨(eigh_residual o ho P orig lmin depth n A hA r hr).1, ?_⟩
  rw [(eigh_residual o ho P orig lmin depth n A hA r hr).2]
  revert hA hc
  refine eigh_induct o (fun P _ _ _ _ A r => A.IsSymm → (∀ nd ∈ r.nodes, nd.converged = true) →
    neglected r.nodes ≤ 2 * o.tol ^ 2 * ((P - 1 : ℕ) : ℝ) * fro2 A) ?_ ?_ P orig lmin depth n A r hr
  · intro P orig lmin depth n A _ hA _
    show (0 : ℝ) ≤ _
    have := fro2_nonneg A
    have := sq_nonneg o.tol
    positivity
  · intro P orig lmin depth n A _ hP hk r1 r2 orig' l1 l2 ih1 ih2 hA hc
    set Q := (subspaceIteration o depth hk A (eighC o P A)).1 with hQd
    have hQ : Qᵀ * Q = 1 := subIter_orth o ho _ _ _ _ _ _
    have b1 := ih1 (conj_symm A _ hA _) fun nd h => hc nd (List.mem_cons_of_mem _ (List.mem_append_left _ h))
    have b2 := ih2 (conj_symm A _ hA _) fun nd h => hc nd (List.mem_cons_of_mem _ (List.mem_append_right _ h))
    have b0 : fro2 (eighE hk A Q) < o.tol ^ 2 * fro2 A := subIter_conv o hk A _ _ _ _ (hc _ List.mem_cons_self)
    have hfro : fro2 A = fro2 ((Qᵀ * A * Q).submatrix (fun i => blockEquiv hk (.inl i)) (fun i => blockEquiv hk (.inl i))) + fro2 (eighE hk A Q) +
        (fro2 (eighE hk A Q) + fro2 ((Qᵀ * A * Q).submatrix (fun i => blockEquiv hk (.inr i)) (fun i => blockEquiv hk (.inr i)))) := by
      rw [← fro2_orth A Q hQ, ← fro2_equiv _ (blockEquiv hk) (blockEquiv hk), blocks_eq hk A Q hA, fro2_blocks, fro2_transpose]
    set f1 := fro2 ((Qᵀ * A * Q).submatrix (fun i => blockEquiv hk (.inl i)) (fun i => blockEquiv hk (.inl i)))
    set f2 := fro2 ((Qᵀ * A * Q).submatrix (fun i => blockEquiv hk (.inr i)) (fun i => blockEquiv hk (.inr i)))
    have n1 : 0 ≤ f1 := fro2_nonneg _
    have n2 : 0 ≤ f2 := fro2_nonneg _
    have nE := fro2_nonneg (eighE hk A Q)
    have ht := sq_nonneg o.tol
    have hp := eighProcs1_lt o (eighK o P A) n hP
    have p1 : ((eighProcs1 o (eighK o P A) n P - 1 : ℕ) : ℝ) ≤ ((P - 2 : ℕ) : ℝ) := by exact_mod_cast (by omega)
    have p2 : ((P - eighProcs1 o (eighK o P A) n P - 1 : ℕ) : ℝ) ≤ ((P - 2 : ℕ) : ℝ) := by exact_mod_cast (by omega)
    have p3 : ((P - 1 : ℕ) : ℝ) = ((P - 2 : ℕ) : ℝ) + 1 := by exact_mod_cast (by omega)
    have c1 : neglected r1.nodes ≤ 2 * o.tol ^ 2 * ((P - 2 : ℕ) : ℝ) * f1 := b1.trans (by gcongr)
    have c2 : neglected r2.nodes ≤ 2 * o.tol ^ 2 * ((P - 2 : ℕ) : ℝ) * f2 := b2.trans (by gcongr)
    have c3 : 2 * o.tol ^ 2 * ((P - 2 : ℕ) : ℝ) * (f1 + f2) ≤ 2 * o.tol ^ 2 * ((P - 2 : ℕ) : ℝ) * fro2 A := by
      have : f1 + f2 ≤ fro2 A := by linarith
      gcongr
    have e : neglected (eighMerge hk Q r1 r2 ⟨n, eighK o P A, hk, A, o.polar P n (A - medianDiag A • (1 : RMat n)), eighC o P A, Q,
        (subspaceIteration o depth hk A (eighC o P A)).2⟩).nodes = 2 * fro2 (eighE hk A Q) + (neglected r1.nodes + neglected r2.nodes) := by
      unfold neglected eighMerge
      dsimp only
      rw [List.map_cons, List.sum_cons, List.map_append, List.sum_append]
    rw [e, p3]
    nlinarith

/-- What `polar` promises: an orthogonal factor `U` of `B = U H` with `H` symmetric and positive semidefinite. -/
def PolarFactor {n : ℕ} (U B : RMat n) : Prop := Uᵀ * U = 1 ∧ (Uᵀ * B).PosSemidef

theorem ct_eq {m n : Type} (M : Matrix m n ℝ) : Mᴴ = Mᵀ := by ext i j; simp [conjTranspose_apply]

theorem psd_sq_unique {n : ℕ} {K H : RMat n} (hK : K.PosDef) (hH : H.PosSemidef) (h : K * K = H * H) : K = H := by
  have hKt : Kᵀ = K := by rw [← ct_eq]; exact hK.isHermitian
  have hHt : Hᵀ = H := by rw [← ct_eq]; exact hH.isHermitian
  set D := K - H with hD
  have hDt : Dᵀ = D := by rw [hD, transpose_sub, hKt, hHt]
  have e : D * K + H * D = 0 := by rw [hD]; noncomm_ring; rw [h]; abel_nf
  have t : (D * K * D).trace + (D * H * D).trace = 0 := by
    have := congrArg (fun M => (D * M).trace) e
    simp only [Matrix.mul_add, Matrix.trace_add, Matrix.mul_zero, Matrix.trace_zero] at this
    rw [← Matrix.mul_assoc, ← Matrix.mul_assoc] at this
    rw [← this]
    congr 1
    rw [Matrix.trace_mul_comm (D * K) D, Matrix.mul_assoc]
  have p1 : (D * K * D).PosSemidef := by
    have := hK.posSemidef.conjTranspose_mul_mul_same D
    rwa [ct_eq, hDt] at this
  have p2 : (D * H * D).PosSemidef := by
    have := hH.conjTranspose_mul_mul_same D
    rwa [ct_eq, hDt] at this
  have z : D * K * D = 0 := by
    rw [← p1.trace_eq_zero_iff]
    have := p1.trace_nonneg; have := p2.trace_nonneg
    linarith
  have zD : D = 0 := by
    have hv : ∀ x : Fin n → ℝ, D *ᵥ x = 0 := by
      intro x
      by_contra hx
      have := hK.dotProduct_mulVec_pos hx
      have e2 : star (D *ᵥ x) ⬝ᵥ K *ᵥ D *ᵥ x = x ⬝ᵥ (D * K * D) *ᵥ x := by
        rw [star_trivial, ← Matrix.mulVec_mulVec, ← Matrix.mulVec_mulVec, Matrix.dotProduct_mulVec x D, ← Matrix.mulVec_transpose, hDt]
      rw [e2, z] at this
      simp at this
    ext i j
    have := congrFun (hv (Pi.single j 1)) i
    simpa using this
  exact sub_eq_zero.1 (hD ▸ zD)

/-- The orthogonal polar factor of an invertible symmetric matrix is symmetric. -/
theorem polar_symm {n : ℕ} {U B : RMat n} (hB : B.IsSymm) (hd : B.det ≠ 0) (h : PolarFactor U B) : Uᵀ = U := by
  obtain ⟨hU, hH⟩ := h
  have hU' : U * Uᵀ = 1 := mul_eq_one_comm.mp hU
  set H := Uᵀ * B with hHd
  have hHt : Hᵀ = H := by rw [← ct_eq]; exact hH.isHermitian
  have hBU : B = U * H := by rw [hHd, ← Matrix.mul_assoc, hU', Matrix.one_mul]
  have hBU' : B = H * Uᵀ := by
    have := congrArg Matrix.transpose hBU
    rwa [hB.eq, transpose_mul, hHt] at this
  have hdH : H.det ≠ 0 := by
    intro h0; apply hd; rw [hBU, det_mul, h0, mul_zero]
  have hHp : H.PosDef := hH.posDef_iff_isUnit.2 ((Matrix.isUnit_iff_isUnit_det _).2 (isUnit_iff_ne_zero.2 hdH))
  have hK : (U * H * Uᵀ).PosSemidef := by
    have := hH.mul_mul_conjTranspose_same U
    rwa [ct_eq] at this
  have sq : H * H = (U * H * Uᵀ) * (U * H * Uᵀ) := by
    have a : B * B = H * H := by
      calc B * B = (H * Uᵀ) * (U * H) := by rw [← hBU', ← hBU]
        _ = H * (Uᵀ * U) * H := by simp only [Matrix.mul_assoc]
        _ = _ := by rw [hU, Matrix.mul_one]
    have b : B * B = U * (H * H) * Uᵀ := by
      calc B * B = (U * H) * (H * Uᵀ) := by rw [← hBU', ← hBU]
        _ = _ := by simp only [Matrix.mul_assoc]
    calc H * H = U * (H * H) * Uᵀ := a.symm.trans b
      _ = U * H * (Uᵀ * U) * H * Uᵀ := by rw [hU, Matrix.mul_one]; simp only [Matrix.mul_assoc]
      _ = _ := by simp only [Matrix.mul_assoc]
  have e := psd_sq_unique hHp hK sq
  have e2 : H * U = U * H := by
    calc H * U = U * H * Uᵀ * U := by rw [← e]
      _ = U * H * (Uᵀ * U) := by simp only [Matrix.mul_assoc]
      _ = _ := by rw [hU, Matrix.mul_one]
  have e3 : H * U = H * Uᵀ := by rw [e2, ← hBU, ← hBU']
  have hu : IsUnit H.det := isUnit_iff_ne_zero.2 hdH
  calc Uᵀ = H⁻¹ * (H * Uᵀ) := by rw [← Matrix.mul_assoc, nonsing_inv_mul _ hu, Matrix.one_mul]
    _ = H⁻¹ * (H * U) := by rw [e3]
    _ = U := by rw [← Matrix.mul_assoc, nonsing_inv_mul _ hu, Matrix.one_mul]

theorem blockEquiv_inl {k n : ℕ} (h : k ≤ n) (i : Fin k) : (blockEquiv h (.inl i)).val = i.val := by simp [blockEquiv]

theorem blockEquiv_inr {k n : ℕ} (h : k ≤ n) (i : Fin (n - k)) : (blockEquiv h (.inr i)).val = k + i.val := by simp [blockEquiv]

theorem firstCols_apply {k n : ℕ} (h : k ≤ n) (Q : RMat n) (i : Fin n) (j : Fin k) : firstCols h Q i j = Q i (blockEquiv h (.inl j)) := rfl

theorem lastCols_apply {k n : ℕ} (h : k ≤ n) (Q : RMat n) (i : Fin n) (j : Fin (n - k)) : lastCols h Q i j = Q i (blockEquiv h (.inr j)) := rfl

section node
variable {k n : ℕ} (h : k ≤ n) (A U Q : RMat n) (σ : ℝ)

theorem first_first (hQ : Qᵀ * Q = 1) : (firstCols h Q)ᵀ * firstCols h Q = 1 := by
  have : (firstCols h Q)ᵀ * firstCols h Q = (Qᵀ * Q).submatrix (fun i => blockEquiv h (.inl i)) (fun i => blockEquiv h (.inl i)) := by
    ext i j; simp [firstCols, mul_apply]
  rw [this, hQ]
  exact submatrix_one _ ((blockEquiv h).injective.comp Sum.inl_injective)

theorem last_last (hQ : Qᵀ * Q = 1) : (lastCols h Q)ᵀ * lastCols h Q = 1 := by
  have : (lastCols h Q)ᵀ * lastCols h Q = (Qᵀ * Q).submatrix (fun i => blockEquiv h (.inr i)) (fun i => blockEquiv h (.inr i)) := by
    ext i j; simp [lastCols, mul_apply]
  rw [this, hQ]
  exact submatrix_one _ ((blockEquiv h).injective.comp Sum.inr_injective)

theorem first_last (hQ : Qᵀ * Q = 1) : (firstCols h Q)ᵀ * lastCols h Q = 0 := by
  have : (firstCols h Q)ᵀ * lastCols h Q = (Qᵀ * Q).submatrix (fun i => blockEquiv h (.inl i)) (fun i => blockEquiv h (.inr i)) := by
    ext i j; simp [lastCols, firstCols, mul_apply]
  rw [this, hQ]
  ext i j
  rw [submatrix_apply, one_apply_ne, Matrix.zero_apply]
  exact fun hh => by cases (blockEquiv h).injective hh

/-- One division with exact ingredients: the neglected block is zero, the first block lies above the shift and the second one below it. -/
theorem node_split (hA : A.IsSymm) (hQ : Qᵀ * Q = 1) (hp : PolarFactor U (A - σ • (1 : RMat n))) (hd : (A - σ • (1 : RMat n)).det ≠ 0)
    (hC : (1 / 2 : ℝ) • (U + 1) = firstCols h Q * (firstCols h Q)ᵀ) :
    eighE h A Q = 0 ∧ ((firstCols h Q)ᵀ * (A - σ • (1 : RMat n)) * firstCols h Q).PosSemidef ∧
      (-((lastCols h Q)ᵀ * (A - σ • (1 : RMat n)) * lastCols h Q)).PosSemidef := by
  set B := A - σ • (1 : RMat n) with hBd
  have hB : B.IsSymm := by
    unfold Matrix.IsSymm; rw [hBd, transpose_sub, transpose_smul, transpose_one, hA.eq]
  have hs := polar_symm hB hd hp
  have hUe : U = (2 : ℝ) • (firstCols h Q * (firstCols h Q)ᵀ) - 1 := by
    rw [← hC, smul_smul]; norm_num
  have u1 : U * firstCols h Q = firstCols h Q := by
    rw [hUe, Matrix.sub_mul, Matrix.smul_mul, Matrix.mul_assoc, first_first h Q hQ, Matrix.mul_one, Matrix.one_mul, two_smul]; abel
  have u2 : U * lastCols h Q = -lastCols h Q := by
    rw [hUe, Matrix.sub_mul, Matrix.smul_mul, Matrix.mul_assoc, first_last h Q hQ, Matrix.mul_zero, smul_zero, Matrix.one_mul, zero_sub]
  have u1t : (firstCols h Q)ᵀ * U = (firstCols h Q)ᵀ := by
    have := congrArg Matrix.transpose u1; rwa [transpose_mul, hs] at this
  have u2t : (lastCols h Q)ᵀ * U = -(lastCols h Q)ᵀ := by
    have := congrArg Matrix.transpose u2; rwa [transpose_mul, hs, transpose_neg] at this
  obtain ⟨hU, hH⟩ := hp
  rw [hs] at hU hH
  have hHt : (U * B)ᵀ = U * B := by rw [← ct_eq]; exact hH.isHermitian
  have comm : B * U = U * B := by rw [← hHt, transpose_mul, hB.eq, hs]
  refine ⟨?_, ?_, ?_⟩
  · have e1 : (lastCols h Q)ᵀ * B * firstCols h Q = 0 := by
      have e : (lastCols h Q)ᵀ * B * firstCols h Q = -((lastCols h Q)ᵀ * B * firstCols h Q) := by
        calc (lastCols h Q)ᵀ * B * firstCols h Q = (lastCols h Q)ᵀ * B * (U * firstCols h Q) := by rw [u1]
          _ = (lastCols h Q)ᵀ * (B * U) * firstCols h Q := by simp only [Matrix.mul_assoc]
          _ = ((lastCols h Q)ᵀ * U) * B * firstCols h Q := by rw [comm]; simp only [Matrix.mul_assoc]
          _ = _ := by rw [u2t, Matrix.neg_mul, Matrix.neg_mul]
      ext i j
      have := congrFun (congrFun e i) j
      rw [neg_apply] at this
      rw [Matrix.zero_apply]; linarith
    have hz : (lastCols h Q)ᵀ * firstCols h Q = 0 := by
      have := congrArg Matrix.transpose (first_last h Q hQ)
      rwa [transpose_mul, transpose_transpose, transpose_zero] at this
    rw [hBd, Matrix.mul_sub, Matrix.sub_mul, Matrix.mul_smul, Matrix.mul_one, Matrix.smul_mul, hz, smul_zero, sub_zero] at e1
    exact e1
  · have := hH.conjTranspose_mul_mul_same (firstCols h Q)
    rw [ct_eq, ← Matrix.mul_assoc, u1t] at this
    exact this
  · have := hH.conjTranspose_mul_mul_same (lastCols h Q)
    rw [ct_eq, ← Matrix.mul_assoc, u2t, Matrix.neg_mul, Matrix.neg_mul] at this
    exact this
end node

/-- Spectrum bound: if `M - σ` is positive semidefinite and `M = V diag(lam) Vᵀ` with `V` orthogonal, all `lam` are at least `σ`. -/
theorem lam_ge {n : ℕ} {M V : RMat n} {lam : Fin n → ℝ} {σ : ℝ} (hV : Vᵀ * V = 1) (hM : M = V * diagonal lam * Vᵀ)
    (hp : (M - σ • (1 : RMat n)).PosSemidef) (i : Fin n) : σ ≤ lam i := by
  have := hp.conjTranspose_mul_mul_same V
  have e : Vᴴ * (M - σ • (1 : RMat n)) * V = diagonal lam - σ • (1 : RMat n) := by
    rw [ct_eq, Matrix.mul_sub, Matrix.sub_mul, Matrix.mul_smul, Matrix.mul_one, Matrix.smul_mul, hV, hM]
    congr 1
    calc Vᵀ * (V * diagonal lam * Vᵀ) * V = (Vᵀ * V) * diagonal lam * (Vᵀ * V) := by simp only [Matrix.mul_assoc]
      _ = _ := by rw [hV, Matrix.one_mul, Matrix.mul_one]
  rw [e] at this
  have := this.diag_nonneg (i := i)
  simp at this
  exact this

theorem lam_le {n : ℕ} {M V : RMat n} {lam : Fin n → ℝ} {σ : ℝ} (hV : Vᵀ * V = 1) (hM : M = V * diagonal lam * Vᵀ)
    (hp : (-(M - σ • (1 : RMat n))).PosSemidef) (i : Fin n) : lam i ≤ σ := by
  have hM' : -M = V * diagonal (fun i => -lam i) * Vᵀ := by
    have : diagonal (fun i => -lam i) = -diagonal lam := by rw [diagonal_neg]
    rw [this, Matrix.mul_neg, Matrix.neg_mul, ← hM]
  have := lam_ge (M := -M) (σ := -σ) hV hM' (by
    have e : -M - (-σ) • (1 : RMat n) = -(M - σ • (1 : RMat n)) := by rw [neg_smul]; abel
    rw [e]; exact hp) i
  linarith

/-- Exact ingredients of a division: `polar` has kept its promise, the shift is not an eigenvalue, and the first `k` columns of `Q` span the range
of the projection `C`. -/
def NodeExact (nd : EighNode) : Prop :=
  PolarFactor nd.U (nd.A - medianDiag nd.A • (1 : RMat nd.n)) ∧ (nd.A - medianDiag nd.A • (1 : RMat nd.n)).det ≠ 0 ∧
    nd.C = firstCols nd.le nd.Q * (firstCols nd.le nd.Q)ᵀ

/-- **C155, eigenvalues in descending order.**  For every symmetric matrix and number of processes: if the divisions had exact ingredients then
`A = V diag(Lambda) Vᵀ` with `V` orthogonal, and `Lambda` descends. -/
theorem eigh_exact_partial (o : EighOps) (ho : EighOk o) (P orig lmin depth n : ℕ) (A : RMat n) (hA : A.IsSymm) (r : EighRes n)
    (hr : eighRec o P orig lmin depth n A = some r) (hx : ∀ nd ∈ r.nodes, NodeExact nd) :
    r.Vᵀ * r.V = 1 ∧ A = r.V * diagonal r.lam * r.Vᵀ ∧ ∀ i j, i ≤ j → r.lam j ≤ r.lam i := by
  revert hA hx
  refine eigh_induct o (fun _ _ _ _ _ A r => A.IsSymm → (∀ nd ∈ r.nodes, NodeExact nd) →
    r.Vᵀ * r.V = 1 ∧ A = r.V * diagonal r.lam * r.Vᵀ ∧ ∀ i j, i ≤ j → r.lam j ≤ r.lam i) ?_ ?_ P orig lmin depth n A r hr
  · intro P orig lmin depth n A _ hA _
    refine ⟨direct_orth o ho A hA, direct_dec o ho A hA, ?_⟩
    intro i j hij
    exact ho.asc n A hA _ _ (Fin.rev_le_rev.2 hij)
  · intro P orig lmin depth n A _ hP hk r1 r2 orig' l1 l2 ih1 ih2 hA hx
    set Q := (subspaceIteration o depth hk A (eighC o P A)).1 with hQd
    have hQ : Qᵀ * Q = 1 := subIter_orth o ho _ _ _ _ _ _
    obtain ⟨o1, d1, a1⟩ := ih1 (conj_symm A _ hA _) fun nd h => hx nd (List.mem_cons_of_mem _ (List.mem_append_left _ h))
    obtain ⟨o2, d2, a2⟩ := ih2 (conj_symm A _ hA _) fun nd h => hx nd (List.mem_cons_of_mem _ (List.mem_append_right _ h))
    obtain ⟨x1, x2, x3⟩ := hx _ List.mem_cons_self
    dsimp only at x1 x2 x3
    obtain ⟨zE, up, dn⟩ := node_split hk A _ Q (medianDiag A) hA hQ x1 x2 x3
    have b1 : (firstCols hk Q)ᵀ * (A - medianDiag A • (1 : RMat n)) * firstCols hk Q =
        (Qᵀ * A * Q).submatrix (fun i => blockEquiv hk (.inl i)) (fun i => blockEquiv hk (.inl i)) - medianDiag A • 1 := by
      rw [Matrix.mul_sub, Matrix.sub_mul, Matrix.mul_smul, Matrix.mul_one, Matrix.smul_mul, first_first hk Q hQ]
      congr 1
    have b2 : (lastCols hk Q)ᵀ * (A - medianDiag A • (1 : RMat n)) * lastCols hk Q =
        (Qᵀ * A * Q).submatrix (fun i => blockEquiv hk (.inr i)) (fun i => blockEquiv hk (.inr i)) - medianDiag A • 1 := by
      rw [Matrix.mul_sub, Matrix.sub_mul, Matrix.mul_smul, Matrix.mul_one, Matrix.smul_mul, last_last hk Q hQ]
      congr 1
    rw [b1] at up
    rw [b2] at dn
    refine ⟨merge_orth hk _ hQ r1 r2 _ o1 o2, ?_, ?_⟩
    · have := merge_res hk A Q hA hQ r1 r2 ⟨n, eighK o P A, hk, A, o.polar P n (A - medianDiag A • (1 : RMat n)), eighC o P A, Q,
        (subspaceIteration o depth hk A (eighC o P A)).2⟩
      unfold eigRes at this
      rw [← d1, ← d2, sub_self, sub_self, zE, fro2_zero, fro2_zero, fro2_zero] at this
      exact sub_eq_zero.1 (fro2_eq_zero _ (this.trans (by ring)))
    · intro i j hij
      unfold eighMerge
      dsimp only
      have key : ∀ (a b : Fin (eighK o P A) ⊕ Fin (n - eighK o P A)), blockEquiv hk a ≤ blockEquiv hk b →
          Sum.elim r1.lam r2.lam b ≤ Sum.elim r1.lam r2.lam a := by
        intro a b hab
        cases a with
        | inl a =>
          cases b with
          | inl b => exact a1 a b (by rw [Fin.le_def, blockEquiv_inl, blockEquiv_inl] at hab; exact hab)
          | inr b => exact (lam_le o2 d2 dn b).trans (lam_ge o1 d1 up a)
        | inr a =>
          cases b with
          | inl b => exact absurd hab (by rw [Fin.le_def, blockEquiv_inl, blockEquiv_inr]; omega)
          | inr b => exact a2 a b (by rw [Fin.le_def, blockEquiv_inr, blockEquiv_inr] at hab; rw [Fin.le_def]; omega)
      exact key _ _ (by rw [Equiv.apply_symm_apply, Equiv.apply_symm_apply]; exact hij)

/-- The median of the diagonal lies between two diagonal entries. -/
theorem median_between {n : ℕ} (A : RMat n) (hn : 0 < n) : (∃ i, A i i ≤ medianDiag A) ∧ ∃ i, medianDiag A ≤ A i i := by
  unfold medianDiag
  set s := (List.ofFn fun i => A i i).mergeSort (fun a b => decide (a ≤ b)) with hs
  have hl : s.length = n := by rw [hs, List.length_mergeSort, List.length_ofFn]
  have hsort : s.Pairwise (fun a b => (decide (a ≤ b)) = true) := by
    rw [hs]
    exact List.pairwise_mergeSort (fun a b c h1 h2 => by simp at *; linarith) (fun a b => by simp; exact le_total a b) _
  have hmem : ∀ j < n, ∃ i, A i i = s.getD j 0 := by
    intro j hj
    have : s.getD j 0 ∈ s := by
      rw [List.getD_eq_getElem?_getD, List.getElem?_eq_getElem (by omega), Option.getD_some]
      exact List.getElem_mem _
    rw [hs, List.mem_mergeSort, List.mem_ofFn] at this
    exact this
  have hle : s.getD ((n - 1) / 2) 0 ≤ s.getD (n / 2) 0 := by
    rcases Nat.lt_or_ge ((n - 1) / 2) (n / 2) with h | h
    · have := List.pairwise_iff_getElem.1 hsort ((n - 1) / 2) (n / 2) (by omega) (by omega) h
      rw [List.getD_eq_getElem?_getD, List.getElem?_eq_getElem (by omega), List.getD_eq_getElem?_getD, List.getElem?_eq_getElem (by omega)]
      simpa using this
    · have : (n - 1) / 2 = n / 2 := by omega
      rw [this]
  dsimp only
  obtain ⟨i, hi⟩ := hmem ((n - 1) / 2) (by omega)
  obtain ⟨j, hj⟩ := hmem (n / 2) (by omega)
  exact ⟨⟨i, by rw [hi]; linarith⟩, ⟨j, by rw [hj]; linarith⟩⟩

theorem psd_pos {n : ℕ} {H : RMat n} (hH : H.PosSemidef) (hd : H.det ≠ 0) : H.PosDef :=
  hH.posDef_iff_isUnit.2 ((Matrix.isUnit_iff_isUnit_det _).2 (isUnit_iff_ne_zero.2 hd))

theorem first_add_last {k n : ℕ} (h : k ≤ n) (Q : RMat n) :
    firstCols h Q * (firstCols h Q)ᵀ + lastCols h Q * (lastCols h Q)ᵀ = Q * Qᵀ := by
  ext i j
  rw [Matrix.add_apply, Matrix.mul_apply, Matrix.mul_apply, Matrix.mul_apply, ← (blockEquiv h).sum_comp, Fintype.sum_sum_type]
  rfl

/-- What every recorded division satisfies. -/
theorem eigh_nodes (o : EighOps) (ho : EighOk o) (P orig lmin depth n : ℕ) (A : RMat n) (hA : A.IsSymm) (r : EighRes n)
    (hr : eighRec o P orig lmin depth n A = some r) :
    ∀ nd ∈ r.nodes, nd.A.IsSymm ∧ nd.Qᵀ * nd.Q = 1 ∧ nd.C = (1 / 2 : ℝ) • (nd.U + 1) ∧ 0 < nd.n := by
  revert hA
  refine eigh_induct o (fun _ _ _ _ _ A r => A.IsSymm → ∀ nd ∈ r.nodes, nd.A.IsSymm ∧ nd.Qᵀ * nd.Q = 1 ∧ nd.C = (1 / 2 : ℝ) • (nd.U + 1) ∧ 0 < nd.n)
    ?_ ?_ P orig lmin depth n A r hr
  · intro P orig lmin depth n A _ hA nd hnd
    exact absurd hnd (by simp [eighDirect])
  · intro P orig lmin depth n A hn hP hk r1 r2 orig' l1 l2 ih1 ih2 hA nd hnd
    rcases List.mem_cons.1 hnd with rfl | hnd
    · exact ⟨hA, subIter_orth o ho _ _ _ _ _ _, rfl, by dsimp only; omega⟩
    · rcases List.mem_append.1 hnd with hnd | hnd
      · exact ih1 (conj_symm A _ hA _) nd hnd
      · exact ih2 (conj_symm A _ hA _) nd hnd

/-- **C155, every division makes progress**: with exact ingredients both problems are nonempty and smaller, because the shift is the median of
the diagonal. -/
theorem eigh_parts_partial (o : EighOps) (ho : EighOk o) (P orig lmin depth n : ℕ) (A : RMat n) (hA : A.IsSymm) (r : EighRes n)
    (hr : eighRec o P orig lmin depth n A = some r) (nd : EighNode) (hnd : nd ∈ r.nodes) (hx : NodeExact nd) : 0 < nd.k ∧ nd.k < nd.n := by
  obtain ⟨hs, hQ, hC, hn⟩ := eigh_nodes o ho P orig lmin depth n A hA r hr nd hnd
  obtain ⟨n, k, le, A, U, C, Q, cv⟩ := nd
  obtain ⟨⟨hU, hH⟩, hd, hx⟩ := hx
  dsimp only at *
  obtain ⟨⟨i, hi⟩, ⟨j, hj⟩⟩ := median_between A hn
  constructor
  · by_contra h0
    have h0 : k = 0 := by omega
    subst h0
    have z : firstCols le Q * (firstCols le Q)ᵀ = 0 := by ext a b; rw [Matrix.mul_apply]; simp
    have hUe : U = -1 := by
      have : (1 / 2 : ℝ) • (U + 1) = 0 := by rw [← hC, hx, z]
      rw [smul_eq_zero] at this
      rcases this with h | h
      · norm_num at h
      · exact eq_neg_of_add_eq_zero_left h
    rw [hUe, transpose_neg, transpose_one, Matrix.neg_mul, Matrix.one_mul] at hH
    have hp := psd_pos hH (by rw [det_neg]; exact mul_ne_zero (pow_ne_zero _ (by norm_num)) hd)
    have := hp.diag_pos (i := j)
    simp at this
    linarith
  · by_contra h0
    have h0 : k = n := by omega
    subst h0
    have z : lastCols le Q * (lastCols le Q)ᵀ = 0 := by
      ext a b; rw [Matrix.mul_apply]
      exact Finset.sum_eq_zero fun x _ => absurd x.2 (by omega)
    have hUe : U = 1 := by
      have h1 := first_add_last le Q
      rw [z, add_zero, mul_eq_one_comm.mp hQ] at h1
      have : (1 / 2 : ℝ) • (U + 1) = 1 := by rw [← hC, hx, h1]
      have h2 : U + 1 = (2 : ℝ) • (1 : RMat k) := by
        have h3 := congrArg (fun M => (2 : ℝ) • M) this
        rw [smul_smul, show (2 : ℝ) * (1 / 2) = 1 by norm_num, one_smul] at h3
        exact h3
      rw [two_smul] at h2
      exact add_right_cancel h2
    rw [hUe, transpose_one, Matrix.one_mul] at hH
    have := (psd_pos hH hd).diag_pos (i := i)
    simp at this
    linarith

/-- **C155, counterexample**: for a multiple of the identity the shifted matrix is zero; `polar` divides it by its norm. -/
theorem eigh_scalar_violated (n : ℕ) (c : ℝ) (hn : 0 < n) :
    polarStart (c • (1 : RMat n) - medianDiag (c • (1 : RMat n)) • (1 : RMat n)) = none := by
  have hm : medianDiag (c • (1 : RMat n)) = c := by
    obtain ⟨⟨i, hi⟩, ⟨j, hj⟩⟩ := median_between (c • (1 : RMat n)) hn
    simp at hi hj
    linarith
  rw [hm, sub_self]
  unfold polarStart
  rw [if_pos fro2_zero]

theorem share_sum (k P : ℕ) (hP : 0 < P) : ((List.range P).map fun i => k / P + if i < k % P then 1 else 0).sum = k := by
  have key : ∀ m ≤ P, ((List.range m).map fun i => k / P + if i < k % P then 1 else 0).sum = m * (k / P) + min m (k % P) := by
    intro m hm
    induction m with
    | zero => simp
    | succ m ih =>
      rw [List.range_succ, List.map_append, List.sum_append, ih (by omega), List.map_singleton, List.sum_singleton, Nat.succ_mul]
      split <;> omega
  rw [key P (Nat.le_refl _)]
  have := Nat.mod_lt k hP
  have := Nat.div_add_mod k P
  rw [Nat.min_eq_right (by omega)]
  omega

theorem sliceBy_append {α : Type} (a b : List ℕ) (l : List α) : sliceBy (a ++ b) l = sliceBy a l ++ sliceBy b (l.drop a.sum) := by
  induction a generalizing l with
  | nil => simp [sliceBy]
  | cons m a ih => simp only [List.cons_append, sliceBy, ih, List.drop_drop, List.sum_cons]

theorem sliceBy_flatten {α : Type} (a : List ℕ) (l : List α) : (sliceBy a l).flatten = l.take a.sum := by
  induction a generalizing l with
  | nil => simp [sliceBy]
  | cons m a ih => rw [sliceBy, List.flatten_cons, ih, List.sum_cons, List.take_add]

theorem sliceBy_length {α : Type} (a : List ℕ) (l : List α) : (sliceBy a l).length = a.length := by
  induction a generalizing l with
  | nil => rfl
  | cons m a ih => rw [sliceBy, List.length_cons, List.length_cons, ih]

/-- **C155, distribution.**  After the redistribution the first `P1` processes hold exactly the first `k` slabs and the others the remaining ones;
what they cut out are the two diagonal blocks. -/
theorem eigh_local (k n P1 P2 : ℕ) (hk : k ≤ n) (h1 : 0 < P1) (h2 : 0 < P2) {α : Type} (rows : List (List α)) (hl : rows.length = n) :
    (((sliceBy (eighLshapes k n P1 P2) rows).take P1).map (eighLocal k P1 0)).flatten = (rows.take k).map (List.take k) ∧
    (((sliceBy (eighLshapes k n P1 P2) rows).drop P1).map (eighLocal k P1 P1)).flatten = (rows.drop k).map (List.drop k) ∧
    ∀ r r', (r < P1 ↔ r' < P1) → ∀ loc : List (List α), eighLocal k P1 r loc = eighLocal k P1 r' loc := by
  unfold eighLshapes
  rw [sliceBy_append, share_sum k P1 h1]
  have hlen : (sliceBy ((List.range P1).map fun i => k / P1 + if i < k % P1 then 1 else 0) rows).length = P1 := by
    rw [sliceBy_length, List.length_map, List.length_range]
  refine ⟨?_, ?_, ?_⟩
  · rw [List.take_append_of_le_length (by omega), List.take_of_length_le (by omega)]
    have : eighLocal k P1 0 = fun loc : List (List α) => loc.map (List.take k) := by
      funext loc; unfold eighLocal; simp [h1]
    rw [this, ← List.map_flatten, sliceBy_flatten, share_sum k P1 h1]
  · rw [List.drop_append, hlen, Nat.sub_self, List.drop_zero, List.drop_of_length_le (by omega), List.nil_append]
    have : eighLocal k P1 P1 = fun loc : List (List α) => loc.map (List.drop k) := by
      funext loc; unfold eighLocal; simp
    rw [this, ← List.map_flatten, sliceBy_flatten, share_sum (n - k) P2 h2, List.take_of_length_le (by rw [List.length_drop]; omega)]
  · intro r r' h loc
    unfold eighLocal
    by_cases hr : r < P1
    · simp [hr, h.1 hr]
    · have : ¬ r' < P1 := fun h' => hr (h.2 h')
      simp [hr, this]

/-- **C155, distribution of the eigenvectors**: however they are distributed over the two groups, filling up gives the slabs of the block
diagonal matrix in order. -/
theorem eigh_fill (k n P1 P2 : ℕ) (zero : ℝ) (V1 V2 : ℕ → List (List ℝ)) :
    ((List.range (P1 + P2)).map fun r => eighFill zero k n P1 r (if r < P1 then V1 r else V2 (r - P1))).flatten =
      (((List.range P1).map V1).flatten.map fun row => row ++ List.replicate (n - k) zero) ++
        ((List.range P2).map V2).flatten.map fun row => List.replicate k zero ++ row := by
  rw [List.range_add, List.map_append, List.flatten_append, List.map_map]
  congr 1
  · rw [List.map_flatten, List.map_map]
    congr 1
    refine List.map_congr_left fun r hr => ?_
    have := List.mem_range.1 hr
    simp [eighFill, this]
  · rw [List.map_flatten, List.map_map]
    congr 1
    refine List.map_congr_left fun r hr => ?_
    simp [eighFill]

/-- Operations that keep the requirements. -/
theorem eighOk_exists (polar : (P n : ℕ) → RMat n → RMat n) (share maxit : ℕ) (tol : ℝ) :
    ∃ o : EighOps, EighOk o ∧ o.polar = polar ∧ (o.qr = fun _ _ _ => 1) ∧ o.maxit = maxit ∧ o.tol = tol ∧ o.share = fun _ _ _ => share := by
  classical
  have ex : ∀ (n : ℕ) (A : RMat n), ∃ r : (Fin n → ℝ) × RMat n, A.IsSymm → (∀ i j, i ≤ j → r.1 i ≤ r.1 j) ∧ r.2ᵀ * r.2 = 1 ∧ A = r.2 * diagonal r.1 * r.2ᵀ := by
    intro n A
    by_cases hA : A.IsSymm
    · have hH : A.IsHermitian := by unfold Matrix.IsHermitian; rw [ct_eq]; exact hA
      set W : RMat n := (hH.eigenvectorUnitary : Matrix (Fin n) (Fin n) ℝ) with hW
      have hWo : Wᵀ * W = 1 := by
        have := (Matrix.mem_unitaryGroup_iff').1 hH.eigenvectorUnitary.2
        rwa [star_eq_conjTranspose, ct_eq] at this
      have hd : A = W * diagonal hH.eigenvalues * Wᵀ := by
        have := hH.spectral_theorem
        rw [Unitary.conjStarAlgAut_apply, star_eq_conjTranspose, ct_eq] at this
        exact this
      set p := Tuple.sort hH.eigenvalues
      refine ⟨(hH.eigenvalues ∘ p, W.submatrix id p), fun _ => ⟨?_, ?_, ?_⟩⟩
      · intro i j hij; exact Tuple.monotone_sort hH.eigenvalues hij
      · dsimp only
        have : (W.submatrix id p)ᵀ * W.submatrix id p = (Wᵀ * W).submatrix p p := by ext i j; simp [mul_apply]
        rw [this, hWo]; exact submatrix_one _ p.injective
      · dsimp only
        rw [← submatrix_diagonal_equiv, transpose_submatrix, submatrix_mul_equiv, submatrix_mul_equiv, submatrix_id_id]
        exact hd
    · exact ⟨(fun _ => 0, 0), fun h => absurd h hA⟩
  choose f hf using ex
  exact ⟨⟨f, polar, fun _ _ _ _ => [], fun _ _ _ => 1, fun _ _ _ => share, maxit, tol⟩,
    ⟨fun n A h => (hf n A h).1, fun n A h => (hf n A h).2.1, fun n A h => (hf n A h).2.2, fun _ _ _ => by simp⟩, rfl, rfl, rfl, rfl, rfl⟩

theorem first_one {k n : ℕ} (h : k ≤ n) : firstCols h (1 : RMat n) * (firstCols h (1 : RMat n))ᵀ = diagonal fun i => if i.val < k then 1 else 0 := by
  ext i j
  rw [Matrix.mul_apply]
  simp only [firstCols_apply, transpose_apply]
  by_cases hij : i = j
  · subst hij
    rw [diagonal_apply_eq]
    split
    · rename_i hi
      have e : i = blockEquiv h (.inl ⟨i.val, hi⟩) := Fin.ext (by rw [blockEquiv_inl])
      rw [Finset.sum_eq_single ⟨i.val, hi⟩]
      · rw [← e, one_apply_eq, mul_one]
      · intro b _ hb
        rw [one_apply_ne, zero_mul]
        intro hh; exact hb (by have := congrArg Fin.val hh; rw [blockEquiv_inl] at this; exact Fin.ext this.symm)
      · simp
    · rename_i hi
      refine Finset.sum_eq_zero fun b _ => ?_
      rw [one_apply_ne, zero_mul]
      intro hh; have := congrArg Fin.val hh; rw [blockEquiv_inl] at this; have := b.2; omega
  · rw [diagonal_apply_ne _ hij]
    refine Finset.sum_eq_zero fun b _ => ?_
    by_cases hb : i = blockEquiv h (.inl b)
    · rw [one_apply_ne (i := j), mul_zero]; rw [← hb]; exact fun hh => hij hh.symm
    · rw [one_apply_ne hb, zero_mul]

/-- The hypotheses of the theorems above are met by a run with a division. -/
theorem eigh_example : ∃ (o : EighOps) (A : RMat 2) (r : EighRes 2), EighOk o ∧ A = diagonal ![3, 1] ∧ A.IsSymm ∧ eighRec o 2 0 1 0 2 A = some r ∧ r.nodes.length = 1 ∧
    ∀ nd ∈ r.nodes, NodeExact nd ∧ nd.converged = true ∧ nd.n = 2 ∧ nd.k = 1 := by
  obtain ⟨o, ho, hpol, hqr, hmax, htol, hshare⟩ := eighOk_exists (fun _ n B => diagonal fun i => if 0 ≤ B i i then 1 else -1) 1 3 (1 / 100)
  have hA : (diagonal ![3, 1] : RMat 2).IsSymm := by unfold Matrix.IsSymm; rw [diagonal_transpose]
  set A : RMat 2 := diagonal ![3, 1] with hAd
  have hm : medianDiag A = 2 := by
    unfold medianDiag
    set s := (List.ofFn fun i => A i i).mergeSort (fun a b => decide (a ≤ b)) with hs
    have hp : s.Perm (List.ofFn fun i => A i i) := List.mergeSort_perm _ _
    have hl : s.length = 2 := by rw [hp.length_eq, List.length_ofFn]
    have hsum : s.sum = 4 := by rw [hp.sum_eq]; simp [hAd]; norm_num
    match s, hl, hsum with
    | [a, b], _, h => simp at h ⊢; linarith
  have hC : eighC o 2 A = diagonal ![1, 0] := by
    unfold eighC
    rw [hm, hpol]
    ext i j
    fin_cases i <;> fin_cases j <;> simp [hAd] <;> norm_num
  have hk : eighK o 2 A = 1 := by
    unfold eighK
    rw [hC]
    have : fro2 (diagonal ![(1 : ℝ), 0] : RMat 2) = 1 := by simp [fro2, Fin.sum_univ_two]
    rw [this]; simp
  have hkk : eighK o 2 A ≤ 2 := by omega
  have hit : ∀ (h : eighK o 2 A ≤ 2), subspaceIteration o 0 h A (eighC o 2 A) = (1, true) := by
    intro h
    unfold subspaceIteration
    rw [hmax]
    show subIter o h A _ 2 1 _ = _
    rw [subIter, hqr]
    rw [if_pos]
    have hz : eighE h A 1 = 0 := by
      unfold eighE
      ext i j
      simp only [Matrix.mul_apply, lastCols_apply, firstCols_apply, transpose_apply, hAd, diagonal_apply]
      refine Finset.sum_eq_zero fun x _ => ?_
      by_cases hx : x = blockEquiv h (.inl j)
      · rw [Finset.sum_eq_zero, zero_mul]
        intro y _
        by_cases hy : y = x
        · rw [hy, one_apply_ne, zero_mul]
          rw [hx]; intro hh; cases (blockEquiv h).injective hh
        · rw [if_neg hy, mul_zero]
      · rw [one_apply_ne hx, mul_zero]
    rw [hz, fro2_zero, htol]
    have : fro2 A = 10 := by simp [fro2, Fin.sum_univ_two, hAd]; norm_num
    rw [this]; norm_num
  have hp1 : ∀ k, eighProcs1 o k 2 2 = 1 := by intro k; unfold eighProcs1; rw [hshare]; rfl
  have hrec : ∃ r, eighRec o 2 0 1 0 2 A = some r ∧ r.nodes = [⟨2, eighK o 2 A, hkk, A, o.polar 2 2 (A - medianDiag A • (1 : RMat 2)), eighC o 2 A, 1, true⟩] := by
    rw [eighRec, dif_neg (by omega), dif_pos hkk]
    dsimp only
    rw [hp1, hit hkk]
    rw [eighRec, dif_pos (Or.inr (by omega)), eighRec, dif_pos (Or.inr (by omega))]
    exact ⟨_, rfl, rfl⟩
  obtain ⟨r, e, hn⟩ := hrec
  refine ⟨o, A, r, ho, hAd, hA, e, by rw [hn]; rfl, ?_⟩
  intro nd hnd
  rw [hn, List.mem_singleton] at hnd
  subst hnd
  refine ⟨⟨?_, ?_, ?_⟩, rfl, rfl, hk⟩
  · dsimp only
    rw [hm, hpol]
    have e1 : A - (2 : ℝ) • (1 : RMat 2) = diagonal ![1, -1] := by
      ext i j; fin_cases i <;> fin_cases j <;> simp [hAd] <;> norm_num
    have e2 : (diagonal fun i => if (0 : ℝ) ≤ (diagonal ![(1 : ℝ), -1] : RMat 2) i i then (1 : ℝ) else -1) = diagonal ![1, -1] := by
      ext i j; fin_cases i <;> fin_cases j <;> simp
    rw [e1]
    dsimp only
    rw [e2]
    have e3 : (diagonal ![(1 : ℝ), -1] : RMat 2)ᵀ * diagonal ![1, -1] = 1 := by
      rw [diagonal_transpose, diagonal_mul_diagonal]; ext i j; fin_cases i <;> fin_cases j <;> simp
    exact ⟨e3, by rw [e3]; exact PosSemidef.one⟩
  · dsimp only
    rw [hm, det_fin_two]; simp [hAd]; norm_num
  · dsimp only
    rw [first_one, hC, hk]
    ext i j; fin_cases i <;> fin_cases j <;> simp

example : sliceBy (eighLshapes 3 8 2 2) (List.range 8) = [[0, 1], [2], [3, 4, 5], [6, 7]] := by decide

example : eighFill 0 1 3 1 1 [[5, 6]] = [[0, 5, 6]] := by decide

end Heat
