import Verif.Model.Gallery
import Verif.Proof.Chunk
import Mathlib.Analysis.Matrix.Order
import Mathlib.LinearAlgebra.Matrix.Rank
import Mathlib.LinearAlgebra.Matrix.DotProduct
import Mathlib.Tactic.Linarith
import Mathlib.Tactic.FieldSimp
import Mathlib.Tactic.Ring
/-!
# C183: test matrices
-/
namespace Heat
open Matrix Spec
namespace Spec

/-- The Parter matrix (up to transposition). -/
def IsParter (n : Nat) (G : NArr ℚ) : Prop := G.ndim = 2 ∧ G.dim 0 = n ∧ G.dim 1 = n ∧ ∀ idx, G.get idx * ((idx 1 : ℚ) - (idx 0 : ℚ) + 1 / 2) = 1

/-- A function that returns orthonormal columns for matrices with at least as many rows as columns. -/
def IsOrthonormalizer (qr : ∀ m n, Matrix (Fin m) (Fin n) ℝ → Matrix (Fin m) (Fin n) ℝ) : Prop := ∀ m n, n ≤ m → ∀ R, (qr m n R)ᵀ * qr m n R = 1

end Spec

/-- The whole matrix. -/
def parterG (n : Nat) : NArr ℚ := ⟨2, fun _ => n, fun idx => 1 / (((idx 1 : Nat) : ℚ) - ((idx 0 : Nat) : ℚ) + 1 / 2)⟩

theorem parter_ne (i j : Nat) : ((j : ℚ) - (i : ℚ) + 1 / 2) ≠ 0 := by
  intro h
  have h2 : (2 * (j : ℤ) - 2 * (i : ℤ) + 1 : ℤ) = 0 := by
    have : ((2 * (j : ℤ) - 2 * (i : ℤ) + 1 : ℤ) : ℚ) = 0 := by
      push_cast
      linarith
    exact_mod_cast this
  omega

theorem parterG_spec (n : Nat) : IsParter n (parterG n) := by
  refine ⟨rfl, rfl, rfl, fun idx => ?_⟩
  unfold parterG
  dsimp only
  exact one_div_mul_cancel (parter_ne _ _)

theorem parter_start (n P : Nat) (s : Nat) (r : Nat) (hs : s = 0 ∨ s = 1) : axisStart (parterLoc n P (some s)) s r = (chunkRange n r P).1 := by
  unfold axisStart
  induction r with
  | zero => rw [chunkRange_zero]; rfl
  | succ r ih =>
    rw [List.range_succ, List.map_append, List.sum_append, ih, chunkRange_succ]
    have : (chunkRange n r P).1 ≤ (chunkRange n r P).2 := by
      rw [← chunkRange_succ]
      exact chunkRange_mono _ _ (Nat.le_succ r)
    rcases hs with rfl | rfl
    · simp [parterLoc, parterRange]
      omega
    · simp [parterLoc, parterRange]
      omega

/-- **C183.**  `parter(n, split)` is the same Toeplitz matrix for every split and number of processes; no entry divides by zero. -/
theorem parter_spec (n P : Nat) (hP : 0 < P) (split : Option Int) : (split = none ∨ split = some 0 ∨ split = some 1) → ∃ x G, parter n P split = .ok x ∧ IsParter n G ∧ Rep P x G ∧ x.split.map Int.ofNat = split := by
  have hloc : Local (parterG n) := fun i j h => by
    unfold parterG
    dsimp only
    rw [h 0 Nat.zero_lt_two, h 1 Nat.one_lt_two]
  rintro (rfl | rfl | rfl)
  · refine ⟨_, parterG n, rfl, parterG_spec n, ⟨hloc, rfl, ?_, fun _ _ => rfl, fun r _ => ⟨?_, ?_⟩⟩, rfl⟩
    · intro k hk
      have : k < 2 := hk
      interval_cases k <;> rfl
    · intro k hk
      have : k < 2 := hk
      interval_cases k <;> rfl
    · intro idx _
      simp [parterLoc, parterRange, parterG]
  · refine ⟨_, parterG n, rfl, parterG_spec n, ⟨hloc, rfl, ?_, fun _ _ => rfl, Nat.zero_lt_two, ?_, fun r _ => ⟨?_, ?_⟩⟩, rfl⟩
    · intro k hk
      have : k < 2 := hk
      interval_cases k <;> rfl
    · show axisStart (parterLoc n P (some 0)) 0 P = n
      rw [parter_start _ _ _ _ (Or.inl rfl), chunkRange_at_P _ _ hP]
    · intro k hk hk0
      have : k < 2 := hk
      have : k = 1 := by omega
      subst this
      simp [parterLoc, parterRange, parterG]
    · intro idx _
      show (parterLoc n P (some 0) r).get idx = (parterG n).get (shift 0 (axisStart (parterLoc n P (some 0)) 0 r) idx)
      rw [parter_start _ _ _ _ (Or.inl rfl)]
      simp [parterLoc, parterRange, parterG, shift, add_comm]
  · refine ⟨_, parterG n, rfl, parterG_spec n, ⟨hloc, rfl, ?_, fun _ _ => rfl, Nat.one_lt_two, ?_, fun r _ => ⟨?_, ?_⟩⟩, rfl⟩
    · intro k hk
      have : k < 2 := hk
      interval_cases k <;> rfl
    · show axisStart (parterLoc n P (some 1)) 1 P = n
      rw [parter_start _ _ _ _ (Or.inr rfl), chunkRange_at_P _ _ hP]
    · intro k hk hk0
      have : k < 2 := hk
      have : k = 0 := by omega
      subst this
      simp [parterLoc, parterRange, parterG]
    · intro idx _
      show (parterLoc n P (some 1) r).get idx = (parterG n).get (shift 1 (axisStart (parterLoc n P (some 1)) 1 r) idx)
      rw [parter_start _ _ _ _ (Or.inr rfl)]
      simp [parterLoc, parterRange, parterG, shift, add_comm]

/-- **C183.**  Negative and other split axes are refused. -/
theorem parter_refused (n P : Nat) {s : Int} (h0 : s ≠ 0) (h1 : s ≠ 1) : parter n P (some s) = .error .valueError := by
  unfold parter
  dsimp only
  rw [if_neg h0, if_neg h1]

/-- **C183.**  `hermitian` returns a Hermitian matrix for all random numbers. -/
theorem hermitian_spec {K : Type} [RCLike K] {n : Nat} (b : Bool) (R : Matrix (Fin n) (Fin n) K) : (hermitianMat b R).IsHermitian := by
  unfold hermitianMat
  cases b with
  | false => exact isHermitian_add_transpose_self R
  | true =>
    rw [if_pos rfl]
    unfold IsHermitian
    rw [conjTranspose_smul, conjTranspose_mul, conjTranspose_conjTranspose]
    congr 1
    simp

open ComplexOrder in
/-- **C183.**  With `positive_definite` the matrix is positive semidefinite, and definite exactly if the random matrix is invertible. -/
theorem hermitian_definite {K : Type} [RCLike K] {n : Nat} (hn : 0 < n) (R : Matrix (Fin n) (Fin n) K) : (hermitianMat true R).PosSemidef ∧ ((hermitianMat true R).PosDef ↔ IsUnit R) := by
  have hp : (0 : K) < 1 / (n : K) := by
    have : (0 : K) < (n : K) := by exact_mod_cast hn
    exact one_div_pos.mpr this
  unfold hermitianMat
  rw [if_pos rfl]
  have h1 := posSemidef_self_mul_conjTranspose R
  have h2 := h1.smul hp.le
  refine ⟨h2, ?_⟩
  rw [h2.posDef_iff_isUnit]
  constructor
  · intro h
    rw [isUnit_iff_isUnit_det, det_smul, det_mul] at h
    rw [isUnit_iff_isUnit_det]
    exact isUnit_of_mul_isUnit_left (isUnit_of_mul_isUnit_right h)
  · intro h
    rw [isUnit_iff_isUnit_det] at h ⊢
    rw [det_smul, det_mul, det_conjTranspose]
    exact (IsUnit.pow _ (isUnit_iff_ne_zero.mpr hp.ne')).mul (h.mul h.star)

/-- **C183.**  `random_known_singularvalues`: the factors are orthonormal, the matrix is their product; so every column of `V` is a singular vector for the given value, and the sum of the squares of the entries is that of the values. -/
theorem known_singular_spec {qr : ∀ m n, Matrix (Fin m) (Fin n) ℝ → Matrix (Fin m) (Fin n) ℝ} (hq : IsOrthonormalizer qr) {m n r : Nat} (R1 : Matrix (Fin m) (Fin r) ℝ) (R2 : Matrix (Fin n) (Fin r) ℝ) (s : Fin r → ℝ) (hr : r ≤ min m n) :
    ∃ A U V, knownSingular qr R1 R2 s = .ok (A, U, s, V) ∧ Uᵀ * U = 1 ∧ Vᵀ * V = 1 ∧ A = U * diagonal s * Vᵀ ∧ A * V = U * diagonal s ∧ Aᵀ * U = V * diagonal s ∧ (Aᵀ * A).trace = ∑ i, s i ^ 2 := by
  have hm : r ≤ m := le_trans hr (min_le_left _ _)
  have hn : r ≤ n := le_trans hr (min_le_right _ _)
  have h : knownSingular qr R1 R2 s = .ok (qr m r R1 * (diagonal s * (qr n r R2)ᵀ), qr m r R1, s, qr n r R2) := by
    unfold knownSingular randomOrthogonal
    rw [if_neg (by omega), if_neg (by omega), if_neg (by omega)]
  have hU := hq m r hm R1
  have hV := hq n r hn R2
  have hAV : qr m r R1 * (diagonal s * (qr n r R2)ᵀ) * qr n r R2 = qr m r R1 * diagonal s := by
    rw [Matrix.mul_assoc, Matrix.mul_assoc, hV, Matrix.mul_one]
  have hAt : (qr m r R1 * (diagonal s * (qr n r R2)ᵀ))ᵀ = qr n r R2 * diagonal s * (qr m r R1)ᵀ := by
    rw [transpose_mul, transpose_mul, transpose_transpose, diagonal_transpose]
  refine ⟨_, _, _, h, hU, hV, (Matrix.mul_assoc _ _ _).symm, hAV, ?_, ?_⟩
  · rw [hAt, Matrix.mul_assoc, hU, Matrix.mul_one]
  · rw [hAt, Matrix.mul_assoc, ← Matrix.mul_assoc _ (qr m r R1), hU, Matrix.one_mul, ← Matrix.mul_assoc, Matrix.mul_assoc (qr n r R2), diagonal_mul_diagonal, trace_mul_comm, ← Matrix.mul_assoc, hV, Matrix.one_mul, trace_diagonal]
    exact Finset.sum_congr rfl fun i _ => (sq (s i)).symm

/-- The rank of a product with orthonormal factors. -/
theorem rank_factors {m n r : Nat} {U : Matrix (Fin m) (Fin r) ℝ} {V : Matrix (Fin n) (Fin r) ℝ} (hU : Uᵀ * U = 1) (hV : Vᵀ * V = 1) (D : Matrix (Fin r) (Fin r) ℝ) : (U * D * Vᵀ).rank = D.rank := by
  apply le_antisymm
  · exact le_trans (rank_mul_le_left _ _) (rank_mul_le_right _ _)
  · have : D = Uᵀ * (U * D * Vᵀ) * V := by
      rw [Matrix.mul_assoc U, ← Matrix.mul_assoc Uᵀ, hU, Matrix.one_mul, Matrix.mul_assoc, hV, Matrix.mul_one]
    calc D.rank = (Uᵀ * (U * D * Vᵀ) * V).rank := by rw [← this]
      _ ≤ _ := le_trans (rank_mul_le_left _ _) (rank_mul_le_right _ _)

/-- **C183.**  The rank is the number of values that are not zero. -/
theorem known_singular_rank {qr : ∀ m n, Matrix (Fin m) (Fin n) ℝ → Matrix (Fin m) (Fin n) ℝ} (hq : IsOrthonormalizer qr) {m n r : Nat} (R1 : Matrix (Fin m) (Fin r) ℝ) (R2 : Matrix (Fin n) (Fin r) ℝ) (s : Fin r → ℝ) {A : Matrix (Fin m) (Fin n) ℝ} {rest}
    (h : knownSingular qr R1 R2 s = .ok (A, rest)) : A.rank = Fintype.card {i // s i ≠ 0} := by
  by_cases hr : r > min m n
  · unfold knownSingular at h
    rw [if_pos hr] at h
    cases h
  · obtain ⟨A', U, V, h', hU, hV, hA, _⟩ := known_singular_spec hq R1 R2 s (by omega)
    rw [h', Except.ok.injEq] at h
    have : A = A' := (congrArg Prod.fst h).symm
    rw [this, hA, rank_factors hU hV, rank_diagonal]

/-- **C183.**  `random_known_rank` has rank `r` if the quantile function has no zeros at the random numbers; for the default one that is the case for all numbers strictly between 0 and 1.  The values are in descending order if `order` sorts them. -/
theorem known_rank_spec {qr : ∀ m n, Matrix (Fin m) (Fin n) ℝ → Matrix (Fin m) (Fin n) ℝ} (hq : IsOrthonormalizer qr) {quantile : ℝ → ℝ} {m n r : Nat} (R1 : Matrix (Fin m) (Fin r) ℝ) (R2 : Matrix (Fin n) (Fin r) ℝ) (x : Fin r → ℝ) (order : Equiv.Perm (Fin r)) (hx : ∀ i, quantile (x i) ≠ 0) (hr : r ≤ min m n) :
    ∃ A U V, knownRank qr quantile R1 R2 x order = .ok (A, U, fun i => quantile (x (order i)), V) ∧ A.rank = r := by
  have e : knownRank qr quantile R1 R2 x order = knownSingular qr R1 R2 fun i => quantile (x (order i)) := by
    unfold knownRank
    rw [if_neg (by omega)]
  obtain ⟨A, U, V, h, _⟩ := known_singular_spec hq R1 R2 (fun i => quantile (x (order i))) hr
  refine ⟨A, U, V, by rw [e, h], ?_⟩
  rw [known_singular_rank hq R1 R2 _ h]
  have : Fintype.card {i // quantile (x (order i)) ≠ 0} = Fintype.card (Fin r) := Fintype.card_congr (Equiv.subtypeUnivEquiv fun i => hx (order i))
  rw [this, Fintype.card_fin]

theorem exp_quantile_pos {x : ℝ} (h0 : 0 < x) (h1 : x < 1) : 0 < expQuantile x := by
  unfold expQuantile
  have := Real.log_neg h0 h1
  linarith

/-- **C183.**  Too many values are refused. -/
theorem known_singular_refused (qr : ∀ m n, Matrix (Fin m) (Fin n) ℝ → Matrix (Fin m) (Fin n) ℝ) {m n r : Nat} (R1 : Matrix (Fin m) (Fin r) ℝ) (R2 : Matrix (Fin n) (Fin r) ℝ) (s : Fin r → ℝ) : knownSingular qr R1 R2 s = .error .runtimeError ↔ min m n < r := by
  constructor
  · intro h
    by_contra c
    unfold knownSingular randomOrthogonal at h
    rw [if_neg c, if_neg (by omega), if_neg (by omega)] at h
    cases h
  · intro h
    unfold knownSingular
    rw [if_pos h]

/-! ## Cases -/

/-- There are orthonormalizers. -/
example : IsOrthonormalizer fun m n _ => Matrix.of fun (i : Fin m) (j : Fin n) => if i.val = j.val then 1 else 0 := by
  intro m n h R
  ext i j
  dsimp only
  rw [Matrix.mul_apply, Matrix.one_apply]
  rw [Finset.sum_eq_single ⟨i.val, by omega⟩]
  · simp [Fin.ext_iff]
  · intro b _ hb
    rw [transpose_apply, of_apply, if_neg, zero_mul]
    intro c
    exact hb (Fin.ext c)
  · intro c
    exact absurd (Finset.mem_univ _) c

example : IsUnit (1 : Matrix (Fin 3) (Fin 3) ℂ) := isUnit_one

/-- On two processes, three rows: the last process has the last row. -/
example : (parterLoc 3 2 (some 0) 1).shape = [1, 3] ∧ (parterLoc 3 2 (some 0) 1).get (fun _ => 0) = -2 / 3 := by
  refine ⟨by decide, ?_⟩
  norm_num [parterLoc, parterRange, chunkRange]

end Heat
