import Verif.Model.Dmd
import Verif.Props.Pca
import Mathlib.Tactic.FinCases
import Mathlib.Tactic.FieldSimp
/-!
# C174, C175: dynamic mode decomposition
-/
namespace Heat
open Matrix
variable {K : Type} [Field K]

namespace Spec

/-- A singular value decomposition, apart from the order and the signs of the values, which do not matter here. -/
def IsThinSvd {n m r : Nat} (X : Matrix (Fin n) (Fin m) K) (U : Matrix (Fin n) (Fin r) K) (S : Fin r → K) (Vt : Matrix (Fin r) (Fin m) K) : Prop :=
  X = U * diagonal S * Vt ∧ Uᵀ * U = 1 ∧ Vt * Vtᵀ = 1

/-- The columns are the states `x, A x, A^2 x, ...` of a linear system. -/
def Follows {n m : Nat} (A : Matrix (Fin n) (Fin n) K) (X : Matrix (Fin n) (Fin (m + 1)) K) : Prop := ∀ j : Fin m, ∀ i, X i j.succ = ∑ l, A i l * X l j.castSucc

/-- The states of a linear system with control. -/
def ctlState {n c : Nat} (A : Matrix (Fin n) (Fin n) K) (B : Matrix (Fin n) (Fin c) K) (x : Fin n → K) (u : Nat → Fin c → K) : Nat → Fin n → K
  | 0 => x
  | i + 1 => A *ᵥ ctlState A B x u i + B *ᵥ u i

end Spec

open Spec

/-! ## Matrices -/

theorem follows_iff {n m : Nat} {A : Matrix (Fin n) (Fin n) K} {X : Matrix (Fin n) (Fin (m + 1)) K} : Follows A X ↔ tailCols X = A * headCols X := by
  constructor
  · intro h
    ext i j
    exact h j i
  · intro h j i
    exact congrFun (congrFun h i) j

theorem divCols_diag {n r : Nat} (A : Matrix (Fin n) (Fin r) K) {S : Fin r → K} (hS : ∀ i, S i ≠ 0) : divCols (A * diagonal S) S = A := by
  ext i j
  show (A * diagonal S) i j / S j = A i j
  rw [Matrix.mul_diagonal]
  exact mul_div_cancel_right₀ _ (hS j)

theorem divCols_mul {n r : Nat} (A : Matrix (Fin n) (Fin r) K) (S : Fin r → K) : divCols A S = A * diagonal fun i => (S i)⁻¹ := by
  ext i j
  show A i j / S j = _
  rw [Matrix.mul_diagonal, div_eq_mul_inv]

theorem takeCols_ortho {n r : Nat} {U : Matrix (Fin n) (Fin r) K} (h : Uᵀ * U = 1) (k : Nat) : (takeCols U k)ᵀ * takeCols U k = 1 := by
  ext i j
  have := congrFun (congrFun h (Fin.castLE (Nat.min_le_right k r) i)) (Fin.castLE (Nat.min_le_right k r) j)
  show (Uᵀ * U) _ _ = _
  rw [this, Matrix.one_apply, Matrix.one_apply]
  simp [Fin.ext_iff]

theorem takeRows_ortho {m r : Nat} {V : Matrix (Fin r) (Fin m) K} (h : V * Vᵀ = 1) (k : Nat) : takeRows V k * (takeRows V k)ᵀ = 1 := by
  ext i j
  have := congrFun (congrFun h (Fin.castLE (Nat.min_le_right k r) i)) (Fin.castLE (Nat.min_le_right k r) j)
  show (V * Vᵀ) _ _ = _
  rw [this, Matrix.one_apply, Matrix.one_apply]
  simp [Fin.ext_iff]

/-- Leaving out the values 0 does not change the product. -/
theorem thin_take {n m r : Nat} {X : Matrix (Fin n) (Fin m) K} {U : Matrix (Fin n) (Fin r) K} {S : Fin r → K} {Vt : Matrix (Fin r) (Fin m) K} (h : IsThinSvd X U S Vt) {k : Nat} (hk : ∀ i : Fin r, S i ≠ 0 ↔ (i : Nat) < k) :
    IsThinSvd X (takeCols U k) (takeVals S k) (takeRows Vt k) ∧ ∀ i, takeVals S k i ≠ 0 := by
  refine ⟨⟨?_, takeCols_ortho h.2.1 k, takeRows_ortho h.2.2 k⟩, fun i => (hk _).mpr ?_⟩
  · conv_lhs => rw [h.1]
    ext a b
    rw [Matrix.mul_apply, Matrix.mul_apply]
    symm
    refine Fintype.sum_of_injective (Fin.castLE (Nat.min_le_right k r)) (Fin.castLE_injective _) _ _ (fun i hi => ?_) (fun i => ?_)
    · have : S i = 0 := by
        by_contra c
        have := (hk i).mp c
        exact hi ⟨⟨i, by omega⟩, rfl⟩
      rw [Matrix.mul_diagonal, this, mul_zero, zero_mul]
    · rw [Matrix.mul_diagonal, Matrix.mul_diagonal]
      rfl
  · have := i.2
    show (i : Nat) < k
    omega

theorem dmdNext_eq {n k b : Nat} (basis : Matrix (Fin n) (Fin k) K) (rom : Matrix (Fin k) (Fin k) K) (x : Matrix (Fin n) (Fin b) K) (s : Nat) : dmdNext basis rom x s = basis * rom ^ s * (basisᵀ * x) := by
  unfold dmdNext
  rw [Matrix.transpose_mul, Matrix.transpose_transpose, Matrix.transpose_transpose]

/-! ## C174: states -/

/-- **C174.**  The transfer matrix is the matrix of the system in the basis, if the number of modes is the rank of the data. -/
theorem dmd_transfer {n m r : Nat} {X : Matrix (Fin n) (Fin (m + 1)) K} {U : Matrix (Fin n) (Fin r) K} {S : Fin r → K} {Vt : Matrix (Fin r) (Fin m) K} (h : IsThinSvd (headCols X) U S Vt) {k : Nat} (hk : ∀ i : Fin r, S i ≠ 0 ↔ (i : Nat) < k)
    {A : Matrix (Fin n) (Fin n) K} (hA : Follows A X) : dmdTransfer X U S Vt k = (takeCols U k)ᵀ * A * takeCols U k := by
  obtain ⟨⟨h1, h2, h3⟩, h4⟩ := thin_take h hk
  unfold dmdTransfer
  rw [follows_iff.mp hA, h1]
  have : (takeCols U k)ᵀ * (A * (takeCols U k * diagonal (takeVals S k) * takeRows Vt k)) * (takeRows Vt k)ᵀ = (takeCols U k)ᵀ * A * takeCols U k * diagonal (takeVals S k) := by
    simp only [Matrix.mul_assoc]
    rw [h3, Matrix.mul_one]
  rw [this, divCols_diag _ h4]

/-- The basis spans a space that the system does not leave. -/
theorem dmd_invariant {n m r : Nat} {X : Matrix (Fin n) (Fin (m + 1)) K} {U : Matrix (Fin n) (Fin r) K} {S : Fin r → K} {Vt : Matrix (Fin r) (Fin m) K} (h : IsThinSvd (headCols X) U S Vt) {k : Nat} (hk : ∀ i : Fin r, S i ≠ 0 ↔ (i : Nat) < k)
    {A : Matrix (Fin n) (Fin n) K} (hA : Follows A X) {C : Matrix (Fin m) (Fin m) K} (hC : tailCols X = headCols X * C) : A * takeCols U k = takeCols U k * dmdTransfer X U S Vt k := by
  obtain ⟨⟨h1, h2, h3⟩, h4⟩ := thin_take h hk
  have hD : (diagonal (takeVals S k) * diagonal fun i => (takeVals S k i)⁻¹) = 1 := by
    rw [Matrix.diagonal_mul_diagonal, ← Matrix.diagonal_one]
    congr 1
    funext i
    exact mul_inv_cancel₀ (h4 i)
  -- A U = U R
  have e1 : A * takeCols U k = takeCols U k * (diagonal (takeVals S k) * takeRows Vt k * C * (takeRows Vt k)ᵀ * diagonal fun i => (takeVals S k i)⁻¹) := by
    have e := follows_iff.mp hA
    rw [hC] at e
    have e2 : headCols X * C * (takeRows Vt k)ᵀ * (diagonal fun i => (takeVals S k i)⁻¹) = A * headCols X * (takeRows Vt k)ᵀ * (diagonal fun i => (takeVals S k i)⁻¹) := by rw [e]
    rw [h1] at e2
    have e3 : A * (takeCols U k * diagonal (takeVals S k) * takeRows Vt k) * (takeRows Vt k)ᵀ * (diagonal fun i => (takeVals S k i)⁻¹) = A * takeCols U k := by
      simp only [Matrix.mul_assoc]
      rw [← Matrix.mul_assoc (takeRows Vt k), h3, Matrix.one_mul, hD, Matrix.mul_one]
    rw [e3] at e2
    rw [← e2]
    simp only [Matrix.mul_assoc]
  rw [dmd_transfer h hk hA]
  conv_rhs => rw [Matrix.mul_assoc ((takeCols U k)ᵀ), e1, ← Matrix.mul_assoc ((takeCols U k)ᵀ), h2, Matrix.one_mul]
  exact e1

/-- **C174.**  `predict_next(x, n)` is the state after `n` steps, for every number of steps and all states in the span of the data, if the data come from a linear system that does not leave this span. -/
theorem dmd_next_spec {n m r b : Nat} {X : Matrix (Fin n) (Fin (m + 1)) K} {U : Matrix (Fin n) (Fin r) K} {S : Fin r → K} {Vt : Matrix (Fin r) (Fin m) K} (h : IsThinSvd (headCols X) U S Vt) {k : Nat} (hk : ∀ i : Fin r, S i ≠ 0 ↔ (i : Nat) < k)
    {A : Matrix (Fin n) (Fin n) K} (hA : Follows A X) {C : Matrix (Fin m) (Fin m) K} (hC : tailCols X = headCols X * C) {x : Matrix (Fin n) (Fin b) K} {c : Matrix (Fin m) (Fin b) K} (hx : x = headCols X * c) (s : Nat) :
    dmdNext (takeCols U k) (dmdTransfer X U S Vt k) x s = A ^ s * x := by
  obtain ⟨⟨h1, h2, h3⟩, h4⟩ := thin_take h hk
  have hi := dmd_invariant h hk hA hC
  have hpow : ∀ s, A ^ s * takeCols U k = takeCols U k * dmdTransfer X U S Vt k ^ s := by
    intro s
    induction s with
    | zero => simp
    | succ s ih => rw [pow_succ, Matrix.mul_assoc, hi, ← Matrix.mul_assoc, ih, Matrix.mul_assoc, ← pow_succ]
  have hu : x = takeCols U k * (diagonal (takeVals S k) * takeRows Vt k * c) := by
    rw [hx, h1]
    simp only [Matrix.mul_assoc]
  rw [dmdNext_eq, ← hpow s]
  conv_lhs => rw [hu, ← Matrix.mul_assoc ((takeCols U k)ᵀ), h2, Matrix.one_mul, Matrix.mul_assoc, ← hu]

/-- **C174.**  Without the assumption on the span, one step gives the projection of the next state onto the basis. -/
theorem dmd_next_project {n m r b : Nat} {X : Matrix (Fin n) (Fin (m + 1)) K} {U : Matrix (Fin n) (Fin r) K} {S : Fin r → K} {Vt : Matrix (Fin r) (Fin m) K} (h : IsThinSvd (headCols X) U S Vt) {k : Nat} (hk : ∀ i : Fin r, S i ≠ 0 ↔ (i : Nat) < k)
    {A : Matrix (Fin n) (Fin n) K} (hA : Follows A X) {x : Matrix (Fin n) (Fin b) K} {c : Matrix (Fin m) (Fin b) K} (hx : x = headCols X * c) :
    dmdNext (takeCols U k) (dmdTransfer X U S Vt k) x 1 = takeCols U k * (takeCols U k)ᵀ * (A * x) := by
  obtain ⟨⟨h1, h2, h3⟩, h4⟩ := thin_take h hk
  have hu : x = takeCols U k * (diagonal (takeVals S k) * takeRows Vt k * c) := by
    rw [hx, h1]
    simp only [Matrix.mul_assoc]
  rw [dmdNext_eq, pow_one, dmd_transfer h hk hA]
  have e : takeCols U k * ((takeCols U k)ᵀ * x) = x := by
    conv_lhs => rw [hu, ← Matrix.mul_assoc ((takeCols U k)ᵀ), h2, Matrix.one_mul, ← hu]
  calc takeCols U k * ((takeCols U k)ᵀ * A * takeCols U k) * ((takeCols U k)ᵀ * x) = takeCols U k * (takeCols U k)ᵀ * (A * (takeCols U k * ((takeCols U k)ᵀ * x))) := by simp only [Matrix.mul_assoc]
    _ = _ := by rw [e]

/-- **C174.**  The data are reproduced: `s` steps after the first state is the state number `s`. -/
theorem dmd_training {n m r : Nat} {X : Matrix (Fin n) (Fin (m + 1 + 1)) K} {U : Matrix (Fin n) (Fin r) K} {S : Fin r → K} {Vt : Matrix (Fin r) (Fin (m + 1)) K} (h : IsThinSvd (headCols X) U S Vt) {k : Nat} (hk : ∀ i : Fin r, S i ≠ 0 ↔ (i : Nat) < k)
    {A : Matrix (Fin n) (Fin n) K} (hA : Follows A X) {C : Matrix (Fin (m + 1)) (Fin (m + 1)) K} (hC : tailCols X = headCols X * C) (s : Fin (m + 1 + 1)) :
    dmdNext (takeCols U k) (dmdTransfer X U S Vt k) (X.submatrix id fun _ : Fin 1 => 0) s = X.submatrix id fun _ : Fin 1 => s := by
  rw [dmd_next_spec h hk hA hC (c := Matrix.of fun j _ => if j = 0 then 1 else 0)]
  · obtain ⟨s, hs⟩ := s
    induction s with
    | zero => simp
    | succ s ih =>
      have ih' : (A ^ s * X.submatrix id fun _ : Fin 1 => (0 : Fin (m + 1 + 1))) = X.submatrix id fun _ : Fin 1 => (⟨s, by omega⟩ : Fin (m + 1 + 1)) := ih (by omega)
      rw [show ((⟨s + 1, hs⟩ : Fin (m + 1 + 1)) : Nat) = s + 1 from rfl, pow_succ', Matrix.mul_assoc, ih']
      ext i j
      rw [Matrix.mul_apply]
      exact (hA ⟨s, by omega⟩ i).symm
  · ext i j
    rw [Matrix.mul_apply]
    simp [headCols]

/-- **C174.**  Eigenvectors of the transfer matrix give eigenvectors of the system (`dmdmodes_`). -/
theorem dmd_modes_spec {n m r : Nat} {X : Matrix (Fin n) (Fin (m + 1)) K} {U : Matrix (Fin n) (Fin r) K} {S : Fin r → K} {Vt : Matrix (Fin r) (Fin m) K} (h : IsThinSvd (headCols X) U S Vt) {k : Nat} (hk : ∀ i : Fin r, S i ≠ 0 ↔ (i : Nat) < k)
    {A : Matrix (Fin n) (Fin n) K} (hA : Follows A X) {C : Matrix (Fin m) (Fin m) K} (hC : tailCols X = headCols X * C) {lam : K} {w : Fin (min k r) → K} (hw : dmdTransfer X U S Vt k *ᵥ w = lam • w) :
    A *ᵥ (takeCols U k *ᵥ w) = lam • (takeCols U k *ᵥ w) := by
  rw [Matrix.mulVec_mulVec, dmd_invariant h hk hA hC, ← Matrix.mulVec_mulVec, hw, Matrix.mulVec_smul]

/-- **C174.**  `predict` computes what `predict_next` computes, for all steps at once, if the eigenvectors of the transfer matrix are a basis; otherwise it raises. -/
theorem dmd_predict_spec {n k b : Nat} (basis : Matrix (Fin n) (Fin k) ℝ) (rom : Matrix (Fin k) (Fin k) ℝ) {lam : Fin k → ℂ} {W : Matrix (Fin k) (Fin k) ℂ} (hW : rom.map Complex.ofReal * W = W * diagonal lam) (x : Matrix (Fin n) (Fin b) ℝ) (s : Nat) :
    dmdPredict basis lam W x s = if W.det = 0 then .error .runtimeError else .ok (dmdNext basis rom x s) := by
  unfold dmdPredict dmdPower
  by_cases hd : W.det = 0
  · rw [if_pos hd, if_pos hd]
  · rw [if_neg hd, if_neg hd]
    have hu : IsUnit W.det := isUnit_iff_ne_zero.mpr hd
    have hpow : ∀ s, rom.map Complex.ofReal ^ s * W = W * diagonal lam ^ s := by
      intro s
      induction s with
      | zero => simp
      | succ s ih => rw [pow_succ, Matrix.mul_assoc, hW, ← Matrix.mul_assoc, ih, Matrix.mul_assoc, ← pow_succ]
    have e : W * diagonal (fun i => lam i ^ s) * W⁻¹ = rom.map Complex.ofReal ^ s := by
      have : (diagonal fun i => lam i ^ s) = diagonal lam ^ s := by rw [Matrix.diagonal_pow]; rfl
      rw [this, ← hpow s, Matrix.mul_assoc, Matrix.mul_nonsing_inv W hu, Matrix.mul_one]
    have e2 : (rom.map Complex.ofReal ^ s).map Complex.re = rom ^ s := by
      have : rom.map Complex.ofReal ^ s = (rom ^ s).map Complex.ofReal := by
        have := map_pow (Complex.ofRealHom.mapMatrix (m := Fin k)) rom s
        exact this.symm
      rw [this]
      ext i j
      simp
    dsimp only
    rw [e, e2, dmdNext_eq, Matrix.mul_assoc]

/-- **C174, defect.**  For one initial state and several steps and features the result of `predict` has the shape (features, steps); documented is (steps, features). -/
theorem dmd_predict_shape_violated {steps n : Nat} (hs : steps ≠ 1) (hn : n ≠ 1) : dmdPredictShape steps n 1 = [n, steps] := by
  unfold dmdPredictShape
  simp [hs, hn]

/-- **C174.**  The constructor accepts exactly these combinations of arguments. -/
theorem dmd_init_spec [LinearOrder K] (a : DmdArgs K) : dmdInit a = .ok () ↔
    ((a.solver = "full" ∧ ¬ (a.rank.isSome ∧ a.tol.isSome)) ∨ (a.solver = "hierarchical" ∧ (a.rank.isSome ↔ a.tol.isNone)) ∨ (a.solver = "randomized" ∧ a.rank.isSome ∧ a.tol.isNone)) ∧
    (∀ r, a.rank = some r → 1 ≤ r) ∧ ∀ t, a.tol = some t → 0 < t := by
  obtain ⟨sv, rk, tl⟩ := a
  unfold dmdInit
  by_cases h1 : sv = "full"
  · subst h1
    cases rk <;> cases tl <;> simp
  · by_cases h2 : sv = "hierarchical"
    · subst h2
      cases rk <;> cases tl <;> simp
    · by_cases h3 : sv = "randomized"
      · subst h3
        cases rk <;> cases tl <;> simp
      · simp [h1, h2, h3]

/-- **C174.**  With a tolerance the number of modes is the smallest one that keeps more than the part `1 - tol` of the sum of squares. -/
theorem dmd_modes_count [LinearOrder K] [IsStrictOrderedRing K] (rank : Option Nat) {t : K} (ht0 : 0 < t) (ht1 : t < 1) {S : List K} (hS : 0 < (S.map fun s => s * s).sum) :
    dmdModes rank (some t) S ≤ S.length ∧ (1 - t) * (S.map fun s => s * s).sum < ((S.take (dmdModes rank (some t) S)).map fun s => s * s).sum ∧
    ∀ j < dmdModes rank (some t) S, ((S.take j).map fun s => s * s).sum ≤ (1 - t) * (S.map fun s => s * s).sum := by
  have e : dmdModes rank (some t) S = pcaFracCount 2 (1 - t) S := by
    unfold dmdModes pcaFracCount
    have : ((2 : Nat) : K) - 1 = 1 := by norm_num
    simp only [this, div_one]
  rw [e]
  exact pcaFracCount_spec (n := 2) (by omega) (by linarith) (by linarith) hS

/-! ## C175: states and controls -/

/-- **C175.**  The two matrices are those of the system in the basis, if states and controls together are independent. -/
theorem dmdc_matrices {n c m k q : Nat} {X : Matrix (Fin n) (Fin (m + 1)) K} {Cm : Matrix (Fin c) (Fin m) K} {A : Matrix (Fin n) (Fin n) K} {B : Matrix (Fin n) (Fin c) K} (hX : tailCols X = A * headCols X + B * Cm)
    {Ut : Matrix (Fin n ⊕ Fin c) (Fin q) K} {St : Fin q → K} {Vtt : Matrix (Fin q) (Fin m) K} (hO : stackRows (headCols X) Cm = Ut * diagonal St * Vtt) (hV : Vtt * Vttᵀ = 1) (hU : Ut * Utᵀ = 1) (hS : ∀ i, St i ≠ 0) (basis : Matrix (Fin n) (Fin k) K) :
    dmdcTransfer X basis Ut St Vtt = basisᵀ * A * basis ∧ dmdcControl X basis Ut St Vtt = basisᵀ * B ∧ tailCols X * divCols Vttᵀ St = Matrix.fromCols A B * Ut := by
  have h1 : tailCols X = Matrix.fromCols A B * stackRows (headCols X) Cm := by
    unfold stackRows
    rw [Matrix.fromCols_mul_fromRows, hX]
  have h2 : tailCols X * divCols Vttᵀ St = Matrix.fromCols A B * Ut := by
    rw [divCols_mul, h1, hO]
    have hD : (diagonal St * diagonal fun i => (St i)⁻¹) = 1 := by
      rw [Matrix.diagonal_mul_diagonal, ← Matrix.diagonal_one]
      congr 1
      funext i
      exact mul_inv_cancel₀ (hS i)
    simp only [Matrix.mul_assoc]
    rw [← Matrix.mul_assoc Vtt, hV, Matrix.one_mul, hD, Matrix.mul_one]
  have h3 : Matrix.fromCols A B * Ut * (Ut.submatrix Sum.inl id)ᵀ = A := by
    have : (Ut.submatrix Sum.inl id)ᵀ = Utᵀ.submatrix id Sum.inl := rfl
    rw [this]
    have : Matrix.fromCols A B * Ut * Utᵀ.submatrix id Sum.inl = (Matrix.fromCols A B * Ut * Utᵀ).submatrix id Sum.inl := rfl
    rw [this, Matrix.mul_assoc, hU, Matrix.mul_one]
    rfl
  have h4 : Matrix.fromCols A B * Ut * (Ut.submatrix Sum.inr id)ᵀ = B := by
    have : (Ut.submatrix Sum.inr id)ᵀ = Utᵀ.submatrix id Sum.inr := rfl
    rw [this]
    have : Matrix.fromCols A B * Ut * Utᵀ.submatrix id Sum.inr = (Matrix.fromCols A B * Ut * Utᵀ).submatrix id Sum.inr := rfl
    rw [this, Matrix.mul_assoc, hU, Matrix.mul_one]
    rfl
  refine ⟨?_, ?_, h2⟩
  · unfold dmdcTransfer
    calc basisᵀ * tailCols X * divCols Vttᵀ St * ((Ut.submatrix Sum.inl id)ᵀ * basis) = basisᵀ * (tailCols X * divCols Vttᵀ St * (Ut.submatrix Sum.inl id)ᵀ) * basis := by simp only [Matrix.mul_assoc]
      _ = _ := by rw [h2, h3]
  · unfold dmdcControl
    calc basisᵀ * tailCols X * (divCols Vttᵀ St * (Ut.submatrix Sum.inr id)ᵀ) = basisᵀ * (tailCols X * divCols Vttᵀ St * (Ut.submatrix Sum.inr id)ᵀ) := by simp only [Matrix.mul_assoc]
      _ = _ := by rw [h2, h4]

/-- **C175.**  The prediction for one initial state in the span of the basis is the trajectory of the system, for every control and every number of steps. -/
theorem dmdc_predict_partial {n c m k q : Nat} {X : Matrix (Fin n) (Fin (m + 1)) K} {Cm : Matrix (Fin c) (Fin m) K} {A : Matrix (Fin n) (Fin n) K} {B : Matrix (Fin n) (Fin c) K} (hX : tailCols X = A * headCols X + B * Cm)
    {Ut : Matrix (Fin n ⊕ Fin c) (Fin q) K} {St : Fin q → K} {Vtt : Matrix (Fin q) (Fin m) K} (hO : stackRows (headCols X) Cm = Ut * diagonal St * Vtt) (hV : Vtt * Vttᵀ = 1) (hU : Ut * Utᵀ = 1) (hS : ∀ i, St i ≠ 0)
    {basis : Matrix (Fin n) (Fin k) K} (hb : basis * basisᵀ * tailCols X = tailCols X) (x : Nat → Fin n → K) (hx : (basis * basisᵀ) *ᵥ x 0 = x 0) (u : Nat → Fin c → K) {T f t : Nat} (hf : f < n) (ht : t < T) :
    dmdcPredict basis (dmdcTransfer X basis Ut St Vtt) (dmdcControl X basis Ut St Vtt) 1 T x u 0 f t = ctlState A B (x 0) u t ⟨f, hf⟩ := by
  obtain ⟨e1, e2, e3⟩ := dmdc_matrices hX hO hV hU hS basis
  have hAB : basis * basisᵀ * (Matrix.fromCols A B) = Matrix.fromCols A B := by
    have : basis * basisᵀ * (Matrix.fromCols A B * Ut) = Matrix.fromCols A B * Ut := by
      rw [← e3, ← Matrix.mul_assoc, hb]
    calc basis * basisᵀ * Matrix.fromCols A B = basis * basisᵀ * (Matrix.fromCols A B * Ut) * Utᵀ := by
          rw [Matrix.mul_assoc (basis * basisᵀ), Matrix.mul_assoc (Matrix.fromCols A B), hU, Matrix.mul_one]
      _ = Matrix.fromCols A B := by rw [this, Matrix.mul_assoc, hU, Matrix.mul_one]
  have hA : basis * basisᵀ * A = A := by
    have := congrArg (fun M => M.submatrix id (Sum.inl : Fin n → Fin n ⊕ Fin c)) hAB
    exact this
  have hB : basis * basisᵀ * B = B := by
    have := congrArg (fun M => M.submatrix id (Sum.inr : Fin c → Fin n ⊕ Fin c)) hAB
    exact this
  have key : ∀ i, basis *ᵥ dmdcRed basis (dmdcTransfer X basis Ut St Vtt) (dmdcControl X basis Ut St Vtt) (x 0) u i = ctlState A B (x 0) u i := by
    intro i
    induction i with
    | zero =>
      show basis *ᵥ (x 0 ᵥ* basis) = x 0
      rw [← Matrix.mulVec_transpose, Matrix.mulVec_mulVec, hx]
    | succ i ih =>
      show basis *ᵥ (_ *ᵥ _ + _ *ᵥ _) = A *ᵥ _ + B *ᵥ _
      rw [Matrix.mulVec_add, e1, e2, Matrix.mulVec_mulVec, Matrix.mulVec_mulVec]
      rw [show basis * (basisᵀ * A * basis) = basis * basisᵀ * A * basis by simp only [Matrix.mul_assoc], hA, ← Matrix.mul_assoc, hB, ← Matrix.mulVec_mulVec]
      rw [e1, e2] at ih
      rw [ih]
  have hT : 0 < T := by omega
  rw [← key t]
  unfold dmdcPredict
  dsimp only
  have p1 : (0 * (n * T) + f * T + t) / (1 * T) = f := by
    rw [Nat.zero_mul, Nat.zero_add, Nat.one_mul, Nat.mul_comm, Nat.mul_add_div hT, Nat.div_eq_of_lt ht, Nat.add_zero]
  have p2 : (0 * (n * T) + f * T + t) % (1 * T) = t := by
    rw [Nat.zero_mul, Nat.zero_add, Nat.one_mul, Nat.mul_comm, Nat.mul_add_mod, Nat.mod_eq_of_lt ht]
  rw [p1, p2, dif_pos hf]
  simp only [Matrix.mulVec, dotProduct]
  refine Finset.sum_congr rfl fun a _ => ?_
  have ha := a.2
  have q1 : (↑a * (1 * T) + t) / T % k = a := by
    rw [Nat.one_mul, Nat.mul_comm, Nat.mul_add_div hT, Nat.div_eq_of_lt ht, Nat.add_zero, Nat.mod_eq_of_lt ha]
  have q2 : (↑a * (1 * T) + t) % T = t := by
    rw [Nat.one_mul, Nat.mul_comm, Nat.mul_add_mod, Nat.mod_eq_of_lt ht]
  have q3 : (↑a * (1 * T) + t) / (k * T) = 0 := by
    rw [Nat.div_eq_zero_iff]
    right
    have : (↑a + 1) * T ≤ k * T := Nat.mul_le_mul_right _ ha
    rw [Nat.add_mul] at this
    rw [Nat.one_mul] at this ⊢
    omega
  congr 1
  rw [dif_pos (by rw [q1]; exact ha)]
  simp only [q1, q2, q3]

/-- **C175, defect.**  Several initial states: `reshape` exchanges states and modes, so that the predictions are wrong, here already at time 0. -/
theorem dmdc_batch_violated : ∃ (basis : Matrix (Fin 2) (Fin 1) ℚ) (x : Nat → Fin 2 → ℚ), basisᵀ * basis = 1 ∧ (∀ s < 2, (basis * basisᵀ) *ᵥ x s = x s) ∧
    ∀ (rom : Matrix (Fin 1) (Fin 1) ℚ) (ctl : Matrix (Fin 1) (Fin 1) ℚ) (u : Nat → Fin 1 → ℚ), dmdcPredict basis rom ctl 2 1 x u 0 1 0 = 0 ∧ x 0 1 = 4 := by
  refine ⟨!![3/5; 4/5], fun s => if s = 0 then ![3, 4] else ![0, 0], ?_, ?_, ?_⟩
  · ext i j
    fin_cases i; fin_cases j
    simp [Matrix.mul_apply, Fin.sum_univ_two]
    norm_num
  · intro s hs
    by_cases h : s = 0
    · dsimp only
      rw [if_pos h]
      ext i
      fin_cases i <;> simp [Matrix.mulVec, dotProduct, Matrix.mul_apply, Fin.sum_univ_two] <;> norm_num
    · dsimp only
      rw [if_neg h]
      ext i
      fin_cases i <;> simp [Matrix.mulVec, dotProduct, Fin.sum_univ_two]
  · intro rom ctl u
    constructor
    · simp [dmdcPredict, dmdcRed, Matrix.vecMul, dotProduct, Fin.sum_univ_two]
    · simp

/-! ## Cases -/

/-- Two features, three steps of the system that exchanges them, one of the three states 0: full rank. -/
example : ∃ (X : Matrix (Fin 2) (Fin 3) ℚ) (U : Matrix (Fin 2) (Fin 2) ℚ) (S : Fin 2 → ℚ) (Vt : Matrix (Fin 2) (Fin 2) ℚ) (A : Matrix (Fin 2) (Fin 2) ℚ) (C : Matrix (Fin 2) (Fin 2) ℚ),
    IsThinSvd (headCols X) U S Vt ∧ (∀ i : Fin 2, S i ≠ 0 ↔ (i : Nat) < 2) ∧ Follows A X ∧ tailCols X = headCols X * C := by
  refine ⟨!![1, 0, 1; 0, 1, 0], 1, fun _ => 1, 1, !![0, 1; 1, 0], !![0, 1; 1, 0], ⟨?_, by simp, by simp⟩, ?_, ?_, ?_⟩
  · ext i j; fin_cases i <;> fin_cases j <;> simp [headCols]
  · intro i; simp; omega
  · intro j i; fin_cases j <;> fin_cases i <;> simp [Fin.sum_univ_two]
  · ext i j; fin_cases i <;> fin_cases j <;> simp [headCols, tailCols, Matrix.mul_apply, Fin.sum_univ_two]

/-- The eigenvectors of a diagonal matrix. -/
example : ∃ (rom : Matrix (Fin 2) (Fin 2) ℝ) (lam : Fin 2 → ℂ) (W : Matrix (Fin 2) (Fin 2) ℂ), rom.map Complex.ofReal * W = W * diagonal lam ∧ W.det ≠ 0 :=
  ⟨diagonal fun _ => 2, fun _ => 2, 1, by rw [Matrix.mul_one, Matrix.one_mul, Matrix.diagonal_map (by simp)]; congr, by simp⟩

/-- One state feature, one control: the states 1, 0, 1 with the controls 0, 1, and x' = u. -/
example : ∃ (X : Matrix (Fin 1) (Fin 3) ℚ) (Cm : Matrix (Fin 1) (Fin 2) ℚ) (A : Matrix (Fin 1) (Fin 1) ℚ) (B : Matrix (Fin 1) (Fin 1) ℚ) (Ut : Matrix (Fin 1 ⊕ Fin 1) (Fin 2) ℚ) (St : Fin 2 → ℚ) (Vtt : Matrix (Fin 2) (Fin 2) ℚ) (basis : Matrix (Fin 1) (Fin 1) ℚ),
    tailCols X = A * headCols X + B * Cm ∧ stackRows (headCols X) Cm = Ut * diagonal St * Vtt ∧ Vtt * Vttᵀ = 1 ∧ Ut * Utᵀ = 1 ∧ (∀ i, St i ≠ 0) ∧ basis * basisᵀ * tailCols X = tailCols X := by
  refine ⟨!![1, 0, 1], !![0, 1], 0, 1, Matrix.of fun i j => if i = Sum.inl 0 then ![1, 0] j else ![0, 1] j, fun _ => 1, 1, 1, ?_, ?_, by simp, ?_, fun _ => by simp, by simp⟩
  · ext i j; fin_cases i; fin_cases j <;> simp [tailCols, headCols]
  · ext i j
    rcases i with i | i <;> fin_cases i <;> fin_cases j <;> simp [stackRows, headCols]
  · ext i j
    rcases i with i | i <;> rcases j with j | j <;> fin_cases i <;> fin_cases j <;> simp [Matrix.mul_apply, Fin.sum_univ_two]

end Heat
