import Verif.Model.Solve
import Verif.Props.ND
import Mathlib.Tactic.Ring
import Mathlib.Tactic.NormNum
/-!
# Properties of `solve` (C128)
-/
namespace Heat
open Matrix Finset
variable {K : Type} [Field K]

/-- The matrix of the batch element at `idx` of a batch of matrices. -/
def Spec.batchMat (GA : NArr K) (n : Nat) (idx : Nat → Nat) : Matrix (Fin n) (Fin n) K :=
  fun i j => GA.get fun k => if k = GA.ndim - 2 then i else if k = GA.ndim - 1 then j else idx k

/-- `GX` solves the systems `GA GX = GB`: the axis of the unknowns in `GX` is the second last axis of `GA`, the batch axes come first, and the axes of `GB` are the last axes of `GX`
(when `GB` has no batch axes it is used for all matrices). -/
def Spec.IsSolution (GA GB GX : NArr K) : Prop :=
  ∃ d, GX.ndim = GB.ndim + d ∧ (∀ k < GB.ndim, GX.dim (k + d) = GB.dim k) ∧ (∀ k < GA.ndim - 2, GX.dim k = GA.dim k) ∧ (d = 0 ∨ d = GA.ndim - 2) ∧
    ∀ idx, Spec.InB GX idx →
      ∑ j ∈ range (GA.dim (GA.ndim - 1)), GA.get (fun k => if k = GA.ndim - 1 then j else idx k) * GX.get (Function.update idx (GA.ndim - 2) j) = GB.get (fun k => idx (k + d))

/-- `L` is a part of `G`: it starts at offset `o`. -/
def LocOf (L G : NArr K) (o : Nat → Nat) : Prop := L.ndim = G.ndim ∧ ∀ idx, Spec.InB L idx → L.get idx = G.get fun k => idx k + o k

/-- The solution as an array. -/
noncomputable def gSol (GA GB : NArr K) (d : Nat) : NArr K :=
  let e := GA.ndim - 2
  let n := GA.dim (GA.ndim - 1)
  ⟨GB.ndim + d, fun k => if k < e then GA.dim k else GB.dim (k - d),
    fun idx => if h : idx e < n then ((Spec.batchMat GA n idx)⁻¹ *ᵥ fun i : Fin n => GB.get fun k => Function.update idx e (i : Nat) (k + d)) ⟨idx e, h⟩ else 0⟩

theorem gSol_local {GA GB : NArr K} (hA : Spec.Local GA) (hB : Spec.Local GB) (hn : 2 ≤ GA.ndim) {d : Nat} (hd : GA.ndim - 2 < GB.ndim + d) : Spec.Local (gSol GA GB d) := by
  intro i j hij
  have hij' : ∀ k < GB.ndim + d, i k = j k := hij
  have he := hij' (GA.ndim - 2) hd
  unfold gSol
  dsimp only
  have hm : Spec.batchMat GA (GA.dim (GA.ndim - 1)) i = Spec.batchMat GA (GA.dim (GA.ndim - 1)) j := by
    ext a b
    apply hA
    intro k hk
    by_cases h1 : k = GA.ndim - 2
    · rw [if_pos h1, if_pos h1]
    · rw [if_neg h1, if_neg h1]
      by_cases h2 : k = GA.ndim - 1
      · rw [if_pos h2, if_pos h2]
      · rw [if_neg h2, if_neg h2]
        exact hij' k (by omega)
  have hv : (fun a : Fin (GA.dim (GA.ndim - 1)) => GB.get fun k => Function.update i (GA.ndim - 2) (a : Nat) (k + d)) = fun a : Fin (GA.dim (GA.ndim - 1)) => GB.get fun k => Function.update j (GA.ndim - 2) (a : Nat) (k + d) := by
    ext a
    apply hB
    intro k hk
    by_cases h1 : k + d = GA.ndim - 2
    · rw [h1, Function.update_self, Function.update_self]
    · rw [Function.update_of_ne h1, Function.update_of_ne h1]
      exact hij' _ (by omega)
  rw [hm, hv]
  by_cases h : i (GA.ndim - 2) < GA.dim (GA.ndim - 1)
  · rw [dif_pos h, dif_pos (he ▸ h)]
    congr 1
    exact Fin.ext he
  · rw [dif_neg h, dif_neg (he ▸ h)]

theorem gSol_solves {GA GB : NArr K} (hA : Spec.Local GA) (hB : Spec.Local GB) (hn : 2 ≤ GA.ndim) {d : Nat} (hd : d = 0 ∨ d = GA.ndim - 2) (hle : GA.ndim - 2 < GB.ndim + d) (hsame : d = 0 → ∀ k < GA.ndim - 2, GB.dim k = GA.dim k)
    (hnn : GB.dim (GA.ndim - 2 - d) = GA.dim (GA.ndim - 1)) (hinv : ∀ idx, (∀ k < GA.ndim - 2, idx k < GA.dim k) → (Spec.batchMat GA (GA.dim (GA.ndim - 1)) idx).det ≠ 0) : Spec.IsSolution GA GB (gSol GA GB d) := by
  refine ⟨d, rfl, ?_, ?_, hd, ?_⟩
  · intro k hk
    unfold gSol
    dsimp only
    by_cases h : k + d < GA.ndim - 2
    · rw [if_pos h]
      rcases hd with h0 | h0
      · subst h0
        exact (hsame rfl _ h).symm
      · omega
    · rw [if_neg h, Nat.add_sub_cancel]
  · intro k hk
    unfold gSol
    dsimp only
    rw [if_pos hk]
  · intro idx hidx
    have hb : ∀ k < GA.ndim - 2, idx k < GA.dim k := by
      intro k hk
      have := hidx k (show k < GB.ndim + d by omega)
      unfold gSol at this
      dsimp only at this
      rwa [if_pos hk] at this
    have he : idx (GA.ndim - 2) < GA.dim (GA.ndim - 1) := by
      have := hidx (GA.ndim - 2) hle
      unfold gSol at this
      dsimp only at this
      rw [if_neg (by omega), hnn] at this
      exact this
    have hdet := hinv idx hb
    set n := GA.dim (GA.ndim - 1) with hnd
    set M := Spec.batchMat GA n idx with hM
    set v : Fin n → K := fun i : Fin n => GB.get fun k => Function.update idx (GA.ndim - 2) (i : Nat) (k + d) with hv
    have hx : ∀ j : Fin n, (gSol GA GB d).get (Function.update idx (GA.ndim - 2) (j : Nat)) = (M⁻¹ *ᵥ v) j := by
      intro j
      unfold gSol
      dsimp only
      rw [dif_pos (by rw [Function.update_self]; exact j.2)]
      have h1 : Spec.batchMat GA (GA.dim (GA.ndim - 1)) (Function.update idx (GA.ndim - 2) (j : Nat)) = M := by
        rw [hM]
        ext a b
        unfold Spec.batchMat
        apply hA
        intro k hk
        by_cases h1 : k = GA.ndim - 2
        · rw [if_pos h1, if_pos h1]
        · rw [if_neg h1, if_neg h1, Function.update_of_ne h1]
      have h2 : (fun a : Fin (GA.dim (GA.ndim - 1)) => GB.get fun k => Function.update (Function.update idx (GA.ndim - 2) (j : Nat)) (GA.ndim - 2) (a : Nat) (k + d)) = v := by
        rw [hv]
        ext a
        rw [Function.update_idem]
      rw [h1, h2]
      congr 1
      exact Fin.ext (show Function.update idx (GA.ndim - 2) (j : Nat) (GA.ndim - 2) = j by rw [Function.update_self])
    have hmul : M *ᵥ (M⁻¹ *ᵥ v) = v := by
      rw [mulVec_mulVec, Matrix.mul_nonsing_inv _ (isUnit_iff_ne_zero.2 hdet), one_mulVec]
    have := congrFun hmul ⟨idx (GA.ndim - 2), he⟩
    rw [← Fin.sum_univ_eq_sum_range (fun j => GA.get (fun k => if k = GA.ndim - 1 then j else idx k) * (gSol GA GB d).get (Function.update idx (GA.ndim - 2) j)) n]
    have hr : v ⟨idx (GA.ndim - 2), he⟩ = GB.get fun k => idx (k + d) := by
      rw [hv]
      dsimp only
      congr 1
      ext k
      by_cases h1 : k + d = GA.ndim - 2
      · rw [h1, Function.update_self]
      · rw [Function.update_of_ne h1]
    rw [← hr, ← this]
    unfold mulVec dotProduct
    apply Finset.sum_congr rfl
    intro j _
    have h3 := hx j
    unfold mulVec dotProduct at h3
    rw [h3]
    congr 1
    rw [hM]
    unfold Spec.batchMat
    apply hA
    intro k hk
    by_cases h1 : k = GA.ndim - 2
    · rw [if_neg (by omega), if_pos h1, h1]
    · rw [if_neg h1]

/-- What one process computes, when its parts of the matrices and right-hand sides belong together. -/
theorem solve_rank {GA GB : NArr K} (hA : Spec.Local GA) (hB : Spec.Local GB) (hn : 2 ≤ GA.ndim) (LA LB : NArr K) (oA oB oX : Nat → Nat) (la : LocOf LA GA oA) (lb : LocOf LB GB oB) {d m : Nat}
    (hd : d = 0 ∨ d = GA.ndim - 2) (hm : m + d = GA.ndim - 2) (hmB : m < GB.ndim) (hmB2 : GB.ndim ≤ m + 2)
    (hAe : LA.dim (GA.ndim - 2) = GA.dim (GA.ndim - 1)) (hAe1 : LA.dim (GA.ndim - 1) = GA.dim (GA.ndim - 1)) (hBm : LB.dim m = GA.dim (GA.ndim - 1))
    (ho : ∀ k < GA.ndim - 2, oA k = oX k) (ho2 : ∀ k < GB.ndim, oB k = oX (k + d)) (ho3 : oX (GA.ndim - 2) = 0) (ho4 : oA (GA.ndim - 2) = 0) (ho5 : oA (GA.ndim - 1) = 0)
    (hsame : d = 0 → ∀ k < GA.ndim - 2, LB.dim k = LA.dim k) (hvec : (torchVec LA LB ∧ GB.ndim = m + 1) ∨ (¬ torchVec LA LB ∧ GB.ndim = m + 2)) :
    torchSolveShape LA LB = true ∧ (torchSolveRes LA LB).ndim = GB.ndim + d ∧ (∀ k < GA.ndim - 2, (torchSolveRes LA LB).dim k = LA.dim k) ∧
      (∀ k < GB.ndim, m ≤ k → (torchSolveRes LA LB).dim (k + d) = LB.dim k) ∧
      (∀ idx, Spec.InB (torchSolveRes LA LB) idx → (torchSolveRes LA LB).get idx = (gSol GA GB d).get fun k => idx k + oX k) ∧
      (torchSingular LA LB = true ↔ ∃ idx : Nat → Nat, (∀ k < GA.ndim - 2, idx k < LA.dim k) ∧ (Spec.batchMat GA (GA.dim (GA.ndim - 1)) (fun k => idx k + oX k)).det = 0) := by
  classical
  obtain ⟨la1, la2⟩ := la
  obtain ⟨lb1, lb2⟩ := lb
  have hmm : (if torchVec LA LB then LB.ndim - 1 else LB.ndim - 2) = m := by
    rcases hvec with ⟨h, h'⟩ | ⟨h, h'⟩
    · rw [if_pos h]; omega
    · rw [if_neg h]; omega
  have hb : max (LA.ndim - 2) m = GA.ndim - 2 := by rw [la1]; omega
  have hbA : ∀ k, batchDim LA (GA.ndim - 2) (GA.ndim - 2) k = LA.dim k := by
    intro k
    unfold batchDim
    rw [if_neg (by omega)]
    congr 1; omega
  have hbB : ∀ k < GA.ndim - 2, batchDim LB (GA.ndim - 2) m k = LA.dim k ∨ batchDim LB (GA.ndim - 2) m k = 1 := by
    intro k hk
    unfold batchDim
    rcases hd with h | h
    · left
      rw [if_neg (by omega), ← hsame h k hk]
      congr 1; omega
    · right
      rw [if_pos (by omega)]
  have hdimlt : ∀ k < GA.ndim - 2, (torchSolveRes LA LB).dim k = LA.dim k := by
    intro k hk
    unfold torchSolveRes
    dsimp only
    rw [hmm, hb, if_pos hk, la1, hbA]
    by_cases h1 : LA.dim k = 1
    · rw [if_pos h1]
      rcases hbB k hk with h | h
      · exact h
      · rw [h, h1]
    · rw [if_neg h1]
  have hdimge : ∀ k < GB.ndim, m ≤ k → (torchSolveRes LA LB).dim (k + d) = LB.dim k := by
    intro k hk hmk
    unfold torchSolveRes
    dsimp only
    rw [hmm, hb, if_neg (by omega)]
    congr 1; omega
  have hndim : (torchSolveRes LA LB).ndim = GB.ndim + d := by
    unfold torchSolveRes
    dsimp only
    rw [hmm, hb, lb1]
    omega
  have hmat : ∀ idx : Nat → Nat, (∀ k < GA.ndim - 2, idx k < LA.dim k) → solveMat LA (GA.ndim - 2) (GA.dim (GA.ndim - 1)) idx = Spec.batchMat GA (GA.dim (GA.ndim - 1)) (fun k => idx k + oX k) := by
    intro idx hidx
    ext i j
    unfold solveMat Spec.batchMat
    rw [la1, la2]
    · apply hA
      intro k hk
      by_cases h1 : k < GA.ndim - 2
      · have h3 := hidx k h1
        by_cases h2 : LA.dim k = 1
        · rw [if_pos h1, if_pos h2, if_neg (by omega), if_neg (by omega), ho k h1]
          show 0 + oX k = idx k + oX k
          omega
        · rw [if_pos h1, if_neg h2, if_neg (by omega), if_neg (by omega), ho k h1]
          congr 2; omega
      · rw [if_neg h1]
        by_cases h2 : k = GA.ndim - 2
        · rw [if_pos h2, if_pos h2, h2, ho4]; rfl
        · have h3 : k = GA.ndim - 1 := by omega
          rw [if_neg h2, if_neg h2, if_pos h3, h3, ho5]; rfl
    · intro k hk
      rw [la1] at hk
      dsimp only
      by_cases h1 : k < GA.ndim - 2
      · rw [if_pos h1]
        by_cases h2 : LA.dim k = 1
        · rw [if_pos h2]; omega
        · rw [if_neg h2]
          have := hidx k h1
          have h3 : k + (GA.ndim - 2 - (GA.ndim - 2)) = k := by omega
          rw [h3]; exact this
      · rw [if_neg h1]
        by_cases h2 : k = GA.ndim - 2
        · rw [if_pos h2, h2, hAe]; exact i.2
        · have h3 : k = GA.ndim - 1 := by omega
          rw [if_neg h2, h3, hAe1]; exact j.2
  have hrhs : ∀ idx : Nat → Nat, Spec.InB (torchSolveRes LA LB) idx → solveRhs LB (GA.ndim - 2) m (GA.dim (GA.ndim - 1)) idx = fun i : Fin (GA.dim (GA.ndim - 1)) => GB.get fun k => Function.update (fun k => idx k + oX k) (GA.ndim - 2) (i : Nat) (k + d) := by
    intro idx hidx
    ext i
    unfold solveRhs
    have hbd : ∀ k < m, d = 0 ∧ idx k < LB.dim k := by
      intro k hk
      rcases hd with h | h
      · refine ⟨h, ?_⟩
        have := hidx k (by rw [hndim]; omega)
        rw [hdimlt k (by omega)] at this
        rw [hsame h k (by omega)]; exact this
      · omega
    rw [lb2]
    · apply hB
      intro k hk
      by_cases h1 : k < m
      · obtain ⟨h0, h3⟩ := hbd k h1
        rw [if_pos h1, ho2 k hk, Function.update_of_ne (by omega)]
        by_cases h2 : LB.dim k = 1
        · rw [if_pos h2, h0, Nat.add_zero]; omega
        · rw [if_neg h2]
          congr 2; omega
      · rw [if_neg h1]
        by_cases h2 : k = m
        · rw [if_pos h2, ho2 k hk]
          have h3 : k + d = GA.ndim - 2 := by omega
          rw [h3, ho3, Function.update_self]; rfl
        · rw [if_neg h2, ho2 k hk, Function.update_of_ne (by omega)]
          congr 2; omega
    · intro k hk
      rw [lb1] at hk
      dsimp only
      by_cases h1 : k < m
      · obtain ⟨h0, h3⟩ := hbd k h1
        rw [if_pos h1]
        by_cases h2 : LB.dim k = 1
        · rw [if_pos h2]; omega
        · rw [if_neg h2]
          have h4 : k + (GA.ndim - 2 - m) = k := by omega
          rw [h4]; exact h3
      · rw [if_neg h1]
        by_cases h2 : k = m
        · rw [if_pos h2, h2, hBm]; exact i.2
        · rw [if_neg h2]
          have := hidx (k + d) (by rw [hndim]; omega)
          rw [hdimge k hk (by omega)] at this
          have h4 : GA.ndim - 2 + 1 = k + d := by omega
          rw [h4]; exact this
  refine ⟨?_, hndim, hdimlt, hdimge, ?_, ?_⟩
  · unfold torchSolveShape
    dsimp only
    rw [hmm, hb, la1, lb1]
    rw [decide_eq_true_eq]
    refine ⟨hn, by omega, by rw [hAe, hAe1], by rw [hBm, hAe1], ?_⟩
    intro k hk
    rw [hbA]
    rcases hbB k hk with h | h
    · exact Or.inl h.symm
    · exact Or.inr (Or.inr h)
  · intro idx hidx
    have h1 := hrhs idx hidx
    have h2 := hmat idx (fun k hk => by
      have := hidx k (by rw [hndim]; omega)
      rwa [hdimlt k hk] at this)
    have h3 : (torchSolveRes LA LB).get idx = if h : idx (GA.ndim - 2) < GA.dim (GA.ndim - 1) then ((solveMat LA (GA.ndim - 2) (GA.dim (GA.ndim - 1)) idx)⁻¹ *ᵥ solveRhs LB (GA.ndim - 2) m (GA.dim (GA.ndim - 1)) idx) ⟨idx (GA.ndim - 2), h⟩ else 0 := by
      unfold torchSolveRes
      dsimp only
      simp only [hmm, hb]
      have hq : LA.dim (LA.ndim - 1) = GA.dim (GA.ndim - 1) := by rw [la1, hAe1]
      generalize LA.dim (LA.ndim - 1) = q at hq
      subst hq
      rfl
    rw [h3, h1, h2]
    unfold gSol
    dsimp only
    simp only [ho3, Nat.add_zero]
  · unfold torchSingular
    dsimp only
    rw [hmm, hb, la1, hAe1, decide_eq_true_eq]
    constructor
    · rintro ⟨idx, h1, h2⟩
      have h3 : ∀ k < GA.ndim - 2, idx k < LA.dim k := fun k hk => by rw [← hdimlt k hk]; exact h1 k hk
      exact ⟨idx, h3, by rw [← hmat idx h3]; exact h2⟩
    · rintro ⟨idx, h1, h2⟩
      exact ⟨idx, fun k hk => by rw [hdimlt k hk]; exact h1 k hk, by rw [hmat idx h1]; exact h2⟩

/-! ## The checks -/

/-- What `solve` has found out when its checks pass. -/
theorem solveCheck_spec {P : Nat} (hP : 2 ≤ P) {shA shB : List Nat} {spA spB : Option Nat} {pl : SolvePlan} (h : solveCheck P shA shB spA spB = .ok pl) :
    (pl.nb < shB.length ∧ shB.getD pl.nb 0 = shA.getD (shA.length - 1) 0 ∧ (shB.length = pl.nb + 1 ∨ (shB.length = pl.nb + 2 ∧ shB.getD (pl.nb + 1) 0 ≠ shA.getD (shA.length - 1) 0))) ∧
      spB ≠ some pl.nb ∧ (∀ s, spA = some s → s + 3 ≤ shA.length) ∧ (spA ≠ none → spB ≠ none → spA = spB) ∧
      ((pl.expand = false ∧ shB.take pl.nb = shA.take (shA.length - 2) ∧ pl.shape = shB ∧ pl.split = spB) ∨
        (pl.expand = true ∧ pl.nb = 0 ∧ 2 < shA.length ∧ pl.shape = shA.take (shA.length - 2) ++ shB ∧ pl.split = if spA = none then spB else spA)) := by
  unfold solveCheck at h
  dsimp only at h
  by_cases h0 : shA.length = 0 ∨ shB.length = 0
  · rw [if_pos h0] at h; cases h
  rw [if_neg h0] at h
  push Not at h0
  have key : ∀ nb, (if 2 ≤ P ∧ spB = some nb then Except.error Err.notImplemented
      else if 2 ≤ P ∧ ∃ s, spA = some s ∧ shA.length < s + 3 then .error .notImplemented
      else if 2 ≤ P ∧ spA ≠ none ∧ spB ≠ none ∧ spA ≠ spB then .error .valueError
      else if shB.take nb = shA.take (shA.length - 2) then .ok ⟨nb, false, shB, spB⟩
      else if nb = 0 ∧ 2 < shA.length then .ok ⟨nb, true, shA.take (shA.length - 2) ++ shB, if spA = none then spB else spA⟩
      else .error .valueError) = Except.ok pl →
      pl.nb = nb ∧ spB ≠ some nb ∧ (∀ s, spA = some s → s + 3 ≤ shA.length) ∧ (spA ≠ none → spB ≠ none → spA = spB) ∧
      ((pl.expand = false ∧ shB.take pl.nb = shA.take (shA.length - 2) ∧ pl.shape = shB ∧ pl.split = spB) ∨
        (pl.expand = true ∧ pl.nb = 0 ∧ 2 < shA.length ∧ pl.shape = shA.take (shA.length - 2) ++ shB ∧ pl.split = if spA = none then spB else spA)) := by
    intro nb h
    by_cases h1 : 2 ≤ P ∧ spB = some nb
    · rw [if_pos h1] at h; cases h
    rw [if_neg h1] at h
    by_cases h2 : 2 ≤ P ∧ ∃ s, spA = some s ∧ shA.length < s + 3
    · rw [if_pos h2] at h; cases h
    rw [if_neg h2] at h
    by_cases h3 : 2 ≤ P ∧ spA ≠ none ∧ spB ≠ none ∧ spA ≠ spB
    · rw [if_pos h3] at h; cases h
    rw [if_neg h3] at h
    have e1 : spB ≠ some nb := fun e => h1 ⟨hP, e⟩
    have e2 : ∀ s, spA = some s → s + 3 ≤ shA.length := by
      intro s hs
      by_contra hc
      exact h2 ⟨hP, s, hs, by omega⟩
    have e3 : spA ≠ none → spB ≠ none → spA = spB := by
      intro ha hb
      by_contra hc
      exact h3 ⟨hP, ha, hb, hc⟩
    by_cases h4 : shB.take nb = shA.take (shA.length - 2)
    · rw [if_pos h4] at h
      cases h
      exact ⟨rfl, e1, e2, e3, Or.inl ⟨rfl, h4, rfl, rfl⟩⟩
    rw [if_neg h4] at h
    by_cases h5 : nb = 0 ∧ 2 < shA.length
    · rw [if_pos h5] at h
      cases h
      exact ⟨rfl, e1, e2, e3, Or.inr ⟨rfl, h5.1, h5.2, rfl, rfl⟩⟩
    rw [if_neg h5] at h
    cases h
  by_cases g1 : shB.getD (shB.length - 1) 0 = shA.getD (shA.length - 1) 0
  · rw [if_pos g1] at h
    obtain ⟨k1, k2, k3, k4, k5⟩ := key _ h
    exact ⟨⟨by omega, by rw [k1, g1], Or.inl (by omega)⟩, by rw [k1]; exact k2, k3, k4, k5⟩
  · rw [if_neg g1] at h
    by_cases g2 : shB.length = 1
    · rw [if_pos g2] at h; cases h
    rw [if_neg g2] at h
    by_cases g3 : shB.getD (shB.length - 2) 0 = shA.getD (shA.length - 1) 0
    · rw [if_pos g3] at h
      obtain ⟨k1, k2, k3, k4, k5⟩ := key _ h
      refine ⟨⟨by omega, by rw [k1, g3], Or.inr ⟨by omega, ?_⟩⟩, by rw [k1]; exact k2, k3, k4, k5⟩
      have : pl.nb + 1 = shB.length - 1 := by omega
      rw [this]; exact g1
    · rw [if_neg g3] at h; cases h

/-! ## From the representation to the parts -/

/-- Offset of the part of process `r`. -/
def repOff (x : DND K) (r k : Nat) : Nat := if x.split = some k then Spec.axisStart x.loc k r else 0

theorem locOf_rep {P : Nat} {x : DND K} {G : NArr K} (h : Spec.Rep P x G) {r : Nat} (hr : r < P) : LocOf (x.loc r) G (repOff x r) := by
  obtain ⟨hG, h1, h2, h3, h4⟩ := h
  refine ⟨h3 r hr, ?_⟩
  intro idx hidx
  unfold repOff
  rcases hs : x.split with _ | s
  · rw [hs] at h4
    rw [(h4 r hr).2 idx hidx]
    apply hG
    intro k hk
    rw [if_neg (by simp), Nat.add_zero]
  · rw [hs] at h4
    rw [(h4.2.2 r hr).2 idx hidx]
    apply hG
    intro k hk
    unfold Spec.shift
    by_cases h : k = s
    · rw [if_pos h, if_pos (by rw [h]), h]
    · rw [if_neg h, if_neg (by simpa using Ne.symm h), Nat.add_zero]

theorem rep_dim {P : Nat} {x : DND K} {G : NArr K} (h : Spec.Rep P x G) {r k : Nat} (hr : r < P) (hk : k < G.ndim) (hs : x.split ≠ some k) : (x.loc r).dim k = G.dim k := by
  obtain ⟨hG, h1, h2, h3, h4⟩ := h
  rcases hx : x.split with _ | s
  · rw [hx] at h4
    exact (h4 r hr).1 k hk
  · rw [hx] at h4
    exact (h4.2.2 r hr).1 k hk (fun e => hs (by rw [hx, e]))

theorem rep_split {P : Nat} {x : DND K} {G : NArr K} (h : Spec.Rep P x G) {s : Nat} (hs : x.split = some s) : s < G.ndim ∧ Spec.axisStart x.loc s P = G.dim s := by
  obtain ⟨hG, h1, h2, h3, h4⟩ := h
  rw [hs] at h4
  exact ⟨h4.1, h4.2.1⟩

theorem axisStart_congr2 {l l' : Nat → NArr K} {s s' r : Nat} (h : ∀ q < r, (l q).dim s = (l' q).dim s') : Spec.axisStart l s r = Spec.axisStart l' s' r := by
  unfold Spec.axisStart
  congr 1
  apply List.map_congr_left
  intro q hq
  exact h q (List.mem_range.1 hq)

theorem axisStart_owner2 (loc : Nat → NArr K) (s : Nat) : ∀ (P i : Nat), i < Spec.axisStart loc s P → ∃ r < P, Spec.axisStart loc s r ≤ i ∧ i < Spec.axisStart loc s r + (loc r).dim s := by
  intro P
  induction P with
  | zero => intro i h; unfold Spec.axisStart at h; simp at h
  | succ P ih =>
    intro i h
    by_cases h1 : i < Spec.axisStart loc s P
    · obtain ⟨r, hr, h2⟩ := ih i h1
      exact ⟨r, by omega, h2⟩
    · rw [axisStart_succ] at h
      exact ⟨P, by omega, by omega, h⟩

/-- The combinations of splits for which the parts of the matrices and of the right-hand sides on each process belong together. -/
def SolveMatch (pl : SolvePlan) (spA spB : Option Nat) : Prop :=
  (spA = none ∧ spB = none) ∨ (pl.expand = false ∧ spA = spB) ∨ (pl.expand = true ∧ spB = none) ∨ (spA = none ∧ pl.expand = false ∧ spB = some (pl.nb + 1))

/-- All processes together. -/
theorem solve_core {P : Nat} (hP : 2 ≤ P) {A b : DND K} {GA GB : NArr K} (hA : Spec.Rep P A GA) (hB : Spec.Rep P b GB) (hn : 2 ≤ GA.ndim) (hsq : GA.dim (GA.ndim - 2) = GA.dim (GA.ndim - 1)) {pl : SolvePlan}
    (hpl : solveCheck P A.gshape b.gshape A.split b.split = .ok pl) (hs : SolveMatch pl A.split b.split) (hc : ∀ s, A.split = some s → b.split = some s → ∀ r < P, (A.loc r).dim s = (b.loc r).dim s) :
    (∀ r < P, torchSolveShape (A.loc r) (b.loc r) = true) ∧
      ∃ GX, Spec.Rep P ⟨pl.shape, pl.split, fun r => torchSolveRes (A.loc r) (b.loc r), some true⟩ GX ∧
        ((∀ idx, (∀ k < GA.ndim - 2, idx k < GA.dim k) → (Spec.batchMat GA (GA.dim (GA.ndim - 1)) idx).det ≠ 0) → Spec.IsSolution GA GB GX) ∧
        ((∃ r < P, torchSingular (A.loc r) (b.loc r) = true) ↔ ∃ idx : Nat → Nat, (∀ k < GA.ndim - 2, idx k < GA.dim k) ∧ (Spec.batchMat GA (GA.dim (GA.ndim - 1)) idx).det = 0) := by
  obtain ⟨⟨c1, c2, c3⟩, c4, c5, c6, c7⟩ := solveCheck_spec hP hpl
  have hlA : A.gshape.length = GA.ndim := hA.2.1
  have hlB : b.gshape.length = GB.ndim := hB.2.1
  have hgA : ∀ k < GA.ndim, A.gshape.getD k 0 = GA.dim k := hA.2.2.1
  have hgB : ∀ k < GB.ndim, b.gshape.getD k 0 = GB.dim k := hB.2.2.1
  rw [hlA] at c2 c3 c5 c7
  rw [hlB] at c1 c3
  rw [hgA _ (by omega)] at c2 c3
  rw [hgB _ c1] at c2
  -- the axis of the unknowns
  have hme : ∃ d, pl.nb + d = GA.ndim - 2 ∧ ((pl.expand = false ∧ d = 0) ∨ (pl.expand = true ∧ d = GA.ndim - 2 ∧ pl.nb = 0 ∧ 2 < GA.ndim)) := by
    rcases c7 with ⟨e1, e2, -, -⟩ | ⟨e1, e2, e3, -, -⟩
    · have := congrArg List.length e2
      rw [List.length_take, List.length_take, hlA, hlB] at this
      exact ⟨0, by omega, Or.inl ⟨e1, rfl⟩⟩
    · exact ⟨GA.ndim - 2, by omega, Or.inr ⟨e1, rfl, e2, e3⟩⟩
  obtain ⟨d, hm, hd⟩ := hme
  have hd' : d = 0 ∨ d = GA.ndim - 2 := by
    rcases hd with h | h
    · exact Or.inl h.2
    · exact Or.inr h.2.1
  have hdims : d = 0 → ∀ k < GA.ndim - 2, GB.dim k = GA.dim k := by
    intro h0 k hk
    have e2 : b.gshape.take pl.nb = A.gshape.take (GA.ndim - 2) := by
      rcases c7 with ⟨e1, e2, -, -⟩ | ⟨e1, e2, e3, -, -⟩
      · exact e2
      · omega
    have := congrArg (fun l => l.getD k 0) e2
    simp only [List.getD_eq_getElem?_getD] at this
    rw [List.getElem?_take_of_lt (by omega), List.getElem?_take_of_lt (by omega)] at this
    rw [← List.getD_eq_getElem?_getD, ← List.getD_eq_getElem?_getD, hgA k (by omega), hgB k (by omega)] at this
    exact this
  have hAsp : ∀ s, A.split = some s → s < GA.ndim - 2 := fun s h => by have := c5 s h; omega
  have hBlt : GB.ndim ≤ pl.nb + 2 := by rcases c3 with h | h <;> omega
  -- the splits
  have hboth : ∀ k, d = 0 → k < GA.ndim - 2 → (A.split = some k ↔ b.split = some k) := by
    intro k h0 hk
    have hex : pl.expand = false := by
      rcases hd with h | h
      · exact h.1
      · omega
    rcases hs with ⟨h1, h2⟩ | ⟨h1, h2⟩ | ⟨h1, h2⟩ | ⟨h1, h2, h3⟩
    · rw [h1, h2]
    · rw [h2]
    · rw [hex] at h1; cases h1
    · rw [h1, h3]
      constructor
      · intro h; cases h
      · intro h; cases h; omega
  let oX : Nat → Nat → Nat := fun r k => if k < GA.ndim - 2 then repOff A r k else repOff b r (k - d)
  have hstart : ∀ s, A.split = some s → b.split = some s → ∀ r ≤ P, Spec.axisStart A.loc s r = Spec.axisStart b.loc s r := fun s h1 h2 r hr => axisStart_congr2 (fun q hq => hc s h1 h2 q (by omega))
  have hrank := fun r (hr : r < P) => solve_rank hA.1 hB.1 hn (A.loc r) (b.loc r) (repOff A r) (repOff b r) (oX r) (locOf_rep hA hr) (locOf_rep hB hr) hd' hm c1 hBlt
    (by rw [rep_dim hA hr (by omega) (fun h => by have := hAsp _ h; omega)]; exact hsq)
    (by rw [rep_dim hA hr (by omega) (fun h => by have := hAsp _ h; omega)])
    (by rw [rep_dim hB hr c1 c4]; exact c2)
    (by intro k hk; show _ = if k < GA.ndim - 2 then repOff A r k else repOff b r (k - d); rw [if_pos hk])
    (by
      intro k hk
      show _ = if k + d < GA.ndim - 2 then repOff A r (k + d) else repOff b r (k + d - d)
      by_cases h : k + d < GA.ndim - 2
      · have h0 : d = 0 := by omega
        subst h0
        rw [if_pos h]
        unfold repOff
        by_cases hx : A.split = some k
        · have hy := (hboth k rfl h).1 hx
          rw [if_pos hy, Nat.add_zero, if_pos hx, hstart k hx hy r (by omega)]
        · have hy : ¬ b.split = some k := fun hb => hx ((hboth k rfl h).2 hb)
          rw [if_neg hy, Nat.add_zero, if_neg hx]
      · rw [if_neg h, Nat.add_sub_cancel])
    (by
      show (if GA.ndim - 2 < GA.ndim - 2 then _ else repOff b r (GA.ndim - 2 - d)) = 0
      rw [if_neg (by omega)]
      unfold repOff
      rw [if_neg (by rw [show GA.ndim - 2 - d = pl.nb by omega]; exact c4)])
    (by unfold repOff; rw [if_neg (fun h => by have := hAsp _ h; omega)])
    (by unfold repOff; rw [if_neg (fun h => by have := hAsp _ h; omega)])
    (by
      intro h0 k hk
      by_cases hx : A.split = some k
      · exact (hc k hx ((hboth k h0 hk).1 hx) r hr).symm
      · rw [rep_dim hA hr (by omega) hx, rep_dim hB hr (by omega) (fun hb => hx ((hboth k h0 hk).2 hb)), hdims h0 k hk])
    (by
      have hAn : (A.loc r).ndim = GA.ndim := hA.2.2.2.1 r hr
      have hBn : (b.loc r).ndim = GB.ndim := hB.2.2.2.1 r hr
      rcases c3 with h | ⟨h, hne⟩
      · left
        refine ⟨?_, h⟩
        unfold torchVec
        rw [hAn, hBn]
        rcases hd with ⟨-, h0⟩ | ⟨-, -, h0, -⟩
        · by_cases hnd : GB.ndim = 1
          · exact Or.inl hnd
          right
          refine ⟨by omega, ?_⟩
          intro k hk
          by_cases hk2 : k < GA.ndim - 2
          · by_cases hx : A.split = some k
            · exact (hc k hx ((hboth k h0 hk2).1 hx) r hr).symm
            · rw [rep_dim hA hr (by omega) hx, rep_dim hB hr (by omega) (fun hb => hx ((hboth k h0 hk2).2 hb)), hdims h0 k hk2]
          · have hkn : k = pl.nb := by omega
            have hkA : k = GA.ndim - 2 := by omega
            rw [rep_dim hB hr hk (by rw [hkn]; exact c4), rep_dim hA hr (by omega) (fun h => by have := hAsp _ h; omega), hkA, hsq, ← c2]
            congr 1; omega
        · left; omega
      · right
        refine ⟨?_, h⟩
        unfold torchVec
        rw [hAn, hBn]
        rintro (h1 | ⟨h1, h2⟩)
        · omega
        · have hd0 : d ≠ 0 := by omega
          have hex : pl.expand = true ∧ pl.nb = 0 ∧ GA.ndim = 3 := by
            rcases hd with h3 | h3
            · exact absurd h3.2 hd0
            · exact ⟨h3.1, h3.2.2.1, by omega⟩
          have hb1 : b.split ≠ some 1 := by
            intro hb1
            rcases hs with ⟨-, h2⟩ | ⟨h1, h2⟩ | ⟨h1, h2⟩ | ⟨h1, h2, h3⟩
            · rw [hb1] at h2; cases h2
            · rw [hex.1] at h1; cases h1
            · rw [hb1] at h2; cases h2
            · rw [hex.1] at h2; cases h2
          have h3 := h2 1 (by omega)
          rw [rep_dim hB hr (by omega) hb1, rep_dim hA hr (by omega) (fun h => by have := hAsp _ h; omega)] at h3
          apply hne
          rw [hgB _ (by omega), hex.2.1]
          show GB.dim 1 = _
          rw [h3, ← hsq]
          congr 1; omega)
  have hsplit : (∀ k, k < GA.ndim - 2 → (pl.split = some k ↔ A.split = some k)) ∧ (∀ k, GA.ndim - 2 ≤ k → (pl.split = some k ↔ b.split = some (k - d))) := by
    rcases c7 with ⟨e1, e2, e3, e4⟩ | ⟨e1, e2, e3, e4, e5⟩
    · have h0 : d = 0 := by
        rcases hd with h | h
        · exact h.2
        · rw [e1] at h; cases h.1
      rw [e4]
      exact ⟨fun k hk => (hboth k h0 hk).symm, fun k hk => by rw [h0, Nat.sub_zero]⟩
    · have hbn : b.split = none := by
        rcases hs with ⟨-, h2⟩ | ⟨h1, h2⟩ | ⟨h1, h2⟩ | ⟨h1, h2, h3⟩
        · exact h2
        · rw [e1] at h1; cases h1
        · exact h2
        · rw [e1] at h2; cases h2
      have hps : pl.split = A.split := by
        rw [e5]
        by_cases h : A.split = none
        · rw [if_pos h, hbn, h]
        · rw [if_neg h]
      rw [hps, hbn]
      refine ⟨fun k _ => Iff.rfl, fun k hk => ?_⟩
      constructor
      · intro h
        have := hAsp k h
        omega
      · intro h; cases h
  have hXdim : ∀ k, (gSol GA GB d).dim k = if k < GA.ndim - 2 then GA.dim k else GB.dim (k - d) := fun k => rfl
  have hshape : pl.shape.length = GB.ndim + d ∧ ∀ k < GB.ndim + d, pl.shape.getD k 0 = (gSol GA GB d).dim k := by
    rcases c7 with ⟨e1, e2, e3, e4⟩ | ⟨e1, e2, e3, e4, e5⟩
    · have h0 : d = 0 := by
        rcases hd with h | h
        · exact h.2
        · rw [e1] at h; cases h.1
      rw [e3, hlB]
      refine ⟨by omega, fun k hk => ?_⟩
      rw [hgB k (by omega), hXdim]
      by_cases h : k < GA.ndim - 2
      · rw [if_pos h, hdims h0 k h]
      · rw [if_neg h, h0, Nat.sub_zero]
    · have h0 : d = GA.ndim - 2 := by
        rcases hd with h | h
        · rw [e1] at h; cases h.1
        · exact h.2.1
      rw [e4]
      have hlt : (A.gshape.take (GA.ndim - 2)).length = GA.ndim - 2 := by rw [List.length_take, hlA]; omega
      refine ⟨by rw [List.length_append, hlt, hlB]; omega, fun k hk => ?_⟩
      rw [hXdim]
      by_cases h : k < GA.ndim - 2
      · rw [if_pos h, ← hgA k (by omega)]
        simp only [List.getD_eq_getElem?_getD]
        rw [List.getElem?_append_left (by omega), List.getElem?_take_of_lt h]
      · rw [if_neg h, ← hgB _ (by omega)]
        simp only [List.getD_eq_getElem?_getD]
        rw [List.getElem?_append_right (by omega), hlt, h0]
  -- offsets of the result
  have hoff : ∀ s, pl.split = some s → s < GB.ndim + d ∧ (∀ r ≤ P, Spec.axisStart (fun r => torchSolveRes (A.loc r) (b.loc r)) s r = if s < GA.ndim - 2 then Spec.axisStart A.loc s r else Spec.axisStart b.loc (s - d) r) := by
    intro s hsp
    by_cases h : s < GA.ndim - 2
    · refine ⟨by omega, fun r hr => ?_⟩
      rw [if_pos h]
      exact axisStart_congr2 (fun q hq => (hrank q (by omega)).2.2.1 s h)
    · have hb := (hsplit.2 s (by omega)).1 hsp
      have hlt := (rep_split hB hb).1
      refine ⟨by omega, fun r hr => ?_⟩
      rw [if_neg h]
      refine axisStart_congr2 (fun q hq => ?_)
      have := (hrank q (by omega)).2.2.2.1 (s - d) hlt (by omega)
      rwa [show s - d + d = s by omega] at this
  have hloc : Spec.Local (gSol GA GB d) := gSol_local hA.1 hB.1 hn (by omega)
  refine ⟨fun r hr => (hrank r hr).1, gSol GA GB d, ⟨hloc, hshape.1, hshape.2, fun r hr => (hrank r hr).2.1, ?_⟩, ?_, ?_⟩
  · -- the parts
    have hdimr : ∀ r < P, ∀ k < GB.ndim + d, pl.split ≠ some k → (torchSolveRes (A.loc r) (b.loc r)).dim k = (gSol GA GB d).dim k := by
      intro r hr k hk hne
      rw [hXdim]
      by_cases h : k < GA.ndim - 2
      · rw [if_pos h, (hrank r hr).2.2.1 k h]
        exact rep_dim hA hr (by omega) (fun hx => hne ((hsplit.1 k h).2 hx))
      · rw [if_neg h]
        have := (hrank r hr).2.2.2.1 (k - d) (by omega) (by omega)
        rw [show k - d + d = k by omega] at this
        rw [this]
        exact rep_dim hB hr (by omega) (fun hx => hne ((hsplit.2 k (by omega)).2 hx))
    have hzero : ∀ r k, pl.split ≠ some k → oX r k = 0 := by
      intro r k hne
      show (if k < GA.ndim - 2 then repOff A r k else repOff b r (k - d)) = 0
      unfold repOff
      by_cases h : k < GA.ndim - 2
      · rw [if_pos h, if_neg (fun hx => hne ((hsplit.1 k h).2 hx))]
      · rw [if_neg h, if_neg (fun hx => hne ((hsplit.2 k (by omega)).2 hx))]
    have hval : ∀ r s, pl.split = some s → oX r s = if s < GA.ndim - 2 then Spec.axisStart A.loc s r else Spec.axisStart b.loc (s - d) r := by
      intro r s hsp
      show (if s < GA.ndim - 2 then repOff A r s else repOff b r (s - d)) = _
      unfold repOff
      by_cases h : s < GA.ndim - 2
      · rw [if_pos h, if_pos h, if_pos ((hsplit.1 s h).1 hsp)]
      · rw [if_neg h, if_neg h, if_pos ((hsplit.2 s (by omega)).1 hsp)]
    dsimp only
    rcases hsp : pl.split with _ | s
    · intro r hr
      refine ⟨fun k hk => hdimr r hr k hk (by rw [hsp]; simp), fun idx hidx => ?_⟩
      rw [(hrank r hr).2.2.2.2.1 idx hidx]
      congr 1
      ext k
      rw [hzero r k (by rw [hsp]; simp), Nat.add_zero]
    · obtain ⟨h1, h2⟩ := hoff s hsp
      refine ⟨h1, ?_, ?_⟩
      · rw [h2 P le_rfl, hXdim]
        by_cases h : s < GA.ndim - 2
        · rw [if_pos h, if_pos h, (rep_split hA ((hsplit.1 s h).1 hsp)).2]
        · rw [if_neg h, if_neg h, (rep_split hB ((hsplit.2 s (by omega)).1 hsp)).2]
      · intro r hr
        refine ⟨fun k hk hks => hdimr r hr k hk (by rw [hsp]; simpa using Ne.symm hks), fun idx hidx => ?_⟩
        rw [(hrank r hr).2.2.2.2.1 idx hidx]
        congr 1
        ext k
        unfold Spec.shift
        by_cases hk : k = s
        · rw [if_pos hk, hk, hval r s hsp, h2 r (by omega)]
        · rw [if_neg hk, hzero r k (by rw [hsp]; simpa using Ne.symm hk), Nat.add_zero]
  · intro hinv
    exact gSol_solves hA.1 hB.1 hn hd' (by omega) hdims (by rw [show GA.ndim - 2 - d = pl.nb by omega]; exact c2) hinv
  · -- singular matrices
    constructor
    · rintro ⟨r, hr, h⟩
      obtain ⟨idx, h1, h2⟩ := (hrank r hr).2.2.2.2.2.1 h
      refine ⟨_, ?_, h2⟩
      intro k hk
      show idx k + (if k < GA.ndim - 2 then repOff A r k else repOff b r (k - d)) < GA.dim k
      rw [if_pos hk]
      unfold repOff
      have := h1 k hk
      by_cases hx : A.split = some k
      · rw [if_pos hx, ← (rep_split hA hx).2]
        have h3 : Spec.axisStart A.loc k (r + 1) ≤ Spec.axisStart A.loc k P := axisStart_mono _ _ (by omega)
        rw [axisStart_succ] at h3
        omega
      · rw [if_neg hx, Nat.add_zero, ← rep_dim hA hr (by omega) hx]
        exact this
    · rintro ⟨idx, h1, h2⟩
      rcases hsp : A.split with _ | s
      · refine ⟨0, by omega, (hrank 0 (by omega)).2.2.2.2.2.2 ⟨idx, ?_, ?_⟩⟩
        · intro k hk
          rw [rep_dim hA (by omega) (by omega) (by rw [hsp]; simp)]
          exact h1 k hk
        · rw [← h2]
          congr 1
          ext i j
          unfold Spec.batchMat
          apply hA.1
          intro k hk
          by_cases e1 : k = GA.ndim - 2
          · rw [if_pos e1, if_pos e1]
          · rw [if_neg e1, if_neg e1]
            by_cases e2 : k = GA.ndim - 1
            · rw [if_pos e2, if_pos e2]
            · rw [if_neg e2, if_neg e2]
              show idx k + (if k < GA.ndim - 2 then repOff A 0 k else _) = idx k
              rw [if_pos (by omega)]
              unfold repOff
              rw [hsp, if_neg (by simp), Nat.add_zero]
      · have hs2 := hAsp s hsp
        obtain ⟨r, hr, hr1, hr2⟩ := axisStart_owner2 A.loc s P (idx s) (by rw [(rep_split hA hsp).2]; exact h1 s hs2)
        refine ⟨r, hr, (hrank r hr).2.2.2.2.2.2 ⟨fun k => if k = s then idx k - Spec.axisStart A.loc s r else idx k, ?_, ?_⟩⟩
        · intro k hk
          dsimp only
          by_cases e : k = s
          · rw [if_pos e, e]; omega
          · rw [if_neg e, rep_dim hA hr (by omega) (by rw [hsp]; simpa using Ne.symm e)]
            exact h1 k hk
        · rw [← h2]
          congr 1
          ext i j
          unfold Spec.batchMat
          apply hA.1
          intro k hk
          by_cases e1 : k = GA.ndim - 2
          · rw [if_pos e1, if_pos e1]
          · rw [if_neg e1, if_neg e1]
            by_cases e2 : k = GA.ndim - 1
            · rw [if_pos e2, if_pos e2]
            · rw [if_neg e2, if_neg e2]
              show (if k = s then idx k - Spec.axisStart A.loc s r else idx k) + (if k < GA.ndim - 2 then repOff A r k else _) = idx k
              rw [if_pos (show k < GA.ndim - 2 by omega)]
              unfold repOff
              by_cases e : k = s
              · rw [if_pos e, hsp, if_pos (by rw [e]), e]; omega
              · rw [if_neg e, hsp, if_neg (by simpa using Ne.symm e), Nat.add_zero]

/-- C128: whenever `solve` accepts its arguments, the parts of `A` and `b` on each process belong together and all matrices are invertible, every process gets its part of the solution. -/
theorem solve_partial {P : Nat} (hP : 2 ≤ P) {A b : DND K} {GA GB : NArr K} (hA : Spec.Rep P A GA) (hB : Spec.Rep P b GB) (hn : 2 ≤ GA.ndim) (hsq : GA.dim (GA.ndim - 2) = GA.dim (GA.ndim - 1)) {pl : SolvePlan}
    (hpl : solveCheck P A.gshape b.gshape A.split b.split = .ok pl) (hs : SolveMatch pl A.split b.split) (hc : ∀ s, A.split = some s → b.split = some s → ∀ r < P, (A.loc r).dim s = (b.loc r).dim s)
    (hinv : ∀ idx, (∀ k < GA.ndim - 2, idx k < GA.dim k) → (Spec.batchMat GA (GA.dim (GA.ndim - 1)) idx).det ≠ 0) :
    ∃ x GX, solveDnd P A b = .ok x ∧ Spec.Rep P x GX ∧ Spec.IsSolution GA GB GX := by
  obtain ⟨h1, GX, h2, h3, h4⟩ := solve_core hP hA hB hn hsq hpl hs hc
  refine ⟨_, GX, ?_, h2, h3 hinv⟩
  unfold solveDnd
  rw [hpl]
  dsimp only
  rw [if_pos h1, if_neg]
  rw [h4]
  rintro ⟨idx, h5, h6⟩
  exact hinv idx h5 h6

/-- C128: when one of the matrices is singular, every process raises, also those whose matrices are invertible. -/
theorem solve_singular_partial {P : Nat} (hP : 2 ≤ P) {A b : DND K} {GA GB : NArr K} (hA : Spec.Rep P A GA) (hB : Spec.Rep P b GB) (hn : 2 ≤ GA.ndim) (hsq : GA.dim (GA.ndim - 2) = GA.dim (GA.ndim - 1)) {pl : SolvePlan}
    (hpl : solveCheck P A.gshape b.gshape A.split b.split = .ok pl) (hs : SolveMatch pl A.split b.split) (hc : ∀ s, A.split = some s → b.split = some s → ∀ r < P, (A.loc r).dim s = (b.loc r).dim s)
    (hsing : ∃ idx : Nat → Nat, (∀ k < GA.ndim - 2, idx k < GA.dim k) ∧ (Spec.batchMat GA (GA.dim (GA.ndim - 1)) idx).det = 0) :
    solveDnd P A b = .raises .runtimeError := by
  obtain ⟨h1, GX, h2, h3, h4⟩ := solve_core hP hA hB hn hsq hpl hs hc
  unfold solveDnd
  rw [hpl]
  dsimp only
  rw [if_pos h1, if_pos (h4.2 hsing)]

/-- Batches of matrices with right-hand sides of other than `n` columns, or vectors, are accepted when neither is split, or both along the same batch axis. -/
theorem solve_accepts (P : Nat) (bs : List Nat) (n k : Nat) (hk : k ≠ n) (sp : Option Nat) (hsp : ∀ s, sp = some s → s < bs.length) :
    solveCheck P (bs ++ [n, n]) (bs ++ [n, k]) sp sp = .ok ⟨bs.length, false, bs ++ [n, k], sp⟩ ∧
      solveCheck P (bs ++ [n, n]) (bs ++ [n]) sp sp = .ok ⟨bs.length, false, bs ++ [n], sp⟩ := by
  have h1 : ¬ (2 ≤ P ∧ sp = some bs.length) := by
    rintro ⟨-, h⟩
    have := hsp _ h
    omega
  have h2 : ∀ m, m = bs.length + 2 → ¬ (2 ≤ P ∧ ∃ s, sp = some s ∧ m < s + 3) := by
    rintro m hm ⟨-, s, h, h'⟩
    have := hsp _ h
    omega
  have h3 : ¬ (2 ≤ P ∧ sp ≠ none ∧ sp ≠ none ∧ sp ≠ sp) := fun h => h.2.2.2 rfl
  constructor
  · unfold solveCheck
    dsimp only
    have g0 : (bs ++ [n, n]).length = bs.length + 2 := by simp
    have g1 : (bs ++ [n, k]).length = bs.length + 2 := by simp
    have g2 : (bs ++ [n, n]).getD (bs.length + 2 - 1) 0 = n := by simp
    have g3 : (bs ++ [n, k]).getD (bs.length + 2 - 1) 0 = k := by simp
    have g4 : (bs ++ [n, k]).getD (bs.length + 2 - 2) 0 = n := by simp
    rw [g0, g1, g2, g3, g4, if_neg (by omega), if_neg hk, if_neg (by omega), if_pos rfl]
    dsimp only
    rw [show bs.length + 2 - 2 = bs.length from rfl, if_neg h1, if_neg (h2 _ rfl), if_neg h3, if_pos (by simp)]
  · unfold solveCheck
    dsimp only
    have g0 : (bs ++ [n, n]).length = bs.length + 2 := by simp
    have g1 : (bs ++ [n]).length = bs.length + 1 := by simp
    have g2 : (bs ++ [n, n]).getD (bs.length + 2 - 1) 0 = n := by simp
    have g3 : (bs ++ [n]).getD (bs.length + 1 - 1) 0 = n := by simp
    rw [g0, g1, g2, g3, if_neg (by omega), if_pos rfl]
    dsimp only
    rw [show bs.length + 1 - 1 = bs.length from rfl, show bs.length + 2 - 2 = bs.length from rfl, if_neg h1, if_neg (h2 _ rfl), if_neg h3, if_pos (by simp)]

/-! ## What goes wrong -/

/-- A right-hand side with as many columns as unknowns (in particular `solve(A, B)` with square `B`) is refused, whatever the splits. -/
theorem solve_square_violated (P : Nat) (bs : List Nat) (n : Nat) (spA spB : Option Nat) : ∃ e, solveCheck P (bs ++ [n, n]) (bs ++ [n, n]) spA spB = .error e := by
  unfold solveCheck
  dsimp only
  have hl : (bs ++ [n, n]).length = bs.length + 2 := by simp
  rw [if_neg (by omega)]
  rw [if_pos rfl]
  dsimp only
  split
  · exact ⟨_, rfl⟩
  split
  · exact ⟨_, rfl⟩
  split
  · exact ⟨_, rfl⟩
  rw [if_neg, if_neg]
  · exact ⟨_, rfl⟩
  · omega
  · intro h
    have := congrArg List.length h
    rw [List.length_take, List.length_take] at this
    omega

/-- A batch of `m` multiples of the identity. -/
def idBatch (m n : Nat) (c : ℚ) : NArr ℚ := ⟨3, fun k => if k = 0 then m else n, fun idx => if idx 1 = idx 2 then c else 0⟩

/-- A batch of `m` right-hand sides of ones. -/
def oneBatch (m n k : Nat) : NArr ℚ := ⟨3, fun a => if a = 0 then m else if a = 1 then n else k, fun _ => 1⟩

/-- One right-hand side of ones. -/
def oneMat (n k : Nat) : NArr ℚ := ⟨2, fun a => if a = 0 then n else k, fun _ => 1⟩

theorem solveMat_id (m n : Nat) (c : ℚ) (idx : Nat → Nat) : solveMat (idBatch m n c) 1 n idx = c • (1 : Matrix (Fin n) (Fin n) ℚ) := by
  ext i j
  unfold solveMat idBatch
  simp only [Matrix.smul_apply, Matrix.one_apply, smul_eq_mul]
  simp [Fin.ext_iff]

theorem det_id (n : Nat) {c : ℚ} (hc : c ≠ 0) : (c • (1 : Matrix (Fin n) (Fin n) ℚ)).det ≠ 0 := by
  rw [det_smul, det_one, mul_one]
  exact pow_ne_zero _ hc

/-- What torch computes with a batch of multiples of the identity. -/
theorem torch_id {m n : Nat} (hn : 0 < n) {c : ℚ} (hc : c ≠ 0) (B : NArr ℚ) (e : Nat) (he : e ≤ 1) (hv : ¬ torchVec (idBatch m n c) B) (hB : B.ndim = e + 2) (hBn : B.dim e = n) (hone : ∀ idx, B.get idx = 1)
    (hbc : e = 1 → m = B.dim 0 ∨ m = 1 ∨ B.dim 0 = 1) :
    torchSolveShape (idBatch m n c) B = true ∧ torchSingular (idBatch m n c) B = false ∧ (torchSolveRes (idBatch m n c) B).ndim = 3 ∧
      (torchSolveRes (idBatch m n c) B).dim 0 = (if m = 1 then (if e = 1 then B.dim 0 else 1) else m) ∧ (torchSolveRes (idBatch m n c) B).dim 1 = n ∧ (torchSolveRes (idBatch m n c) B).dim 2 = B.dim (e + 1) ∧
      ∀ idx, idx 1 < n → (torchSolveRes (idBatch m n c) B).get idx = c⁻¹ := by
  classical
  have hmm : (if torchVec (idBatch m n c) B then B.ndim - 1 else B.ndim - 2) = e := by rw [if_neg hv]; omega
  have hmax : max ((idBatch m n c).ndim - 2) e = 1 := by show max 1 e = 1; omega
  have hnd : (idBatch m n c).ndim - 2 = 1 := rfl
  have hdn : (idBatch m n c).dim ((idBatch m n c).ndim - 1) = n := rfl
  have hbA : batchDim (idBatch m n c) 1 1 0 = m := rfl
  have hbB : batchDim B 1 e 0 = if e = 1 then B.dim 0 else 1 := by
    unfold batchDim
    by_cases h : e = 1
    · subst h; rfl
    · have : e = 0 := by omega
      subst this; rfl
  refine ⟨?_, ?_, ?_, ?_, ?_, ?_, ?_⟩
  · unfold torchSolveShape
    dsimp only
    rw [hmm, hmax, decide_eq_true_eq]
    refine ⟨by show 2 ≤ 3; omega, by omega, rfl, by rw [hBn]; rfl, ?_⟩
    intro k hk
    have : k = 0 := by omega
    subst this
    rw [hnd, hbA, hbB]
    by_cases h : e = 1
    · rw [if_pos h]; exact hbc h
    · rw [if_neg h]; exact Or.inr (Or.inr rfl)
  · unfold torchSingular
    dsimp only
    rw [hmm, hmax, hdn, decide_eq_false_iff_not]
    rintro ⟨idx, -, h⟩
    rw [solveMat_id] at h
    exact det_id n hc h
  · unfold torchSolveRes
    dsimp only
    rw [hmm, hmax]; omega
  · unfold torchSolveRes
    dsimp only
    rw [hmm, hmax, if_pos (by omega), hnd, hbA, hbB]
  · unfold torchSolveRes
    dsimp only
    rw [hmm, hmax, if_neg (by omega), show 1 - 1 + e = e by omega, hBn]
  · unfold torchSolveRes
    dsimp only
    rw [hmm, hmax, if_neg (by omega)]
    congr 1; omega
  · intro idx h
    unfold torchSolveRes
    dsimp only
    simp only [hmm, hmax]
    have hr : solveRhs B 1 e n idx = fun _ => 1 := by
      ext i
      unfold solveRhs
      rw [hone]
    rw [show (idBatch m n c).dim ((idBatch m n c).ndim - 1) = n from rfl] 
    rw [dif_pos h, solveMat_id, hr]
    have hi : (c • (1 : Matrix (Fin n) (Fin n) ℚ))⁻¹ = c⁻¹ • 1 := by
      apply Matrix.inv_eq_right_inv
      rw [smul_mul_smul_comm, Matrix.mul_one, mul_inv_cancel₀ hc, one_smul]
    rw [hi, smul_mulVec, one_mulVec]
    simp

theorem notVec3 (m n : Nat) (c : ℚ) (B : NArr ℚ) (h : B.ndim = 3) : ¬ torchVec (idBatch m n c) B := by
  unfold torchVec
  have : (idBatch m n c).ndim = 3 := rfl
  rw [this]
  rintro (h1 | h1) <;> omega

/-- Matrices on every process and right-hand sides split along the batch axis: the call is accepted, and the result does not represent any array. -/
theorem solve_b_split_violated {P n k : Nat} (hP : 2 ≤ P) (hn : 0 < n) (hk : k ≠ n) :
    let A : DND ℚ := ⟨[P, n, n], none, fun _ => idBatch P n 1, some true⟩
    let b : DND ℚ := ⟨[P, n, k], some 0, fun _ => oneBatch 1 n k, some true⟩
    Spec.Rep P A (idBatch P n 1) ∧ Spec.Rep P b (oneBatch P n k) ∧ ∃ x, solveDnd P A b = .ok x ∧ ∀ G, ¬ Spec.Rep P x G := by
  intro A b
  refine ⟨?_, ?_, ?_⟩
  · refine ⟨?_, rfl, ?_, fun _ _ => rfl, fun r hr => ⟨fun _ _ => rfl, fun _ _ => rfl⟩⟩
    · intro i j h
      unfold idBatch
      dsimp only
      rw [h 1 (by show 1 < 3; omega), h 2 (by show 2 < 3; omega)]
    · intro a ha
      have : a < 3 := ha
      rcases (by omega : a = 0 ∨ a = 1 ∨ a = 2) with h | h | h <;> subst h <;> rfl
  · refine ⟨fun _ _ _ => rfl, rfl, ?_, fun _ _ => rfl, by show 0 < 3; omega, ?_, fun r hr => ⟨?_, fun _ _ => rfl⟩⟩
    · intro a ha
      have : a < 3 := ha
      rcases (by omega : a = 0 ∨ a = 1 ∨ a = 2) with h | h | h <;> subst h <;> rfl
    · show ((List.range P).map fun _ => 1).sum = P
      simp
    · intro a ha h0
      show (if a = 0 then 1 else _) = if a = 0 then P else _
      rw [if_neg h0, if_neg h0]
  · have hck : solveCheck P [P, n, n] [P, n, k] none (some 0) = .ok ⟨1, false, [P, n, k], some 0⟩ := by
      simp [solveCheck, hk]
    have ht := torch_id (m := P) hn one_ne_zero (oneBatch 1 n k) 1 le_rfl (notVec3 _ _ _ _ rfl) rfl rfl (fun _ => rfl) (fun _ => Or.inr (Or.inr rfl))
    refine ⟨⟨[P, n, k], some 0, fun _ => torchSolveRes (idBatch P n 1) (oneBatch 1 n k), some true⟩, ?_, ?_⟩
    · unfold solveDnd
      have : solveCheck P A.gshape b.gshape A.split b.split = .ok ⟨1, false, [P, n, k], some 0⟩ := hck
      rw [this]
      dsimp only
      rw [if_pos (fun r _ => ht.1), if_neg (by rintro ⟨r, -, h⟩; have h2 : torchSingular (idBatch P n 1) (oneBatch 1 n k) = true := h; rw [ht.2.1] at h2; cases h2)]
    · intro G h
      have h1 := (rep_split h rfl).2
      have h2 : G.dim 0 = P := (h.2.2.1 0 (by rw [← h.2.1]; show 0 < 3; omega)).symm
      rw [h2] at h1
      have h3 : Spec.axisStart (fun _ => torchSolveRes (idBatch P n 1) (oneBatch 1 n k)) 0 P = P * P := by
        unfold Spec.axisStart
        have : (torchSolveRes (idBatch P n 1) (oneBatch 1 n k)).dim 0 = P := by rw [ht.2.2.2.1, if_neg (by omega)]
        simp [this]
      have h4 : P * P = P := h3.symm.trans h1
      nlinarith

/-- Matrices split along the batch axis and right-hand sides on every process: the call is accepted, and the processes hold different arrays as copies of the same result. -/
theorem solve_A_split_violated {P n k : Nat} (hP : 2 ≤ P) (hn : 0 < n) (hk : k ≠ n) (hk0 : 0 < k) :
    let GA : NArr ℚ := ⟨3, fun a => if a = 0 then P else n, fun idx => if idx 1 = idx 2 then (idx 0 : ℚ) + 1 else 0⟩
    let A : DND ℚ := ⟨[P, n, n], some 0, fun r => idBatch 1 n ((r : ℚ) + 1), some true⟩
    let b : DND ℚ := ⟨[P, n, k], none, fun _ => oneBatch P n k, some true⟩
    Spec.Rep P A GA ∧ Spec.Rep P b (oneBatch P n k) ∧ ∃ x, solveDnd P A b = .ok x ∧ ∀ G, ¬ Spec.Rep P x G := by
  intro GA A b
  have hst : ∀ r, Spec.axisStart A.loc 0 r = r := by
    intro r
    show ((List.range r).map fun _ => 1).sum = r
    simp
  refine ⟨?_, ?_, ?_⟩
  · refine ⟨?_, rfl, ?_, fun _ _ => rfl, by show 0 < 3; omega, by rw [hst]; rfl, fun r hr => ⟨?_, ?_⟩⟩
    · intro i j h
      show (if i 1 = i 2 then (i 0 : ℚ) + 1 else 0) = if j 1 = j 2 then (j 0 : ℚ) + 1 else 0
      rw [h 0 (by show 0 < 3; omega), h 1 (by show 1 < 3; omega), h 2 (by show 2 < 3; omega)]
    · intro a ha
      have : a < 3 := ha
      rcases (by omega : a = 0 ∨ a = 1 ∨ a = 2) with h | h | h <;> subst h <;> rfl
    · intro a ha h0
      show (if a = 0 then 1 else _) = if a = 0 then P else _
      rw [if_neg h0, if_neg h0]
    · intro idx hidx
      have h0 : idx 0 = 0 := by
        have : idx 0 < 1 := hidx 0 (by show 0 < 3; omega)
        omega
      rw [hst]
      show (if idx 1 = idx 2 then (r : ℚ) + 1 else 0) = if Spec.shift 0 r idx 1 = Spec.shift 0 r idx 2 then ((Spec.shift 0 r idx 0 : Nat) : ℚ) + 1 else 0
      simp [Spec.shift, h0]
  · refine ⟨fun _ _ _ => rfl, rfl, ?_, fun _ _ => rfl, fun r hr => ⟨fun _ _ => rfl, fun _ _ => rfl⟩⟩
    intro a ha
    have : a < 3 := ha
    rcases (by omega : a = 0 ∨ a = 1 ∨ a = 2) with h | h | h <;> subst h <;> rfl
  · have hck : solveCheck P [P, n, n] [P, n, k] (some 0) none = .ok ⟨1, false, [P, n, k], none⟩ := by
      simp [solveCheck, hk]
    have hne : ∀ r : Nat, (r : ℚ) + 1 ≠ 0 := fun r => by positivity
    have ht := fun r : Nat => torch_id (m := 1) hn (hne r) (oneBatch P n k) 1 le_rfl (notVec3 _ _ _ _ rfl) rfl rfl (fun _ => rfl) (fun _ => Or.inr (Or.inl rfl))
    refine ⟨⟨[P, n, k], none, fun r => torchSolveRes (idBatch 1 n ((r : ℚ) + 1)) (oneBatch P n k), some true⟩, ?_, ?_⟩
    · unfold solveDnd
      have : solveCheck P A.gshape b.gshape A.split b.split = .ok ⟨1, false, [P, n, k], none⟩ := hck
      rw [this]
      dsimp only
      rw [if_pos (fun r _ => (ht r).1), if_neg (by rintro ⟨r, -, h⟩; have h2 : torchSingular (idBatch 1 n ((r : ℚ) + 1)) (oneBatch P n k) = true := h; rw [(ht r).2.1] at h2; cases h2)]
    · intro G h
      obtain ⟨-, -, -, -, h5⟩ := h
      have hb : ∀ r : Nat, Spec.InB (torchSolveRes (idBatch 1 n ((r : ℚ) + 1)) (oneBatch P n k)) (fun _ => 0) := by
        intro r a ha
        rw [(ht r).2.2.1] at ha
        rcases (by omega : a = 0 ∨ a = 1 ∨ a = 2) with h | h | h
        · subst h
          rw [(ht r).2.2.2.1, if_pos rfl, if_pos rfl]
          show 0 < P
          omega
        · subst h
          rw [(ht r).2.2.2.2.1]; exact hn
        · subst h
          rw [(ht r).2.2.2.2.2.1]
          exact hk0
      have h0 := (h5 0 (by omega)).2 _ (hb 0)
      have h1 := (h5 1 (by omega)).2 _ (hb 1)
      rw [← h1] at h0
      have e0 := (ht 0).2.2.2.2.2.2 (fun _ => 0) hn
      have e1 := (ht 1).2.2.2.2.2.2 (fun _ => 0) hn
      have h2 : ((0 : Nat) : ℚ) + 1 = ((1 : Nat) : ℚ) + 1 := by
        apply inv_injective
        rw [← e0, ← e1]
        exact h0
      norm_num at h2

/-- One right-hand side, split along its columns, for a batch of matrices on every process: the result is declared as split along the axis of the unknowns. -/
theorem solve_expand_split_violated {P n k : Nat} (hP : 2 ≤ P) (hn : 0 < n) (hk : k * P ≠ n) (hk1 : k ≠ n) :
    let A : DND ℚ := ⟨[2, n, n], none, fun _ => idBatch 2 n 1, some true⟩
    let b : DND ℚ := ⟨[n, k * P], some 1, fun _ => oneMat n k, some true⟩
    Spec.Rep P A (idBatch 2 n 1) ∧ Spec.Rep P b (oneMat n (k * P)) ∧ ∃ x, solveDnd P A b = .ok x ∧ ∀ G, ¬ Spec.Rep P x G := by
  intro A b
  refine ⟨?_, ?_, ?_⟩
  · refine ⟨?_, rfl, ?_, fun _ _ => rfl, fun r hr => ⟨fun _ _ => rfl, fun _ _ => rfl⟩⟩
    · intro i j h
      unfold idBatch
      dsimp only
      rw [h 1 (by show 1 < 3; omega), h 2 (by show 2 < 3; omega)]
    · intro a ha
      have : a < 3 := ha
      rcases (by omega : a = 0 ∨ a = 1 ∨ a = 2) with h | h | h <;> subst h <;> rfl
  · refine ⟨fun _ _ _ => rfl, rfl, ?_, fun _ _ => rfl, by show 1 < 2; omega, ?_, fun r hr => ⟨?_, fun _ _ => rfl⟩⟩
    · intro a ha
      have : a < 2 := ha
      rcases (by omega : a = 0 ∨ a = 1) with h | h <;> subst h <;> rfl
    · show ((List.range P).map fun _ => k).sum = k * P
      simp [Nat.mul_comm]
    · intro a ha h0
      have : a < 2 := ha
      have : a = 0 := by omega
      subst this
      rfl
  · have hck : solveCheck P [2, n, n] [n, k * P] none (some 1) = .ok ⟨0, true, [2, n, k * P], some 1⟩ := by
      simp [solveCheck, hk]
    have hv : ¬ torchVec (idBatch 2 n 1) (oneMat n k) := by
      unfold torchVec
      rintro (h1 | ⟨h1, h2⟩)
      · cases h1
      · exact hk1 (h2 1 (by show 1 < 2; omega))
    have ht := torch_id (m := 2) hn one_ne_zero (oneMat n k) 0 (by omega) hv rfl rfl (fun _ => rfl) (fun h => by omega)
    refine ⟨⟨[2, n, k * P], some 1, fun _ => torchSolveRes (idBatch 2 n 1) (oneMat n k), some true⟩, ?_, ?_⟩
    · unfold solveDnd
      have : solveCheck P A.gshape b.gshape A.split b.split = .ok ⟨0, true, [2, n, k * P], some 1⟩ := hck
      rw [this]
      dsimp only
      rw [if_pos (fun r _ => ht.1), if_neg (by rintro ⟨r, -, h⟩; have h2 : torchSingular (idBatch 2 n 1) (oneMat n k) = true := h; rw [ht.2.1] at h2; cases h2)]
    · intro G h
      have h1 := (rep_split h rfl).2
      have h2 : G.dim 1 = n := (h.2.2.1 1 (by rw [← h.2.1]; show 1 < 3; omega)).symm
      rw [h2] at h1
      have h3 : Spec.axisStart (fun _ => torchSolveRes (idBatch 2 n 1) (oneMat n k)) 1 P = P * n := by
        unfold Spec.axisStart
        simp [ht.2.2.2.2.1]
      have h4 : P * n = n := h3.symm.trans h1
      nlinarith

/-- The hypotheses are met by two matrices, one on each process, with right-hand sides split in the same way. -/
example : ∃ x GX, solveDnd 2 (⟨[2, 3, 3], some 0, fun _ => idBatch 1 3 1, some true⟩ : DND ℚ) ⟨[2, 3, 4], some 0, fun _ => oneBatch 1 3 4, some true⟩ = .ok x ∧ Spec.Rep 2 x GX ∧ Spec.IsSolution (idBatch 2 3 1) (oneBatch 2 3 4) GX := by
  refine solve_partial (GA := idBatch 2 3 1) (GB := oneBatch 2 3 4) (pl := ⟨1, false, [2, 3, 4], some 0⟩) le_rfl ?_ ?_ (by show 2 ≤ 3; omega) rfl (by decide +kernel) (Or.inr (Or.inl ⟨rfl, rfl⟩)) ?_ ?_
  · refine ⟨?_, rfl, ?_, fun _ _ => rfl, by show 0 < 3; omega, rfl, fun r hr => ⟨?_, fun _ _ => rfl⟩⟩
    · intro i j h
      unfold idBatch
      dsimp only
      rw [h 1 (by show 1 < 3; omega), h 2 (by show 2 < 3; omega)]
    · intro a ha
      have : a < 3 := ha
      rcases (by omega : a = 0 ∨ a = 1 ∨ a = 2) with h | h | h <;> subst h <;> rfl
    · intro a ha h0
      show (if a = 0 then 1 else _) = if a = 0 then 2 else _
      rw [if_neg h0, if_neg h0]
  · refine ⟨fun _ _ _ => rfl, rfl, ?_, fun _ _ => rfl, by show 0 < 3; omega, rfl, fun r hr => ⟨?_, fun _ _ => rfl⟩⟩
    · intro a ha
      have : a < 3 := ha
      rcases (by omega : a = 0 ∨ a = 1 ∨ a = 2) with h | h | h <;> subst h <;> rfl
    · intro a ha h0
      show (if a = 0 then 1 else _) = if a = 0 then 2 else _
      rw [if_neg h0, if_neg h0]
  · intro s h1 h2 r hr
    cases h1
    rfl
  · intro idx _
    have : Spec.batchMat (idBatch 2 3 1) 3 idx = (1 : ℚ) • (1 : Matrix (Fin 3) (Fin 3) ℚ) := by
      ext i j
      unfold Spec.batchMat idBatch
      simp only [Matrix.smul_apply, Matrix.one_apply, smul_eq_mul]
      simp [Fin.ext_iff]
    show (Spec.batchMat (idBatch 2 3 1) 3 idx).det ≠ 0
    rw [this]
    exact det_id 3 one_ne_zero

end Heat
