import Verif.Props.QrCols
import Verif.Props.QrReal
/-!
# Block-wise Gram-Schmidt of matrices without full rank (C123)

The decomposition of one process is only determined up to the choice of vectors for a block without full rank; the one of LAPACK is among those used here.
-/
namespace Heat
open Spec Finset

/-- The entries of a matrix with two columns, as a list of rows. -/
def mat2 (l : List (ℝ × ℝ)) : DMat ℝ := ⟨2, l.map (fun p j => if j = 0 then p.1 else if j = 1 then p.2 else 0)⟩

/-- A matrix with one column. -/
def mat1 (l : List ℝ) : DMat ℝ := ⟨1, l.map (fun p j => if j = 0 then p else 0)⟩

open Classical in
/-- A valid decomposition that, for a block without full rank, chooses unit vectors (as Householder reflections do). -/
noncomputable def houseQr (B : DMat ℝ) : DMat ℝ × DMat ℝ :=
  if B.width = 1 ∧ B.rows.length = 2 ∧ B.at 0 0 = 1 ∧ B.at 1 0 = 0 then (mat1 [1, 0], mat1 [1])
  else if B.width = 1 ∧ B.rows.length = 2 ∧ B.at 0 0 = 0 ∧ B.at 1 0 = 0 then (mat1 [1, 0], mat1 [0])
  else if B.width = 2 ∧ B.rows.length = 3 ∧ (∀ i < 3, ∀ j < 2, B.at i j = 0) then (mat2 [(1, 0), (0, 1), (0, 0)], mat2 [(0, 0), (0, 0)])
  else if B.width = 2 ∧ B.rows.length = 3 ∧ (∀ i < 3, ∀ j < 2, B.at i j = if i = 2 ∧ j = 1 then 1 else 0) then (mat2 [(1, 0), (0, 0), (0, 1)], mat2 [(0, 0), (0, 1)])
  else realQr B

theorem houseQr_ok (n : Nat) (B : DMat ℝ) (hw : B.width = n) : QrOk n B (houseQr B).1 (houseQr B).2 := by
  unfold houseQr
  split
  · rename_i h
    obtain ⟨h1, h2, h3, h4⟩ := h
    have : n = 1 := by omega
    subst this
    constructor <;> simp [h2, mat1]
    · intro i hi
      interval_cases i <;> simp [DMat.at, h3, h4] <;> first | exact h3.symm | exact h4.symm
    · simp [DMat.at, sum_range_succ]
  · split
    · rename_i h
      obtain ⟨h1, h2, h3, h4⟩ := h
      have : n = 1 := by omega
      subst this
      constructor <;> simp [h2, mat1]
      · intro i hi
        interval_cases i <;> simp [DMat.at, h3, h4] <;> first | exact h3.symm | exact h4.symm
      · simp [DMat.at, sum_range_succ]
    · split
      · rename_i h
        obtain ⟨h1, h2, h3⟩ := h
        have : n = 2 := by omega
        subst this
        constructor <;> simp [h2, mat2]
        · intro i hi j hj
          rw [h3 i hi j (by omega)]
          interval_cases i <;> interval_cases j <;> simp [DMat.at, sum_range_succ]
        · intro a ha b hb
          interval_cases a <;> interval_cases b <;> simp [DMat.at, sum_range_succ]
        · intro i hi j hj hij
          interval_cases i <;> interval_cases j <;> simp [DMat.at] at hij ⊢
      · split
        · rename_i h
          obtain ⟨h1, h2, h3⟩ := h
          have : n = 2 := by omega
          subst this
          constructor <;> simp [h2, mat2]
          · intro i hi j hj
            rw [h3 i hi j (by omega)]
            interval_cases i <;> interval_cases j <;> simp [DMat.at, sum_range_succ]
          · intro a ha b hb
            interval_cases a <;> interval_cases b <;> simp [DMat.at, sum_range_succ]
          · intro i hi j hj hij
            interval_cases i <;> interval_cases j <;> simp [DMat.at] at hij ⊢
        · exact realQr_ok n B hw

/-- **C123** is violated for a matrix without full column rank: for two equal columns on two processes, `Q` has two equal columns. -/
theorem gsQr_deficient_violated : ∃ qr : DMat ℝ → DMat ℝ × DMat ℝ, (∀ n, ∀ B : DMat ℝ, B.width = n → QrOk n B (qr B).1 (qr B).2) ∧
    ∑ x ∈ range 2, star (((gsQr qr 2 2 (fun _ => 1) (fun _ => mat1 [1, 0])).Q 0).at x 0) * ((gsQr qr 2 2 (fun _ => 1) (fun _ => mat1 [1, 0])).Q 1).at x 0 = 1 := by
  refine ⟨houseQr, houseQr_ok, ?_⟩
  have h0 : houseQr (mat1 [1, 0]) = (mat1 [1, 0], mat1 [1]) := by
    unfold houseQr
    rw [if_pos (by simp [mat1, DMat.at])]
  have h1 : houseQr ((mat1 [1, 0]).subMul (mat1 [1, 0]) ((mat1 [1, 0]).hmul 2 (mat1 [1, 0]))) = (mat1 [1, 0], mat1 [0]) := by
    unfold houseQr
    rw [if_neg, if_pos]
    · simp [mat1, DMat.at, DMat.subMul, DMat.hmul, sum_range_succ]
    · simp [mat1, DMat.at, DMat.subMul, DMat.hmul, sum_range_succ]
  have hl : gsLast 2 2 (fun _ => 1) = 2 := by decide
  unfold gsQr
  rw [hl]
  simp only [List.range_succ, List.range_zero, List.nil_append, List.cons_append, List.foldl_cons, List.foldl_nil]
  simp only [gsStep]
  simp [h0, h1, sum_range_succ]
  simp [mat1, DMat.at]

/-- **C123** is violated for a matrix with more columns than rows whose first columns are dependent: `Q R` is not `A`. The only entry of `A` that is not zero (last row, last column) is lost: all entries of `R` are zero. -/
theorem gsQr_wide_violated : ∃ qr : DMat ℝ → DMat ℝ × DMat ℝ, (∀ n, ∀ B : DMat ℝ, B.width = n → QrOk n B (qr B).1 (qr B).2) ∧
    ∀ row < 3, (gsQr qr 3 2 (fun _ => 2) (fun r => if r = 0 then mat2 [(0, 0), (0, 0), (0, 0)] else mat2 [(0, 0), (0, 0), (0, 1)])).R 1 row 1 = 0 := by
  refine ⟨houseQr, houseQr_ok, ?_⟩
  have h0 : houseQr (mat2 [(0, 0), (0, 0), (0, 0)]) = (mat2 [(1, 0), (0, 1), (0, 0)], mat2 [(0, 0), (0, 0)]) := by
    unfold houseQr
    rw [if_neg (by simp [mat2]), if_neg (by simp [mat2]), if_pos]
    refine ⟨rfl, rfl, ?_⟩
    intro i hi j hj
    interval_cases i <;> interval_cases j <;> simp [DMat.at, mat2]
  have h1 : houseQr ((mat2 [(0, 0), (0, 0), (0, 1)]).subMul (mat2 [(1, 0), (0, 1), (0, 0)]) ((mat2 [(1, 0), (0, 1), (0, 0)]).hmul 3 (mat2 [(0, 0), (0, 0), (0, 1)]))) = (mat2 [(1, 0), (0, 0), (0, 1)], mat2 [(0, 0), (0, 1)]) := by
    have e : ∀ i < 3, ∀ j < 2, ((mat2 [(0, 0), (0, 0), (0, 1)]).subMul (mat2 [(1, 0), (0, 1), (0, 0)]) ((mat2 [(1, 0), (0, 1), (0, 0)]).hmul 3 (mat2 [(0, 0), (0, 0), (0, 1)]))).at i j = if i = 2 ∧ j = 1 then 1 else 0 := by
      intro i hi j hj
      interval_cases i <;> interval_cases j <;> simp [DMat.at, mat2, DMat.subMul, DMat.hmul, sum_range_succ]
    unfold houseQr
    rw [if_neg (by simp [mat2, DMat.subMul]), if_neg (by simp [mat2, DMat.subMul]), if_neg, if_pos]
    · exact ⟨rfl, rfl, e⟩
    · rintro ⟨_, _, h⟩
      have h2 := h 2 (by omega) 1 (by omega)
      rw [e 2 (by omega) 1 (by omega)] at h2
      simp at h2
  have hl : gsLast 3 2 (fun _ => 2) = 1 := by decide
  unfold gsQr
  rw [hl]
  simp only [List.range_succ, List.range_zero, List.nil_append, List.cons_append, List.foldl_cons, List.foldl_nil]
  simp only [gsStep]
  simp [h0, h1]
  intro row hrow
  interval_cases row <;> simp [gsStore, colOff, List.range_succ, DMat.at, mat2, DMat.hmul, sum_range_succ]

/-- Two processes with one column each, two independent columns: the hypothesis on the diagonal is met. -/
example : ∃ qr : DMat ℝ → DMat ℝ × DMat ℝ, (∀ n, ∀ B : DMat ℝ, B.width = n → QrOk n B (qr B).1 (qr B).2) ∧ colOff (fun _ => 1) 2 ≤ 2 ∧
    ∀ r < 2, ∀ j < 1, (gsQr qr 2 2 (fun _ => 1) (fun r => if r = 0 then mat1 [1, 0] else mat1 [0, 1])).R r (colOff (fun _ => 1) r + j) j ≠ 0 := by
  have hc : ∀ B : DMat ℝ, ∃ p : DMat ℝ × DMat ℝ, (∀ n, B.width = n → QrOk n B p.1 p.2) ∧
      (B = mat1 [1, 0] → p = (mat1 [1, 0], mat1 [1])) ∧
      (B = (mat1 [0, 1]).subMul (mat1 [1, 0]) ((mat1 [1, 0]).hmul 2 (mat1 [0, 1])) → p = (mat1 [0, 1], mat1 [1])) := by
    intro B
    by_cases h1 : B = mat1 [1, 0]
    · subst h1
      refine ⟨(mat1 [1, 0], mat1 [1]), ?_, fun _ => rfl, ?_⟩
      · intro n hn
        have : n = 1 := by rw [← hn]; rfl
        subst this
        constructor <;> simp [mat1]
        · intro i hi
          interval_cases i <;> simp [DMat.at]
        · simp [DMat.at, sum_range_succ]
      · intro h
        have := congrArg (fun M => M.at 0 0) h
        simp [mat1, DMat.at, DMat.subMul, DMat.hmul, sum_range_succ] at this
    · by_cases h2 : B = (mat1 [0, 1]).subMul (mat1 [1, 0]) ((mat1 [1, 0]).hmul 2 (mat1 [0, 1]))
      · refine ⟨(mat1 [0, 1], mat1 [1]), ?_, fun h => absurd h h1, fun _ => rfl⟩
        subst h2
        intro n hn
        have : n = 1 := by rw [← hn]; rfl
        subst this
        constructor <;> simp [mat1, DMat.subMul]
        · intro i hi
          interval_cases i <;> simp [DMat.at, DMat.hmul, sum_range_succ]
        · simp [DMat.at, sum_range_succ]
      · exact ⟨realQr B, fun n hn => realQr_ok n B hn, fun h => absurd h h1, fun h => absurd h h2⟩
  choose qr hqr h0 h1 using hc
  refine ⟨qr, fun n B hB => hqr B n hB, by decide, ?_⟩
  have hl : gsLast 2 2 (fun _ => 1) = 2 := by decide
  have e0 := h0 _ rfl
  have e1 := h1 _ rfl
  intro r hr j hj
  interval_cases j
  unfold gsQr
  rw [hl]
  simp only [List.range_succ, List.range_zero, List.nil_append, List.cons_append, List.foldl_cons, List.foldl_nil]
  simp only [gsStep]
  interval_cases r
  · simp [e0, e1]
    simp [gsStore, colOff, mat1, DMat.at]
  · simp [e0, e1]
    simp [gsStore, colOff, mat1, DMat.at, List.range_succ]

end Heat
