import Verif.Props.QrRows
import Verif.Props.QrReal
/-!
# Examples for the QR decomposition of a matrix split along the rows (C124)
-/
namespace Heat
open Spec Finset

/-- The hypotheses of `bgQr_partial` are met, with a diagonal of `R` without zeros, by the unit matrix on two processes. -/
example : ∃ Q R, bgQr realQr 2 2 2 (fun r => ⟨2, [fun j => if j = r then 1 else 0]⟩) = some (Q, R) ∧ ∀ j < 2, R.at j j ≠ 0 := by
  obtain ⟨Q, R, e, -, -, ht, -, hp, -⟩ := bgQr_partial realQr (N := 2) (m := 2) (P := 2) (by omega) (by omega) (fun r => ⟨2, [fun j => if j = r then 1 else 0]⟩) realQr_ok
    (fun _ _ => rfl) (fun _ _ _ _ => by simp) (by simp [content, List.range_succ])
  refine ⟨Q, R, e, ?_⟩
  have h00 := hp 0 (by omega) 0 (by simp) 0 (by omega)
  have h10 := hp 1 (by omega) 0 (by simp) 0 (by omega)
  have h11 := hp 1 (by omega) 0 (by simp) 1 (by omega)
  have t := ht 1 (by omega) 0 (by omega)
  simp [sum_range_succ, DMat.at, t] at h00 h10 h11
  have t' : R.rows[1]?.getD (fun _ => 0) 0 = 0 := by simpa [DMat.at] using t
  rw [t'] at h00 h10
  simp at h00 h10
  intro j hj hz
  interval_cases j
  · have hz' : R.rows[0]?.getD (fun _ => 0) 0 = 0 := by simpa [DMat.at] using hz
    rw [hz'] at h00
    simp at h00
  · have hz' : R.rows[1]?.getD (fun _ => 0) 1 = 0 := by simpa [DMat.at] using hz
    rw [hz'] at h11
    rcases h10 with h | h
    · rw [h] at h11
      simp at h11
    · rw [h] at h00
      simp at h00

/-- The hypotheses of `bgQr_wide_partial` are met by a matrix with one row more than one process has and two columns. -/
example : ∃ Q R, bgQr realQr 3 2 2 (fun r => ⟨3, [fun j => if j = r then 1 else 2]⟩) = some (Q, R) ∧ R.rows.length = 2 := by
  obtain ⟨Q, R, e, h, -⟩ := bgQr_wide_partial realQr (N := 3) (M := 2) (m := 2) (P := 2) (by omega) (by omega) (fun r => ⟨3, [fun j => if j = r then 1 else 2]⟩) realQr_ok
    (fun _ _ => rfl) (fun _ _ _ _ => by simp) (by simp [content, List.range_succ]) (by omega)
  exact ⟨Q, R, e, h⟩

/-- **C124** is violated for a matrix without full rank: for two equal columns `Q` has two equal columns. -/
theorem bgQr_deficient_violated : ∃ qr : DMat ℝ → DMat ℝ × DMat ℝ, (∀ n, ∀ B : DMat ℝ, B.width = n → QrOk n B (qr B).1 (qr B).2) ∧
    ∃ Q R, bgQr qr 2 2 2 (fun r => ⟨2, [fun _ => if r = 0 then 1 else 0]⟩) = some (Q, R) ∧
      ∑ r ∈ range 2, ∑ i ∈ range 1, star ((Q r).at i 0) * (Q r).at i 1 = 1 := by
  have hc : ∀ B : DMat ℝ, ∃ p : DMat ℝ × DMat ℝ, (∀ n, B.width = n → QrOk n B p.1 p.2) ∧
      (B = ⟨1, [fun _ => 1]⟩ → p = (⟨1, [fun _ => 1]⟩, ⟨1, [fun _ => 1]⟩)) ∧
      (B = ⟨1, [fun _ => 0]⟩ → p = (⟨1, [fun _ => 1]⟩, ⟨1, [fun _ => 0]⟩)) ∧
      (B = ⟨1, [fun _ => 1, fun _ => 0]⟩ → p = (⟨1, [fun _ => 1, fun _ => 0]⟩, ⟨1, [fun _ => 1]⟩)) ∧
      (B = ⟨1, [fun _ => 0, fun _ => 0]⟩ → p = (⟨1, [fun _ => 1, fun _ => 0]⟩, ⟨1, [fun _ => 0]⟩)) := by
    have ok : ∀ (B Q R : DMat ℝ) (x y : ℝ), B.width = 1 → QrOk 1 B Q R → ∀ n, B.width = n → QrOk n B Q R := by
      intro B Q R _ _ h h1 n hn
      rw [h] at hn
      subst hn
      exact h1
    intro B
    have ne1 : (fun _ : Nat => (1 : ℝ)) ≠ fun _ => 0 := fun h => by simpa using congrFun h 0
    by_cases h1 : B = ⟨1, [fun _ => 1]⟩
    · subst h1
      refine ⟨(⟨1, [fun _ => 1]⟩, ⟨1, [fun _ => 1]⟩), ok _ _ _ 0 0 rfl ?_, by simp, by simp [ne1], by simp, by simp⟩
      constructor <;> simp [DMat.at]
    · by_cases h2 : B = ⟨1, [fun _ => 0]⟩
      · subst h2
        refine ⟨(⟨1, [fun _ => 1]⟩, ⟨1, [fun _ => 0]⟩), ok _ _ _ 0 0 rfl ?_, by simp [ne1.symm], by simp, by simp, by simp⟩
        constructor <;> simp [DMat.at]
      · by_cases h3 : B = ⟨1, [fun _ => 1, fun _ => 0]⟩
        · subst h3
          refine ⟨(⟨1, [fun _ => 1, fun _ => 0]⟩, ⟨1, [fun _ => 1]⟩), ok _ _ _ 0 0 rfl ?_, by simp, by simp, by simp, by simp [ne1]⟩
          constructor <;> simp [DMat.at, sum_range_succ]
        · by_cases h4 : B = ⟨1, [fun _ => 0, fun _ => 0]⟩
          · subst h4
            refine ⟨(⟨1, [fun _ => 1, fun _ => 0]⟩, ⟨1, [fun _ => 0]⟩), ok _ _ _ 0 0 rfl ?_, by simp, by simp, by simp [ne1.symm], by simp⟩
            constructor <;> simp [DMat.at, sum_range_succ]
            intro i hi
            interval_cases i <;> simp
          · exact ⟨realQr B, fun n hn => realQr_ok n B hn, fun h => absurd h h1, fun h => absurd h h2, fun h => absurd h h3, fun h => absurd h h4⟩
  choose qr hqr q1 q2 q3 q4 using hc
  refine ⟨qr, fun n B hB => hqr B n hB, ?_⟩
  have e1 := q1 _ rfl
  have e2 := q2 _ rfl
  have e3 := q3 _ rfl
  have e4 := q4 _ rfl
  have hcuts : bgCuts 2 2 (fun _ => 1) = [0, 1, 2] := by decide
  have hoff : colOff (fun _ => 1) 2 = 2 := by decide
  have ts : ∀ (B : Nat → DMat ℝ), (B 0 = ⟨1, [fun _ => 1]⟩ ∨ B 0 = ⟨1, [fun _ => 0]⟩) → B 1 = ⟨1, [fun _ => 0]⟩ →
      ∃ Q R, tsqr qr 1 2 2 B = some (Q, R) ∧ Q 0 = ⟨1, [fun _ => 1]⟩ ∧ Q 1 = ⟨1, [fun _ => 0]⟩ := by
    intro B h0 h1
    have g : (qr (tsGathered 1 (List.range 2) (fun r => (qr (B r)).2) (tsMembers 2 2 0))).1 = ⟨1, [fun _ => 1, fun _ => 0]⟩ ∧ (qr (tsGathered 1 (List.range 2) (fun r => (qr (B r)).2) (tsMembers 2 2 0))).2.rows.length = 1 := by
      rcases h0 with h0 | h0 <;> simp [tsGathered, tsMembers, List.range_succ, h0, h1, e1, e2, e3, e4]
    have g' : tsGathered 1 (List.range 2) (fun r => (qr (B r)).2) (tsMembers 2 2 1) = tsGathered 1 (List.range 2) (fun r => (qr (B r)).2) (tsMembers 2 2 0) := rfl
    have hq0 : (qr (B 0)).1 = ⟨1, [fun _ => 1]⟩ ∧ (qr (B 0)).2.rows.length = 1 := by
      rcases h0 with h0 | h0 <;> simp [h0, e1, e2]
    have hq1 : (qr (B 1)).1 = ⟨1, [fun _ => 1]⟩ ∧ (qr (B 1)).2.rows.length = 1 := by
      simp [h1, e2]
    have i0 : (List.range 2).idxOf 0 = 0 := by decide
    have i1 : (List.range 2).idxOf 1 = 1 := by decide
    have m0 : tsMembers 2 2 0 = [0, 1] := by decide
    have m1 : tsMembers 2 2 1 = [0, 1] := by decide
    have n0 : tsNewQ qr 1 2 1 (List.range 2) ⟨fun r => (qr (B r)).1, fun r => (qr (B r)).2⟩ 0 = some ⟨1, [fun _ => 1]⟩ := by
      unfold tsNewQ
      simp only [Nat.zero_div, Nat.zero_mul, i0, List.length_range]
      rw [if_pos (by rw [m0]; decide), g.1]
      simp [tsPiece, m0, hq0, DMat.mul, DMat.at]
    have n1 : tsNewQ qr 1 2 1 (List.range 2) ⟨fun r => (qr (B r)).1, fun r => (qr (B r)).2⟩ 1 = some ⟨1, [fun _ => 0]⟩ := by
      unfold tsNewQ
      simp only [Nat.div_one, Nat.mul_one, i1, List.length_range]
      rw [if_pos (by rw [m1]; decide), g', g.1]
      simp [tsPiece, m1, hq0, hq1, DMat.mul, DMat.at]
    have r0 : (tsNewR qr 1 2 (List.range 2) ⟨fun r => (qr (B r)).1, fun r => (qr (B r)).2⟩ 0).rows.length = 1 := by
      unfold tsNewR
      simp only [i0, List.length_range]
      rw [if_pos (by rw [m0]; decide)]
      exact g.2
    have hs : tsStep qr 1 2 1 2 (List.range 2) ⟨fun r => (qr (B r)).1, fun r => (qr (B r)).2⟩ = some ⟨fun r => (tsNewQ qr 1 2 1 (List.range 2) ⟨fun r => (qr (B r)).1, fun r => (qr (B r)).2⟩ r).getD (qr (B r)).1, tsNewR qr 1 2 (List.range 2) ⟨fun r => (qr (B r)).1, fun r => (qr (B r)).2⟩⟩ := by
      unfold tsStep
      rw [if_pos]
      intro r hr
      interval_cases r
      · rw [n0]; rfl
      · rw [n1]; rfl
    refine ⟨fun r => (tsNewQ qr 1 2 1 (List.range 2) ⟨fun r => (qr (B r)).1, fun r => (qr (B r)).2⟩ r).getD (qr (B r)).1, tsNewR qr 1 2 (List.range 2) ⟨fun r => (qr (B r)).1, fun r => (qr (B r)).2⟩ 0, ?_, by simp [n0], by simp [n1]⟩
    unfold tsqr
    rw [show tsLoop qr 1 2 2 2 1 (List.range 2) ⟨fun r => (qr (B r)).1, fun r => (qr (B r)).2⟩ = (tsStep qr 1 2 1 2 (List.range 2) ⟨fun r => (qr (B r)).1, fun r => (qr (B r)).2⟩).bind (fun st' => tsLoop qr 1 2 2 1 (1 * 2) (tsNext 2 (List.range 2)) st') by
      rw [tsLoop, if_neg (by decide)], hs, Option.bind_some, show tsNext 2 (List.range 2) = [0] by decide, tsLoop, if_pos (by decide), Option.bind_some]
    dsimp only
    rw [if_pos r0]
  obtain ⟨Q1, R1, t1, q10, q11⟩ := ts (fun r => (⟨2, [fun _ => if r = 0 then 1 else 0]⟩ : DMat ℝ).cols 0 1) (Or.inl (by simp [DMat.cols])) (by simp [DMat.cols])
  obtain ⟨A', hA'⟩ : ∃ A', A' = bgNewA 2 1 true (fun r => (⟨2, [fun _ => if r = 0 then 1 else 0]⟩ : DMat ℝ)) Q1 1 := ⟨_, rfl⟩
  have c0 : (A' 0).cols 1 2 = ⟨1, [fun _ => 0]⟩ := by
    rw [hA']
    simp [DMat.cols, bgNewA, DMat.at, bgCoeffs, sum_range_succ, q10, q11]
  have c1 : (A' 1).cols 1 2 = ⟨1, [fun _ => 0]⟩ := by
    rw [hA']
    simp [DMat.cols, bgNewA, DMat.at, bgCoeffs, sum_range_succ, q10, q11]
  obtain ⟨Q2, R2, t2, q20, q21⟩ := ts (fun r => (A' r).cols 1 2) (Or.inr c0) c1
  have s1 : ∃ R', bgStep qr 2 2 [0, 1, 2] 0 ⟨fun r => ⟨2, [fun _ => if r = 0 then 1 else 0]⟩, fun r => ⟨2, [fun _ => if r = 0 then 1 else 0]⟩, fun r => ⟨2, [fun _ => if r = 0 then 1 else 0]⟩⟩ = some ⟨A', R', Q1⟩ := by
    unfold bgStep
    dsimp only
    rw [if_pos ⟨⟨0, by omega, by simp⟩, fun _ _ => by simp⟩]
    simp only [List.getD_cons_zero, List.getD_cons_succ, Nat.zero_add, Nat.sub_zero]
    rw [t1, Option.map_some, hA']
    exact ⟨_, rfl⟩
  obtain ⟨R', s1⟩ := s1
  have s2 : ∃ st, bgStep qr 2 2 [0, 1, 2] 1 ⟨A', R', Q1⟩ = some st ∧ st.Q = fun r => (Q1 r).hcat (Q2 r) := by
    unfold bgStep
    dsimp only
    rw [if_pos ⟨⟨0, by omega, by rw [hA']; simp [bgNewA]⟩, fun h => by simp at h⟩]
    simp only [List.getD_cons_zero, List.getD_cons_succ, Nat.zero_add, Nat.reduceAdd, Nat.reduceSub]
    rw [t2, Option.map_some]
    refine ⟨_, rfl, ?_⟩
    simp
  obtain ⟨st, s2, hst⟩ := s2
  refine ⟨st.Q, ⟨2, content 2 (fun r => (st.R r).rows)⟩, ?_, ?_⟩
  · unfold bgQr
    simp [hcuts, hoff, bgLoop, s1, s2]
  · rw [hst]
    simp [sum_range_succ, DMat.hcat, q10, q11, q20, q21, DMat.at]

end Heat
