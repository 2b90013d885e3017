import Verif.Model.Laplacian
import Mathlib.Algebra.BigOperators.Ring.Finset
import Mathlib.Algebra.Order.BigOperators.Group.Finset
import Mathlib.Data.Fintype.BigOperators
import Mathlib.Algebra.BigOperators.Fin
import Mathlib.Tactic.FinCases
import Mathlib.Tactic.Ring
import Mathlib.Tactic.Linarith
import Mathlib.Tactic.FieldSimp
import Mathlib.Tactic.Positivity
import Mathlib.Tactic.NormNum
/-!
# C147: graph Laplacians
-/
namespace Heat
open scoped Classical BigOperators

namespace Spec
/-- The weight of the edge between two different vertices: the similarity itself, or, in an epsilon neighbourhood, the similarity (weighted)
or 1 (unweighted) of the pairs on the right side of the threshold. -/
noncomputable def lapWeight {n : Nat} (mode : LapMode) (weighted : Bool) (S : Fin n → Fin n → ℝ) (i j : Fin n) : ℝ :=
  match mode with
  | .fully => S i j
  | .eNeighbour .upper eps => if S i j < eps then (if weighted then S i j else 1) else 0
  | .eNeighbour .lower eps => if eps < S i j then (if weighted then S i j else 1) else 0

/-- The degree of a vertex of a graph: the sum of the weights of the edges to the other vertices. -/
noncomputable def graphDegree {n : Nat} (w : Fin n → Fin n → ℝ) (i : Fin n) : ℝ := ∑ j, if i = j then 0 else w i j

/-- `L = D - A`. -/
noncomputable def graphLaplacian {n : Nat} (w : Fin n → Fin n → ℝ) (i j : Fin n) : ℝ :=
  if i = j then graphDegree w i else - w i j

/-- `L = I - D^{-1/2} A D^{-1/2}`, an isolated vertex having no off-diagonal entry. -/
noncomputable def graphNormLaplacian {n : Nat} (w : Fin n → Fin n → ℝ) (i j : Fin n) : ℝ :=
  if i = j then 1 else - (w i j / (Real.sqrt (graphDegree w i) * Real.sqrt (graphDegree w j)))
end Spec
open Heat.Spec

theorem lapAdjacency_off {n : Nat} (mode : LapMode) (weighted : Bool) (S : Fin n → Fin n → ℝ) (i j : Fin n) (h : i ≠ j) :
    lapAdjacency mode weighted S i j = lapWeight mode weighted S i j := by
  unfold lapAdjacency lapWeight lapZeroDiag
  rcases mode with _ | ⟨_ | _, eps⟩ <;> simp [h]

/-- **C147, simple.**  For every similarity matrix and every setting, the simple Laplacian is the Laplacian of the graph. -/
theorem lap_simple {n : Nat} (mode : LapMode) (weighted : Bool) (S : Fin n → Fin n → ℝ) (i j : Fin n) :
    lapConstruct true mode weighted S i j = graphLaplacian (lapWeight mode weighted S) i j := by
  unfold lapConstruct lapSimple graphLaplacian
  simp only [if_true]
  by_cases h : i = j
  · subst h
    rw [if_pos rfl, if_pos rfl]
    unfold lapDegree graphDegree
    rw [← Finset.add_sum_erase _ _ (Finset.mem_univ i), ← Finset.add_sum_erase _ (fun j => if i = j then (0:ℝ) else _) (Finset.mem_univ i)]
    rw [if_pos rfl, add_sub_cancel_left, zero_add]
    refine Finset.sum_congr rfl fun j hj => ?_
    have hne : i ≠ j := fun e => (Finset.mem_erase.1 hj).1 e.symm
    rw [if_neg hne, lapAdjacency_off _ _ _ _ _ hne]
  · rw [if_neg h, if_neg h, lapAdjacency_off _ _ _ _ _ h, zero_sub]

/-- Rows sum to zero. -/
theorem lap_simple_row_sum {n : Nat} (mode : LapMode) (weighted : Bool) (S : Fin n → Fin n → ℝ) (i : Fin n) :
    ∑ j, lapConstruct true mode weighted S i j = 0 := by
  unfold lapConstruct lapSimple
  simp only [if_true]
  rw [Finset.sum_sub_distrib, Finset.sum_ite_eq Finset.univ i, if_pos (Finset.mem_univ i)]
  unfold lapDegree
  exact sub_self _

theorem lapAdjacency_symm {n : Nat} (mode : LapMode) (weighted : Bool) (S : Fin n → Fin n → ℝ) (hS : ∀ i j, S i j = S j i) (i j : Fin n) :
    lapAdjacency mode weighted S i j = lapAdjacency mode weighted S j i := by
  by_cases h : i = j
  · rw [h]
  · rw [lapAdjacency_off _ _ _ _ _ h, lapAdjacency_off _ _ _ _ _ (Ne.symm h)]
    unfold lapWeight
    rw [hS i j]

/-- Both Laplacians of a symmetric similarity are symmetric. -/
theorem lap_symm {n : Nat} (simple : Bool) (mode : LapMode) (weighted : Bool) (S : Fin n → Fin n → ℝ) (hS : ∀ i j, S i j = S j i)
    (i j : Fin n) : lapConstruct simple mode weighted S i j = lapConstruct simple mode weighted S j i := by
  by_cases h : i = j
  · rw [h]
  · have hA := lapAdjacency_symm mode weighted S hS i j
    unfold lapConstruct lapSimple lapNorm
    cases simple
    · simp only [Bool.false_eq_true, if_false, if_neg h, if_neg (Ne.symm h)]
      rw [hA, div_div, div_div, mul_comm (Real.sqrt _)]
    · simp only [if_true, if_neg h, if_neg (Ne.symm h)]
      rw [hA]

/-- The quadratic form of a matrix `D - A` with symmetric `A`. -/
theorem lap_quad {n : Nat} (A : Fin n → Fin n → ℝ) (hA : ∀ i j, A i j = A j i) (x : Fin n → ℝ) :
    ∑ i, ∑ j, x i * lapSimple A i j * x j = (∑ i, ∑ j, A i j * (x i - x j) ^ 2) / 2 := by
  have h1 : ∑ i, ∑ j, x i * lapSimple A i j * x j = (∑ i, ∑ j, A i j * x i ^ 2) - ∑ i, ∑ j, A i j * (x i * x j) := by
    rw [← Finset.sum_sub_distrib]
    refine Finset.sum_congr rfl fun i _ => ?_
    have : ∑ j, x i * lapSimple A i j * x j = (∑ j, if i = j then x i * lapDegree A i * x j else 0) - ∑ j, A i j * (x i * x j) := by
      rw [← Finset.sum_sub_distrib]
      refine Finset.sum_congr rfl fun j _ => ?_
      unfold lapSimple
      split_ifs <;> ring
    rw [this, Finset.sum_ite_eq Finset.univ i, if_pos (Finset.mem_univ i)]
    congr 1
    unfold lapDegree
    rw [← Finset.sum_mul]
    ring
  have h2 : ∑ i, ∑ j, A i j * x j ^ 2 = ∑ i, ∑ j, A i j * x i ^ 2 := by
    rw [Finset.sum_comm]
    refine Finset.sum_congr rfl fun i _ => Finset.sum_congr rfl fun j _ => ?_
    rw [hA]
  have h3 : ∑ i, ∑ j, A i j * (x i - x j) ^ 2 = (∑ i, ∑ j, A i j * x i ^ 2) - 2 * (∑ i, ∑ j, A i j * (x i * x j)) + ∑ i, ∑ j, A i j * x j ^ 2 := by
    rw [Finset.mul_sum, ← Finset.sum_sub_distrib, ← Finset.sum_add_distrib]
    refine Finset.sum_congr rfl fun i _ => ?_
    rw [Finset.mul_sum, ← Finset.sum_sub_distrib, ← Finset.sum_add_distrib]
    exact Finset.sum_congr rfl fun j _ => by ring
  rw [h1, h3, h2]
  ring

/-- **C147, simple.**  `xᵀ L x` is the sum of `w_ij (x_i - x_j)²` over the edges (each counted twice and halved). -/
theorem lap_simple_quad {n : Nat} (mode : LapMode) (weighted : Bool) (S : Fin n → Fin n → ℝ) (hS : ∀ i j, S i j = S j i) (x : Fin n → ℝ) :
    ∑ i, ∑ j, x i * lapConstruct true mode weighted S i j * x j = (∑ i, ∑ j, lapWeight mode weighted S i j * (x i - x j) ^ 2) / 2 := by
  have h := lap_quad (lapAdjacency mode weighted S) (lapAdjacency_symm mode weighted S hS) x
  unfold lapConstruct
  simp only [if_true]
  rw [h]
  congr 1
  refine Finset.sum_congr rfl fun i _ => Finset.sum_congr rfl fun j _ => ?_
  by_cases e : i = j
  · rw [e, sub_self]; ring
  · rw [lapAdjacency_off _ _ _ _ _ e]

/-- **C147, simple.**  With non-negative similarities the simple Laplacian is positive semidefinite. -/
theorem lap_simple_psd {n : Nat} (mode : LapMode) (weighted : Bool) (S : Fin n → Fin n → ℝ) (hS : ∀ i j, S i j = S j i)
    (h0 : ∀ i j, 0 ≤ S i j) (x : Fin n → ℝ) : 0 ≤ ∑ i, ∑ j, x i * lapConstruct true mode weighted S i j * x j := by
  rw [lap_simple_quad _ _ _ hS]
  have : ∀ i j, 0 ≤ lapWeight mode weighted S i j := by
    intro i j
    have := h0 i j
    unfold lapWeight
    rcases mode with _ | ⟨_ | _, eps⟩ <;> simp only <;> (try split_ifs) <;> first | assumption | norm_num
  have : 0 ≤ ∑ i, ∑ j, lapWeight mode weighted S i j * (x i - x j) ^ 2 :=
    Finset.sum_nonneg fun i _ => Finset.sum_nonneg fun j _ => mul_nonneg (this i j) (sq_nonneg _)
  linarith

/-- The settings whose adjacency matrix has a zero diagonal. -/
def Spec.LapNoLoop (mode : LapMode) (weighted : Bool) : Prop :=
  match mode with
  | .fully => True
  | .eNeighbour .upper eps => weighted = true ∨ eps ≤ 0
  | .eNeighbour .lower eps => weighted = true ∨ 0 ≤ eps

theorem lapAdjacency_diag {n : Nat} (mode : LapMode) (weighted : Bool) (S : Fin n → Fin n → ℝ) (h : LapNoLoop mode weighted) (i : Fin n) :
    lapAdjacency mode weighted S i i = 0 := by
  unfold lapAdjacency lapZeroDiag
  unfold LapNoLoop at h
  rcases mode with _ | ⟨_ | _, eps⟩
  · simp
  · simp only [if_true]
    rcases h with h | h
    · rw [h]; simp
    · rw [if_neg (by linarith)]
  · simp only [if_true]
    rcases h with h | h
    · rw [h]; simp
    · rw [if_neg (by linarith)]

theorem lapDegree_noLoop {n : Nat} (mode : LapMode) (weighted : Bool) (S : Fin n → Fin n → ℝ) (h : LapNoLoop mode weighted) (i : Fin n) :
    lapDegree (lapAdjacency mode weighted S) i = graphDegree (lapWeight mode weighted S) i := by
  unfold lapDegree graphDegree
  refine Finset.sum_congr rfl fun j _ => ?_
  by_cases e : i = j
  · subst e; rw [if_pos rfl, lapAdjacency_diag _ _ _ h]
  · rw [if_neg e, lapAdjacency_off _ _ _ _ _ e]

/-- **C147 (partial), normalized.**  If the adjacency matrix has no diagonal entries and no vertex is isolated, the normalized Laplacian is
`I - D^{-1/2} A D^{-1/2}`.  Missing: the unweighted neighbourhoods whose threshold 0 satisfies (`lap_norm_loop_violated`). -/
theorem lap_norm_partial {n : Nat} (mode : LapMode) (weighted : Bool) (S : Fin n → Fin n → ℝ) (h : LapNoLoop mode weighted)
    (hd : ∀ i, graphDegree (lapWeight mode weighted S) i ≠ 0) (i j : Fin n) :
    lapConstruct false mode weighted S i j = graphNormLaplacian (lapWeight mode weighted S) i j := by
  unfold lapConstruct lapNorm graphNormLaplacian
  simp only [Bool.false_eq_true, if_false]
  by_cases e : i = j
  · rw [if_pos e, if_pos e]
  · rw [if_neg e, if_neg e, lapAdjacency_off _ _ _ _ _ e]
    have hf : ∀ i, lapDegreeFix (lapAdjacency mode weighted S) i = graphDegree (lapWeight mode weighted S) i := by
      intro i
      unfold lapDegreeFix
      rw [lapDegree_noLoop _ _ _ h, if_neg (hd i)]
    rw [hf, hf, div_div]
    ring

/-- A vertex without edges (weights are non-negative) has no off-diagonal entry, whatever the other vertices. -/
theorem lap_norm_isolated {n : Nat} (mode : LapMode) (weighted : Bool) (S : Fin n → Fin n → ℝ) (i j : Fin n) (e : i ≠ j)
    (hw : lapWeight mode weighted S i j = 0) : lapConstruct false mode weighted S i j = 0 := by
  unfold lapConstruct lapNorm
  simp only [Bool.false_eq_true, if_false]
  rw [if_neg e, lapAdjacency_off _ _ _ _ _ e, hw]
  simp

theorem lap_norm_eq {n : Nat} (A : Fin n → Fin n → ℝ) (h0 : ∀ i, A i i = 0) (hd : ∀ i, 0 < lapDegree A i) (i j : Fin n) :
    lapNorm A i j = (1 / Real.sqrt (lapDegree A i)) * lapSimple A i j * (1 / Real.sqrt (lapDegree A j)) := by
  have hf : ∀ i, lapDegreeFix A i = lapDegree A i := fun i => by unfold lapDegreeFix; rw [if_neg (hd i).ne']
  unfold lapNorm lapSimple
  by_cases e : i = j
  · subst e
    rw [if_pos rfl, if_pos rfl, h0]
    have h1 := Real.sqrt_pos.2 (hd i)
    have h2 := Real.mul_self_sqrt (hd i).le
    field_simp
    nlinarith
  · rw [if_neg e, if_neg e, hf, hf]
    ring

/-- **C147 (partial), normalized.**  Under the same conditions (with positive degrees) `xᵀ L x` is the sum of `w_ij (x_i/√d_i - x_j/√d_j)²`
over the edges, hence non-negative for non-negative weights, and zero for `x = √d`. -/
theorem lap_norm_quad_partial {n : Nat} (mode : LapMode) (weighted : Bool) (S : Fin n → Fin n → ℝ) (hS : ∀ i j, S i j = S j i)
    (h : LapNoLoop mode weighted) (hd : ∀ i, 0 < graphDegree (lapWeight mode weighted S) i) (x : Fin n → ℝ) :
    ∑ i, ∑ j, x i * lapConstruct false mode weighted S i j * x j =
      (∑ i, ∑ j, lapWeight mode weighted S i j *
        (x i / Real.sqrt (graphDegree (lapWeight mode weighted S) i) - x j / Real.sqrt (graphDegree (lapWeight mode weighted S) j)) ^ 2) / 2 := by
  have hq := lap_simple_quad mode weighted S hS (fun i => x i / Real.sqrt (graphDegree (lapWeight mode weighted S) i))
  rw [← hq]
  refine Finset.sum_congr rfl fun i _ => Finset.sum_congr rfl fun j _ => ?_
  unfold lapConstruct
  simp only [if_true, Bool.false_eq_true, if_false]
  rw [lap_norm_eq _ (lapAdjacency_diag _ _ _ h) (fun i => by rw [lapDegree_noLoop _ _ _ h]; exact hd i)]
  rw [lapDegree_noLoop _ _ _ h, lapDegree_noLoop _ _ _ h]
  ring

/-- The kernel vector `√d` of the normalized Laplacian, which spectral clustering relies on. -/
theorem lap_norm_kernel_partial {n : Nat} (mode : LapMode) (weighted : Bool) (S : Fin n → Fin n → ℝ)
    (h : LapNoLoop mode weighted) (hd : ∀ i, 0 < graphDegree (lapWeight mode weighted S) i) (i : Fin n) :
    ∑ j, lapConstruct false mode weighted S i j * Real.sqrt (graphDegree (lapWeight mode weighted S) j) = 0 := by
  have hs := lap_simple_row_sum mode weighted S i
  unfold lapConstruct at hs ⊢
  simp only [if_true, Bool.false_eq_true, if_false] at hs ⊢
  have : ∀ j, lapNorm (lapAdjacency mode weighted S) i j * Real.sqrt (graphDegree (lapWeight mode weighted S) j) =
      (1 / Real.sqrt (graphDegree (lapWeight mode weighted S) i)) * lapSimple (lapAdjacency mode weighted S) i j := by
    intro j
    rw [lap_norm_eq _ (lapAdjacency_diag _ _ _ h) (fun i => by rw [lapDegree_noLoop _ _ _ h]; exact hd i)]
    rw [lapDegree_noLoop _ _ _ h, lapDegree_noLoop _ _ _ h]
    have := Real.sqrt_pos.2 (hd j)
    field_simp
  rw [Finset.sum_congr rfl fun j _ => this j, ← Finset.mul_sum, hs, mul_zero]

/-- Unweighted neighbourhoods with `S < eps`, `eps > 0`: the zeros that were put on the diagonal pass the threshold, every vertex gets a
loop, and the entries of all edges are too small. -/
theorem lap_norm_loop_violated {n : Nat} (S : Fin n → Fin n → ℝ) (hS : ∀ i j, S i j = S j i) (eps : ℝ) (he : 0 < eps) (i j : Fin n) (hij : i ≠ j) (hw : S i j < eps) :
    lapConstruct false (.eNeighbour .upper eps) false S i j ≠ graphNormLaplacian (lapWeight (.eNeighbour .upper eps) false S) i j ∧
    lapDegree (lapAdjacency (.eNeighbour .upper eps) false S) i = graphDegree (lapWeight (.eNeighbour .upper eps) false S) i + 1 := by
  have hdeg : ∀ i, lapDegree (lapAdjacency (.eNeighbour .upper eps) false S) i = graphDegree (lapWeight (.eNeighbour .upper eps) false S) i + 1 := by
    intro i
    unfold lapDegree graphDegree
    rw [← Finset.add_sum_erase _ _ (Finset.mem_univ i), ← Finset.add_sum_erase _ (fun j => if i = j then (0:ℝ) else _) (Finset.mem_univ i)]
    rw [if_pos rfl, zero_add, add_comm]
    congr 1
    · refine Finset.sum_congr rfl fun j hj => ?_
      have hne : i ≠ j := fun e => (Finset.mem_erase.1 hj).1 e.symm
      rw [if_neg hne, lapAdjacency_off _ _ _ _ _ hne]
    · simp [lapAdjacency, lapZeroDiag, he]
  have hpos : ∀ i j, i ≠ j → S i j < eps → 1 ≤ graphDegree (lapWeight (.eNeighbour .upper eps) false S) i := by
    intro i j hij hw
    unfold graphDegree
    have := Finset.single_le_sum (s := Finset.univ) (f := fun j => if i = j then (0:ℝ) else lapWeight (.eNeighbour .upper eps) false S i j)
      (fun k _ => by unfold lapWeight; simp only; split_ifs <;> first | contradiction | norm_num) (Finset.mem_univ j)
    rw [if_neg hij] at this
    refine le_trans ?_ this
    unfold lapWeight
    simp [hw]
  refine ⟨?_, hdeg i⟩
  unfold lapConstruct lapNorm graphNormLaplacian
  simp only [Bool.false_eq_true, if_false]
  rw [if_neg hij, if_neg hij, lapAdjacency_off _ _ _ _ _ hij]
  have hone : lapWeight (.eNeighbour .upper eps) false S i j = 1 := by unfold lapWeight; simp [hw]
  have h1 := hpos i j hij hw
  have h2 := hpos j i (Ne.symm hij) (by rw [← hS]; exact hw)
  have hf : ∀ i, 1 ≤ graphDegree (lapWeight (.eNeighbour .upper eps) false S) i → lapDegreeFix (lapAdjacency (.eNeighbour .upper eps) false S) i = graphDegree (lapWeight (.eNeighbour .upper eps) false S) i + 1 := by
    intro i hi
    unfold lapDegreeFix
    rw [hdeg, if_neg (by linarith)]
  rw [hone, hf i h1, hf j h2]
  generalize graphDegree (lapWeight (.eNeighbour .upper eps) false S) i = a at h1
  generalize graphDegree (lapWeight (.eNeighbour .upper eps) false S) j = b at h2
  have ha : 0 < Real.sqrt a := Real.sqrt_pos.2 (by linarith)
  have hb : 0 < Real.sqrt b := Real.sqrt_pos.2 (by linarith)
  have ha' : Real.sqrt a < Real.sqrt (a + 1) := Real.sqrt_lt_sqrt (by linarith) (by linarith)
  have hb' : Real.sqrt b < Real.sqrt (b + 1) := Real.sqrt_lt_sqrt (by linarith) (by linarith)
  have hm : Real.sqrt a * Real.sqrt b < Real.sqrt (a + 1) * Real.sqrt (b + 1) := by nlinarith
  have hlt : 1 / (Real.sqrt (a + 1) * Real.sqrt (b + 1)) < 1 / (Real.sqrt a * Real.sqrt b) :=
    one_div_lt_one_div_of_lt (mul_pos ha hb) hm
  rw [div_div]
  intro hh
  linarith

/-- The hypotheses are met: two vertices at distance 1/2 with threshold 1. -/
example : let S : Fin 2 → Fin 2 → ℝ := fun i j => if i = j then 0 else 1 / 2
    (∀ i j, S i j = S j i) ∧ S 0 1 < 1 ∧ (∀ i, 0 < graphDegree (lapWeight .fully false S) i) ∧ LapNoLoop .fully false := by
  refine ⟨?_, ?_, ?_, trivial⟩
  · intro i j; simp only [eq_comm]
  · norm_num
  · intro i
    unfold graphDegree lapWeight
    rw [Fin.sum_univ_two]
    fin_cases i <;> simp

end Heat
