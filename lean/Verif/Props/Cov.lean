import Verif.Model.Cov
import Mathlib.Algebra.BigOperators.Ring.Finset
import Mathlib.Algebra.BigOperators.Field
import Mathlib.Algebra.Order.BigOperators.Group.Finset
import Mathlib.Algebra.Order.Ring.Rat
import Mathlib.Algebra.Order.Field.Rat
import Mathlib.Algebra.Field.Rat
import Mathlib.Tactic.Ring
import Mathlib.Tactic.Linarith
/-!
# C150: covariance matrices
-/
namespace Heat
open scoped BigOperators
variable {K : Type} [Field K]

namespace Spec
/-- The sample covariance of two sequences of `N` observations, normalised by `N - ddof`. -/
def covariance (N : Nat) (ddof : Int) (u v : Nat → K) : K :=
  (∑ t ∈ Finset.range N, (u t - (∑ s ∈ Finset.range N, u s) / (N : K)) * (v t - (∑ s ∈ Finset.range N, v s) / (N : K))) / (((N : Int) - ddof : Int) : K)

/-- The `i`-th variable of a matrix: its `i`-th row, or its `i`-th column. -/
def variable' (rowvar : Bool) (m : CovArg K) (i t : Nat) : K := if rowvar then m.f i t else m.f t i
/-- The number of variables and of observations of a matrix. -/
def nVar (rowvar : Bool) (m : CovArg K) : Nat := if rowvar then m.rows else m.cols
def nObs (rowvar : Bool) (m : CovArg K) : Nat := if rowvar then m.cols else m.rows
end Spec
open Heat.Spec

theorem covPrep_row (m : CovArg K) : (covPrep true m).rows = m.rows ∧ (covPrep true m).cols = m.cols ∧ (covPrep true m).f = m.f ∧ (covPrep true m).split = m.split := by
  unfold covPrep; simp

theorem covPrep_col (m : CovArg K) (h : m.rows ≠ 1) : (covPrep false m).rows = m.cols ∧ (covPrep false m).cols = m.rows ∧
    (covPrep false m).f = (fun i j => m.f j i) ∧ (covPrep false m).split = m.split.map fun s => 1 - s := by
  unfold covPrep
  rw [if_pos (by simp [h])]
  exact ⟨rfl, rfl, rfl, rfl⟩

/-- **C150 (partial).**  For a matrix (`rowvar`: rows are variables; otherwise columns, and at least two rows) of a floating point type with
more observations than `ddof`, unless there is one variable and the observations are distributed: entry `(i, j)` is the covariance of the
variables `i` and `j`.  Missing: vectors as rows, a single distributed variable, integer data (`cov_vector_violated`, `cov_single_violated`,
`cov_int_violated`). -/
theorem cov_partial (rowvar bias : Bool) (ddof : Option Int) (m : CovArg K) (hr : rowvar = true ∨ m.rows ≠ 1)
    (hn : covDdof bias ddof < (nObs rowvar m : Int)) (h1 : nVar rowvar m ≠ 1 ∨ m.split ≠ some (if rowvar then 1 else 0)) :
    ∃ c, covModel true rowvar bias ddof m none = .ok (nVar rowvar m, c) ∧
      ∀ i j, c i j = covariance (nObs rowvar m) (covDdof bias ddof) (variable' rowvar m i) (variable' rowvar m j) := by
  have key : ∀ x : CovArg K, x = covPrep rowvar m → x.rows = nVar rowvar m ∧ x.cols = nObs rowvar m ∧ x.f = variable' rowvar m ∧
      covExpandOk x = true := by
    rintro x rfl
    cases rowvar with
    | true =>
      obtain ⟨a, b, c, d⟩ := covPrep_row m
      refine ⟨a, b, c, ?_⟩
      unfold covExpandOk
      rw [a, d]
      simp only [nVar, if_true] at h1
      rcases h1 with h1 | h1 <;> simp [h1]
    | false =>
      obtain ⟨a, b, c, d⟩ := covPrep_col m (by simpa using hr)
      refine ⟨a, b, c, ?_⟩
      unfold covExpandOk
      rw [a, d]
      simp only [nVar, Bool.false_eq_true, if_false] at h1
      rcases h1 with h1 | h1
      · simp [h1]
      · cases hsp : m.split with
        | none => simp
        | some s =>
          rw [hsp] at h1
          have : s ≠ 0 := fun e => h1 (by rw [e])
          simp only [Option.map_some]
          have : 1 - s ≠ 1 := by omega
          simp [this]
  obtain ⟨a, b, c, d⟩ := key _ rfl
  unfold covModel
  simp only [Option.map_none, covJoin]
  rw [if_neg (by rw [b]; omega), if_neg (by rw [d]; simp), if_neg (by simp)]
  refine ⟨_, by rw [a], ?_⟩
  intro i j
  unfold covMean covariance
  rw [b, c]

/-- **C150 (partial), two arguments.**  The variables of `y` follow those of `m`. -/
theorem cov_two_partial (bias : Bool) (ddof : Option Int) (m y : CovArg K) (hobs : m.cols = y.cols) (hr : 0 < m.rows) (hr' : 0 < y.rows)
    (hn : covDdof bias ddof < (m.cols : Int)) :
    ∃ c, covModel true true bias ddof m (some y) = .ok (m.rows + y.rows, c) ∧
      ∀ i j, c i j = covariance m.cols (covDdof bias ddof) (fun t => if i < m.rows then m.f i t else y.f (i - m.rows) t)
        (fun t => if j < m.rows then m.f j t else y.f (j - m.rows) t) := by
  obtain ⟨a, b, c, d⟩ := covPrep_row m
  obtain ⟨a', b', c', d'⟩ := covPrep_row y
  unfold covModel covJoin
  simp only [Option.map_some]
  rw [if_neg (by rw [b, b']; simpa using hobs)]
  dsimp only
  rw [if_neg (by rw [b]; omega), if_neg (by unfold covExpandOk; rw [a, a']; simp; omega), if_neg (by simp)]
  refine ⟨_, by rw [a, a'], ?_⟩
  intro i j
  unfold covMean covariance
  simp only [a, b, c, c']

/-- Different numbers of observations are refused. -/
theorem cov_two_refused (float bias : Bool) (ddof : Option Int) (m y : CovArg K) (hobs : m.cols ≠ y.cols) :
    covModel float true bias ddof m (some y) = .error .valueError := by
  obtain ⟨a, b, c, d⟩ := covPrep_row m
  obtain ⟨a', b', c', d'⟩ := covPrep_row y
  unfold covModel covJoin
  simp only [Option.map_some]
  rw [if_pos (by rw [b, b']; exact hobs)]

/-- Whatever is returned is symmetric. -/
theorem cov_symm (float rowvar bias : Bool) (ddof : Option Int) (m : CovArg K) (y : Option (CovArg K)) (k : Nat) (c : Nat → Nat → K)
    (h : covModel float rowvar bias ddof m y = .ok (k, c)) (i j : Nat) : c i j = c j i := by
  unfold covModel at h
  cases hx : covJoin (covPrep rowvar m) (y.map (covPrep rowvar)) with
  | error e => rw [hx] at h; cases h
  | ok x =>
    rw [hx] at h
    dsimp only at h
    split_ifs at h
    simp only [Except.ok.injEq, Prod.mk.injEq] at h
    rw [← h.2]
    simp only
    congr 1
    exact Finset.sum_congr rfl fun t _ => mul_comm _ _

/-- Whatever is returned is positive semidefinite. -/
theorem cov_psd [LinearOrder K] [IsStrictOrderedRing K] (float rowvar bias : Bool) (ddof : Option Int) (m : CovArg K) (y : Option (CovArg K)) (k : Nat) (c : Nat → Nat → K)
    (h : covModel float rowvar bias ddof m y = .ok (k, c)) (v : Nat → K) :
    0 ≤ ∑ i ∈ Finset.range k, ∑ j ∈ Finset.range k, v i * c i j * v j := by
  unfold covModel at h
  cases hx : covJoin (covPrep rowvar m) (y.map (covPrep rowvar)) with
  | error e => rw [hx] at h; cases h
  | ok x =>
    rw [hx] at h
    dsimp only at h
    split_ifs at h with g1 g2 g3
    simp only [Except.ok.injEq, Prod.mk.injEq] at h
    rw [← h.2]
    simp only
    generalize hd : (((x.cols : Int) - covDdof bias ddof : Int) : K) = d
    have hpos : 0 < d := by rw [← hd]; exact_mod_cast (by omega : 0 < (x.cols : Int) - covDdof bias ddof)
    set g : Nat → Nat → K := fun i t => x.f i t - covMean x i with hg
    have e : ∑ i ∈ Finset.range k, ∑ j ∈ Finset.range k, v i * ((∑ t ∈ Finset.range x.cols, g i t * g j t) / d) * v j =
        (∑ t ∈ Finset.range x.cols, (∑ i ∈ Finset.range k, v i * g i t) ^ 2) / d := by
      rw [Finset.sum_div]
      have : ∀ t, (∑ i ∈ Finset.range k, v i * g i t) ^ 2 / d = ∑ i ∈ Finset.range k, ∑ j ∈ Finset.range k, v i * (g i t * g j t / d) * v j := by
        intro t
        rw [pow_two, Finset.sum_mul_sum, Finset.sum_div]
        refine Finset.sum_congr rfl fun i _ => ?_
        rw [Finset.sum_div]
        exact Finset.sum_congr rfl fun j _ => by ring
      rw [Finset.sum_congr rfl fun t _ => this t, Finset.sum_comm (s := Finset.range x.cols)]
      refine Finset.sum_congr rfl fun i _ => ?_
      rw [Finset.sum_comm (s := Finset.range x.cols)]
      refine Finset.sum_congr rfl fun j _ => ?_
      rw [Finset.sum_div, Finset.mul_sum, Finset.sum_mul]
    rw [e]
    exact div_nonneg (Finset.sum_nonneg fun t _ => sq_nonneg _) hpos.le

/-- Too few observations are refused. -/
theorem cov_few_refused (float rowvar bias : Bool) (ddof : Option Int) (m : CovArg K) (h : ((covPrep rowvar m).cols : Int) ≤ covDdof bias ddof) :
    covModel float rowvar bias ddof m none = .error .valueError := by
  unfold covModel
  simp only [Option.map_none, covJoin]
  rw [if_pos (by omega)]

/-- A vector is one variable, but with the default arguments it is taken for `n` variables with one observation each, and refused: the call
`cov(v)` fails for every vector. -/
theorem cov_vector_violated (float : Bool) (m : CovArg K) (hc : m.cols = 1) : covModel float true false none m none = .error .valueError :=
  cov_few_refused float true false none m (by obtain ⟨_, b, _⟩ := covPrep_row m; rw [b, hc]; decide)

/-- One variable whose observations are distributed, in any number: refused.  In particular `cov(v, rowvar=False)` for every distributed
vector. -/
theorem cov_single_violated (float bias : Bool) (ddof : Option Int) (m : CovArg K) (hr : m.rows ≠ 1) (hc : m.cols = 1) (hs : m.split = some 0) :
    covModel float false bias ddof m none = .error .valueError := by
  unfold covModel
  simp only [Option.map_none, covJoin]
  by_cases h1 : ((covPrep false m).cols : Int) - covDdof bias ddof ≤ 0
  · rw [if_pos h1]
  · rw [if_neg h1]
    obtain ⟨a, b, c, d⟩ := covPrep_col m hr
    rw [if_pos]
    unfold covExpandOk
    rw [a, d, hc, hs]
    rfl

/-- Integer data: TypeError instead of the covariance. -/
theorem cov_int_violated (rowvar bias : Bool) (ddof : Option Int) (m : CovArg K) (k : Nat) (c : Nat → Nat → K)
    (h : covModel true rowvar bias ddof m none = .ok (k, c)) : covModel false rowvar bias ddof m none = .error .typeError := by
  unfold covModel at h ⊢
  simp only [Option.map_none, covJoin] at h ⊢
  split_ifs at h with g1 g2 g3
  rw [if_neg g1, if_neg g2]
  rfl

/-- The hypotheses are met: two variables with three observations each, distributed. -/
example : ∃ c, covModel true true false none ⟨false, 2, 3, some 1, fun i t => (([[1, 2, 3], [4, 6, 11]] : List (List ℚ)).getD i []).getD t 0⟩ none = .ok (2, c) ∧
    c 0 1 = 7 / 2 := ⟨_, rfl, by decide +kernel⟩

end Heat
