import Mathlib.Analysis.Real.Sqrt
import Mathlib.Algebra.BigOperators.Group.Finset.Basic
/-!
# Model of `Laplacian` (heat/graph/laplacian.py)

Matrices are functions over `Fin n` with real entries (exact arithmetic; the code uses floats).  The distributed primitives used here
(`sum`, `diag`, `fill_diagonal`, `where`, comparisons, resplit) are the subject of other claims; their global meaning is used.
-/
namespace Heat
open scoped Classical BigOperators

/-- `threshold_key` (heat/graph/laplacian.py:65-70). -/
inductive LapKey
  | upper
  | lower

/-- `mode` together with the threshold (heat/graph/laplacian.py:58-70). -/
inductive LapMode
  | fully
  | eNeighbour (key : LapKey) (eps : ℝ)

/-- `S.fill_diagonal(0.0)` (heat/graph/laplacian.py:121). -/
noncomputable def lapZeroDiag {n : Nat} (S : Fin n → Fin n → ℝ) : Fin n → Fin n → ℝ := fun i j => if i = j then 0 else S i j

/-- The adjacency matrix of `construct` (heat/graph/laplacian.py:120-133). -/
noncomputable def lapAdjacency {n : Nat} (mode : LapMode) (weighted : Bool) (S : Fin n → Fin n → ℝ) : Fin n → Fin n → ℝ :=
  let Z := lapZeroDiag S
  match mode with
  | .fully => Z
  | .eNeighbour .upper eps => fun i j => if Z i j < eps then (if weighted then Z i j else 1) else 0
  | .eNeighbour .lower eps => fun i j => if Z i j > eps then (if weighted then Z i j else 1) else 0

/-- `ht.sum(A, axis=1)` (heat/graph/laplacian.py:84, 106). -/
noncomputable def lapDegree {n : Nat} (A : Fin n → Fin n → ℝ) (i : Fin n) : ℝ := ∑ j, A i j

/-- `_simple_L` (heat/graph/laplacian.py:95-108). -/
noncomputable def lapSimple {n : Nat} (A : Fin n → Fin n → ℝ) : Fin n → Fin n → ℝ :=
  fun i j => (if i = j then lapDegree A i else 0) - A i j

/-- The degrees in which zeros have been replaced by ones (heat/graph/laplacian.py:84-90). -/
noncomputable def lapDegreeFix {n : Nat} (A : Fin n → Fin n → ℝ) (i : Fin n) : ℝ := if lapDegree A i = 0 then 1 else lapDegree A i

/-- `_normalized_symmetric_L` (heat/graph/laplacian.py:73-94). -/
noncomputable def lapNorm {n : Nat} (A : Fin n → Fin n → ℝ) : Fin n → Fin n → ℝ :=
  fun i j => if i = j then 1 else A i j / Real.sqrt (lapDegreeFix A i) / Real.sqrt (lapDegreeFix A j) * (-1)

/-- `construct` (heat/graph/laplacian.py:110-140). -/
noncomputable def lapConstruct {n : Nat} (simple : Bool) (mode : LapMode) (weighted : Bool) (S : Fin n → Fin n → ℝ) : Fin n → Fin n → ℝ :=
  if simple then lapSimple (lapAdjacency mode weighted S) else lapNorm (lapAdjacency mode weighted S)

end Heat
