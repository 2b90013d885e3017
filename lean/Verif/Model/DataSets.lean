import Verif.Model.Chunk
import Mathlib.Data.Rat.Floor
import Mathlib.Data.Matrix.Diagonal
import Mathlib.Algebra.BigOperators.Group.Finset.Basic
/-!
# Artificial data sets (heat/utils/data/spherical.py)

Exact arithmetic; the random samples themselves are not modelled, only how many are drawn from which distribution and where they go.
-/
namespace Heat

/-- The numbers of samples per cluster on a process with `nloc` samples (spherical.py:137-139): `int(nloc * weight[k])`, and the first cluster takes what is left. -/
def clusterSizes (nloc K : Nat) (w : Nat → ℚ) (k : Nat) : Int :=
  let base : Nat → Int := fun k => ⌊(nloc : ℚ) * w k⌋
  if k = 0 then base 0 + (nloc - ∑ j ∈ Finset.range K, base j) else base k

/-- The weights if none are given (spherical.py:88). -/
def evenWeights (K : Nat) : Nat → ℚ := fun _ => 1 / K

/-- The number of samples of process `r` (spherical.py:135-136). -/
def clusterLocal (n P r : Nat) : Nat := (chunkRange n r P).2 - (chunkRange n r P).1

/-- All samples of cluster `k` on `P` processes. -/
def clusterTotal (n P K : Nat) (w : Nat → Nat → ℚ) (k : Nat) : Int := ∑ r ∈ Finset.range P, clusterSizes (clusterLocal n P r) K (w r) k

/-- The matrix handed over as covariance of a cluster with one number per cluster (spherical.py:130-133, 140-145). -/
def clusterCov (d : Nat) (std : ℚ) : Matrix (Fin d) (Fin d) ℚ := Matrix.diagonal fun _ => std

/-- `create_spherical_dataset`: the number of samples per cluster (spherical.py:30-38): `rand` gets the global size. -/
def sphericalCount (num P : Nat) : Nat := num / P

/-- The rows of the result (spherical.py:47-52): four clusters. -/
def sphericalRows (num P : Nat) : Nat := sphericalCount num P + sphericalCount num P + sphericalCount num P + sphericalCount num P

/-- The centre of cluster `k` in units of `offset` (spherical.py:47-50). -/
def sphericalCentre : Nat → Int × Int × Int
  | 0 => (1, 1, 1)
  | 1 => (2, 2, 2)
  | 2 => (-1, -1, -1)
  | _ => (-2, -2, -2)

end Heat
