import Verif.Model.Isvd
/-!
# Principal component analysis with the full decomposition (heat/decomposition/pca.py:89-308)

Exact arithmetic in an ordered field; the data are the list of samples (rows). `svd` of the centered data is a parameter (`Decomp.svd` of the transposed matrix, whose left vectors are the rows of `Vt`), as in Model/Isvd.lean. The solvers "hierarchical" and "randomized" are not modelled here.
-/
namespace Heat
open Matrix
variable {K : Type} [Field K] [LinearOrder K] {m : Nat}

/-- The argument `n_components` (pca.py:127-134): not given, an integer, or a fraction of the variance. -/
inductive NComp (K : Type) where
  | all
  | num (k : Nat)
  | frac (t : K)

/-- The checks on `n_components` in the constructor (pca.py:127-134). -/
def NComp.valid : NComp K → Bool
  | .all => true
  | .num k => decide (1 ≤ k)
  | .frac t => decide (0 < t) && decide (t < 1)

/-- `len(cumsum[cumsum <= threshold]) + 1` (pca.py:194-206): the running sums of the squared values over `n - 1` that do not exceed `t` times their total, plus one. -/
def pcaFracCount (n : Nat) (t : K) (S : List K) : Nat :=
  ((List.range S.length).filter fun i => decide (((S.take (i + 1)).map fun s => s * s).sum / ((n : K) - 1) ≤ t * ((S.map fun s => s * s).sum / ((n : K) - 1)))).length + 1

/-- `n_components_` after `fit` (pca.py:182-206). -/
def pcaCount (nc : NComp K) (n m : Nat) (S : List K) : Nat :=
  match nc with
  | .all => min n m
  | .num k => k
  | .frac t => pcaFracCount n t S

/-- The attributes after `fit` (pca.py:176-211): `components_`, `singular_values_`, `mean_`, `n_components_`, `total_explained_variance_ratio_` (as numerator and denominator). -/
structure Pca (K : Type) (m : Nat) where
  comps : List (Fin m → K)
  sv : List K
  mean : Fin m → K
  ncomp : Nat
  ratio : K

/-- `fit` with `svd_solver="full"` (pca.py:160-211, 243-246). -/
def pcaFit (D : Decomp K m) (nc : NComp K) (X : List (Fin m → K)) : Pca K m :=
  let t := D.svd m (X.map (· - meanVec X))
  let k := pcaCount nc X.length m t.2.1
  let total := (t.2.1.map fun s => s * s).sum / ((X.length : K) - 1)
  ⟨t.1.take k, t.2.1.take k, meanVec X, k, ((t.2.1.take k).map fun s => s * s / ((X.length : K) - 1) / total).sum⟩

/-- `transform` of one sample: the products with the components (pca.py:249-265). -/
def pcaTransform (p : Pca K m) (x : Fin m → K) : List K := p.comps.map fun u => (x - p.mean) ⬝ᵥ u

/-- `inverse_transform` of one row (pca.py:267-285). -/
def pcaInverse (p : Pca K m) (z : List K) : Except Err (Fin m → K) :=
  if z.length ≠ p.ncomp then .error .valueError
  else .ok ((List.zipWith (fun c u => c • u) z p.comps).sum + p.mean)

end Heat
