import Verif.Model.Polar
import Verif.Model.Eigh
/-!
# The general branch of `svd` (heat/core/linalg/svd.py:164-201)

Exact arithmetic over the reals; `polar` is Model/Polar.lean, `eigh` is Model/Eigh.lean.
-/
namespace Heat
open Matrix

/-- What the general branch returns: the left factor, the values and the transposed right factor. -/
structure SvdRes (m n k : ℕ) where
  U : Matrix (Fin m) (Fin k) ℝ
  S : Fin k → ℝ
  Vt : Matrix (Fin k) (Fin n) ℝ

/-- `U, H = polar(A); S, V = eigh(H); return U @ V, S, V.T` for at least as many rows as columns, on `P` processes (heat/core/linalg/svd.py:192-201).  `U` is what the iteration of `polar`
returned; `nodes` are the divisions made by `eigh`. -/
noncomputable def svdGeneral (o : EighOps) (P lmin : ℕ) {m n : ℕ} (U A : Matrix (Fin m) (Fin n) ℝ) : Option (SvdRes m n n × List EighNode) :=
  (eighRec o P 0 lmin 0 n (polarH U A)).map fun r => (⟨U * r.V, r.lam, r.Vᵀ⟩, r.nodes)

/-- `V, S, Ut = svd(A.T); return Ut.T, S, V.T` for fewer rows than columns (heat/core/linalg/svd.py:167-180). -/
noncomputable def svdWide (o : EighOps) (P lmin : ℕ) {m n : ℕ} (U : Matrix (Fin n) (Fin m) ℝ) (A : Matrix (Fin m) (Fin n) ℝ) : Option (SvdRes m n m × List EighNode) :=
  (svdGeneral o P lmin U Aᵀ).map fun x => (⟨x.1.Vtᵀ, x.1.S, x.1.Uᵀ⟩, x.2)

end Heat
