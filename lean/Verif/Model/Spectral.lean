import Verif.Model.Rsvd
/-!
# Spectral clustering: the embedding (heat/cluster/spectral.py)

The Laplacian is an argument (C79), `lanczos`, `torch.linalg.eig`, `torch.sort` and `reigh` are used through their results; exact arithmetic, real eigenvalues.
-/
namespace Heat
open Matrix
variable {K : Type} [Field K]

/-- Values and vectors with `eigen_solver="lanczos"` (spectral.py:151-171): `V, T` from `lanczos`, `lam, W` from `eig` of `T`, `idx` the increasing order. -/
def spectralLanczos {n l : Nat} (V : Matrix (Fin n) (Fin l) K) (lam : Fin l → K) (W : Matrix (Fin l) (Fin l) K) (idx : Fin l → Fin l) : (Fin l → K) × Matrix (Fin n) (Fin l) K :=
  (fun i => lam (idx i), (V * W).submatrix id idx)

/-- The columns on which the samples are clustered (spectral.py:219): the first `k` of the computed vectors. -/
def spectralComponents {n l : Nat} (ev : (Fin l → K) × Matrix (Fin n) (Fin l) K) (k : Nat) : Matrix (Fin n) (Fin (min k l)) K := takeCols ev.2 k

/-- `n_clusters`, if it is not given (spectral.py:214-217), for the position `t` that `argmax` returns. -/
def spectralCount (given : Option Nat) (t : Nat) : Nat := given.getD (t + 1)

/-- The differences of which `argmax` takes the largest (spectral.py:215). -/
def spectralGaps {l : Nat} (ev : Fin (l + 1) → K) (i : Fin l) : K := ev i.succ - ev i.castSucc

end Heat
