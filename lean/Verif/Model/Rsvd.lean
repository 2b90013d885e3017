import Verif.Model.Dmd
/-!
# Randomized decompositions (heat/core/linalg/randomized.py)

Exact arithmetic; the arrays are whole matrices (distribution: matmul C134, qr C64/C65, resplit C13).  `qr`, `svd` and `eigh` of the small matrices are parameters; the random matrix is an argument, the theorems hold for every one.
-/
namespace Heat
open Matrix
variable {K : Type} [Field K]

/-- The checks of the arguments (randomized.py:36-49); types are not modelled. -/
def rrfInit (rank oversamples power : Int) : Except Err Unit :=
  if rank < 1 then .error .valueError
  else if oversamples < 0 then .error .valueError
  else if power < 0 then .error .valueError
  else .ok ()

/-- What `qr` returns as first component: the number of columns and the matrix. -/
abbrev QFun (K : Type) := ∀ n k : Nat, Matrix (Fin n) (Fin k) K → Σ j : Nat, Matrix (Fin n) (Fin j) K

/-- `_randomized_range_finder` after the checks (randomized.py:53-75): `Om` is the random matrix, with `q` power iterations. -/
def rangeFinder (qr : QFun K) {m n ell : Nat} (A : Matrix (Fin m) (Fin n) K) (Om : Matrix (Fin n) (Fin ell) K) : Nat → Σ j : Nat, Matrix (Fin m) (Fin j) K
  | 0 => qr _ _ (A * Om)
  | q + 1 => qr _ _ (A * (qr _ _ (Aᵀ * (rangeFinder qr A Om q).2)).2)

/-- What is decomposed: `Q.T @ A` (randomized.py:129). -/
def rsvdSmall (Q : Σ j : Nat, Matrix (Fin m) (Fin j) K) (A : Matrix (Fin m) (Fin n) K) : Matrix (Fin Q.1) (Fin n) K := Q.2ᵀ * A

/-- `rsvd` (randomized.py:118-139) for `U, S, Vt` the decomposition of `Q.T @ A`: the first `rank` columns of `Q U`, values, and rows. -/
def rsvd {m n r : Nat} (Q : Σ j : Nat, Matrix (Fin m) (Fin j) K) (U : Matrix (Fin Q.1) (Fin r) K) (S : Fin r → K) (Vt : Matrix (Fin r) (Fin n) K) (rank : Nat) :
    Matrix (Fin m) (Fin (min rank r)) K × (Fin (min rank r) → K) × Matrix (Fin (min rank r)) (Fin n) K :=
  (takeCols (Q.2 * U) rank, takeVals S rank, takeRows Vt rank)

/-- `Q.T @ (A @ Q)` (randomized.py:187). -/
def reighSmall {m : Nat} (Q : Σ j : Nat, Matrix (Fin m) (Fin j) K) (A : Matrix (Fin m) (Fin m) K) : Matrix (Fin Q.1) (Fin Q.1) K := Q.2ᵀ * (A * Q.2)

/-- `reigh` (randomized.py:177-216) for `lam, W` the decomposition of `Q.T A Q` and `idx` the order that `argsort(descending=True)` gives: the first `count` values and vectors. -/
def reigh {m : Nat} (Q : Σ j : Nat, Matrix (Fin m) (Fin j) K) (lam : Fin Q.1 → K) (W : Matrix (Fin Q.1) (Fin Q.1) K) (idx : Fin Q.1 → Fin Q.1) (count : Nat) : (Fin (min count Q.1) → K) × Matrix (Fin m) (Fin (min count Q.1)) K :=
  (takeVals (fun i => lam (idx i)) count, Q.2 * takeCols (W.submatrix id idx) count)

end Heat
