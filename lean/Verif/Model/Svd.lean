import Verif.Model.Qr
/-!
# Singular value decomposition of a distributed matrix (heat/core/linalg/svd.py)

Exact arithmetic; the decomposition of a matrix on one process (`torch.linalg.svd(R, full_matrices=False)`) is an argument that returns the left factor, the values and the transposed right factor.
-/
namespace Heat
variable {K : Type} [CommRing K]

/-- Which algorithm is used (svd.py:112-189). `fat` and `wide` call `svd` again with the transposed matrix. -/
inductive SvdBranch where
  | single | tall | fat | wide | polar
deriving DecidableEq, Repr

/-- The choice of the algorithm for an `M` by `N` matrix; `maxLoc` is the largest local extent along the split axis (svd.py:112, 125, 144, 164-167). -/
def svdBranch (P M N : Nat) (split : Option Nat) (maxLoc : Nat) : SvdBranch :=
  if P ≤ 1 ∨ split = none then .single
  else if split = some 0 ∧ N ≤ maxLoc then .tall
  else if split = some 1 ∧ M ≤ maxLoc then .fat
  else if M < N then .wide
  else .polar

/-- The split of the transposed matrix. -/
def svdTrSplit (split : Option Nat) : Option Nat := split.map (1 - ·)

/-- The tall skinny case (svd.py:125-137): `qr`, the decomposition of `R` on every process, and `U = (Utilde.T @ Q.T).T`, which is `Q_loc @ Utilde` on every process. -/
def svdTall (qr : DMat K → DMat K × DMat K) (svd : DMat K → DMat K × (Nat → K) × DMat K) (n m P : Nat) (A : Nat → DMat K) : Option ((Nat → DMat K) × (Nat → K) × DMat K) :=
  (tsqr qr n m P A).bind fun (Q, R) =>
    if ∀ r < P, ((Q r).mul (svd R).1).isSome then some (fun r => ((Q r).mul (svd R).1).getD (Q r), (svd R).2.1, (svd R).2.2) else none

/-- The transposed local matrix. -/
def DMat.tr (A : DMat K) : DMat K := ⟨A.rows.length, (List.range A.width).map fun j i => A.at i j⟩

/-- The short fat case (svd.py:144-155): `A r` are the columns of process `r`; the factors of the transposed matrix, exchanged and transposed. -/
def svdFat (qr : DMat K → DMat K × DMat K) (svd : DMat K → DMat K × (Nat → K) × DMat K) (M m P : Nat) (A : Nat → DMat K) : Option (DMat K × (Nat → K) × (Nat → DMat K)) :=
  (svdTall qr svd M m P fun r => (A r).tr).map fun (V, S, Ut) => (Ut.tr, S, fun r => (V r).tr)

end Heat
