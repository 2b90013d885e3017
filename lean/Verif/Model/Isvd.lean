import Verif.Model.Hsvd
import Mathlib.Algebra.BigOperators.Fin
/-!
# Incremental SVD and incremental PCA (heat/core/linalg/svdtools.py:517-713, heat/decomposition/pca.py:259-498)

Exact arithmetic in an ordered field. A matrix with `m` rows is the list of its columns, an `m` by `n` factor `Vt` the list of its rows. The operations on distributed arrays (`@`, `hstack`, `vstack`, `resplit_`) are those of the global arrays.
`qr` and the decomposition of the small inner matrix (`svd` of an array that is not distributed, i.e. `torch.linalg.svd`) are parameters: `qr` returns the columns of `P` and the columns of `Rc`; `svd q` takes a matrix with `q` rows and returns the left vectors, the values, and the rows of `vt`.
-/
namespace Heat
open Matrix
variable {K : Type} [Field K] [LinearOrder K] {m : Nat}

/-- The two decompositions used. -/
structure Decomp (K : Type) (m : Nat) where
  qr : List (Fin m → K) → List (Fin m → K) × List (List K)
  svd : (q : Nat) → List (Fin q → K) → List (Fin q → K) × List K × List (List K)

/-- A column of `new_data - U_old @ (U_old.T @ new_data)` (svdtools.py:563-568). -/
def isvdResid (U : List (Fin m → K)) (c : Fin m → K) : Fin m → K := c - (U.map fun u => (u ⬝ᵥ c) • u).sum

/-- `W @ z` for the matrix with the columns `W` (svdtools.py:609, 642). -/
def isvdLift (W : List (Fin m → K)) (z : Fin W.length → K) : Fin m → K := ∑ i, z i • W[i]

/-- The columns of `innermat = [[diag(S_old), UtC], [0, Rc]]` (svdtools.py:612-630); the number of rows is that of the columns of `hstack([U_old, P])`. -/
def isvdInner (U : List (Fin m → K)) (S : List K) (C P : List (Fin m → K)) (Rc : List (List K)) : List (Fin (U ++ P).length → K) :=
  (List.range S.length).map (fun i t => if t.1 = i then S.getD i 0 else 0) ++
  List.zipWith (fun c rc t => if t.1 < U.length then (U.getD t.1 0) ⬝ᵥ c else rc.getD (t.1 - U.length) 0) C Rc

/-- `_isvd` after the treatment of the means (svdtools.py:562-650): the new left factor, values, and rows of `vt`, truncated to `mr`. -/
def isvdCore (D : Decomp K m) (U : List (Fin m → K)) (S : List K) (C : List (Fin m → K)) (mr : Nat) : List (Fin m → K) × List K × List (List K) :=
  let q := D.qr (C.map (isvdResid U))
  let t := D.svd (U ++ q.1).length (isvdInner U S C q.1 q.2)
  ((t.1.take mr).map (isvdLift (U ++ q.1)), t.2.1.take mr, t.2.2.take mr)

/-- The rank to truncate to (svdtools.py:543-546). -/
def isvdRank (m n d : Nat) (maxrank : Option Nat) : Nat :=
  match maxrank with
  | none => min (n + d) m
  | some k => min k (min (n + d) m)

/-- `vt @ [[Vt_old, 0], [0, I]]` (svdtools.py:574-606, 644), row by row; `n` columns in `Vt_old`, `d` new ones. -/
def isvdRight (r n d : Nat) (Vt : List (List K)) (vt : List (List K)) : List (List K) :=
  vt.map fun row => ((List.range n).map fun j => ((List.range r).map fun i => row.getD i 0 * (Vt.getD i []).getD j 0).sum) ++ (List.range d).map fun j => row.getD (r + j) 0

/-- `isvd` (svdtools.py:653-713); `Vt` has `n` columns. -/
def isvd (D : Decomp K m) (C U : List (Fin m → K)) (S : List K) (n : Nat) (Vt : List (List K)) (maxrank : Option Nat) : Except Err (List (Fin m → K) × List K × List (List K)) :=
  if U.length ≠ S.length then .error .valueError
  else if Vt.length ≠ S.length then .error .valueError
  else
    let t := isvdCore D U S C (isvdRank m n C.length maxrank)
    .ok (t.1, t.2.1, isvdRight S.length n C.length Vt t.2.2)

/-! ## Incremental PCA -/

/-- `statistics.mean(new_data, axis=1)`: the mean of the samples. -/
def meanVec (X : List (Fin m → K)) : Fin m → K := (1 / (X.length : K)) • X.sum

/-- The attributes of an `IncrementalPCA` object: `components_` (rows), `singular_values_`, `mean_`, `n_samples_seen_`. -/
structure IPca (K : Type) (m : Nat) where
  comps : List (Fin m → K)
  sv : List K
  mean : Fin m → K
  seen : Nat

/-- The number of components after the first batch of `n` samples (pca.py:431-434). -/
def ipcaCount (n m : Nat) : Option Nat → Nat
  | none => min n m
  | some k => min (min n m) k

/-- The first batch (pca.py:429-441): the rows of `Vt` in the decomposition of the centered samples are the left vectors of the transposed matrix. -/
def ipcaFirst (D : Decomp K m) (ncomp : Option Nat) (X : List (Fin m → K)) : IPca K m :=
  let nc := ipcaCount X.length m ncomp
  let t := D.svd m (X.map (· - meanVec X))
  ⟨t.1.take nc, t.2.1.take nc, meanVec X, X.length⟩

/-- The columns handed to the core: the centered samples and the weighted difference of the means (svdtools.py:548-560); `rt` is the square root. -/
def ipcaCols (rt : K → K) (n : Nat) (mean : Fin m → K) (X : List (Fin m → K)) : List (Fin m → K) :=
  X.map (· - meanVec X) ++ [rt ((X.length : K) * n / (X.length + n)) • (meanVec X - mean)]

/-- A further batch (pca.py:443-458, svdtools.py:543-560): the attributes afterwards, and the batch, which the code centers in place (svdtools.py:553 works on `X.T`, a view of the data of the caller). -/
def ipcaUpdate (D : Decomp K m) (rt : K → K) (ncomp : Option Nat) (s : IPca K m) (X : List (Fin m → K)) : IPca K m × List (Fin m → K) :=
  let t := isvdCore D s.comps s.sv (ipcaCols rt s.seen s.mean X) (isvdRank m s.seen X.length ncomp)
  (⟨t.1, t.2.1, (1 / ((s.seen : K) + X.length)) • ((s.seen : K) • s.mean + (X.length : K) • meanVec X), s.seen + X.length⟩, X.map (· - meanVec X))

/-- `partial_fit` for a sequence of batches (pca.py:419-458, 405-417). -/
def ipcaRun (D : Decomp K m) (rt : K → K) (ncomp : Option Nat) : List (List (Fin m → K)) → Option (IPca K m)
  | [] => none
  | X :: rest => some (rest.foldl (fun s X => (ipcaUpdate D rt ncomp s X).1) (ipcaFirst D ncomp X))

end Heat
