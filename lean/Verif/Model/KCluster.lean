import Verif.Model.Dist
import Verif.Spec.Dist
import Verif.Model.Random
import Verif.Spec.KCluster
import Mathlib.Algebra.Order.Group.Unbundled.Abs
/-!
# KMeans, KMedians, KMedoids (heat/cluster/_kcluster.py, kmeans.py, kmedians.py, kmedoids.py)

Data split along the samples (`d r`: the samples of rank `r`), centres replicated.  Exact arithmetic in an ordered field instead of floating point; distances are compared by their squares (the square root is increasing).  Ties are broken towards the first centre.
-/
namespace Heat
open Spec
variable {𝕜 : Type} [Field 𝕜] [LinearOrder 𝕜] {m : Nat}

/-- `distances.argmin(axis=1)` of one sample (_kcluster.py:364-365): index of the closest centre. -/
def nearest (cs : List (Fin m → 𝕜)) (x : Fin m → 𝕜) : Nat :=
  (List.range cs.length).foldl (fun b i => if sqDist x (cs.getD i 0) < sqDist x (cs.getD b 0) then i else b) 0

/-- `points_in_cluster` (kmeans.py:91-96): number of samples of cluster `i` over all ranks, at least 1. -/
def clusterCount (P : Nat) (d : Nat → List (Fin m → 𝕜)) (cs : List (Fin m → 𝕜)) (i : Nat) : Nat :=
  max 1 ((List.range P).map fun r => ((d r).map fun x => if nearest cs x = i then 1 else 0).sum).sum

/-- `KMeans._update_centroids` (kmeans.py:88-103): `(x * selection / points_in_cluster).sum(axis=0)`, local sums added over the ranks. -/
def kmeansStep (P : Nat) (d : Nat → List (Fin m → 𝕜)) (cs : List (Fin m → 𝕜)) : List (Fin m → 𝕜) :=
  (List.range cs.length).map fun i => fun j =>
    ((List.range P).map fun r => ((d r).map fun x => (x j * if nearest cs x = i then 1 else 0) / (clusterCount P d cs i : 𝕜)).sum).sum

/-- Attributes of the estimator after `fit`: `cluster_centers_`, `labels_` per rank, `inertia_`, `n_iter_`. -/
structure KFit (𝕜 : Type) (m : Nat) where
  centers : List (Fin m → 𝕜)
  labels : Nat → List Nat
  inertia : 𝕜
  nIter : Nat

/-- `((self._cluster_centers - new_cluster_centers) ** 2).sum()` (kmeans.py:141). -/
def centerMovement (old new : List (Fin m → 𝕜)) : 𝕜 := ((old.zip new).map fun p => sqDist p.1 p.2).sum

/-- The loop of `KMeans.fit` (kmeans.py:131-144), entered with the attributes `st`. -/
def kmeansLoop (P : Nat) (d : Nat → List (Fin m → 𝕜)) (tol : Option 𝕜) : Nat → KFit 𝕜 m → KFit 𝕜 m
  | 0, st => st
  | n + 1, st =>
    let new := kmeansStep P d st.centers
    let st' : KFit 𝕜 m := ⟨new, fun r => (d r).map (nearest st.centers), centerMovement st.centers new, st.nIter + 1⟩
    match tol with
    | none => kmeansLoop P d tol n st'
    | some t => if st'.inertia ≤ t then st' else kmeansLoop P d tol n st'

/-- `KMeans.fit` with given initial centres (kmeans.py:126-148).  `none`: with `max_iter = 0` the local variable `matching_centroids` is read before it is assigned (UnboundLocalError, line 146). -/
def kmeansFit (P : Nat) (d : Nat → List (Fin m → 𝕜)) (tol : Option 𝕜) (maxIter : Nat) (init : List (Fin m → 𝕜)) : Option (KFit 𝕜 m) :=
  if maxIter = 0 then none else some (kmeansLoop P d tol maxIter ⟨init, fun _ => [], 0, 0⟩)

/-- `distances.argmin(axis=1)` of one sample with the Manhattan metric of KMedians and KMedoids (_kcluster.py:364-365, kmedians.py:51, kmedoids.py:48): index of the closest centre. -/
def nearestL1 (cs : List (Fin m → 𝕜)) (x : Fin m → 𝕜) : Nat :=
  (List.range cs.length).foldl (fun b i => if l1Dist x (cs.getD i 0) < l1Dist x (cs.getD b 0) then i else b) 0

/-- `clean` of one rank (kmedians.py:76-82, kmedoids.py:71-77): the samples of cluster `i`, without those whose coordinates are all zero. -/
def cleanLocal (cs : List (Fin m → 𝕜)) (i : Nat) (xs : List (Fin m → 𝕜)) : List (Fin m → 𝕜) :=
  (xs.map fun x => fun j => x j * if nearestL1 cs x = i then 1 else 0).filter fun y => (∑ j, |y j|) ≠ 0

/-- Centre `i` after `KMedians._update_centroids` (kmedians.py:73-105); `median` stands for `ht.median(., axis=0)` of the global array, `sample` for the random sample drawn for an empty cluster. -/
def kmediansCenter (median : List (Fin m → 𝕜) → Fin m → 𝕜) (sample : Fin m → 𝕜) (P : Nat) (d : Nat → List (Fin m → 𝕜)) (cs : List (Fin m → 𝕜)) (i : Nat) : Fin m → 𝕜 :=
  let clean := content P fun r => cleanLocal cs i (d r)
  if clean.length = 0 then sample else median clean

/-- The search for the process that owns global row `idx` (kmedians.py:86-92, kmedoids.py:81-87, 101-107): the last rank before the first displacement larger than `idx`. -/
def findProc (n P idx : Nat) : Nat := (((List.range P).takeWhile fun p => (chunkRange n p P).1 ≤ idx).getLast?).getD 0

/-- The row broadcast from that process (kmedians.py:93-98, kmedoids.py:88-93, 108-113): row `idx - displ` of its local tensor `loc`.  `none`: IndexError. -/
def pickRow {β : Type} (n P : Nat) (loc : Nat → List β) (idx : Nat) : Option β := (loc (findProc n P idx))[idx - (chunkRange n (findProc n P idx) P).1]?

/-- Index of the sample closest to `y` (`dist.argmin(axis=0)`, kmedoids.py:98-102). -/
def closestSample (samples : List (Fin m → 𝕜)) (y : Fin m → 𝕜) : Nat :=
  (List.range samples.length).foldl (fun b i => if l1Dist (samples.getD i 0) y < l1Dist (samples.getD b 0) y then i else b) 0

/-- Centre `i` after `KMedoids._update_centroids` (kmedoids.py:68-115); `samples` are all samples (of which rank `r` holds `loc r`), `drawn` is the random index for an empty cluster. -/
def kmedoidsCenter (median : List (Fin m → 𝕜) → Fin m → 𝕜) (drawn : Nat) (P : Nat) (samples : List (Fin m → 𝕜)) (loc : Nat → List (Fin m → 𝕜)) (cs : List (Fin m → 𝕜)) (i : Nat) : Option (Fin m → 𝕜) :=
  let clean := cleanLocal cs i samples
  if clean.length = 0 then pickRow samples.length P loc drawn
  else pickRow samples.length P loc (closestSample samples (median clean))

/-- One index drawn by `init="random"` (and for the first centre of `init="probability_based"`) from `n` samples: `ht.random.randint(0, x.shape[0] - 1)` (_kcluster.py:131, 150) on the random word `x`. -/
def randomInitIndex {w : Nat} (n : Nat) (x : BitVec w) : Except Err (BitVec w) := randint 0 ((n : Int) - 1) x

end Heat
