import Verif.Model.Indexing
import Verif.Spec.Dist
/-!
# Model of the initialisation of KMeans, KMedians and KMedoids (heat/cluster/_kcluster.py:100-350)

Samples are elements of an arbitrary type; random draws and the outcomes of `sample <= prob` are arbitrary parameters (which of them are
possible is C30 and C31); distances and the final reclustering (`_kmex`, C142) are not modelled.
-/
namespace Heat
open Heat.Spec
variable {α : Type}

/-- All local results of `x[inds]` for samples distributed along axis 0, one after the other (heat/core/dndarray.py:1065-1109, C16); what
`resplit(None)` or `Allgatherv` makes of them. -/
def kcIndexed (P n : Nat) (starts counts : Nat → Int) (x : Nat → List α) (inds : List Int) : List α :=
  content P fun r =>
    match getitemList n starts counts x inds r with
    | .ok l => l
    | .error _ => []

/-- `ht.random.randint(0, x.shape[0] - 1, size=(n_clusters,))` (heat/cluster/_kcluster.py:129, 150): the exclusive upper bound, or the
ValueError of an empty range. -/
def kcBound (n : Nat) : Except Err Nat := if (n : Int) - 1 ≤ 0 then .error .valueError else .ok (n - 1)

/-- `init="random"` for distributed samples (heat/cluster/_kcluster.py:128-131), `draws` being what `randint` returned. -/
def kcRandom (P n : Nat) (starts counts : Nat → Int) (x : Nat → List α) (draws : List Nat) : Except Err (List α) :=
  (kcBound n).map fun _ => kcIndexed P n starts counts x (draws.map Int.ofNat)

/-- `idx = ht.where(sample <= prob)` (heat/cluster/_kcluster.py:321), `sel` saying for which samples the comparison holds. -/
def kcPositions (n : Nat) (sel : Nat → Bool) : List Nat := (List.range n).filter sel

/-- The candidates of one round after `Allgatherv` (heat/cluster/_kcluster.py:325-345): samples distributed along axis 0. -/
def kcRoundSplit (P n : Nat) (starts counts : Nat → Int) (x : Nat → List α) (sel : Nat → Bool) : List α :=
  kcIndexed P n starts counts x ((kcPositions n sel).map Int.ofNat)

/-- The same for replicated samples: every process contributes its local result. -/
def kcRoundRepl (P : Nat) (x : List α) (sel : Nat → Bool) : List α :=
  content P fun _ => (kcPositions x.length sel).filterMap fun i => x[i]?

/-- `_centroid_sampling_helper` (heat/cluster/_kcluster.py:305-350): the rounds append their candidates to the first centroid.  (What a round
selects depends on the centroids; here it is arbitrary.) -/
def kcSampling (round : (Nat → Bool) → List α) (first : List α) (sels : List (Nat → Bool)) : List α :=
  sels.foldl (fun c sel => c ++ round sel) first

/-- The size checks of k-means|| (heat/cluster/_kcluster.py:176-196): a second attempt starts again from the first centroid. -/
def kcParallel (round : (Nat → Bool) → List α) (first : List α) (k : Nat) (sels sels' : List (Nat → Bool)) : Except Err (List α) :=
  let c := kcSampling round first sels
  let c := if c.length ≤ k then kcSampling round first sels' else c
  if c.length ≤ k then .error .valueError else .ok c

/-- `weights[i] = ht.sum(final_idx == i)` (heat/cluster/_kcluster.py:206-208). -/
def kcWeights (c : Nat) (finalIdx : List Nat) : List Nat := (List.range c).map fun i => finalIdx.count i

end Heat
