import Mathlib.Algebra.BigOperators.Group.Finset.Basic
import Mathlib.Algebra.Order.Field.Basic
import Mathlib.Data.List.Dedup
/-!
# Model of the silhouette coefficient (heat/cluster/metrics.py:87-269)

Exact arithmetic in a linearly ordered field.  The `n` samples have the labels `lab 0, ..., lab (n - 1)` and the distance matrix `D` (given or
computed by `cdist`, C68).  All steps act on the rows separately; `unique` returns every label once (C83) and its replicated inverse indices
(C84), so that rows and labels on a process belong together by the check of the local extents (heat/cluster/metrics.py:79-84).
`none` stands for an infinite value.
-/
namespace Heat
open scoped BigOperators

variable {K : Type} [Field K] [LinearOrder K]

/-- `unique_labels` (heat/cluster/metrics.py:143-146); their order does not matter here. -/
def silUnique (n : Nat) (lab : Nat → Int) : List Int := ((List.range n).map lab).dedup

/-- `labels_freqs = ht.bincount(labels_encoded)` (heat/cluster/metrics.py:148). -/
def silFreq (n : Nat) (lab : Nat → Int) (c : Int) : Nat := ((List.range n).map lab).count c

/-- `full_mask` (heat/cluster/metrics.py:160-163). -/
def silMask (lab : Nat → Int) (i : Nat) (c : Int) : K := if lab i = c then 1 else 0

/-- `clust_dists = ht.matmul(D, full_mask)` (heat/cluster/metrics.py:165). -/
def silClust (n : Nat) (lab : Nat → Int) (D : Nat → Nat → K) (i : Nat) (c : Int) : K := ∑ j ∈ Finset.range n, D i j * silMask lab j c

/-- `a` (heat/cluster/metrics.py:166-175). -/
def silA (n : Nat) (lab : Nat → Int) (D : Nat → Nat → K) (i : Nat) : K :=
  ((silUnique n lab).map fun c => silClust n lab D i c * silMask lab i c).sum /
    (if silFreq n lab (lab i) - 1 > 0 then ((silFreq n lab (lab i) - 1 : Nat) : K) else 1)

/-- The smaller of two values of which `none` is infinite. -/
def silMin : Option K → Option K → Option K
  | none, y => y
  | some x, none => some x
  | some x, some y => some (min x y)

/-- `b` (heat/cluster/metrics.py:177-183): the entry of the own cluster is infinite. -/
def silB (n : Nat) (lab : Nat → Int) (D : Nat → Nat → K) (i : Nat) : Option K :=
  ((silUnique n lab).map fun c => if lab i = c then none else some (silClust n lab D i c / (silFreq n lab c : K))).foldr silMin none

/-- `sil_samples` (heat/cluster/metrics.py:185-188): `(inf - a) / inf` and `0 / 0` are NaN, which `nan_to_num` replaces by 0. -/
def silSample (n : Nat) (lab : Nat → Int) (D : Nat → Nat → K) (i : Nat) : K :=
  if silFreq n lab (lab i) > 1 then
    match silB n lab D i with
    | none => 0
    | some b => if max (silA n lab D i) b = 0 then 0 else (b - silA n lab D i) / max (silA n lab D i) b
  else 0

/-- `silhouette_score` without sampling (heat/cluster/metrics.py:269). -/
def silScore (n : Nat) (lab : Nat → Int) (D : Nat → Nat → K) : K := (∑ i ∈ Finset.range n, silSample n lab D i) / (n : K)

end Heat
