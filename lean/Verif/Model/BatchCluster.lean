import Verif.Model.KCluster
import Mathlib.Data.List.Sort
/-!
# Batch-parallel k-means and k-medians (heat/cluster/batchparallelclustering.py)

Exact arithmetic in an ordered field; Euclidean distances are compared by their squares. Random draws enter as arguments (`draws`). `p1` is the flag `p == 1` (k-medians).
-/
namespace Heat
open Spec
variable {𝕜 : Type} [Field 𝕜] [LinearOrder 𝕜] {m : Nat}

/-- `torch.cdist(., ., p)`: the 1-norm of the difference, or the square of the 2-norm. -/
def bpDist (p1 : Bool) (x y : Fin m → 𝕜) : 𝕜 := if p1 then ∑ j, |x j - y j| else sqDist x y

/-- `torch.argmin(dist, dim=1)` of one sample (batchparallelclustering.py:73-74, 95-96). -/
def bpNearest (p1 : Bool) (cs : List (Fin m → 𝕜)) (x : Fin m → 𝕜) : Nat :=
  (List.range cs.length).foldl (fun b i => if bpDist p1 x (cs.getD i 0) < bpDist p1 x (cs.getD b 0) then i else b) 0

/-- `torch.median`: the lower of the two middle values. -/
def lowMedian (l : List 𝕜) : 𝕜 := (l.insertionSort (· ≤ ·)).getD ((l.length - 1) / 2) 0

/-- The new centre of a cluster that is not empty (batchparallelclustering.py:79-82). -/
def bpCenter (p1 : Bool) (xs : List (Fin m → 𝕜)) : Fin m → 𝕜 := if p1 then fun j => lowMedian (xs.map fun x => x j) else meanPoint xs

/-- One update of all centres (batchparallelclustering.py:77-85); the centre of an empty cluster stays. -/
def bpStep (p1 : Bool) (X cs : List (Fin m → 𝕜)) : List (Fin m → 𝕜) :=
  (List.range cs.length).map fun i =>
    let mem := X.filter fun x => bpNearest p1 cs x = i
    if mem = [] then cs.getD i 0 else bpCenter p1 mem

/-- `torch.allclose(centers, centers_old, atol=tol)` (batchparallelclustering.py:87) with its default `rtol = 1e-5`. -/
def bpClose (tol : 𝕜) (new old : List (Fin m → 𝕜)) : Prop := ∀ i < new.length, ∀ j, |new.getD i 0 j - old.getD i 0 j| ≤ tol + |old.getD i 0 j| / 100000

instance (tol : 𝕜) (new old : List (Fin m → 𝕜)) : Decidable (bpClose tol new old) := by unfold bpClose; infer_instance

/-- The loop of `_kmex` (batchparallelclustering.py:72-89); the second component is the number of iterations. -/
def bpLoop (p1 : Bool) (tol : 𝕜) (X : List (Fin m → 𝕜)) : Nat → List (Fin m → 𝕜) → List (Fin m → 𝕜) × Nat
  | 0, cs => (cs, 0)
  | n + 1, cs =>
    let new := bpStep p1 X cs
    if bpClose tol new cs then (new, 1) else ((bpLoop p1 tol X n new).1, (bpLoop p1 tol X n new).2 + 1)

/-- `_initialize_plus_plus` (batchparallelclustering.py:38-45) with the draws `d0, d1, ...`; `torch.multinomial` raises if all weights are zero (`none`) and draws an index of positive weight otherwise. Subsampling (more than 2^24 - 1 rows) is not modelled. -/
def bpPlus (p1 : Bool) (X : List (Fin m → 𝕜)) (draw : Nat → Nat) : Nat → Option (List (Fin m → 𝕜))
  | 0 => some []
  | 1 => X[draw 0]?.map fun x => [x]
  | n + 1 => (bpPlus p1 X draw n).bind fun cs =>
      let w := fun x => bpDist p1 x (cs.getD (bpNearest p1 cs x) 0)
      let heavy := X.filter fun x => 0 < w x
      if heavy = [] then none else heavy[draw n % heavy.length]?.map fun x => cs ++ [x]

/-- `_kmex` with the initialisation "++", the only one the constructors accept (batchparallelclustering.py:48-89, 380-390). -/
def kmex (p1 : Bool) (k maxIter : Nat) (tol : 𝕜) (draw : Nat → Nat) (X : List (Fin m → 𝕜)) : Option (List (Fin m → 𝕜)) :=
  (bpPlus p1 X draw k).map fun cs => (bpLoop p1 tol X maxIter cs).1

/-- One level of the merging (batchparallelclustering.py:215-252): the active processes, with their centres, in groups of `mrg` consecutive ones; the first process of a group of at least two clusters the gathered centres, and the first processes stay active. -/
def mergeLevel {α : Type} (mrg : Nat) (f : List α → Option α) (s : List (Nat × α)) : Option (List (Nat × α)) :=
  ((List.range s.length).filter fun i => i % mrg = 0).mapM fun i =>
    let g := (s.drop i).take mrg
    if 1 < g.length then (f (g.map Prod.snd)).map fun v => ((g.map Prod.fst).getD 0 0, v) else g[0]?

/-- `while len(current_procs) > 1` (batchparallelclustering.py:217); the result is the value of rank 0, which is broadcast (line 255). -/
def mergeLoop {α : Type} (mrg : Nat) (f : List α → Option α) : Nat → List (Nat × α) → Option α
  | 0, _ => none
  | n + 1, s => if 1 < s.length then (mergeLevel mrg f s).bind (mergeLoop mrg f n) else (s.find? fun e => e.1 = 0).map Prod.snd

/-- `fit` (batchparallelclustering.py:198-267): local clustering on every process, merging, broadcast. `none`: some process raises. -/
def bpFit (p1 : Bool) (k maxIter : Nat) (tol : 𝕜) (mrg : Option Nat) (draw : List (Fin m → 𝕜) → Nat → Nat) (P : Nat) (X : Nat → List (Fin m → 𝕜)) : Option (List (Fin m → 𝕜)) :=
  ((List.range P).mapM fun r => (kmex p1 k maxIter tol (draw (X r)) (X r)).map fun cs => (r, cs)).bind
    (mergeLoop (mrg.getD P) (fun l => kmex p1 k maxIter tol (draw l.flatten) l.flatten) P)

/-- The local part of `functional_value_` (batchparallelclustering.py:308-322): for a single feature `squeeze()` drops the feature axis too, and the difference is broadcast to all pairs of samples. -/
def bpFunctional (p1 : Bool) (cs X : List (Fin m → 𝕜)) : 𝕜 :=
  if m = 1 then (X.map fun x => (X.map fun y => bpDist p1 x (cs.getD (bpNearest p1 cs y) 0)).sum).sum
  else (X.map fun x => bpDist p1 x (cs.getD (bpNearest p1 cs x) 0)).sum

/-- `functional_value_` after `predict`: the sum over the processes (batchparallelclustering.py:323-324). -/
def bpValue (p1 : Bool) (cs : List (Fin m → 𝕜)) (P : Nat) (X : Nat → List (Fin m → 𝕜)) : 𝕜 := ((List.range P).map fun r => bpFunctional p1 cs (X r)).sum

end Heat
