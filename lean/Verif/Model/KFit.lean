import Verif.Model.KCluster
/-!
# The loops of `KMedians.fit` and `KMedoids.fit` (heat/cluster/kmedians.py:107-147, heat/cluster/kmedoids.py:117-156)
-/
namespace Heat
open Spec
variable {𝕜 : Type} [Field 𝕜] [LinearOrder 𝕜] {m : Nat}

/-- All centres after `KMedians._update_centroids` (kmedians.py:71-105) in iteration `it`; `smp it i` is the sample drawn for cluster `i` if it is empty. -/
def kmediansStep (median : List (Fin m → 𝕜) → Fin m → 𝕜) (smp : Nat → Nat → Fin m → 𝕜) (P : Nat) (d : Nat → List (Fin m → 𝕜)) (it : Nat) (cs : List (Fin m → 𝕜)) : List (Fin m → 𝕜) :=
  (List.range cs.length).map fun i => kmediansCenter median (smp it i) P d cs i

/-- The loop of `KMedians.fit` (kmedians.py:129-144) with `n` iterations left. -/
def kmediansLoop (median : List (Fin m → 𝕜) → Fin m → 𝕜) (smp : Nat → Nat → Fin m → 𝕜) (P : Nat) (d : Nat → List (Fin m → 𝕜)) (tol : Option 𝕜) : Nat → KFit 𝕜 m → KFit 𝕜 m
  | 0, st => st
  | n + 1, st =>
    let new := kmediansStep median smp P d st.nIter st.centers
    let st' : KFit 𝕜 m := ⟨new, fun r => (d r).map (nearestL1 st.centers), centerMovement st.centers new, st.nIter + 1⟩
    match tol with
    | none => kmediansLoop median smp P d tol n st'
    | some t => if st'.inertia ≤ t then st' else kmediansLoop median smp P d tol n st'

/-- `KMedians.fit` from given initial centres (kmedians.py:121-147).  `none`: `max_iter = 0`, `matching_centroids` is read before it is assigned (line 145). -/
def kmediansFit (median : List (Fin m → 𝕜) → Fin m → 𝕜) (smp : Nat → Nat → Fin m → 𝕜) (P : Nat) (d : Nat → List (Fin m → 𝕜)) (tol : Option 𝕜) (maxIter : Nat) (init : List (Fin m → 𝕜)) : Option (KFit 𝕜 m) :=
  if maxIter = 0 then none else some (kmediansLoop median smp P d tol maxIter ⟨init, fun _ => [], 0, 0⟩)

/-- All centres after `KMedoids._update_centroids` (kmedoids.py:66-115) in iteration `it`; `drawn it i` is the random index for cluster `i` if it is empty; `none`: an IndexError on some process. -/
def kmedoidsStep (median : List (Fin m → 𝕜) → Fin m → 𝕜) (drawn : Nat → Nat → Nat) (P : Nat) (samples : List (Fin m → 𝕜)) (loc : Nat → List (Fin m → 𝕜)) (it : Nat) (cs : List (Fin m → 𝕜)) : Option (List (Fin m → 𝕜)) :=
  (List.range cs.length).mapM fun i => kmedoidsCenter median (drawn it i) P samples loc cs i

/-- The loop of `KMedoids.fit` (kmedoids.py:138-152) with `n` iterations left: centres, labels, number of iterations and whether the loop was left because the centres did not change
(the last component is not an attribute). -/
def kmedoidsLoop (median : List (Fin m → 𝕜) → Fin m → 𝕜) (drawn : Nat → Nat → Nat) (P : Nat) (samples : List (Fin m → 𝕜)) (loc : Nat → List (Fin m → 𝕜)) :
    Nat → List (Fin m → 𝕜) → (Nat → List Nat) → Nat → Option (List (Fin m → 𝕜) × (Nat → List Nat) × Nat × Bool)
  | 0, cs, lab, it => some (cs, lab, it, false)
  | n + 1, cs, _, it =>
    let lab' := fun r => (loc r).map (nearestL1 cs)
    (kmedoidsStep median drawn P samples loc it cs).bind fun new =>
      if cs = new then some (cs, lab', it + 1, true) else kmedoidsLoop median drawn P samples loc n new lab' (it + 1)

end Heat
