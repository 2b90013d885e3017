import Verif.Model.Basic
import Verif.Spec.Naive
import Mathlib.Data.List.Dedup
import Mathlib.Data.List.Sort
/-!
# `GaussianNB` (heat/naive_bayes/gaussianNB.py): fitting

Exact arithmetic in an ordered field.  `ht.var`, `ht.mean`, `ht.average`, `ht.unique` and boolean indexing are modelled by their results (see C62, C83); weights default to 1.
-/
namespace Heat
open Spec
variable {K : Type} [Field K] [LinearOrder K]

/-- One training sample: features, label, weight. -/
structure NbSample (K : Type) where
  x : Nat → K
  y : Int
  w : K

/-- The attributes `classes_`, `class_count_`, `theta_`, `sigma_`, `epsilon_`; rows are addressed by the label instead of its position in `classes_`. -/
structure NbState (K : Type) where
  classes : List Int
  count : Int → K
  theta : Int → Nat → K
  sigma : Int → Nat → K
  eps : K

/-- Values and weights of feature `f` of the samples with label `c` (`x[eq_y_i, :]`, `sample_weight[eq_y_i]`, gaussianNB.py:344-349). -/
def nbColumn (b : List (NbSample K)) (c : Int) (f : Nat) : List (K × K) := (b.filter fun s => decide (s.y = c)).map fun s => (s.x f, s.w)

/-- `__update_mean_variance` (gaussianNB.py:158-191) for one feature. -/
def updateMeanVar (nPast mu var : K) (l : List (K × K)) : K × K :=
  if l = [] then (mu, var)
  else
    let nNew := wSum l
    let newMu := wMean l
    let newVar := wVar l
    if nPast = 0 then (newMu, newVar)
    else
      let nTotal := nPast + nNew
      let totalMu := (nNew * newMu + nPast * mu) / nTotal
      let oldSsd := nPast * var
      let newSsd := nNew * newVar
      let totalSsd := oldSsd + newSsd + (nNew * nPast / nTotal) * (mu - newMu) ^ 2
      (totalMu, totalSsd / nTotal)

/-- `epsilon_` (gaussianNB.py:279): the smoothing factor times the largest variance of a feature; `F` features. -/
def nbEps (smoothing : K) (F : Nat) (b : List (NbSample K)) : K :=
  smoothing * (((List.range F).map fun f => wVar (b.map fun s => (s.x f, 1))).foldl max 0)

/-- `ht.unique(y, sorted=True)` (C83). -/
def nbLabels (b : List (NbSample K)) : List Int := ((b.map fun s => s.y).dedup).insertionSort (· ≤ ·)

/-- `ht.all(ht.eq(unique_y, classes))` (gaussianNB.py:332-338): element-wise with broadcasting; shapes that do not fit are an error. -/
def nbKnown (u c : List Int) : Except Err Bool :=
  if u.length = c.length then .ok ((u.zip c).all fun p => decide (p.1 = p.2))
  else if u.length = 1 then .ok (c.all fun x => decide (u.head? = some x))
  else if c.length = 1 then .ok (u.all fun x => decide (c.head? = some x))
  else .error .valueError

/-- The loop over the labels and the smoothing (gaussianNB.py:341-369). -/
def nbUpdate (st : NbState K) (u : List Int) (b : List (NbSample K)) : NbState K :=
  { st with
    count := fun c => if c ∈ u then st.count c + wSum (nbColumn b c 0) else st.count c
    theta := fun c f => if c ∈ u then (updateMeanVar (st.count c) (st.theta c f) (st.sigma c f) (nbColumn b c f)).1 else st.theta c f
    sigma := fun c f => (if c ∈ u then (updateMeanVar (st.count c) (st.theta c f) (st.sigma c f) (nbColumn b c f)).2 else st.sigma c f) + st.eps }

/-- The attributes after the first-call test (gaussianNB.py:100-123, 280-328): fresh ones for a first call or a refit, otherwise the old ones with the *new* `epsilon_` subtracted from `sigma_`. -/
def nbStart (prev : Option (NbState K)) (classes : Option (List Int)) (refit : Bool) (eps : K) : Except Err (NbState K) :=
  match prev, classes with
  | none, none => .error .valueError
  | none, some c => .ok { classes := c, count := fun _ => 0, theta := fun _ _ => 0, sigma := fun _ _ => 0, eps := eps }
  | some st, none => .ok { st with sigma := fun c f => st.sigma c f - eps, eps := eps }
  | some st, some c =>
    if st.classes ≠ c then .error .valueError
    else if refit then .ok { classes := c, count := fun _ => 0, theta := fun _ _ => 0, sigma := fun _ _ => 0, eps := eps }
    else .ok { st with sigma := fun c f => st.sigma c f - eps, eps := eps }

/-- `__partial_fit` (gaussianNB.py:229-376): the attributes of the object after the call, and the exception it raised, if any.  `prev`: the attributes before, if the object was fitted; `classes`: the argument; `refit`: called by `fit`.  Priors are empirical, shapes fit.  The statements run in this order: `epsilon_` is overwritten (279), the first-call test may raise (284), `sigma_` loses the new `epsilon_` (328), the labels are checked (332-338), the moments are updated (341-369). -/
def partialFitRun (smoothing : K) (F : Nat) (prev : Option (NbState K)) (classes : Option (List Int)) (refit : Bool) (b : List (NbSample K)) : Option (NbState K) × Option Err :=
  match nbStart prev classes refit (nbEps smoothing F b) with
  | .error e => (prev.map fun st => { st with eps := nbEps smoothing F b }, some e)
  | .ok st =>
    match nbKnown (nbLabels b) st.classes with
    | .error e => (some st, some e)
    | .ok false => (some st, some .valueError)
    | .ok true => (some (nbUpdate st (nbLabels b) b), none)

/-- `fit` (gaussianNB.py:71-98). -/
def nbFit (smoothing : K) (F : Nat) (prev : Option (NbState K)) (b : List (NbSample K)) : Option (NbState K) × Option Err := partialFitRun smoothing F prev (some (nbLabels b)) true b

/-- One call of `partial_fit` (gaussianNB.py:193-227); the classes are passed with the first call only. -/
def partialFitStep (smoothing : K) (F : Nat) (classes : List Int) (prev : Option (NbState K)) (b : List (NbSample K)) : Option (NbState K) × Option Err :=
  partialFitRun smoothing F prev (if prev.isSome then none else some classes) false b

/-- Successive calls of `partial_fit` on an object in state `prev`; stops at the first exception. -/
def partialFits (smoothing : K) (F : Nat) (classes : List Int) : Option (NbState K) → List (List (NbSample K)) → Option (NbState K) × Option Err
  | prev, [] => (prev, none)
  | prev, b :: t =>
    match partialFitStep smoothing F classes prev b with
    | (st, some e) => (st, some e)
    | (st, none) => partialFits smoothing F classes st t

/-- `class_prior_` (gaussianNB.py:371-374) with empirical priors. -/
def nbPrior (st : NbState K) (c : Int) : K := st.count c / (st.classes.map st.count).sum

end Heat
