import Verif.Model.Naive
import Verif.Spec.Posterior
/-!
# `GaussianNB` (heat/naive_bayes/gaussianNB.py): prediction

Real arithmetic, one sample at a time (the methods are row-wise; the samples are replicated or split along axis 0).  Priors and variances are positive; the logarithm of zero (`-inf`) is not modelled.
-/
namespace Heat
open Real

/-- Row of `__joint_log_likelihood` for class `c` (gaussianNB.py:378-393). -/
noncomputable def nbJll (st : NbState ℝ) (F : Nat) (x : Nat → ℝ) (c : Int) : ℝ :=
  let jointi := Real.log (nbPrior st c)
  let nij := -(1 / 2) * ((List.range F).map fun f => Real.log (2 * Real.pi * st.sigma c f)).sum
    - 1 / 2 * ((List.range F).map fun f => (x f - st.theta c f) ^ 2 / st.sigma c f).sum
  jointi + nij

/-- `ht.max` of a non-empty row. -/
noncomputable def rowMax : List ℝ → ℝ
  | [] => 0
  | a :: t => t.foldl max a

/-- `logsumexp` (gaussianNB.py:432-466) of one row. -/
noncomputable def nbLogSumExp (a : List ℝ) : ℝ :=
  Real.log ((a.map fun v => Real.exp (v - rowMax a)).sum) + rowMax a

/-- `ht.argmax` of a row: the first position of the largest value. -/
noncomputable def rowArgmax (a : List ℝ) : Nat := a.findIdx fun v => decide (v = rowMax a)

/-- `predict` (gaussianNB.py:482-483). -/
noncomputable def nbPredict (st : NbState ℝ) (F : Nat) (x : Nat → ℝ) : Option Int := st.classes[rowArgmax (st.classes.map (nbJll st F x))]?

/-- `predict_log_proba` (gaussianNB.py:498-503), entry of class `c`. -/
noncomputable def nbLogProba (st : NbState ℝ) (F : Nat) (x : Nat → ℝ) (c : Int) : ℝ := nbJll st F x c - nbLogSumExp (st.classes.map (nbJll st F x))

/-- `predict_proba` (gaussianNB.py:518), entry of class `c`. -/
noncomputable def nbProba (st : NbState ℝ) (F : Nat) (x : Nat → ℝ) (c : Int) : ℝ := Real.exp (nbLogProba st F x c)

end Heat
