import Mathlib.Analysis.SpecialFunctions.Log.Basic
import Mathlib.Analysis.SpecialFunctions.Sqrt
import Mathlib.Analysis.Real.Pi.Bounds
/-!
# Bayes' rule with independent Gaussian features
-/
namespace Heat.Spec
open Real

/-- Density at `x` of the normal distribution with mean `mu` and variance `v`. -/
noncomputable def normalDensity (mu v x : ℝ) : ℝ := Real.exp (-((x - mu) ^ 2) / (2 * v)) / Real.sqrt (2 * Real.pi * v)

/-- Probability of a class times the density of the sample given the class. -/
noncomputable def jointDensity (prior : ℝ) (mu v : Nat → ℝ) (F : Nat) (x : Nat → ℝ) : ℝ :=
  prior * ((List.range F).map fun f => normalDensity (mu f) (v f) (x f)).prod

end Heat.Spec
