import Mathlib.Algebra.Order.Field.Basic
import Mathlib.Algebra.BigOperators.Group.List.Basic
/-!
# Weighted mean and variance of a list of (value, weight) pairs
-/
namespace Heat.Spec
variable {K : Type} [Field K]

/-- Sum of the weights. -/
def wSum (l : List (K × K)) : K := (l.map Prod.snd).sum

/-- Weighted mean. -/
def wMean (l : List (K × K)) : K := (l.map fun p => p.2 * p.1).sum / wSum l

/-- Weighted mean squared deviation from the weighted mean. -/
def wVar (l : List (K × K)) : K := (l.map fun p => p.2 * (p.1 - wMean l) ^ 2).sum / wSum l

end Heat.Spec
