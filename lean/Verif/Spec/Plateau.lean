import Mathlib.Algebra.Order.Field.Rat
/-!
# Specification: plateaus of a sequence of metrics
-/
namespace Heat.Spec

/-- Is `a` an improvement over the best value so far by more than the threshold?  (DetectMetricPlateau: `best * (1 - threshold)` or `best - threshold` for metrics to be minimised, the mirror image for metrics to be maximised;
the margin of the relative mode is a part of the magnitude of `best`.) -/
def Improves (maximise relative : Bool) (thr a best : Rat) : Prop :=
  let margin := if relative then thr * |best| else thr
  if maximise then best + margin < a else a < best - margin

end Heat.Spec
