/-!
# Mean and variance of a list of numbers (exact arithmetic)

`none` is NaN.
-/
namespace Heat.Spec

/-- Arithmetic mean; NaN for no numbers (numpy.mean). -/
def mean (l : List Rat) : Option Rat := if l.length = 0 then none else some (l.sum / l.length)

/-- Sum of the squared distances from the mean. -/
def sqdev (l : List Rat) : Rat := (l.map fun x => (x - l.sum / l.length) * (x - l.sum / l.length)).sum

/-- Variance with `ddof` delta degrees of freedom; NaN if there are not more than `ddof` numbers (numpy.var). -/
def variance (ddof : Nat) (l : List Rat) : Option Rat := if l.length ≤ ddof then none else some (sqdev l / (l.length - ddof : Nat))

/-- The axis of the result that was axis `split` of the argument, if the axes in `axes` are removed. -/
def splitAfter (axes : List Nat) (split : Nat) : Nat := ((List.range split).filter fun i => !axes.contains i).length

end Heat.Spec
