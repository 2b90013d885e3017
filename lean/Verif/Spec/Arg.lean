/-!
# Specification vocabulary: position of the first maximum or minimum
-/
namespace Heat.Spec

/-- `i` is the position of the first maximum (`mx`) or minimum of the list (numpy.argmax, numpy.argmin). -/
def IsFirstArg (mx : Bool) (l : List Int) (i : Nat) : Prop :=
  ∃ v, l[i]? = some v ∧ (∀ w ∈ l, if mx then w ≤ v else v ≤ w) ∧ ∀ j < i, ∀ w, l[j]? = some w → if mx then w < v else v < w

end Heat.Spec
