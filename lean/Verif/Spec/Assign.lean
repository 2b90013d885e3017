import Verif.Spec.Select
/-!
# Specification vocabulary: assigning a sequence of values to selected positions (`l[sel] = v` of NumPy along one axis)
-/
namespace Heat.Spec
variable {α : Type}

/-- How many of the positions `0, ..., g - 1` satisfy `p`. -/
def selBelow (p : Nat → Bool) (g : Nat) : Nat := (List.range g).countP p

/-- `l` after `l[p] = v`: the `k`-th selected position gets `v[k]`, the other positions keep their value. -/
def assignSel (p : Nat → Bool) (v : List α) (l : List α) : List α :=
  l.mapIdx fun g x => if p g then v.getD (selBelow p g) x else x

end Heat.Spec
