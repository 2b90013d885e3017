/-!
# Counting: what bincount, histc and digitize should return
-/
namespace Heat.Spec

/-- Entry `v` of a weighted bincount: the sum of the weights of the elements equal to `v`. -/
def weightOf (v : Nat) (l : List (Nat × Int)) : Int := ((l.filter fun x => x.1 == v).map fun x => x.2).sum

/-- Length of a bincount: one more than the largest element, at least `minlength`. -/
def countLen (l : List (Nat × Int)) (minlength : Nat) : Nat := l.foldl (fun m x => max m (x.1 + 1)) minlength

/-- `numpy.bincount`. -/
def bincount (l : List (Nat × Int)) (minlength : Nat) : List Int := (List.range (countLen l minlength)).map fun v => weightOf v l

/-- A histogram with `bins` bins: how many elements fall into each bin. -/
def histogram {α : Type} (bin : α → Option Nat) (bins : Nat) (l : List α) : List Int := (List.range bins).map fun b => ((l.filter fun x => bin x == some b).length : Int)

/-- `numpy.digitize` for monotone bins (any order): increasing bins count the bins below, decreasing bins those above. -/
def digitize (bins : List Int) (right : Bool) (x : Int) : Nat :=
  if bins.headD 0 ≤ bins.getLastD 0 then (bins.filter fun b => if right then decide (b < x) else decide (b ≤ x)).length
  else (bins.filter fun b => if right then decide (x ≤ b) else decide (x < b)).length

end Heat.Spec
