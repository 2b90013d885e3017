import Verif.Model.Basic
/-!
# `KNeighborsClassifier.fit` (heat/classification/kneighborsclassifier.py:44-111)

The classifier as an object that is fitted again and again. Arrays by their global contents (the distribution of the labels is C145); zero-dimensional labels are not modelled.
-/
namespace Heat
variable {α : Type}

/-- The attributes set by `fit` (kneighborsclassifier.py:32-42). -/
structure KnnState (α : Type) where
  x : Option (List (List α))
  nFit : Int
  y : Option (List (List Int))
  out2d : Bool

/-- `__init__` (kneighborsclassifier.py:32-42). -/
def knnInit : KnnState α := ⟨none, -1, none, true⟩

/-- The samples given to `fit`: a matrix, or an array with another number of axes. -/
inductive KnnX (α : Type) where
  | mat (rows : List (List α))
  | other

/-- The labels given to `fit`: a vector, a matrix of encoded labels, or `n` samples with more axes. -/
inductive KnnY where
  | vec (l : List Int)
  | mat (rows : List (List Int))
  | high (n : Nat)

/-- `y.shape[0]`. -/
def KnnY.samples : KnnY → Nat
  | .vec l => l.length
  | .mat rows => rows.length
  | .high n => n

/-- The row of a label: `one_hot.lloc[i, label] = 1` on a row of zeros (kneighborsclassifier.py:59-60); negative labels count from the end as every index. -/
def hotRow (nf : Nat) (label : Int) : Except Err (List Int) :=
  let i := if label < 0 then label + nf else label
  if 0 ≤ i ∧ i < nf then .ok ((List.replicate nf 0).set i.toNat 1) else .error .indexError

/-- `one_hot_encoding` (kneighborsclassifier.py:45-62): as many columns as the largest label plus one. -/
def oneHotAll (l : List Int) : Except Err (List (List Int)) :=
  match l with
  | [] => .error .valueError
  | a :: t =>
    let nf := t.foldl max a + 1
    if nf < 0 then .error .valueError else (a :: t).mapM (hotRow nf.toNat)

/-- `fit(x, y)` (kneighborsclassifier.py:87-111): the state afterwards and the exception. `self.x` and `self.n_samples_fit_` are set before the labels are looked at. -/
def knnFit (s : KnnState α) (x : KnnX α) (y : KnnY) : KnnState α × Option Err :=
  match x with
  | .other => (s, some .valueError)
  | .mat rows =>
    let s := { s with x := some rows, nFit := rows.length }
    if rows.length ≠ y.samples then (s, some .valueError)
    else match y with
      | .vec l => match oneHotAll l with
        | .error e => (s, some e)
        | .ok m => ({ s with y := some m, out2d := false }, none)
      | .mat m => ({ s with y := some m, out2d := true }, none)
      | .high _ => (s, some .valueError)

end Heat
