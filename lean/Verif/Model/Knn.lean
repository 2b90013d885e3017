import Verif.Model.Indexing
/-!
# Model of `KNeighborsClassifier` (heat/classification/kneighborsclassifier.py)

The distances and their `topk` are modelled elsewhere (C85, C86 and the `cdist` claims); here the neighbours of every test sample are given
as lists of indices of training samples.  Class scores are natural numbers (the code uses floats that are small integers, which are exact).
-/
namespace Heat
open Heat.Spec

/-- A row of `one_hot_encoding` (heat/classification/kneighborsclassifier.py:57-61) for a label in `[0, nf)`. -/
def oneHotRow (nf l : Nat) : List Nat := (List.range nf).map fun c => if c = l then 1 else 0

/-- `n_features = ht.max(x).item() + 1` (heat/classification/kneighborsclassifier.py:58). -/
def oneHotWidth (labels : List Nat) : Nat := labels.foldl max 0 + 1

/-- `one_hot_encoding` on the process `r` (heat/classification/kneighborsclassifier.py:60-61): the target has the balanced extent, the
labels have the actual one; torch raises IndexError when the two index tensors cannot be broadcast.  (It does broadcast if one of the two
extents is 1, which is not modelled.) -/
def oneHotPart (n P : Nat) (nf : Nat) (y : Nat → List Nat) (r : Nat) : Except Err (List (List Nat)) :=
  let rows := (chunkRange n r P).2 - (chunkRange n r P).1
  if rows = (y r).length then .ok ((y r).map (oneHotRow nf)) else .error .indexError

/-- Rows `k i, ..., k i + k - 1` of the gathered labels: `ht.reshape(predictions, (n_test, k, n_classes))`
(heat/classification/kneighborsclassifier.py:126). -/
def knnGroup (k : Nat) (rows : List (List Nat)) (i : Nat) : List (List Nat) := (rows.drop (k * i)).take k

/-- `ht.sum(predictions, axis=1)` (heat/classification/kneighborsclassifier.py:127): the score of class `c` for test sample `i`. -/
def knnScore (k : Nat) (rows : List (List Nat)) (i c : Nat) : Nat := ((knnGroup k rows i).map fun row => row.getD c 0).sum

/-- `ht.argmax(predictions, axis=1)` (heat/classification/kneighborsclassifier.py:129) of the scores `f 0, ..., f (w - 1)`: the first largest. -/
def knnArgmax (f : Nat → Nat) : Nat → Nat
  | 0 => 0
  | w + 1 => let b := knnArgmax f w; if f b < f w then w else b

/-- `predict` after the neighbours are known (heat/classification/kneighborsclassifier.py:124-131), `rows` being `self.y[indices.flatten()]`
of a classifier with `w` classes: reshape raises ValueError when there are not `n_test * k` rows. -/
def knnVote (w k nTest : Nat) (rows : List (List Nat)) : Except Err (List Nat) :=
  if rows.length = nTest * k then .ok ((List.range nTest).map fun i => knnArgmax (knnScore k rows i) w) else .error .valueError

/-- `predict` with the training labels on every process (`y.split = None`). -/
def knnPredictRepl (w k : Nat) (y : List (List Nat)) (nbrs : List (List Nat)) : Except Err (List Nat) :=
  knnVote w k nbrs.length (nbrs.flatten.filterMap fun i => y[i]?)

/-- `predict` with the training labels distributed along axis 0: `self.y[indices.flatten()]` is an indexing operation along the split axis,
`balance_` keeps the global order. -/
def knnPredictSplit (P w k : Nat) (n : Nat) (starts counts : Nat → Int) (y : Nat → List (List Nat)) (nbrs : List (List Nat)) :
    Except Err (List Nat) :=
  ((List.range P).mapM fun r => getitemList n starts counts y (nbrs.flatten.map Int.ofNat) r).bind fun parts =>
    knnVote w k nbrs.length parts.flatten

end Heat
