import Verif.Model.Basic
import Verif.Model.Chunk
import Verif.Model.Sparse
import Verif.Spec.Dist
import Verif.Spec.Unique
/-!
# `unique(a, sorted, return_inverse, axis)` of a distributed array (heat/core/manipulations.py:3423-3635)

`tu` is `torch.unique(..., return_inverse=True)`: distinct values and inverse positions.  `Allgatherv` is `gatherAt` (Model/Sparse.lean): an MPI error if a count is not
the number of elements sent.  For `axis=None` an array is the list of its slabs along the split axis, a slab the list of its elements (after the exchange of axis
0 and the split axis that the code performs before it gathers or flattens).
-/
namespace Heat
variable {α : Type}

/-- Distinct values of every rank one after the other (manipulations.py:3501-3522). -/
def uniqueGathered (tu : List α → List α × List Nat) (P : Nat) (loc : Nat → List α) : List α := Spec.content P fun r => (tu (loc r)).1

/-- The values, `axis=None` or `axis == split`: unique a second time (manipulations.py:3546-3551). -/
def uniqueValues (tu : List α → List α × List Nat) (P : Nat) (loc : Nat → List α) : List α := (tu (uniqueGathered tu P loc)).1

/-- What rank `r` holds of the result (manipulations.py:3616-3625): distributed if the split axis exists in the result, which has one axis for `axis=None`. -/
def uniqueResult (tu : List α → List α × List Nat) (P : Nat) (loc : Nat → List α) (split ndim : Nat) (r : Nat) : List α :=
  let u := uniqueValues tu P loc
  if split < ndim then (u.take (chunkRange u.length r P).2).drop (chunkRange u.length r P).1 else u

/-- `displs` of the distinct values (manipulations.py:3519-3520). -/
def uniqueDispl (tu : List α → List α × List Nat) (loc : Nat → List α) (r : Nat) : Nat := ((List.range r).map fun q => (tu (loc q)).1.length).sum

/-- `inverse_counts` (manipulations.py:3525-3532). -/
def inverseCount (n P r : Nat) : Nat := n / P + if r < n % P then 1 else 0

/-- `inverse_displs` (manipulations.py:3533). -/
def inverseDispl (n P r : Nat) : Nat := ((List.range r).map (inverseCount n P)).sum

/-- `local_elements` (manipulations.py:3553-3562): `none` is infinity. -/
def elementBound (n P m c : Nat) : Option Nat := if c + 1 < P then some (inverseDispl n P (c + 1) * m) else none

/-- One turn of the loop over the flattened inverse indices (manipulations.py:3572-3576): the rank counter and the indices so far (`none`: IndexError). -/
def inverseStep (g : List Nat) (displs : Nat → Nat) (bound : Nat → Option Nat) (st : Nat × List (Option Nat)) (e : Nat × Nat) : Nat × List (Option Nat) :=
  let cur := if (bound st.1).any (· ≤ e.2) then st.1 + 1 else st.1
  (cur, st.2 ++ [g[e.1 + displs cur]?])

/-- The inverse indices for `axis=None` of an array with `n` slabs of `m` elements (manipulations.py:3524-3580), `none` if the gathering fails. -/
def uniqueInverse (tu : List α → List α × List Nat) (P n m : Nat) (slabs : Nat → List (List α)) : Option (List (Option Nat)) :=
  let loc := fun r => (slabs r).flatten
  (gatherAt P (n * m) 0 (fun r => inverseCount n P r * m) (fun r => inverseDispl n P r * m) fun r => (tu (loc r)).2).map fun buf =>
    (buf.zipIdx.foldl (inverseStep (tu (uniqueGathered tu P loc)).2 (uniqueDispl tu loc) (elementBound n P m)) (0, [])).2

/-- One turn of the loop over the ranks, `axis == split` (manipulations.py:3587-3591). -/
def axisStep (g buf : List Nat) (P : Nat) (displs : Nat → Nat) (res : List (Option Nat)) (i : Nat) : List (Option Nat) :=
  let piece := if i + 1 < P then (buf.take (displs (i + 1))).drop (displs i) else buf.drop (displs i)
  writeAt res (displs i) (piece.map fun x => g[displs i + x]?)

/-- The inverse indices for `axis == split` (manipulations.py:3524-3544, 3582-3591): the inverse positions have one axis, so `inverse_dim[a.split]` is an IndexError
for a split axis other than 0. -/
def uniqueAxisInverse (tu : List α → List α × List Nat) (P n split : Nat) (loc : Nat → List α) : Except Err (Option (List (Option Nat))) :=
  if split ≠ 0 then .error .indexError
  else .ok ((gatherAt P n 0 (inverseCount n P) (inverseDispl n P) fun r => (tu (loc r)).2).map fun buf =>
    (List.range P).foldl (axisStep (tu (uniqueGathered tu P loc)).2 buf P (uniqueDispl tu loc)) (List.replicate n (some 0)))

/-- The number of distinct slabs of a rank, the largest over the ranks (manipulations.py:3507-3509, 3597). -/
def maxUniques (tu : List α → List α × List Nat) (P : Nat) (loc : Nat → List α) : Nat := ((List.range P).map fun r => (tu (loc r)).1.length).foldl max 0

/-- `inverse_pos.reshape(-1).unique()` of the rank with the most distinct slabs (manipulations.py:3599-3605): the positions that occur, in order. -/
def sharedIndices (tu : List α → List α × List Nat) (loc : Nat → List α) (root : Nat) : List Nat :=
  (List.range (tu (loc root)).1.length).filter fun k => (tu (loc root)).2.contains k

/-- `axis != split` (manipulations.py:3593-3609): rank `r` returns its pieces of the slabs at the positions rank `root` sent. -/
def uniqueOther (tu : List α → List α × List Nat) (loc : Nat → List α) (root r : Nat) : List (Option α) := (sharedIndices tu loc root).map fun k => (loc r)[k]?

end Heat
