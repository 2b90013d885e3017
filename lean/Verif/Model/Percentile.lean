import Verif.Model.Sort
import Verif.Model.Indexing
import Verif.Model.Float32
import Verif.Spec.Dist
import Verif.Spec.Percentile
/-!
# `percentile` and `median` (heat/core/statistics.py:1048-1085, 1460-1737)

A one-dimensional array that is distributed over at least two ranks (also: the flattened array for `axis=None`).  Values and `q` are rational numbers; `fl` is
the rounding of the floating point type of the tensor `q`.
-/
namespace Heat
open Spec

/-- Nearest integer, ties to even (`torch.round`). -/
def roundTies (t : Rat) : Int := if t - ⌊t⌋ < 1 / 2 then ⌊t⌋ else if 1 / 2 < t - ⌊t⌋ then ⌊t⌋ + 1 else if ⌊t⌋ % 2 = 0 then ⌊t⌋ else ⌊t⌋ + 1

/-- `perc_indices` (statistics.py:1682-1699). -/
def percPos (fl : Rat → Rat) (i : Interp) (q : Rat) (n : Nat) : Rat :=
  let t := fl (fl (q / 100) * fl ((n : Rat) - 1))
  match i with
  | .linear => t
  | .lower => ⌊t⌋
  | .higher => ⌈t⌉
  | .midpoint => 1 / 2 * ((⌊t⌋ : Rat) + ⌈t⌉)
  | .nearest => roundTies t

/-- Displacements as `counts_displs` gives them (dndarray.py:600-622). -/
def partOffs {α : Type} (d : Nat → List α) (r : Nat) : Int := (((List.range r).map fun q => (d q).length).sum : Nat)

/-- The local sizes. -/
def partCnts {α : Type} (d : Nat → List α) (r : Nat) : Int := (d r).length

/-- The sorted array `sorted_x` (statistics.py:1701-1703; the values only). -/
def sortedParts (srt : List (Rat × Nat) → List (Rat × Nat)) (conv : Nat → Nat) (P n : Nat) (d : Nat → List Rat) : Except Err (Nat → List Rat) :=
  match sortAlong (fun a b => decide (a < b)) srt conv P 1 0 0 n d with
  | .error e => .error e
  | .ok R => .ok fun r => (R r).map Prod.fst

/-- `floors + (ceils - floors) * fractional_indices` or `sorted_x[perc_indices]` for a scalar `q` (statistics.py:1705-1737). -/
def percScalarAt (P n : Nat) (s : Nat → List Rat) (i : Interp) (t : Rat) : Except Err Rat :=
  match i with
  | .linear | .midpoint =>
    match getitemInt n P (partOffs s) s ⌊t⌋ with
    | .error e => .error e
    | .ok a =>
      match getitemInt n P (partOffs s) s ⌈t⌉ with
      | .error e => .error e
      | .ok b => .ok (a + (b - a) * (t - ⌊t⌋))
  | .lower | .higher | .nearest => getitemInt n P (partOffs s) s ⌊t⌋

/-- `percentile(x, q)` of a distributed one-dimensional array, scalar `q`. -/
def percentileScalar (fl : Rat → Rat) (srt : List (Rat × Nat) → List (Rat × Nat)) (conv : Nat → Nat) (P : Nat) (d : Nat → List Rat) (i : Interp) (q : Rat) : Except Err Rat :=
  match sortedParts srt conv P (content P d).length d with
  | .error e => .error e
  | .ok s => percScalarAt P (content P d).length s i (percPos fl i q (content P d).length)

/-- `median` (statistics.py:1081-1085). -/
def median (fl : Rat → Rat) (srt : List (Rat × Nat) → List (Rat × Nat)) (conv : Nat → Nat) (P : Nat) (d : Nat → List Rat) : Except Err Rat :=
  percentileScalar fl srt conv P d .linear 50

/-- `sorted_x[list]` followed by `resplit_(None)` (statistics.py:1708-1714): the gathered array has the declared length; entries for which no rank sent anything are uninitialised (`none`). -/
def percGather (P n : Nat) (s : Nat → List Rat) (inds : List Int) : Except Err (List (Option Rat)) :=
  match (List.range P).mapM fun r => getitemList n (partOffs s) (partCnts s) s inds r with
  | .error e => .error e
  | .ok parts => .ok ((List.range inds.length).map fun k => parts.flatten[k]?)

/-- One entry of `floors + (ceils - floors) * fractional_indices` (statistics.py:1717-1727). -/
def percBlend (t : Rat) (a b : Option Rat) : Option Rat :=
  match a, b with
  | some a, some b => some (a + (b - a) * (t - ⌊t⌋))
  | _, _ => none

/-- The list of percentiles at the positions `ts` (statistics.py:1705-1737). -/
def percListAt (P n : Nat) (s : Nat → List Rat) (i : Interp) (ts : List Rat) : Except Err (List (Option Rat)) :=
  match i with
  | .linear | .midpoint =>
    match percGather P n s (ts.map fun t => ⌊t⌋) with
    | .error e => .error e
    | .ok floors =>
      match percGather P n s (ts.map fun t => ⌈t⌉) with
      | .error e => .error e
      | .ok ceils => .ok ((List.range ts.length).map fun k => percBlend (ts.getD k 0) (floors.getD k none) (ceils.getD k none))
  | .lower | .higher | .nearest => percGather P n s (ts.map fun t => ⌊t⌋)

/-- `percentile(x, [q0, q1, ...])` of a distributed one-dimensional array. -/
def percentileList (fl : Rat → Rat) (srt : List (Rat × Nat) → List (Rat × Nat)) (conv : Nat → Nat) (P : Nat) (d : Nat → List Rat) (i : Interp) (qs : List Rat) :
    Except Err (List (Option Rat)) :=
  match sortedParts srt conv P (content P d).length d with
  | .error e => .error e
  | .ok s => percListAt P (content P d).length s i (qs.map fun q => percPos fl i q (content P d).length)

/-- `non_op_dims` (statistics.py:1639-1641). -/
def percNonOp (ndim : Nat) (axes : List Nat) : List Nat := (List.range ndim).filter fun k => ! axes.contains k

/-- The shape of the result for a tuple of (sanitized, distinct) axes and a scalar `q`, `keepdims=False` (statistics.py:1636-1655): `x` is transposed first, then its shape is indexed with
the original numbers of the other axes; `reshape(-1, ...)` fails if the sizes do not fit. -/
def percAxesShape (shape axes : List Nat) : Except Err (List Nat) :=
  let rest := percNonOp shape.length axes
  let transposed := (axes ++ rest).map fun k => shape.getD k 0
  let other := rest.map fun k => transposed.getD k 0
  if other.prod ≠ 0 ∧ shape.prod % other.prod = 0 then .ok other else .error .valueError

end Heat
