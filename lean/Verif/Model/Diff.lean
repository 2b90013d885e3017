import Verif.Model.Dist
import Verif.Model.Indexing
import Verif.Model.Mpi
import Verif.Spec.Dist
import Verif.Spec.Diff
import Mathlib.Algebra.Group.Pi.Basic
/-!
# `diff(a, n, axis)` (heat/core/arithmetics.py:916-1051)

`prepend`/`append` are concatenations (C61) before what is modelled here.  Elements are exact.
A message that does not fit into the receive buffer is MPI's truncation error (`runtimeError` here).
-/
namespace Heat
variable {α : Type} [Sub α]

/-- `ret.lloc[1:] - ret.lloc[:-1]` along the axis (arithmetics.py:988-992, 1016). -/
def localDiff (l : List α) : List α := List.zipWith (fun x y => y - x) l.dropLast l.tail

/-- Not distributed: `n` times `ret = ret[1:] - ret[:-1]` (arithmetics.py:985-993). -/
def diffLocal : Nat → List α → List α
  | 0, l => l
  | n + 1, l => diffLocal n (localDiff l)

/-- One turn of the work loop on rank `r`, axis = split (arithmetics.py:999-1045): the first slab of the next rank arrives in a buffer of ones (1033-1036) that has
room for a slab exactly if the rank has one (1031-1032); an empty rank sends nothing (1007-1011). -/
def diffRound (one : α) (P : Nat) (d : Nat → List α) (r : Nat) : Except Err (List α) :=
  if r + 1 < P then
    match (d r).getLast?, (d (r + 1)).head? with
    | none, none => .ok []
    | none, some _ => .error .runtimeError
    | some x, m => .ok (localDiff (d r) ++ [m.getD one - x])
  else .ok (localDiff (d r) ++ (d r).getLast?.toList)

/-- Did all ranks succeed? -/
def allOk {β : Type} (P : Nat) (f : Nat → Except Err β) : Bool := (List.range P).all fun r => (f r).isOk

/-- What the ranks hold after a turn that succeeded. -/
def okParts {β : Type} (f : Nat → Except Err (List β)) : Nat → List β := fun r => (f r).toOption.getD []

/-- The work loop (arithmetics.py:999-1045). -/
def diffLoop (one : α) (P : Nat) : Nat → (Nat → List α) → Except Err (Nat → List α)
  | 0, d => .ok d
  | n + 1, d =>
    match diffLoop one P n d with
    | .error e => .error e
    | .ok d' => if allOk P (diffRound one P d') then .ok (okParts (diffRound one P d')) else .error .runtimeError

/-- `ret[:-n]` along the split axis on rank `r` (arithmetics.py:1047-1049). -/
def diffCut (P n N : Nat) (d : Nat → List α) (r : Nat) : Except Err (List α) :=
  getitemSlice N P (fun q => (Spec.startOf d q : Int)) (fun q => ((d q).length : Int)) d none (some (-(n : Int))) 1 r

/-- `diff(a, n, axis)` of a distributed array with axis = split; `N` is the global extent (arithmetics.py:995-1051). -/
def heatDiff (one : α) (P n N : Nat) (d : Nat → List α) : Except Err (Nat → List α) :=
  match diffLoop one P n d with
  | .error e => .error e
  | .ok d' => if allOk P (diffCut P n N d') then balance 2 (Spec.content P (okParts (diffCut P n N d'))).length P (okParts (diffCut P n N d')) else .error .runtimeError

/-- The buffer after the first `w` elements have arrived (arithmetics.py:1033-1037). -/
def receive (w : Nat) (m : Nat → Int) : Nat → Int := fun j => if j < w then m j else 1

/-- One turn on rank `r`, axis ≠ split (arithmetics.py:999-1045): rank `q` holds the whole axis, slabs of `w q` elements. -/
def diffRoundOther (w : Nat → Nat) (P : Nat) (d : Nat → List (Nat → Int)) (r : Nat) : Except Err (List (Nat → Int)) :=
  if r + 1 < P then
    match (d r).getLast?, (d (r + 1)).head? with
    | some x, some m => if w (r + 1) ≤ w r then .ok (localDiff (d r) ++ [receive (w (r + 1)) m - x]) else .error .runtimeError
    | some x, none => .ok (localDiff (d r) ++ [receive 0 (fun _ => 0) - x])
    | none, _ => .ok []
  else .ok (localDiff (d r) ++ (d r).getLast?.toList)

/-- The work loop, axis ≠ split. -/
def diffLoopOther (w : Nat → Nat) (P : Nat) : Nat → (Nat → List (Nat → Int)) → Except Err (Nat → List (Nat → Int))
  | 0, d => .ok d
  | n + 1, d =>
    match diffLoopOther w P n d with
    | .error e => .error e
    | .ok d' => if allOk P (diffRoundOther w P d') then .ok (okParts (diffRoundOther w P d')) else .error .runtimeError

/-- `diff(a, n, axis)` with axis ≠ split: the last `n` slabs are cut off on every rank (arithmetics.py:1047-1049); `balance_` moves nothing along another axis than
the split one and is not modelled here. -/
def heatDiffOther (w : Nat → Nat) (P n : Nat) (d : Nat → List (Nat → Int)) : Except Err (Nat → List (Nat → Int)) :=
  match diffLoopOther w P n d with
  | .error e => .error e
  | .ok d' => .ok fun r => (d' r).take ((d' r).length - n)

/-- What rank `r` computes once the first slab of the next rank has arrived (arithmetics.py:1016-1019, 1042-1045). -/
def diffTake (one : α) (m : Option α) (l : List α) : List α :=
  match l.getLast? with
  | none => []
  | some x => localDiff l ++ [m.getD one - x]

/-- `Isend` of the first slab and `Wait` (arithmetics.py:1013, 1022); the last rank has nothing to receive and is done with its turn. -/
def diffSend (P r : Nat) : BOp (List α) (Option α) := .send (r - 1) r List.head? fun l => if r + 1 = P then localDiff l ++ l.getLast?.toList else l

/-- `Irecv` and `Wait` (arithmetics.py:1037-1045). -/
def diffRecv (one : α) (r : Nat) : BOp (List α) (Option α) := .recv (r + 1) (r + 1) (diffTake one)

/-- One turn of rank `r` of `P`: the send is waited for (1022) before the receive is posted (1037). -/
def diffTurn (one : α) (P r : Nat) : List (BOp (List α) (Option α)) := (if 0 < r ∧ r < P then [diffSend P r] else []) ++ if r + 1 < P then [diffRecv one r] else []

/-- `n` turns on `P > 1` ranks without truncated messages. -/
def diffInit (one : α) (P n : Nat) (d : Nat → List α) : BState (List α) (Option α) :=
  { prog := fun r => (List.replicate n (diffTurn one P r)).flatten, loc := d, chan := fun _ _ _ => [] }

end Heat
