import Verif.Model.Dist
/-!
# Model of the halo exchange (heat/core/dndarray.py:364-469)

`P ≥ 2` and `h > 0` (otherwise the code does nothing, line 405).
-/
namespace Heat
variable {α : Type}

/-- `torch.nonzero(lshape_map[:, split]).squeeze().tolist()` (heat/core/dndarray.py:410) as a list of ranks. -/
def populated (P : Nat) (counts : Nat → Nat) : List Nat := (List.range P).filter fun r => counts r ≠ 0

/-- The non-blocking operations a rank posts: `(destination, payload)` of the sends and the sources of the receives into
`halo_prev` and `halo_next`. -/
structure HaloPlan (α : Type) where
  sends : List (Nat × List α)
  recvPrev : Option Nat
  recvNext : Option Nat

/-- `get_halo` up to the waits on rank `r` (heat/core/dndarray.py:405-451).  `none`: the rank has no data and returns
(line 420).  If exactly one rank is populated, `squeeze().tolist()` is an int and `rank in populated_ranks` raises
TypeError (line 411).  `a_prev = local[0:h]`, `a_next = local[-h:]` (lines 428-429). -/
def getHalo (P : Nat) (d : Nat → List α) (h : Nat) (prev next : Bool) (r : Nat) : Except Err (Option (HaloPlan α)) :=
  let pop := populated P fun r => (d r).length
  if pop.length = 1 then .error .typeError
  else if r ∈ pop then
    if pop.any fun q => h > (d q).length then .error .valueError
    else
      let isFirst := pop.head? = some r
      let isLast := pop.getLast? = some r
      let nextRank := pop.getD (pop.idxOf r + 1) 0
      let prevRank := pop.getD (pop.idxOf r - 1) 0
      let aPrev := (d r).take h
      let aNext := (d r).drop ((d r).length - h)
      .ok (some {
        sends := (if prev ∧ ¬ isLast then [(nextRank, aNext)] else []) ++
                 (if next ∧ ¬ isFirst then [(prevRank, aPrev)] else [])
        recvPrev := if prev ∧ ¬ isFirst then some prevRank else none
        recvNext := if next ∧ ¬ isLast then some nextRank else none })
  else .ok none

/-- The payloads rank `s` sends to rank `r`, in the order in which they are posted. -/
def haloSent (P : Nat) (d : Nat → List α) (h : Nat) (prev next : Bool) (s r : Nat) : List (List α) :=
  match getHalo P d h prev next s with
  | .ok (some p) => (p.sends.filter fun m => m.1 = r).map Prod.snd
  | _ => []

/-- The sources from which rank `r` posts receives, in order. -/
def haloRecvs (P : Nat) (d : Nat → List α) (h : Nat) (prev next : Bool) (r : Nat) : List Nat :=
  match getHalo P d h prev next r with
  | .ok (some p) => p.recvPrev.toList ++ p.recvNext.toList
  | _ => []

/-- The data of the receive posted on rank `r` for source `src` (empty if no receive is posted). -/
def haloGot (P : Nat) (d : Nat → List α) (h : Nat) (prev next : Bool) (r : Nat) (src : Option Nat) : List α :=
  match src with
  | none => []
  | some s => (haloSent P d h prev next s r).headD []

/-- What `array_with_halos` is on rank `r` after the waits (heat/core/dndarray.py:453-469): receives from one source are
matched with that source's sends in posting order (MPI); here each pair exchanges at most one message per direction
(`halo_matched`), so the received value is the first payload sent by the source. -/
def withHalos (P : Nat) (d : Nat → List α) (h : Nat) (prev next : Bool) (r : Nat) : Except Err (List α) :=
  match getHalo P d h prev next r with
  | .error e => .error e
  | .ok none => .ok (d r)
  | .ok (some p) => .ok (haloGot P d h prev next r p.recvPrev ++ d r ++ haloGot P d h prev next r p.recvNext)

end Heat
