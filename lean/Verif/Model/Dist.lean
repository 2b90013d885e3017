import Verif.Model.Chunk
/-!
# Model of the distribution bookkeeping and of `redistribute_` (heat/core/dndarray.py)

A DNDarray that is distributed along its split axis on `P > 1` processes is a function from ranks to local
lists of slabs (values at ranks `≥ P` are irrelevant).  `gshape[split]` is a separate number `n`, as in the code.
-/
namespace Heat

/-- `is_balanced(force_check=True)` (heat/core/dndarray.py:1226-1232): each rank compares its local size
with its chunk (`comm.chunk(self.shape, self.split)`), the flags are summed with an allreduce and compared with
`comm.size`.  The axes other than `split` are equal by construction of a DNDarray and are not compared. -/
def isBalancedCheck {α : Type} (n P : Nat) (parts : Nat → List α) : Bool :=
  let test (r : Nat) : Nat := let c := chunkRange n r P; c.2 - c.1
  let flags := (List.range P).map fun r => if test r = (parts r).length then 1 else 0
  flags.sum == P

/-- Column `split` of `create_lshape_map(force_check=True)` (heat/core/dndarray.py:725-743), distributed case:
if balanced, computed from `chunk`; otherwise an `Allreduce(SUM)` of one-hot rows. -/
def lshapeMapForced {α : Type} (n P : Nat) (parts : Nat → List α) (i : Nat) : Int :=
  if isBalancedCheck n P parts then
    let c := chunkRange n i P
    ((c.2 - c.1 : Nat) : Int)
  else
    ((List.range P).map fun r => if i = r then ((parts r).length : Int) else 0).sum

/-- `torch.cumsum(f)[k-1]`, i.e. `f 0 + ... + f (k-1)`. -/
def cum (f : Nat → Int) : Nat → Int
  | 0 => 0
  | k + 1 => cum f k + f k

/-- `counts_displs` (heat/core/dndarray.py:690-700) on the split column of the lshape map. -/
def countsDispls (P : Nat) (lmap : Nat → Int) : List Int × List Int :=
  ((List.range P).map lmap, 0 :: ((List.range P).map fun i => cum lmap (i + 1)).dropLast)

/-- Functional update. -/
def upd {β : Type} (f : Nat → β) (i : Nat) (v : β) : Nat → β := fun j => if j = i then v else f j

/-- State of one pass of `redistribute_`: the local data of all ranks, the split column of `lshape_map` and
`lshape_cumsum`.  (Every rank holds the same copy of the latter two and updates it in the same way.) -/
structure RState (α : Type) where
  parts : Nat → List α
  lmap : Nat → Int
  csum : Nat → Int

/-- `__redistribute_shuffle` (heat/core/dndarray.py:1477-1522), seen globally: `snd` cuts `amt` slabs off the
bottom (`snd < rcv`) or the top (`snd > rcv`) of its local array and sends them; `rcv` prepends or appends them.
A request for more slabs than `snd` has (or a negative number) would make the message not match the receive
buffer; it is an error here. -/
def redistShuffle {α : Type} (parts : Nat → List α) (snd : Nat) (amt : Int) (rcv : Nat) :
    Except Err (Nat → List α) :=
  let l := parts snd
  if amt < 0 ∨ amt > (l.length : Int) then .error .runtimeError
  else
    let a := amt.toNat
    if snd < rcv then
      let data := l.drop (l.length - a)
      let keep := l.take (l.length - a)
      .ok (upd (upd parts snd keep) rcv (data ++ parts rcv))
    else if snd > rcv then
      let data := l.take a
      let keep := l.drop a
      .ok (upd (upd parts snd keep) rcv (parts rcv ++ data))
    else .error .runtimeError

/-- Body of the loop over `snd_pr` (heat/core/dndarray.py:1440-1458). -/
def redistPull {α : Type} (P : Nat) (st sp : Int) (rcv : Nat) (s : RState α) (snd : Nat) :
    Except Err (RState α) :=
  if snd = P then .ok s   -- `break`; `snd = P` can only be the last value of the range
  else
    let required : Int := ((sp - st - s.lmap rcv).natAbs : Int)
    let amt := if required ≤ s.lmap snd then required else s.lmap snd
    let amt := if sp - st ≤ s.lmap rcv ∨ snd = rcv then 0 else amt
    let parts' := if amt ≠ 0 then redistShuffle s.parts snd amt rcv else .ok s.parts
    match parts' with
    | .error e => .error e
    | .ok parts' =>
      let c1 := upd s.csum snd (s.csum snd - amt)
      let c2 := upd c1 rcv (c1 rcv + amt)
      let l1 := upd s.lmap rcv (s.lmap rcv + amt)
      let l2 := upd l1 snd (l1 snd - amt)
      .ok ⟨parts', l2, c2⟩

/-- First `i ≥ lo`, `i < P`, with `p i` (`torch.nonzero(p[lo:])[0] + lo`). -/
def firstFrom (P lo : Nat) (p : Nat → Bool) : Option Nat :=
  (List.range P).find? fun i => decide (lo ≤ i) && p i

/-- `(st_pr, sp_pr)` (heat/core/dndarray.py:1417-1435): the range of ranks that may send to `rcv`. -/
def senderRange {α : Type} (P : Nat) (target : Nat → Int) (s : RState α) (rcv : Nat) :
    Except Err (Nat × Nat) :=
  if s.lmap rcv ≥ target rcv then .ok (rcv, rcv)
  else
    match firstFrom P rcv fun i => s.lmap i > 0 with
    | none => .error .indexError                      -- `nonzero(...)[0]` of an empty result
    | some stPr => .ok (stPr, (firstFrom P rcv fun i => cum target (rcv + 1) ≤ s.csum i).getD P)

/-- Body of the loop over `rcv_pr` (heat/core/dndarray.py:1414-1468). `target` is the split column of
`target_map`, `chunk_cumsum[k] = cum target k`. -/
def redistRcv {α : Type} (P : Nat) (target : Nat → Int) (s : RState α) (rcv : Nat) :
    Except Err (RState α) :=
  let st := cum target rcv
  let sp := cum target (rcv + 1)
  match senderRange P target s rcv with
  | .error e => .error e
  | .ok (stPr, spPr) =>
    -- `range(st_pr, sp_pr + 1)`
    match ((List.range (spPr + 1)).drop stPr).foldlM (redistPull P st sp rcv) s with
    | .error e => .error e
    | .ok s =>
      if s.lmap rcv > target rcv then
        let amt := s.lmap rcv - target rcv
        match redistShuffle s.parts rcv amt (rcv + 1) with
        | .error e => .error e
        | .ok parts' =>
          let c1 := upd s.csum rcv (s.csum rcv - amt)
          let c2 := upd c1 (rcv + 1) (c1 (rcv + 1) + amt)
          let l1 := upd s.lmap rcv (s.lmap rcv - amt)
          let l2 := upd l1 (rcv + 1) (l1 (rcv + 1) + amt)
          .ok ⟨parts', l2, c2⟩
      else .ok s

/-- One pass of `redistribute_`: `for rcv_pr in range(comm.size - 1)` (heat/core/dndarray.py:1404-1468). -/
def redistPass {α : Type} (P : Nat) (target : Nat → Int) (parts : Nat → List α) (lmap : Nat → Int) :
    Except Err (RState α) :=
  (List.range (P - 1)).foldlM (redistRcv P target) ⟨parts, lmap, fun i => cum lmap (i + 1)⟩

/-- `redistribute_(lshape_map, target_map)` from line 1404 on, with the recursive call of line 1473.  `fuel`
bounds the recursion depth; running out of it stands for Python's RecursionError. -/
def redistLoop {α : Type} (P : Nat) (target : Nat → Int) :
    Nat → (Nat → List α) → (Nat → Int) → Except Err (Nat → List α)
  | 0, _, _ => .error .recursionError
  | fuel + 1, parts, lmap =>
    match redistPass P target parts lmap with
    | .error e => .error e
    | .ok s =>
      if (List.range P).any fun i => s.lmap i != target i then redistLoop P target fuel s.parts s.lmap
      else .ok s.parts

/-- `redistribute_(target_map=target)` (heat/core/dndarray.py:1369-1475) without a user-given `lshape_map`; the array
has `n` slabs.  `target = none` balances (lines 1383-1391); a given map must sum to `n` (line 1394).
For `P = 1` the array is not distributed and nothing happens (line 1369). -/
def redistribute {α : Type} (fuel n P : Nat) (target : Option (Nat → Int)) (parts : Nat → List α) :
    Except Err (Nat → List α) :=
  if P ≤ 1 then .ok parts
  else
    let lmap := lshapeMapForced n P parts
    match target with
    | none => redistLoop P (fun r => let c := chunkRange n r P; ((c.2 - c.1 : Nat) : Int)) fuel parts lmap
    | some t => if cum t P ≠ n then .error .valueError else redistLoop P t fuel parts lmap

/-- `balance_` (heat/core/dndarray.py:565-603). -/
def balance {α : Type} (fuel n P : Nat) (parts : Nat → List α) : Except Err (Nat → List α) :=
  if P ≤ 1 ∨ isBalancedCheck n P parts then .ok parts else redistribute fuel n P none parts

/-- `collect_(target_rank)` (heat/core/dndarray.py:637-682).  Python's negative index makes `target_map[-k]` the row of
rank `P - k`; an index below `-P` is torch's IndexError. -/
def collect {α : Type} (fuel n P : Nat) (targetRank : Int) (parts : Nat → List α) :
    Except Err (Nat → List α) :=
  if targetRank ≥ P then .error .valueError
  else if P ≤ 1 then .ok parts
  else if targetRank < -(P : Int) then .error .indexError
  else
    let t := if targetRank < 0 then (targetRank + P).toNat else targetRank.toNat
    redistribute fuel n P (some fun r => if r = t then (n : Int) else 0) parts

end Heat
