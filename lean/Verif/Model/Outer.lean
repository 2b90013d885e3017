import Verif.Model.Chunk
import Verif.Model.Mpi
/-!
# `outer` (heat/core/linalg/basics.py:1345-1499): a ring of blocking sends and receives

The two operands are 1-D arrays.  One of them stays on its rank (`fixed`: `a` for split = 0, `b` for split = 1), the blocks of the other one (`trav`)
travel around the ring.  The local result `t_outer` is modelled as the list of its lines along the travelling axis: `lines[j]` is column `j` for split = 0
and row `j` for split = 1.  `f x y` is the product of an element of the fixed and an element of the travelling operand.
Type promotion, `out`, and sparse arrays are not modelled; `lshape_map` is what the ranks hold.
-/
namespace Heat

/-- Local state: the block held at the moment (`t_b`), the receive buffer (`t_b_run`), the lines of `t_outer` (`none`: this rank has raised). -/
structure RingLoc (α β : Type) where
  cur : List α
  run : List α
  lines : Option (List (List β))

/-- `t_outer[slice] = einsum(...)` (basics.py:1447, 1478): torch's assignment of `new` lines to the lines `lo … hi - 1`; a single line is broadcast, any other
difference raises. -/
def assignLines {γ : Type} (L : List γ) (lo hi : Nat) (new : List γ) : Option (List γ) :=
  if new.length = hi - lo then some (L.take lo ++ new ++ L.drop hi)
  else match new with
    | [x] => some (L.take lo ++ List.replicate (hi - lo) x ++ L.drop hi)
    | _ => none

/-- `torch.einsum("i,j->ij", ...)` as lines along the travelling axis. -/
def einsumLines {α β γ : Type} (f : α → β → γ) (fixed : List α) (block : List β) : List (List γ) := block.map fun y => fixed.map fun x => f x y

/-- State after the local part (basics.py:1432-1454): zeros, own lines filled in unless the block is empty, a buffer of the size of rank 0's block
(`junk`: uninitialised memory). -/
def outerStart {α β γ : Type} (f : α → β → γ) (zero : γ) (n P : Nat) (fixed : List α) (trav : Nat → List β) (junk : Nat → β) (r : Nat) : RingLoc β γ :=
  { cur := trav r
    run := (List.range (trav 0).length).map junk
    lines :=
      if (trav r).length = 0 then some (List.replicate n (List.replicate fixed.length zero))
      else assignLines (List.replicate n (List.replicate fixed.length zero)) (chunkRange n r P).1 (chunkRange n r P).2 (einsumLines f fixed (trav r)) }

/-- `dest_rank` (basics.py:1458). -/
def ringNext (P r : Nat) : Nat := if r ≠ P - 1 then r + 1 else 0

/-- `origin_rank` (basics.py:1460). -/
def ringPrev (P r : Nat) : Nat := if r ≠ 0 then r - 1 else P - 1

/-- `actual_origin` in round `p` (basics.py:1461-1463). -/
def ringOrigin (P r p : Nat) : Nat := if ringPrev P r < p then ringPrev P r + P - p else ringPrev P r - p

/-- What a rank does with the received block of round `p` (basics.py:1466-1478): a message longer than the buffer is an MPI truncation error; `lens` is
`lshape_map`. -/
def outerTake {α β γ : Type} (f : α → β → γ) (n P : Nat) (fixed : List α) (lens : Nat → Nat) (r p : Nat) (m : List β) (st : RingLoc β γ) : RingLoc β γ :=
  let run := m ++ st.run.drop m.length
  let cur := run.take (lens (ringOrigin P r p))
  { cur := cur
    run := run
    lines := if st.run.length < m.length then none
             else st.lines.bind fun L =>
               assignLines L (chunkRange n (ringOrigin P r p) P).1 (chunkRange n (ringOrigin P r p) P).2 (einsumLines f fixed cur) }

/-- Program of rank `r`: `P - 1` rounds of `Send` to the next and `Recv` from the previous rank (basics.py:1456-1478).  A rank that has raised is left in the
ring (its data is ignored); only ranks `< P` exist. -/
def outerProg {α β γ : Type} (f : α → β → γ) (n P : Nat) (fixed : Nat → List α) (lens : Nat → Nat) (r : Nat) : List (BOp (RingLoc β γ) (List β)) :=
  if r < P then
    (List.range (P - 1)).flatMap fun p =>
      [.send (ringNext P r) 0 (fun st => st.cur) id, .recv (ringPrev P r) 0 (outerTake f n P (fixed r) lens r p)]
  else []

/-- All ranks before the ring (basics.py:1425-1454). -/
def outerInit {α β γ : Type} (f : α → β → γ) (zero : γ) (n P : Nat) (fixed : Nat → List α) (trav : Nat → List β) (junk : Nat → β) : BState (RingLoc β γ) (List β) :=
  { prog := outerProg f n P fixed (fun q => (trav q).length)
    loc := fun r => outerStart f zero n P (fixed r) trav junk r
    chan := fun _ _ _ => [] }

/-- How `outer` treats its operands (basics.py:1392-1431): without any split everything is local; otherwise an operand that is not split is resplit in
place, and the result's split is `split`, by default that of `a`.  Result: (split of the result, new split of `a`, new split of `b`). -/
def outerSplits (distributed : Bool) (split sa sb : Option Nat) : Option Nat × Option Nat × Option Nat :=
  if (distributed && split.isSome) || sa.isSome || sb.isSome then
    let sa' := if sa.isNone then some 0 else sa
    let sb' := if sb.isNone then some 0 else sb
    (if split.isNone then sa' else split, sa', sb')
  else (none, sa, sb)

end Heat
