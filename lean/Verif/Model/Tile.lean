import Verif.Model.Dist
import Verif.Spec.Dist
/-!
# `tile` (heat/core/manipulations.py:4152-4403) along the split axis of a distributed array

Rows along the split axis (the array is transposed so that it is axis 0); repetitions along the other axes are local.  `reps` is the number of repetitions along the split axis.
-/
namespace Heat
open Spec
variable {α : Type}

/-- `displs` and `counts` of `x` for repetition `k` (manipulations.py:4285-4303): first and last row of rank `q`, shifted. -/
def tileFrom (d : Nat → List α) (n k q : Nat) : Nat := startOf d q + n * k
def tileTo (d : Nat → List α) (n k q : Nat) : Nat := startOf d q + (d q).length + n * k

/-- Start of the overlap of rank `q`'s rows in repetition `k` with rank `j`'s rows of the result (`t_max_starts`, 4319). -/
def tileLo (d : Nat → List α) (n k N P q j : Nat) : Nat := max (tileFrom d n k q) (chunkRange N j P).1

/-- Its end (`t_min_ends`, 4320). -/
def tileHi (d : Nat → List α) (n k N P q j : Nat) : Nat := min (tileTo d n k q) (chunkRange N j P).2

/-- Number of rows rank `q` sends to rank `j` in repetition `k` (`active_send_counts`; 0 if there is no overlap, 4321, 4344-4346, 4356-4361). -/
def tileCount (d : Nat → List α) (n k N P q j : Nat) : Nat := tileHi d n k N P q j - tileLo d n k N P q j

/-- `all_send_displs[j]` on rank `q` (4323-4327, 4350, 4357, 4362). -/
def tileSendDispl (d : Nat → List α) (n k N P q j : Nat) : Nat :=
  if tileCount d n k N P q j = 0 then 0 else tileLo d n k N P q j - n * k - startOf d q

/-- `all_recv_displs[q]` on rank `j` (4351, 4371, 4376). -/
def tileRecvDispl (d : Nat → List α) (n k N P q j : Nat) : Nat :=
  if tileCount d n k N P q j = 0 then 0 else tileLo d n k N P q j - (chunkRange N j P).1

/-- `send_buf` of rank `q` (4363-4367). -/
def tileSendBuf (d : Nat → List α) (n k N P q : Nat) : List α :=
  ((d q).drop (tileSendDispl d n k N P q 0)).take (((List.range P).map fun j => tileCount d n k N P q j).sum)

/-- The message from rank `q` to rank `j`. -/
def tileMsg (d : Nat → List α) (n k N P q j : Nat) : List α := ((tileSendBuf d n k N P q).drop (tileSendDispl d n k N P q j)).take (tileCount d n k N P q j)

/-- `recv_buf[p]` on rank `j` after the `Alltoallv` of repetition `k` (4381-4384); `none` is uninitialised memory. -/
def tileRecv (d : Nat → List α) (n k N P j : Nat) (buf : Nat → Option α) (p : Nat) : Option α :=
  (List.range P).foldl (fun b q =>
    if tileRecvDispl d n k N P q j ≤ p ∧ p < tileRecvDispl d n k N P q j + tileCount d n k N P q j then (tileMsg d n k N P q j)[p - tileRecvDispl d n k N P q j]? else b) (buf p)

/-- `t_tiled[local_recv_slice] = recv_buf[local_recv_slice]` (4377-4380, 4385). -/
def tileCopy (d : Nat → List α) (n k N P j : Nat) (buf out : Nat → Option α) (p : Nat) : Option α :=
  if tileRecvDispl d n k N P 0 j ≤ p ∧ p < tileRecvDispl d n k N P 0 j + ((List.range P).map fun q => tileCount d n k N P q j).sum then buf p else out p

/-- The loop over the repetitions (4354-4385) on rank `j`: `recv_buf` and `t_tiled`. -/
def tileLoop (d : Nat → List α) (n N P j : Nat) : Nat → (Nat → Option α) × (Nat → Option α)
  | 0 => (fun _ => none, fun _ => none)
  | k + 1 =>
    let prev := tileLoop d n N P j k
    let buf := tileRecv d n k N P j prev.1
    (buf, tileCopy d n k N P j buf prev.2)

/-- The local tensor of the result on rank `j` (4278-4281, 4387-4397). -/
def tile (P reps : Nat) (d : Nat → List α) (j : Nat) : List (Option α) :=
  let n := startOf d P
  let c := chunkRange (n * reps) j P
  (List.range (c.2 - c.1)).map (tileLoop d n (n * reps) P j reps).2

end Heat
