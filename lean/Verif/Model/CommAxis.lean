import Verif.Model.Basic
/-!
# Model of the collectives with an axis argument
(heat/core/communication.py:1283-1437 `Allgather(v)`, 1487-1590 `Alltoall(v)` for axes 0 and 1, 1960-2140 `Gather(v)`, 2218-2340 `Scatter(v)`)

More than one process, CPU tensors of any number of axes.  That the datatype made for a (permuted) tensor runs through its elements in row-major
order is C56; how many items equal parts get for very large buffers is C57.
-/
namespace Heat
variable {α : Type}

/-- A local tensor: its shape and its elements by index tuple. -/
structure CBuf (α : Type) where
  shape : List Nat
  get : List Nat → α

/-- Index tuples in row-major order. -/
def rowMajor : List Nat → List (List Nat)
  | [] => [[]]
  | n :: sh => (List.range n).flatMap fun i => (rowMajor sh).map fun t => i :: t

/-- `permutation[0], permutation[axis] = axis, 0` and `permute` (heat/core/communication.py:1345-1354, 1554-1564, 2026-2034, 2287-2294), for
shapes and for index tuples. -/
def axisSwap (a : Nat) (l : List Nat) : List Nat := (l.set 0 (l.getD a 0)).set a (l.getD 0 0)

/-- Adding `lo` to the first entry. -/
def rowShift (lo : Nat) : List Nat → List Nat
  | [] => []
  | i :: t => (lo + i) :: t

/-- Number of slabs along the axis, i.e. rows of the permuted tensor. -/
def CBuf.rows (a : Nat) (b : CBuf α) : Nat := (axisSwap a b.shape).getD 0 0

/-- The addressed index tuples: `cnt` rows of the permuted tensor beginning with row `lo` (`as_buffer` with counts and displacements,
heat/core/communication.py:344-420; C56). -/
def rowTuples (a lo cnt : Nat) (b : CBuf α) : List (List Nat) :=
  (rowMajor (cnt :: (axisSwap a b.shape).tail)).map fun t => axisSwap a (rowShift lo t)

/-- The message made of these rows. -/
def packRows (a lo cnt : Nat) (b : CBuf α) : List α := (rowTuples a lo cnt b).map b.get

/-- Receiving a message into these rows; messages of another length are an MPI error (truncation) or an erroneous program. -/
def unpackRows (a lo cnt : Nat) (b : CBuf α) (msg : List α) : Except Err (CBuf α) :=
  if msg.length = (rowTuples a lo cnt b).length then
    .ok ⟨b.shape, fun i => (((rowTuples a lo cnt b).zip msg).lookup i).getD (b.get i)⟩
  else .error .runtimeError

/-- Receiving one message from each of the first `P` processes. -/
def recvAll (P a : Nat) (lo cnt : Nat → Nat) (msg : Nat → List α) (b : CBuf α) : Except Err (CBuf α) :=
  (List.range P).foldlM (fun b q => unpackRows a (lo q) (cnt q) b (msg q)) b

/-- `Allgatherv(sendbuf, (recvbuf, counts, displs), recv_axis=axis)` (heat/core/communication.py:1283-1376, 1410-1435) on any process. -/
def allgathervAxis (P axis : Nat) (counts displs : Nat → Nat) (send : Nat → CBuf α) (recv : CBuf α) : Except Err (CBuf α) :=
  recvAll P axis displs counts (fun q => packRows axis 0 ((send q).rows axis) (send q)) recv

/-- `Allgather` (heat/core/communication.py:1383-1406): `mpi_recvbuf[1] //= self.size`.  (For axis 0 elements are counted instead of rows,
which makes no difference if the rows can be divided.) -/
def allgatherAxis (P axis : Nat) (send : Nat → CBuf α) (recv : CBuf α) : Except Err (CBuf α) :=
  allgathervAxis P axis (fun _ => recv.rows axis / P) (fun q => q * (recv.rows axis / P)) send recv

/-- `Gatherv(sendbuf, (recvbuf, counts, displs), root, axis, recv_axis)` on the root (heat/core/communication.py:1960-2067, 2108-2139). -/
def gathervAxis (P sa ra : Nat) (counts displs : Nat → Nat) (send : Nat → CBuf α) (recv : CBuf α) : Except Err (CBuf α) :=
  recvAll P ra displs counts (fun q => packRows sa 0 ((send q).rows sa) (send q)) recv

/-- `Gather` (heat/core/communication.py:2071-2104). -/
def gatherAxis (P sa ra : Nat) (send : Nat → CBuf α) (recv : CBuf α) : Except Err (CBuf α) :=
  gathervAxis P sa ra (fun _ => recv.rows ra / P) (fun q => q * (recv.rows ra / P)) send recv

/-- `Scatterv((sendbuf, counts, displs), recvbuf, root, axis, recv_axis)` on the process `r` (heat/core/communication.py:2218-2335). -/
def scattervAxis (sa ra : Nat) (counts displs : Nat → Nat) (root recv : CBuf α) (r : Nat) : Except Err (CBuf α) :=
  unpackRows ra 0 (recv.rows ra) recv (packRows sa (displs r) (counts r) root)

/-- `Scatter`: `mpi_sendbuf[1] //= send_factor` with `send_factor = self.size` (heat/core/communication.py:2313-2314). -/
def scatterAxis (P sa ra : Nat) (root recv : CBuf α) (r : Nat) : Except Err (CBuf α) :=
  scattervAxis sa ra (fun _ => root.rows sa / P) (fun q => q * (root.rows sa / P)) root recv r

/-- `Alltoallv` with `send_axis` and `recv_axis` below 2 on the process `r` (heat/core/communication.py:1551-1590). -/
def alltoallvAxis (P sa ra : Nat) (sc sd : Nat → Nat → Nat) (rc rd : Nat → Nat → Nat) (send : Nat → CBuf α) (recv : CBuf α) (r : Nat) :
    Except Err (CBuf α) :=
  recvAll P ra (rd r) (rc r) (fun q => packRows sa (sd q r) (sc q r) (send q)) recv

/-- `Alltoall` with `send_axis` and `recv_axis` below 2 (heat/core/communication.py:1551-1590): both numbers of items are divided by the
number of processes. -/
def alltoallAxis (P sa ra : Nat) (send : Nat → CBuf α) (recv : CBuf α) (r : Nat) : Except Err (CBuf α) :=
  alltoallvAxis P sa ra (fun q _ => (send q).rows sa / P) (fun q p => p * ((send q).rows sa / P)) (fun _ _ => recv.rows ra / P)
    (fun _ q => q * (recv.rows ra / P)) send recv r

end Heat
