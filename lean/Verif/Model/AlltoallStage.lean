import Verif.Model.Requests
import Verif.Model.Datatype
/-!
# `Alltoall`, `Ialltoall` beyond the first two axes, staged (heat/core/communication.py:1592-1628, 1655-1662, 1923-1925)

The permuted views are given by lists of axes.  What MPI delivers into the permuted receive buffer: C58, C152.
-/
namespace Heat
variable {α : Type}

/-- The index whose entries are those of `idx` at the axes `q`. -/
def gatherIdx (q idx : List Nat) : List Nat := q.map fun k => idx.getD k 0

/-- `np.argsort` of a permutation of `0 .. n-1` (communication.py:1626). -/
def argsortAxes (p : List Nat) : List Nat := (List.range p.length).map fun v => p.idxOf v

/-- `t.permute(*p)` (torch): `t.permute(p)[i] = t[permIdx p i]`. -/
def permIdx (p idx : List Nat) : List Nat := gatherIdx (argsortAxes p) idx

/-- The exchange for axes beyond the first two (communication.py:1615-1626): `recvbuf.permute(p)`, staging, and the blocking `Alltoallw`, also for `Ialltoall`.  The second component is the tensor MPI has written.
Writing `d` through the view of a tensor on the spot: `t[permIdx p i] = d[i]`, that is `t[j] = d[gatherIdx p j]`. -/
def alltoallW (aware : Bool) (m : DevMem (List Nat) α) (b : Nat) (p : List Nat) (d : List Nat → α) : DevMem (List Nat) α × Nat :=
  if staged m aware b then (((m.alloc fun i => m.val b (permIdx p i)).write m.next d), m.next)
  else (m.write b fun j => d (gatherIdx p j), b)

/-- `Alltoall` (communication.py:1655-1662): the received tensor is permuted by `argsort(p)` and copied back if it was staged. -/
def alltoallBlocking (aware : Bool) (m : DevMem (List Nat) α) (b : Nat) (p : List Nat) (d : List Nat → α) : DevMem (List Nat) α :=
  let s := alltoallW aware m b p d
  if staged s.1 aware b then s.1.write b fun i => s.1.val s.2 (permIdx (argsortAxes p) i) else s.1

/-- `Ialltoall` followed by `Wait` (communication.py:1923-1925, 59-60): `self.handle.Alltoallw` returns `None`, so that the request has no handle. -/
def ialltoallWait (aware : Bool) (m : DevMem (List Nat) α) (b : Nat) (p : List Nat) (d : List Nat → α) : Option (DevMem (List Nat) α) :=
  ((AnyReq.noHandle : AnyReq (List Nat) α).waitUpper aware (alltoallW aware m b p d).1).map (·.1)

end Heat
