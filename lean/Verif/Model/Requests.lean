import Verif.Model.Basic
/-!
# Requests and staging of GPU tensors (heat/core/communication.py:23-77, 464-473, 597-685, 823-884, 1139-1157)

The tensors of one process, as functions from indices to elements; tensors have numbers, new ones get the next free one.  MPI is modelled by the data it delivers.  Layouts: C56, C180; collectives along axes: C152.
-/
namespace Heat
variable {I α : Type}

/-- The tensors of a process; `gpu b` says that tensor `b` is on a GPU. -/
structure DevMem (I α : Type) where
  val : Nat → I → α
  gpu : Nat → Bool
  next : Nat

/-- Writing a tensor (`copy_`, or a delivery by MPI). -/
def DevMem.write (m : DevMem I α) (b : Nat) (c : I → α) : DevMem I α := { m with val := fun k => if k = b then c else m.val k }

/-- A new tensor in host memory. -/
def DevMem.alloc (m : DevMem I α) (c : I → α) : DevMem I α := ⟨fun k => if k = m.next then c else m.val k, fun k => if k = m.next then false else m.gpu k, m.next + 1⟩

/-- Is the tensor copied to the host before MPI is called (`_moveToCompDevice`, communication.py:466-473)?  `aware`: `GPU_AWARE_MPI`. -/
def staged (m : DevMem I α) (aware : Bool) (b : Nat) : Bool := m.gpu b && !aware

/-- `MPIRequest` (communication.py:41-53).  `target`: the tensor MPI writes, seen through the permutation `view`; `tensor`: the tensor of the caller; `recvView`: the permutations applied so far to `recvbuf` by `Wait`; `perm`: the attribute `permutation`.
`none` as `data`: already delivered. -/
structure DevReq (I α : Type) where
  target : Nat
  view : I → I
  data : Option (I → α)
  tensor : Nat
  recvView : I → I
  perm : Option (I → I)

/-- The permuted view of a tensor: `t.permute(p)[i] = t[σ i]`; MPI writes `d` through it (`σ` swaps two axes and is its own inverse, communication.py:1345-1353). -/
def writeView (σ : I → I) (d : I → α) : I → α := fun i => d (σ i)

/-- A nonblocking receiving call (`Irecv` 617-621, `__broadcast_like` 839-850, `__allgather_like` 1340-1375 for another axis) on a communicator of at least two processes: `d` is what MPI will deliver into the (permuted) receive buffer. -/
def startRecv (aware : Bool) (m : DevMem I α) (b : Nat) (perm : Option (I → I)) (d : I → α) : DevMem I α × DevReq I α :=
  let σ := perm.getD id
  if staged m aware b then (m.alloc fun i => m.val b (σ i), ⟨m.next, id, some d, b, id, perm⟩)
  else (m, ⟨b, σ, some d, b, σ, perm⟩)

/-- What else happens on the process until the request is waited for: writes to tensors, new tensors, and the delivery by MPI at some time. -/
inductive DevStep (I α : Type) where
  | write (b : Nat) (c : I → α)
  | alloc (c : I → α)
  | deliver

/-- The delivery by MPI. -/
def DevReq.deliver (m : DevMem I α) (r : DevReq I α) : DevMem I α × DevReq I α :=
  match r.data with
  | none => (m, r)
  | some d => (m.write r.target (writeView r.view d), { r with data := none })

/-- One step. -/
def devStep (s : DevMem I α × DevReq I α) : DevStep I α → DevMem I α × DevReq I α
  | .write b c => (s.1.write b c, s.2)
  | .alloc c => (s.1.alloc c, s.2)
  | .deliver => s.2.deliver s.1

/-- All steps. -/
def devSteps (s : DevMem I α × DevReq I α) (l : List (DevStep I α)) : DevMem I α × DevReq I α := l.foldl devStep s

/-- `MPIRequest.Wait` (communication.py:55-66): the handle is waited for, `recvbuf` is permuted, and copied to the tensor if that one is on a GPU and MPI is not aware of GPUs.  `self.recvbuf` stays permuted. -/
def DevReq.waitUpper (aware : Bool) (m : DevMem I α) (r : DevReq I α) : DevMem I α × DevReq I α :=
  let s := r.deliver m
  let rv := match r.perm with | none => r.recvView | some σ => fun i => r.recvView (σ i)
  let r' := { s.2 with recvView := rv }
  if staged s.1 aware r.tensor then (s.1.write r.tensor fun i => s.1.val r.target (rv i), r') else (s.1, r')

/-- `request.wait()`, `request.Test()`, ...: everything but `Wait` is passed on to the handle (`__getattr__`, communication.py:68-77). -/
def DevReq.waitLower (m : DevMem I α) (r : DevReq I α) : DevMem I α × DevReq I α := r.deliver m

/-- The requests of collective calls on one process have no handle (`__broadcast_like` 839-840, `__reduce_like` 1061-1062). -/
inductive AnyReq (I α : Type) where
  | noHandle
  | real (r : DevReq I α)

/-- `Wait` (communication.py:59-60: nothing without a handle). -/
def AnyReq.waitUpper (aware : Bool) (m : DevMem I α) : AnyReq I α → Option (DevMem I α × AnyReq I α)
  | .noHandle => some (m, .noHandle)
  | .real r => some ((r.waitUpper aware m).1, .real (r.waitUpper aware m).2)

/-- `wait`: `getattr(None, "wait")` raises `AttributeError` (`none`). -/
def AnyReq.waitLower (m : DevMem I α) : AnyReq I α → Option (DevMem I α × AnyReq I α)
  | .noHandle => none
  | .real r => some ((r.waitLower m).1, .real (r.waitLower m).2)

/-- Blocking `Recv` (communication.py:646-656), `Bcast` (852-865), `Allgather` (1399-1406): stage, receive, permute the received tensor, copy it back if it was staged. -/
def recvBlocking (aware : Bool) (m : DevMem I α) (b : Nat) (perm : Option (I → I)) (d : I → α) : DevMem I α :=
  let s := startRecv aware m b perm d
  let t := (s.2.deliver s.1).1
  if staged m aware b then t.write b fun i => t.val s.2.target (perm.getD id i) else t

/-- `Isend` (communication.py:676-685, 738-750): the tensor MPI reads when it sends. -/
def startSend (aware : Bool) (m : DevMem I α) (b : Nat) : DevMem I α × Nat := if staged m aware b then (m.alloc (m.val b), m.next) else (m, b)

/-- The gradient which `_iparam_update` adds for a parameter (nn/data_parallel.py:200-217): `wrk` (tensor `b`) after `wait_handle.wait()`; `sum` is the sum over the processes which `Iallreduce` delivers (236-263); `procs`: number of processes. -/
def nonblockingGrad (aware : Bool) (procs : Nat) (m : DevMem I α) (b : Nat) (sum : I → α) (l : List (DevStep I α)) : Option (I → α) :=
  if procs ≤ 1 then (AnyReq.noHandle.waitLower m).map fun s => s.1.val b
  else
    let s := devSteps (startRecv aware m b none sum) l
    ((AnyReq.real s.2).waitLower s.1).map fun s => s.1.val b

/-- The data which `dataset_shuffle` and `dataset_irecv` put into the dataset (utils/data/datatools.py:703-711, 752-789): `new_data` (tensor `b`, allocated by `torch.empty`) after `rcv_w.wait()`. -/
def shuffleReceived (aware : Bool) (m : DevMem I α) (b : Nat) (d : I → α) (l : List (DevStep I α)) : I → α :=
  let s := devSteps (startRecv aware m b none d) l
  (s.2.waitLower s.1).1.val b

end Heat
