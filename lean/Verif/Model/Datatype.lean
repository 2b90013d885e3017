import Verif.Model.Basic
import Verif.Model.Chunk
/-!
# MPI datatypes built by the communication layer (heat/core/communication.py)

MPI itself is a library: a datatype is modelled, following the MPI standard, by the list of the byte displacements
of its basic elements in the order in which they are packed (the typemap), its extent and whether it was committed.  Lower
bounds are 0 throughout (strides of torch tensors are not negative); alignment padding of struct types is left out,
heat uses struct types with count 1 only.
-/
namespace Heat

/-- An MPI datatype. -/
structure MType where
  offs : List Nat
  extent : Nat
  committed : Bool := true
  deriving DecidableEq, Repr

namespace MType

/-- A predefined datatype of `sz` bytes. -/
def basic (sz : Nat) : MType := ⟨[0], sz, true⟩

/-- `count` consecutive items of the datatype, as packed by a communication call. -/
def message (t : MType) (count : Nat) : List Nat :=
  (List.range count).flatMap fun i => t.offs.map (i * t.extent + ·)

/-- `MPI_Type_vector(count, blocklength, stride)`. -/
def vector (t : MType) (count blen stride : Nat) : MType :=
  ⟨(List.range count).flatMap fun i => (List.range blen).flatMap fun j => t.offs.map ((i * stride + j) * t.extent + ·),
    if count = 0 ∨ blen = 0 then 0 else ((count - 1) * stride + blen) * t.extent, false⟩

/-- `MPI_Type_contiguous(count)`. -/
def contiguous (t : MType) (count : Nat) : MType := ⟨t.message count, count * t.extent, false⟩

/-- `MPI_Type_create_resized(0, extent)`. -/
def resized (t : MType) (e : Nat) : MType := ⟨t.offs, e, false⟩

/-- `MPI_Type_create_struct` of two types, one item each, at byte displacements `0` and `d`. -/
def struct2 (a : MType) (d : Nat) (b : MType) : MType :=
  ⟨a.offs ++ b.offs.map (d + ·), max a.extent (d + b.extent), false⟩

/-- `MPI_Type_create_hindexed_block(1, [d])`. -/
def hindexed1 (t : MType) (d : Nat) : MType := ⟨t.offs.map (d + ·), t.extent, false⟩

/-- Displacements, in elements, of a C-order subarray (`MPI_Type_create_subarray`, ORDER_C). -/
def subarrayElems : List Nat → List Nat → List Nat → List Nat
  | n :: sizes, m :: sub, s :: starts =>
    (List.range m).flatMap fun i => (subarrayElems sizes sub starts).map ((s + i) * sizes.prod + ·)
  | _, _, _ => [0]

/-- `MPI_Type_create_subarray(sizes, subsizes, starts, ORDER_C)`. -/
def subarray (t : MType) (sizes sub starts : List Nat) : MType :=
  ⟨(subarrayElems sizes sub starts).flatMap fun d => t.offs.map (d * t.extent + ·), sizes.prod * t.extent, false⟩

/-- `Commit()`. -/
def commit (t : MType) : MType := { t with committed := true }

end MType

open MType

/-- `_handle_large_count(mpi_type, elements)` (communication.py:298-342) for a predefined type of `sz` bytes; `L` is
COUNT_LIMIT.  Freeing the components does not change the struct type (MPI standard). -/
def handleLargeCount (L sz elements : Nat) : Except Err (MType × Nat) :=
  let newCount := elements / L
  let leftOver := elements % L
  if newCount > L then .error .valueError
  else
    let vec := (basic sz).vector newCount L L
    if leftOver > 0 then
      let lo := ((basic sz).contiguous leftOver).commit
      let disp := L * newCount * sz
      .ok ((vec.struct2 disp lo).commit, 1)
    else .ok (vec, 1)

/-- The chain of vector types of a non-contiguous tensor (communication.py:396-408, 548-557): `shape` and `stride` are
those of the tensor; `strides = [1] * len(shape[1:])`, its first entry replaced by the last stride, reversed;
`offsets[i] = element_size * stride[i]`; the loop runs from the last axis to the first. -/
def chainType (sz : Nat) (shape stride : List Nat) : MType :=
  let sh := shape.drop 1
  let strides := ((List.replicate sh.length 1).set 0 (stride.getLastD 0)).reverse
  let offsets := stride.dropLast.map (sz * ·)
  (sh.zip (strides.zip offsets)).foldr (fun p t => ((t.vector p.1 1 p.2.1).resized p.2.2).commit) (basic sz)

/-- A two's complement 32 bit integer (numpy int32 arithmetic). -/
def wrap32 (n : Nat) : Int := (((n : Int) + 2147483648) % 4294967296) - 2147483648

/-- Number of elements and type, or counts and displacements and type, as `mpi_type_and_elements_of` returns them
(communication.py:344-413). -/
inductive Buf where
  | plain (t : MType) (count : Nat)
  | counted (t : MType) (counts displs : List Int)
  deriving DecidableEq, Repr

/-- `factor * ele` with `factor` an int32 (communication.py:383-390).  The product is taken in 32 bits, as numpy ≥ 2 does. -/
def scale32 (factor : Int) (l : List Nat) : List Int := l.map fun (c : Nat) => ((factor * c + 2147483648) % 4294967296) - 2147483648

/-- `mpi_type_and_elements_of(obj, counts, displs, is_contiguous)` (communication.py:344-413), the tensor being given by its
element size, shape and strides.  A 1-D tensor that is not contiguous arrives here with a trailing axis of extent 1
(`as_buffer`, 449-454). -/
def mpiTypeAndElements (L sz : Nat) (shape stride : List Nat) (contig : Bool) (cd : Option (List Nat × List Nat)) :
    Except Err Buf :=
  if contig then
    match cd with
    | none =>
      if shape.prod > L then
        match handleLargeCount L sz shape.prod with
        | .error e => .error e
        | .ok (t, c) => .ok (.plain t c)
      else .ok (.plain (basic sz) shape.prod)
    | some (counts, displs) =>
      let factor := wrap32 (shape.drop 1).prod
      .ok (.counted (basic sz) (scale32 factor counts) (scale32 factor displs))
  else
    match cd with
    | none => .ok (.plain (chainType sz shape stride) (shape.headD 0))
    | some (counts, displs) => .ok (.counted (chainType sz shape stride)
        (counts.map fun (c : Nat) => (c : Int)) (displs.map fun (c : Nat) => (c : Int)))

/-- `as_buffer` on a tensor of unknown contiguity (communication.py:430-463): a non-contiguous 1-D tensor gets a trailing axis
of extent 1 and stride 1 first. -/
def asBuffer (L sz : Nat) (shape stride : List Nat) (contig : Bool) (cd : Option (List Nat × List Nat)) : Except Err Buf :=
  if contig = false ∧ shape.length = 1 then mpiTypeAndElements L sz (shape ++ [1]) (stride ++ [1]) contig cd
  else mpiTypeAndElements L sz shape stride contig cd

/-- Receive buffer of `Allgather`/`Alltoall` when no counts are given (communication.py:1370-1371, 1585-1587): the number of elements
is divided by the number of processes. -/
def perProcess (P : Nat) : Buf → Buf
  | .plain t c => .plain t (c / P)
  | b => b

/-- Bytes addressed in the receive buffer for partner `q` by a collective: block `q` of a plain buffer, or the items
`displs[q], ..., displs[q] + counts[q] - 1` (displacements of v-collectives count extents). Negative counts are MPI errors. -/
def Buf.block (b : Buf) (q : Nat) : Option (List Nat) :=
  match b with
  | .plain t c => some ((t.message c).map (q * c * t.extent + ·))
  | .counted t counts displs =>
    let c := counts.getD q 0
    let d := displs.getD q 0
    if c < 0 ∨ d < 0 then none else some ((t.message c.toNat).map (d.toNat * t.extent + ·))

/-- The loop of `_create_recursive_vectortype` (communication.py:1849-1891), at axis `i`; `cur` is the type built so far. Uses the
Python convention `tensor_stride[-1]` for the last entry. -/
def recLoop (L sz : Nat) (stride sub : List Nat) : Nat → MType → MType
  | 0, cur => cur
  | i + 1, cur =>
    let last := i + 1 = stride.length - 1
    if last ∧ stride.getD (i + 1) 0 = 1 ∧ stride.getD i 0 < L then
      -- merged step: i is decremented, then once more at the end of the loop body
      let v := (cur.vector (sub.getD i 0) (sub.getD (i + 1) 0) (stride.getD i 0)).commit
      let next := if i = 0 then stride.getLastD 0 else stride.getD (i - 1) 0
      recLoop L sz stride sub (i - 1) (v.resized (sz * next)).commit
    else
      let v := if last then (cur.vector (sub.getD (i + 1) 0) 1 (stride.getD (i + 1) 0)).commit
        else (cur.vector (sub.getD (i + 1) 0) 1 1).commit
      recLoop L sz stride sub i (v.resized (sz * stride.getD i 0)).commit
  termination_by i => i

/-- `_create_recursive_vectortype(datatype, tensor_stride, subarray_sizes, start)` (communication.py:1815-1897). -/
def recursiveType (L sz : Nat) (stride sub start : List Nat) : MType :=
  ((recLoop L sz stride sub (stride.length - 1) (basic sz)).hindexed1
    (((stride.zip start).map fun p => p.1 * p.2).sum * sz)).commit

/-- Type and count chosen by `Alltoallw` for one partner on the sending side (communication.py:1728-1755). -/
def sendType (L sz : Nat) (lshape stride sub start : List Nat) (contig : Bool) : MType × Nat :=
  if sub.all (· > 0) then
    if contig ∧ lshape.all (· < L) ∧ sub.all (· < L) ∧ start.all (· < L) then
      (((basic sz).subarray lshape sub start).commit, 1)
    else
      (recursiveType L sz stride sub start, if sub.length = 2 ∧ stride.getLastD 0 = 1 then 1 else sub.headD 0)
  else (basic 4, 0)

/-- Type and count chosen by `Alltoallw` for one partner on the receiving side (communication.py:1766-1787): contiguity is not tested. -/
def recvType (L sz : Nat) (lshape stride sub start : List Nat) : MType × Nat :=
  sendType L sz lshape stride sub start true

/-- `alltoall_sendbuffer` (communication.py:475-534): displacement and type for partner `p`. The number of elements along axis 1 for
each partner is the canonical chunk. -/
def sendBlock (sz P : Nat) (shape stride : List Nat) (p : Nat) : MType × Nat :=
  let n := shape.length
  let strides := (List.replicate n 1).set (n - 1) (stride.getLastD 0)
  let offsets := 0 :: stride.dropLast.map (sz * ·)
  -- step 1: axes n-1, ..., 2
  let inner := ((shape.zip (strides.zip offsets)).drop 2).foldr
    (fun p t => ((t.vector p.1 1 p.2.1).resized p.2.2).commit) (basic sz)
  -- send_elements: m // nproc, the first m % nproc one more
  let m := shape.getD 1 0
  let elems := fun q => m / P + if q < m % P then 1 else 0
  let short := ((inner.vector (elems (P - 1)) 1 (strides.getD 1 0)).resized (offsets.getD 1 0)).commit
  let long := ((inner.vector (elems 0) 1 (strides.getD 1 0)).resized (offsets.getD 1 0)).commit
  let short := ((short.vector (shape.getD 0 0) 1 (strides.getD 0 0)).resized (elems (P - 1) * stride.getD 1 0 * sz)).commit
  let long := ((long.vector (shape.getD 0 0) 1 (strides.getD 0 0)).resized (elems 0 * stride.getD 1 0 * sz)).commit
  (if p < m % P then long else short, sz * stride.getD 1 0 * ((List.range p).map elems).sum)

/-- Bytes sent to partner `p` by `alltoall_sendbuffer` (one item of the type, at its displacement). -/
def sendBytes (sz P : Nat) (shape stride : List Nat) (p : Nat) : List Nat :=
  let (t, d) := sendBlock sz P shape stride p
  (t.message 1).map (d + ·)

/-- `alltoall_recvbuffer` (communication.py:536-574): bytes written for partner `q`: `recvcount[q]` items of the chained type
at displacement `offsets[0] * displs[q]`. -/
def recvBytes (sz P : Nat) (shape stride : List Nat) (q : Nat) : List Nat :=
  let n := shape.getD 0 0
  let cnt := fun r => n / P + if r < n % P then 1 else 0
  ((chainType sz shape stride).message (cnt q)).map (sz * stride.getD 0 0 * ((List.range q).map cnt).sum + ·)

/-- The axis permutation of `__alltoall_like` for axes beyond the first two (communication.py:1599-1613). -/
def alltoallAxes (n send recv : Nat) : List Nat :=
  let p := List.range n
  if send = 0 then
    let p := (p.set 1 send).set send 1
    let p := p.set recv (p.getD 0 0)
    p.set 0 recv
  else
    let p := (p.set 0 recv).set recv 0
    let p := p.set send (p.getD 1 0)
    p.set 1 send

end Heat
