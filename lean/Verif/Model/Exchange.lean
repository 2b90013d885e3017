import Verif.Model.Mpi
import Verif.Model.Dist
import Verif.Spec.Dist
/-!
# The point-to-point exchanges of `roll`, `permutation` and `flip`

Each is given as the list of `Isend`/`Irecv` operations all ranks post (`XProg`).  `parts r` is the local list
of slabs of rank `r`.  Local tensors are split into slabs of extent 1 along the split axis.
-/
namespace Heat
open Heat.Spec

/-- `index_map = repeat_interleave(arange(size), lshape_map)` (manipulations.py:2377-2378): global index → rank. -/
def indexMap {α : Type} (P : Nat) (parts : Nat → List α) : List Nat :=
  (List.range P).flatMap fun r => List.replicate (parts r).length r

/-- The operations rank `r` posts in `roll` along the split axis (manipulations.py:2371-2404): all receives,
then all sends.  `n = gshape[split]`; `lshape_map` is taken to be the actual local sizes.  A torch `%` is
non-negative for a positive modulus. -/
def rollOps {α : Type} (P : Nat) (parts : Nat → List α) (shift : Int) (r : Nat) : XProg α :=
  let n : Int := (content P parts).length
  let old (i : Nat) : Int := startOf parts r + i
  let recvs := (List.range (parts r).length).map fun i =>
    (r, XOp.irecv ((indexMap P parts).getD ((old i - shift) % n).toNat 0) (old i).toNat i)
  let sends := (List.range (parts r).length).filterMap fun i =>
    (parts r)[i]?.map fun v =>
      (r, XOp.isend ((indexMap P parts).getD ((old i + shift) % n).toNat 0) ((old i + shift) % n).toNat v)
  recvs ++ sends

/-- The whole exchange of `roll`. -/
def rollProg {α : Type} (P : Nat) (parts : Nat → List α) (shift : Int) : XProg α :=
  (List.range P).flatMap (rollOps P parts shift)

/-- `torch.where(v < cumsum)[0][0] - 1` (random.py:413, 417): the rank before the first boundary beyond `v`;
`bounds` is `cumsum`, of length `P + 1`, ending in the global size. -/
def ownerByCumsum (bounds : List Nat) (v : Nat) : Nat :=
  (bounds.findIdx fun b => decide (v < b)) - 1

/-- `cumsum` of `permutation` (random.py:402-403): the *balanced* chunk offsets and the global size. -/
def permBounds (n P : Nat) : List Nat := (List.range P).map (fun i => (chunkRange n i P).1) ++ [n]

/-- The loop of rank `r` in `permutation` of an array split along axis 0 (random.py:412-419), `size`
iterations.  `recv` is the random permutation (known to all ranks), `send` its inverse (`argsort`), given as
functions. -/
def permLoop {α : Type} (bounds : List Nat) (parts : Nat → List α) (recv send : Nat → Nat) (r size : Nat) :
    XProg α :=
  let off := bounds.getD r 0
  (List.range size).flatMap fun i =>
    let procRecv := ownerByCumsum bounds (recv (off + i))
    let q := send (off + i)
    let procSend := ownerByCumsum bounds q
    let tag := q - bounds.getD procSend 0
    (r, XOp.irecv procRecv i i) :: ((parts r)[i]?.map fun v => (r, XOp.isend procSend tag v)).toList

/-- The operations rank `r` posts in `permutation` (random.py:401-419): nothing on an empty rank;
`x.lloc[i]` beyond the local data raises `IndexError`. -/
def permOps {α : Type} (n P : Nat) (parts : Nat → List α) (recv send : Nat → Nat) (r : Nat) :
    Except Err (XProg α) :=
  if (parts r).length = 0 then .ok []
  else
    let bounds := permBounds n P
    let size := bounds.getD (r + 1) 0 - bounds.getD r 0
    if size > (parts r).length then .error .indexError
    else .ok (permLoop bounds parts recv send r size)

/-- The whole exchange of `permutation`. -/
def permProg {α : Type} (n P : Nat) (parts : Nat → List α) (recv send : Nat → Nat) :
    Except Err (XProg α) :=
  (List.range P).foldl (fun acc r => do
    let a ← acc
    let b ← permOps n P parts recv send r
    pure (a ++ b)) (.ok [])

/-- The exchange of local tensors in `flip` along the split axis (manipulations.py:1173-1179): rank `r` sends
its reversed block to `P - 1 - r` and receives that rank's block (slot 0).  The preceding `sendrecv` of the
local shapes is the same exchange with shapes as messages. -/
def flipProg {α : Type} (P : Nat) (parts : Nat → List α) : XProg (List α) :=
  (List.range P).flatMap fun r =>
    [(r, XOp.isend (P - 1 - r) 0 (parts r).reverse), (r, XOp.irecv (P - 1 - r) 0 0)]

end Heat
