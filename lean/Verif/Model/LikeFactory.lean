import Verif.Model.Chunk
import Verif.Model.Types
import Verif.Spec.ND
/-!
# Constant arrays (heat/core/factories.py:556-880, 1073-1181, 1439-1649)

`empty`, `zeros`, `ones`, `full` and their `_like` forms for DNDarrays.  Types and devices are already canonical; the memory layout (`order`) is C173.  Communicators are numbers, 0 is the default one; `size c` is the number of its processes.
-/
namespace Heat
variable {α : Type}

/-- A DNDarray with its type, device and communicator. -/
structure FArr (α : Type) where
  dnd : DND α
  dtype : Dt
  device : Nat
  comm : Nat

/-- `sanitize_shape` of a sequence of integers (heat/core/stride_tricks.py:183-225). -/
def sanitizeShape (shape : List Int) : Except Err (List Nat) := if shape.any (· < 0) then .error .valueError else .ok (shape.map Int.toNat)

/-- A local tensor with the same value everywhere. -/
def constTensor (lshape : List Nat) (v : α) : NArr α := ⟨lshape.length, fun k => lshape.getD k 0, fun _ => v⟩

/-- The local tensor of process `r` (factories.py:793-797). -/
def factoryLoc (P : Nat) (shape : List Nat) (split : Option Int) (v : α) (r : Nat) : NArr α :=
  match chunk shape split r P with
  | .ok c => constTensor c.lshape v
  | .error _ => constTensor [] v

/-- `__factory` (factories.py:749-802): `cast d v` is the value `v` in type `d`. -/
def factory (size : Nat → Nat) (cast : Dt → α → α) (v : α) (shape : List Int) (dtype : Dt) (split : Option Int) (device comm : Nat) : Except Err (FArr α) :=
  match sanitizeShape shape with
  | .error e => .error e
  | .ok sh =>
    match sanitizeAxis sh.length split with
    | .error e => .error e
    | .ok s => .ok ⟨⟨sh, s, factoryLoc (size comm) sh split (cast dtype v), some true⟩, dtype, device, comm⟩

/-- `full` (factories.py:1073-1127): a complex fill value (`cplx`) determines the type. -/
def fullArr (size : Nat → Nat) (cast : Dt → α → α) (cplx : Bool) (v : α) (shape : List Int) (dtype : Dt) (split : Option Int) (device comm : Nat) : Except Err (FArr α) :=
  factory size cast v shape (if cplx then .complex64 else dtype) split device comm

/-- The split axis (factories.py:863-868). -/
def likeSplit (a : FArr α) : Option Int → Option Int
  | none => a.dnd.split.map Int.ofNat
  | some s => some s

/-- `__factory_like` (factories.py:805-880) for a DNDarray `a`: `make` is `empty`, `zeros`, `ones` or `full`. -/
def factoryLike (make : List Int → Dt → Option Int → Nat → Nat → Except Err (FArr α)) (a : FArr α) (dtype : Option Dt) (split : Option Int) (device comm : Option Nat) : Except Err (FArr α) :=
  make (a.dnd.gshape.map Int.ofNat) (dtype.getD a.dtype) (likeSplit a split) (device.getD a.device) (comm.getD 0)

/-- `zeros_like`, `ones_like`, `empty_like` (factories.py:610-661, 1493-1542, 1599-1649); `v` is 0, 1 or what was in memory. -/
def constLike (size : Nat → Nat) (cast : Dt → α → α) (v : α) (a : FArr α) (dtype : Option Dt) (split : Option Int) (device comm : Option Nat) : Except Err (FArr α) :=
  factoryLike (factory size cast v) a dtype split device comm

/-- `full_like` (factories.py:1130-1181): the type defaults to `float32`, not to the type of `a`. -/
def fullLike (size : Nat → Nat) (cast : Dt → α → α) (cplx : Bool) (v : α) (a : FArr α) (dtype : Option Dt) (split : Option Int) (device comm : Option Nat) : Except Err (FArr α) :=
  factoryLike (fullArr size cast cplx v) a (some (dtype.getD .float32)) split device comm

end Heat
