import Verif.Model.Reshape
/-!
# Element-wise operations on n-dimensional arrays with broadcasting; broadcast_to and broadcast_arrays
(heat/core/_operations.py:131-231, heat/core/sanitation.py:33-156, 288-344, heat/core/manipulations.py:153-310)

All axes are modelled here (`Model/BinaryOp.lean` models the split axis only).  Element types, devices and communicators are not modelled.  The messages of `resplit(None)` and `redistribute`
are the subject of C13 and C08; here only their effect is used.
-/
namespace Heat
variable {α β γ : Type}

/-! ## torch -/

/-- `k` new axes of extent 1 in front. -/
def NArr.lead (a : NArr α) (k : Nat) : NArr α := ⟨a.ndim + k, fun j => if j < k then 1 else a.dim (j - k), fun idx => a.get fun j => idx (j + k)⟩

/-- `tensor.broadcast_to(c)` for a shape `c` to which the tensor can be broadcast: axes are aligned on the right, axes of extent 1 are repeated. -/
def NArr.expandTo (a : NArr α) (c : List Nat) : NArr α :=
  ⟨c.length, fun k => c.getD k 0, fun idx => a.get fun j => if a.dim j = 1 then 0 else idx (j + (c.length - a.ndim))⟩

/-- An element-wise torch operation: shapes that cannot be broadcast are a RuntimeError. -/
def torchBin (f : α → β → γ) (a : NArr α) (b : NArr β) : Except Err (NArr γ) :=
  match broadcastShape a.shape b.shape with
  | .error _ => .error .runtimeError
  | .ok c => .ok ⟨c.length, fun k => c.getD k 0, fun idx => f ((a.expandTo c).get idx) ((b.expandTo c).get idx)⟩

/-- `out.copy_(t)`: `t` is broadcast to the shape of `out`. -/
def torchCopyND (out t : NArr α) : Except Err (NArr α) :=
  if t.shape = out.shape then .ok t
  else if broadcastShape t.shape out.shape = .ok out.shape then .ok (t.expandTo out.shape)
  else .error .runtimeError

/-- `torch.broadcast_tensors(*tensors)`. -/
def torchBroadcast (l : List (NArr α)) : Except Err (List (NArr α)) :=
  match broadcastShapes (l.map NArr.shape) with
  | .error _ => .error .runtimeError
  | .ok c => .ok (l.map fun a => a.expandTo c)

/-! ## sanitize_distribution -/

/-- `while len(t.shape) < n: t = t.expand_dims(axis=0)` (_operations.py:139-142, manipulations.py:1030-1062): new axes in front, the split axis moves along, the `balanced`
attribute is kept. -/
def leadDims (x : DND α) (n : Nat) : DND α :=
  ⟨List.replicate (n - x.gshape.length) 1 ++ x.gshape, x.split.map (· + (n - x.gshape.length)), fun r => (x.loc r).lead (n - x.gshape.length), x.balanced⟩

/-- Length of the chunk of process `r`. -/
def chunkLen (n P r : Nat) : Nat := (chunkRange n r P).2 - (chunkRange n r P).1

/-- `is_balanced(force_check=False)` (heat/core/dndarray.py:1219-1232) of an array split along `s`. -/
def balancedND (P : Nat) (x : DND α) (s : Nat) : Bool :=
  x.balanced.getD ((List.range P).all fun r => (x.loc r).dim s == chunkLen (x.gshape.getD s 0) P r)

/-- The slices `[m 0 + ... + m (r-1), m 0 + ... + m r)` along `s` of an array that every process holds (sanitation.py:119-143). -/
def partsND (x : DND α) (s : Nat) (m : Nat → Nat) (b : Option Bool) : DND α :=
  ⟨x.gshape, some s, fun r => (x.loc r).slice s ((List.range r).map m).sum (m r), b⟩

/-- `sanitize_distribution(x, target=...)` for a target with split axis `ts`, local extents `tmap` along it (`target.lshape_map` or `diff_map`), extent `tsize` and balance flag `tbal`
(sanitation.py:65-156).  Indexing the shape of `x` at the split axis of the target can fail (116). -/
def sanitizeND (P : Nat) (ts : Option Nat) (tmap : Nat → Nat) (tsize : Nat) (tbal : Bool) (x : DND α) : Except Err (DND α) :=
  if P = 1 then .ok x
  else match ts with
    | none => if x.split = none then .ok x else .error .notImplemented
    | some t =>
      if x.gshape.length ≤ t then .error .indexError
      else if x.gshape.getD t 0 = 1 ∧ tsize > 1 then .ok (resplitNone P x)
      else if x.gshape.getD t 0 ≠ tsize then .error .valueError
      else match x.split with
        | none => if tbal then .ok (partsND x t (chunkLen (x.gshape.getD t 0) P) (some true)) else .ok (partsND x t tmap none)
        | some s =>
          if s ≠ t then .error .notImplemented
          else if !(tbal && balancedND P x t) then
            if (List.range P).any fun r => (x.loc r).dim t != tmap r then .ok (partsND (resplitNone P x) t tmap none) else .ok x
          else .ok x

/-- `sanitize_distribution(x, target=z)` (sanitation.py:93-97). -/
def sanitizeTo (P : Nat) (z : DND β) (x : DND α) : Except Err (DND α) :=
  match z.split with
  | none => sanitizeND P none (fun _ => 0) 0 true x
  | some s => sanitizeND P (some s) (fun r => (z.loc r).dim s) (z.gshape.getD s 0) (balancedND P z s) x

/-! ## __binary_op -/

/-- A result, process by process. -/
structure BinND (γ : Type) where
  gshape : List Nat
  split : Option Nat
  loc : Nat → Except Err (NArr γ)
  balanced : Option Bool

/-- The operand is "dominant": split, and not broadcast along its split axis (_operations.py:177, 179). -/
def dominant (z : DND α) (shape : List Nat) : Bool :=
  match z.split with
  | none => false
  | some s => z.gshape.getD s 0 == shape.getD s 0

/-- The modified `lshape_map` of an operand that is broadcast along its split axis `s`: the only process with data gets everything (_operations.py:183-185, 191-193). -/
def wideMap (z : DND α) (s n : Nat) (r : Nat) : Nat := if (z.loc r).dim s ≠ 0 then n else 0

/-- `target_balanced` for a `diff_map` (sanitation.py:79-87). -/
def wideBalanced (P : Nat) (m : Nat → Nat) (n : Nat) : Bool := (List.range P).all fun r => m r == n / P + if r < n % P then 1 else 0

/-- The other operand aligned with the broadcast operand `z` (_operations.py:181-197). -/
def sanitizeWide (P : Nat) (z : DND β) (s : Nat) (shape : List Nat) (x : DND α) : Except Err (DND α) :=
  let n := shape.getD s 0
  let m := wideMap z s n
  sanitizeND P (some s) m n (wideBalanced P m n) x

/-- `__binary_op` for operands with as many axes as the result (_operations.py:177-215). -/
def binaryAligned (P : Nat) (f : α → β → γ) (a : DND α) (b : DND β) (shape : List Nat) : Except Err (BinND γ) :=
  if dominant a shape then
    match sanitizeTo P a b with
    | .error e => .error e
    | .ok b' => .ok ⟨shape, a.split, fun r => torchBin f (a.loc r) (b'.loc r), a.balanced⟩
  else if dominant b shape then
    match sanitizeTo P b a with
    | .error e => .error e
    | .ok a' => .ok ⟨shape, b.split, fun r => torchBin f (a'.loc r) (b.loc r), b.balanced⟩
  else
    match a.split with
    | some s =>
      match sanitizeWide P a s shape b with
      | .error e => .error e
      | .ok b' => .ok ⟨shape, a.split, fun r => torchBin f (a.loc r) (b'.loc r), a.balanced⟩
    | none =>
      match b.split with
      | some s =>
        match sanitizeWide P b s shape a with
        | .error e => .error e
        | .ok a' => .ok ⟨shape, b.split, fun r => torchBin f (a'.loc r) (b.loc r), b.balanced⟩
      | none => .ok ⟨shape, a.split, fun r => torchBin f (a.loc r) (b.loc r), a.balanced⟩

/-- `__binary_op(f, x, y)` without `out` and `where` (_operations.py:131-215). -/
def binaryND (P : Nat) (f : α → β → γ) (x : DND α) (y : DND β) : Except Err (BinND γ) :=
  match broadcastShape x.gshape y.gshape with
  | .error e => .error e
  | .ok shape => binaryAligned P f (leadDims x shape.length) (leadDims y shape.length) shape

/-- The split axis of the result (_operations.py:177-200). -/
def binarySplit (a : DND α) (b : DND β) (shape : List Nat) : Option Nat :=
  if dominant a shape then a.split
  else if dominant b shape then b.split
  else match a.split with
    | some s => some s
    | none => b.split

/-- `__binary_op(f, x, y, out=out)` (_operations.py:131-231): the new local data of `out`, process by process. `copy_` broadcasts the result to the shape of `out.larray`. -/
def binaryOutND (P : Nat) (f : α → β → γ) (x : DND α) (y : DND β) (out : DND γ) : Except Err (BinND γ) :=
  match broadcastShape x.gshape y.gshape with
  | .error e => .error e
  | .ok shape =>
    let a := leadDims x shape.length
    let b := leadDims y shape.length
    if shape ≠ out.gshape then .error .valueError
    else if binarySplit a b shape ≠ out.split then .error .valueError
    else match sanitizeTo P out a, sanitizeTo P out b with
      | .error e, _ => .error e
      | .ok _, .error e => .error e
      | .ok a', .ok b' => .ok ⟨out.gshape, out.split, fun r =>
          match torchBin f (a'.loc r) (b'.loc r) with
          | .error e => .error e
          | .ok t => torchCopyND (out.loc r) t, out.balanced⟩

/-! ## broadcast_to and broadcast_arrays -/

/-- `factories.zeros(shape, split=split)` (C37). -/
def zerosND [Zero α] (P : Nat) (shape : List Nat) (split : Option Nat) : DND α :=
  ⟨shape, split, fun r => ⟨shape.length, fun k => if split = some k then chunkLen (shape.getD k 0) P r else shape.getD k 0, fun _ => 0⟩, some true⟩

/-- `broadcast_to(x, shape)` (manipulations.py:264-310).  Without distribution the local broadcast raises if the shape of `x` cannot be repeated to `shape`. -/
def broadcastTo [Add α] [Zero α] (P : Nat) (x : DND α) (shape : List Nat) : Except Err (BinND α) :=
  match broadcastShape x.gshape shape with
  | .error e => .error e
  | .ok _ =>
    let lead : Int := (shape.length : Int) - x.gshape.length
    if P = 1 ∨ x.split = none then
      .ok ⟨shape, x.split.map fun (s : Nat) => ((s : Int) + lead).toNat, fun r =>
        if broadcastShape (x.loc r).shape shape = .ok shape then .ok ((x.loc r).expandTo shape) else .error .runtimeError, some true⟩
    else
      match sanitizeAxis shape.length (x.split.map fun (s : Nat) => (s : Int) + lead) with
      | .error e => .error e
      | .ok split => binaryOutND P (· + ·) (zerosND P shape split) x (zerosND P shape split)

/-- The local tensors of all results of `broadcast_arrays` on process `r`: entry `i` belongs to result `i`. -/
structure BcArrays (α : Type) where
  gshape : List Nat
  split : Option Nat
  loc : Nat → Except Err (List (NArr α))
  balanced : Option Bool

/-- `broadcast_arrays(x, *rest)` (manipulations.py:184-233) for at least two arrays of the same type.  Operands are aligned along the split axis of the first one, whatever their
numbers of axes; a NotImplementedError becomes a ValueError. -/
def broadcastArrays (P : Nat) (x : DND α) (rest : List (DND α)) : Except Err (BcArrays α) :=
  match (x :: rest).mapM (sanitizeTo P x) with
  | .error .notImplemented => .error .valueError
  | .error e => .error e
  | .ok l =>
    match broadcastShapes ((x :: rest).map DND.gshape) with
    | .error e => .error e
    | .ok shape => .ok ⟨shape, x.split, fun r => torchBroadcast (l.map fun z => z.loc r), x.balanced⟩

end Heat
