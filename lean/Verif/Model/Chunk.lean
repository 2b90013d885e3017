import Verif.Model.StrideTricks
/-!
# Model of the chunking arithmetic of heat/core/communication.py
-/
namespace Heat

/-- The index range `[start, end)` of the split axis given to `rank`
(heat/core/communication.py:235-245, body of `MPICommunication.chunk`). `n = shape[split]`. -/
def chunkRange (n rank wSize : Nat) : Nat × Nat :=
  let chunk := n / wSize
  let remainder := n % wSize
  if remainder > rank then
    let chunk := chunk + 1
    let start := rank * chunk
    (start, start + chunk)
  else
    let start := rank * chunk + remainder
    (start, start + chunk)

/-- Result of `chunk`: `(offset, local_shape, slices)`. -/
structure Chunk where
  offset : Nat
  lshape : List Nat
  slices : List (Nat × Nat)
  deriving DecidableEq, Repr

/-- `MPICommunication.chunk(shape, split, rank, w_size)` (heat/core/communication.py:197-254, dense case).
`sanitize_axis` is called first (line 227); `split is None` keeps everything (line 228). -/
def chunk (shape : List Nat) (split : Option Int) (rank wSize : Nat) : Except Err Chunk :=
  match sanitizeAxis shape.length split with
  | .error e => .error e
  | .ok none => .ok ⟨0, shape, shape.map fun e => (0, e)⟩
  | .ok (some s) =>
    let rg := chunkRange (shape.getD s 0) rank wSize
    .ok ⟨rg.1,
      (List.range shape.length).map fun i => if i ≠ s then shape.getD i 0 else rg.2 - rg.1,
      (List.range shape.length).map fun i => if i ≠ s then (0, shape.getD i 0) else rg⟩

/-- Running sums, exclusive: `cumsumExcl acc [c0, c1, ...] = [acc, acc+c0, ...]` (same length as the
argument). -/
def cumsumExcl (acc : Nat) : List Nat → List Nat
  | [] => []
  | c :: cs => acc :: cumsumExcl (acc + c) cs

/-- Counts of `counts_displs_shape` (heat/core/communication.py:272-273):
`full(size, n // size)` with the first `n % size` entries incremented. -/
def countsShape (n size : Nat) : List Nat :=
  let full := List.replicate size (n / size)
  (full.take (n % size)).map (· + 1) ++ full.drop (n % size)

/-- Displacements of `counts_displs_shape` (heat/core/communication.py:276-277): zeros, then the cumulative
sum of `counts[:-1]` written to `displs[1:]`. -/
def displsShape (n size : Nat) : List Nat := cumsumExcl 0 (countsShape n size)

end Heat
