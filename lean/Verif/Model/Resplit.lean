import Verif.Model.Dist
import Verif.Model.Float32
/-!
# Model of `resplit_` / `resplit` (heat/core/dndarray.py:1524-1622, heat/core/manipulations.py:3842-3983)
and of `SplitTiles` (heat/core/tiling.py:86-112, 336-373)

Two axes matter: the old split axis ("rows") and the new one ("columns").  All other axes ride along in the element
type `β`.  A local array is a pair of sizes and an index function.
-/
namespace Heat

/-- Split column of `tile_dims` (heat/core/tiling.py:90-93): the lshape map, stored in a float32 tensor. -/
def tileDimsSplit (lens : Nat → Nat) (r : Nat) : Nat := f32 (lens r)

/-- `tile_dims` of an axis that is not split (heat/core/tiling.py:95-101): chunk sizes, in float32. -/
def tileDimsOther (n P r : Nat) : Nat :=
  let chunk := n / P
  let remainder := n % P
  if r < remainder then f32 (f32 chunk + 1) else f32 chunk

/-- `tile_ends_g[...][r]` (heat/core/tiling.py:103): `torch.cumsum` of a float32 tensor.  The CPU kernel accumulates
in float64 (exact here) and rounds each output to float32; `.int()` is exact below 2^31. -/
def tileEnd (dims : Nat → Nat) (r : Nat) : Nat := f32 (((List.range (r + 1)).map dims).sum)

/-- `tile_starts = [0] + tile_ends_g[:-1]` (heat/core/tiling.py:361). -/
def tileStart (dims : Nat → Nat) (r : Nat) : Nat := if r = 0 then 0 else tileEnd dims (r - 1)

/-- A rectangular block: row start, row count, column start, column count. -/
structure Block where
  r0 : Nat
  rn : Nat
  c0 : Nat
  cn : Nat
  deriving DecidableEq, Repr

/-- `get_subarray_params(source_split, target_split)` of rank `me` for partner `q` (heat/core/tiling.py:336-373): all
its rows (`tile_dims[from][me]`), and the columns of tile `q`. -/
def srcBlock (rowDims colDims : Nat → Nat) (me q : Nat) : Block :=
  ⟨0, rowDims me, tileStart colDims q, colDims q⟩

/-- `get_subarray_params(target_split, source_split)` of rank `me` for partner `r`: all its columns, and the rows of
tile `r`. -/
def dstBlock (rowDims colDims : Nat → Nat) (me r : Nat) : Block :=
  ⟨tileStart rowDims r, rowDims r, 0, colDims me⟩

/-- A local two-axis array. -/
structure Loc (β : Type) where
  rows : Nat
  cols : Nat
  at_ : Nat → Nat → Option β

/-- `Alltoallw` with one subarray per partner (heat/core/communication.py `Alltoallw`, heat/core/manipulations.py:3973-3981):
rank `me`'s buffer after receiving from all ranks.  A partner whose sent block has another shape than the
receive block is an MPI error (`none`).  Cells outside all receive blocks stay uninitialised (`none` entry).
If receive blocks overlap the highest rank wins. -/
def alltoallw {β : Type} (P : Nat) (src : Nat → Loc β) (sBlk dBlk : Nat → Nat → Block) (rows cols : Nat)
    (me : Nat) : Option (Loc β) :=
  if (List.range P).all fun r => (sBlk r me).rn == (dBlk me r).rn && (sBlk r me).cn == (dBlk me r).cn then
    some ⟨rows, cols, fun i j =>
      ((List.range P).reverse.find? fun r =>
        let b := dBlk me r
        decide (b.r0 ≤ i ∧ i < b.r0 + b.rn ∧ b.c0 ≤ j ∧ j < b.c0 + b.cn)).bind fun r =>
          let b := dBlk me r
          let s := sBlk r me
          (src r).at_ (i - b.r0 + s.r0) (j - b.c0 + s.c0)⟩
  else none

/-- In-place `resplit_` from the row axis to the column axis (heat/core/dndarray.py:1603-1620), result of rank `me`.
`lens` are the current local row counts, `n × m` the global sizes.  The same `SplitTiles(self)` is used for the
source and the target parameters. -/
def resplitInplace {β : Type} (P n m : Nat) (lens : Nat → Nat) (src : Nat → Loc β) (me : Nat) : Option (Loc β) :=
  let rowDims := tileDimsSplit lens
  let colDims := tileDimsOther m P
  alltoallw P src (srcBlock rowDims colDims) (dstBlock rowDims colDims) n (colDims me) me

/-- Out-of-place `resplit` from the row axis to the column axis (heat/core/manipulations.py:3915-3924): the target tiles are
those of the freshly created, balanced result array: rows in chunk-sized tiles, columns by its lshape map. -/
def resplitNew {β : Type} (P n m : Nat) (lens : Nat → Nat) (src : Nat → Loc β) (me : Nat) : Option (Loc β) :=
  let rowDims := tileDimsSplit lens
  let colDims := tileDimsOther m P
  let rowDims' := tileDimsOther n P
  let colDims' := tileDimsSplit fun r => let c := chunkRange m r P; c.2 - c.1
  let c := chunkRange m me P
  alltoallw P src (srcBlock rowDims colDims) (dstBlock rowDims' colDims') n (c.2 - c.1) me

/-- `resplit_(None)` / `resplit(None)`: `Allgatherv` of all local parts with `counts_displs`
(heat/core/dndarray.py:1581-1590, heat/core/manipulations.py:3903-3913): the slab `g` of the gathered buffer. -/
def resplitGather {α : Type} (P : Nat) (parts : Nat → List α) (n : Nat) (g : Nat) : Option α :=
  let cd := countsDispls P (lshapeMapForced n P parts)
  ((List.range P).find? fun r => decide (cd.2.getD r 0 ≤ g ∧ (g : Int) < cd.2.getD r 0 + cd.1.getD r 0)).bind
    fun r => (parts r)[g - (cd.2.getD r 0).toNat]?

/-- `resplit_(axis)` of an unsplit array (heat/core/dndarray.py:1592-1601): every rank keeps its chunk. -/
def resplitSlice {α : Type} (P : Nat) (whole : List α) (me : Nat) : List α :=
  let c := chunkRange whole.length me P
  (whole.take c.2).drop c.1

end Heat
