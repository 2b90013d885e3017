import Verif.Model.Chunk
/-!
# `SquareDiagTiles` (heat/core/tiling.py:375-1296)

A matrix of `m` rows and `n` columns is distributed along `split` (0 or 1); `L` holds the number of its rows (columns) on every process (`lshape_map[..., split]`).  The local data come from the lshape map of the array; the redistributions the constructor asks for are modelled as the maps it requests (`sdTarget`, `sdAdjust`), the data movement is `redistribute_` (Model/Dist).  `match_tiles` is not modelled.  `while 1 < num_after_diag < 2` (tiling.py:692) tests an integer and never runs; it is left out.
-/
namespace Heat

/-- `lshape_map[..., split].cumsum()[r - 1]`: the rows before process `r`. -/
def sdCum (L : List Nat) (r : Nat) : Nat := (L.take r).sum

/-- `torch.where(cumsum >= k)[0][0]` (tiling.py:677); no such process: the code raises, here `L.length`. -/
def sdFirst (L : List Nat) (k : Nat) : Nat := ((List.range L.length).find? fun p => decide (k ≤ sdCum L (p + 1))).getD L.length

/-- The minimal change `d` of the first redistribution (tiling.py:433). -/
def sdD (T : Nat) : Nat := if T ≤ 2 then 1 else T - 1

/-- The map asked for by the first redistribution (tiling.py:434-441), or the map itself when none is asked for.  `arr.gshape[arr.split - 1]` is the extent of the other axis. -/
def sdTarget (L : List Nat) (m n T split : Nat) : List Int :=
  let other := if split = 0 then n else m
  match (List.range L.length).find? fun p => decide ((other : Int) - sdD T ≤ sdCum L (p + 1)) with
  | none => L.map Int.ofNat
  | some p => if n < m ∧ p ≠ L.length - 1 then
      ((L.map Int.ofNat).modify p (· + sdD T)).modify (p + 1) (· - sdD T)
    else L.map Int.ofNat

/-- `diag_crossings[r]` (tiling.py:707-712), for `r ≤ last_dia_pr + 1`. -/
def sdCross (L : List Nat) (m n r : Nat) : Nat :=
  if r = sdFirst L (min m n) + 1 then (if sdCum L r ≤ min m n then sdCum L r else min m n) else sdCum L r

/-- The size of tile column `col` (tiling.py:715-727). -/
def sdColSize (L : List Nat) (m n T col : Nat) : Int :=
  let x := sdCross L m n (col / T + 1) - sdCross L m n (col / T)
  (((chunkRange x (col % T) T).2 - (chunkRange x (col % T) T).1 : Nat) : Int)

/-- `col_inds` of `__create_cols` (tiling.py:651-728). -/
def sdCols (L : List Nat) (m n T : Nat) : List Int :=
  (List.range (T * sdFirst L (min m n) + T)).map (sdColSize L m n T)

/-- `col_per_proc_list` of `__create_cols` (tiling.py:698-704). -/
def sdColPer (L : List Nat) (m n T split : Nat) : List Nat :=
  let last := sdFirst L (min m n)
  List.replicate (last + 1) T ++ if last < L.length - 1 ∧ split = 1 then List.replicate (L.length - last - 1) 1 else []

/-- `adjust_lshape` (tiling.py:629-633). -/
def sdAdjust1 (cnt : Int) (M : List Int) (pr : Nat) : List Int :=
  if M.getD pr 0 < cnt then (M.set pr cnt).modify (pr + 1) (· - (cnt - M.getD pr 0)) else M

/-- The loop over the negative entries (tiling.py:638-642); the list of negative entries is taken before the loop. -/
def sdNegs (M : List Int) : List Int :=
  ((List.range M.length).filter fun i => decide (M.getD i 0 < 0)).foldl
    (fun A i => (A.set (i - 1) (A.getD (i - 1) 0 + A.getD i 0)).set i 0) M

/-- `__adjust_lshape_sp0_1tile` up to the redistribution (tiling.py:635-643). -/
def sdAdjust (cols : List Int) (L : List Int) : List Int :=
  sdNegs (cols.dropLast.foldl (fun A cnt => (List.range (L.length - 1)).foldl (sdAdjust1 cnt) A) L)

/-- `row_per_proc_list` before the last row is adjusted (tiling.py:443, 461-467). -/
def sdRowPer (L : List Nat) (T : Nat) : List Nat :=
  if T = 1 then L.map fun c => if c = 0 then 0 else 1 else List.replicate L.length T

/-- `__adjust_last_row_sp0_m_ge_n` (tiling.py:593-616): rows and rows per process. -/
def sdLastRow (L : List Nat) (m n T : Nat) (rows : List Int) (per : List Nat) : List Int × List Nat :=
  let last := sdFirst L (min m n)
  let diff : Int := (sdCum L (last + 1) : Int) - n
  if (L.getD last 0 : Int) < 2 * diff then (rows ++ [diff], per.modify last (· + 1)) else (rows.modify (T * last + T - 1) (· + diff), per)

/-- One row at the end (tiling.py:740-744). -/
def sdPush (rows : List Int) (x : Int) : List Int := if rows.getLast? = some 0 then rows.dropLast ++ [x] else rows ++ [x]

/-- The chunks of the processes after the diagonal (tiling.py:735-739). -/
def sdEnds (L : List Nat) (m n T : Nat) : List Int :=
  (List.range (L.length - (sdFirst L (min m n) + 1))).flatMap fun k => (List.range T).map fun t =>
    let c := chunkRange (L.getD (sdFirst L (min m n) + 1 + k) 0) t T
    ((c.2 - c.1 : Nat) : Int)

/-- Rows and rows per process with split 0 (tiling.py:469-487, 500-507). -/
def sdRows0 (L : List Nat) (m n T : Nat) : List Int × List Nat :=
  let a := if sdFirst L (min m n) < L.length - 1 then sdLastRow L m n T (sdCols L m n T) (sdRowPer L T) else (sdCols L m n T, sdRowPer L T)
  let b := if n < m then (sdEnds L m n T).foldl sdPush a.1 else a.1
  (if m < n then b.filter (· ≠ 0) else b, a.2)

/-- `col_inds` with split 0 (tiling.py:473-475). -/
def sdCols0 (L : List Nat) (m n T : Nat) : List Int :=
  if m < n then (sdCols L m n T).dropLast ++ [(n : Int) - (sdCols L m n T).dropLast.sum] else sdCols L m n T

/-- One process of the loop of `__adjust_cols_sp1_m_ls_n` (tiling.py:581-591). -/
def sdColStep (L : List Nat) (last : Nat) (ind : List Nat) (A : List Int × List Nat) (pr : Nat) : List Int × List Nat :=
  let diff : Int := (sdCum L (pr + 1) : Int) - (A.1.take (ind.getD pr 0)).sum
  if 0 < diff then (A.1.insertIdx (min (ind.getD pr 0) A.1.length) diff, if pr ≤ last then A.2.modify pr (· + 1) else A.2) else A

/-- `__adjust_cols_sp1_m_ls_n` (tiling.py:562-591): columns and columns per process. -/
def sdCols1Wide (L : List Nat) (m n T : Nat) : List Int × List Nat :=
  let last := sdFirst L (min m n)
  let per := sdColPer L m n T 1
  let cols := sdCols L m n T ++ (List.range (per.sum - (sdCols L m n T).length)).map fun k => ((L.getD (last + 1 + k) 0 : Nat) : Int)
  (List.range L.length).foldl (sdColStep L last ((List.range L.length).map fun p => (per.take (p + 1)).sum)) (cols, per)

/-- Columns and columns per process with split 1 (tiling.py:489-493). -/
def sdCols1 (L : List Nat) (m n T : Nat) : List Int × List Nat :=
  if m < n then sdCols1Wide L m n T else (sdCols L m n T, sdColPer L m n T 1)

/-- Rows with split 1 (tiling.py:495-507, 748-763). -/
def sdRows1 (L : List Nat) (m n T : Nat) : List Int :=
  let c := sdCols L m n T
  if m < n then c.filter (· ≠ 0)
  else if n < m then (if 10 < m - n then c ++ [((m - n : Nat) : Int)] else c.dropLast ++ [(m : Int) - c.dropLast.sum]) else c

/-- `row_indices + [gshape[0]]` (tiling.py:512-517, 901): the first row of tile row `i`, and the number of rows at the end. -/
def sdBound (S : List Int) (N : Nat) (i : Nat) : Int := if i < S.length then (S.take i).sum else N

/-- The tiles: sizes of the tile rows and tile columns, tile rows (split 0) or columns (split 1) per process, `row_per_proc_list`, shape. -/
structure SDTiles where
  P : Nat
  split : Nat
  rows : List Int
  cols : List Int
  per : List Nat
  rper : List Nat
  m : Nat
  n : Nat

/-- The constructor for a distribution `L` that the redistributions have reached (tiling.py:420-559). -/
def sdMake (L : List Nat) (m n T split : Nat) : SDTiles :=
  if split = 0 then ⟨L.length, 0, (sdRows0 L m n T).1, sdCols0 L m n T, (sdRows0 L m n T).2, (sdRows0 L m n T).2, m, n⟩
  else ⟨L.length, 1, sdRows1 L m n T, (sdCols1 L m n T).1, (sdCols1 L m n T).2, List.replicate L.length T, m, n⟩

/-- The tile of the split axis that a tile is in. -/
def sdAxisTile (A : SDTiles) (i j : Nat) : Nat := if A.split = 0 then i else j

/-- `tile_map[i, j, 2]` (tiling.py:523-536): the process of a tile.  Along the split axis every process has its number of tiles; what is left over goes to the last process (split 0), or keeps the entry of the rows (split 1, tiles beyond `per`). -/
def sdOwner (A : SDTiles) (i j : Nat) : Nat :=
  ((List.range A.P).find? fun p => decide (sdAxisTile A i j < (A.per.take (p + 1)).sum)).getD
    (if A.split = 0 then A.P - 1 else ((List.range A.P).find? fun p => decide (i < (A.rper.take (p + 1)).sum)).getD (A.P - 1))

/-- One entry of a key: a number or a slice of numbers of tiles. -/
inductive SDKey where
  | int (i : Nat)
  | slice (a b : Option Nat)

/-- The tiles `[a, b)` that an entry selects along an axis of `R` tiles. -/
def sdRange (R : Nat) : SDKey → Nat × Nat
  | .int i => (i, i + 1)
  | .slice a b => (a.getD 0, b.elim R fun b => min b R)

/-- The bounds looked up for an entry (tiling.py:916-929): start and stop in rows; `none` is an IndexError. -/
def sdLookup (S : List Int) (N : Nat) : SDKey → Option (Int × Int)
  | .int i => if i + 1 ≤ S.length then some (sdBound S N i, sdBound S N (i + 1)) else none
  | .slice a b => match a, b with
    | none, none => some (0, N)
    | some a, none => if a ≤ S.length then some (sdBound S N a, N) else none
    | none, some b => if b ≤ S.length then some (0, sdBound S N b) else none
    | some a, some b => if a ≤ S.length ∧ b ≤ S.length then some (sdBound S N a, sdBound S N b) else none

/-- `get_start_stop` for process `p` (tiling.py:896-930). -/
def sdStartStop (A : SDTiles) (p : Nat) (k0 k1 : SDKey) : Option ((Int × Int) × (Int × Int)) :=
  match sdLookup A.rows A.m k0, sdLookup A.cols A.n k1 with
  | some r, some c =>
    let r0 := if A.split = 0 then sdBound A.rows A.m (A.per.take p).sum else 0
    let c0 := if A.split = 1 then sdBound A.cols A.n (A.per.take p).sum else 0
    some ((r.1 - r0, r.2 - r0), (c.1 - c0, c.2 - c0))
  | _, _ => none

/-- `tile_map[key][..., 2]`: the processes of the selected tiles. -/
def sdInvolved (A : SDTiles) (k0 k1 : SDKey) : List Nat :=
  let r := sdRange A.rows.length k0
  let c := sdRange A.cols.length k1
  (List.range (r.2 - r.1)).flatMap fun i => (List.range (c.2 - c.1)).map fun j => sdOwner A (r.1 + i) (c.1 + j)

/-- Result of `__getitem__` on a process. -/
inductive SDGot where
  | block (rows cols : Int × Int)
  | nothing
  | valueError
  | indexError
  deriving DecidableEq

/-- `__getitem__` on process `me` (tiling.py:967-977): the local slice that is returned. -/
def sdGet (A : SDTiles) (me : Nat) (k0 k1 : SDKey) : SDGot :=
  match sdInvolved A k0 k1 with
  | [] => .nothing
  | q :: ps =>
    if ps.all (· == q) then
      if q = me then
        match sdStartStop A me k0 k1 with
        | some s => .block s.1 s.2
        | none => .indexError
      else .nothing
    else .valueError

/-- `__setitem__` on process `me` (tiling.py:1288-1296): `arr` is a view, writing to it changes the local data `loc`. -/
def sdSet {α : Type _} (A : SDTiles) (me : Nat) (k0 k1 : SDKey) (v : α) (loc : Int → Int → α) : Int → Int → α :=
  match sdGet A me k0 k1 with
  | .block r c => fun a b => if r.1 ≤ a ∧ a < r.2 ∧ c.1 ≤ b ∧ b < c.2 then v else loc a b
  | _ => loc

/-- `local_to_global` for an entry along the split axis (tiling.py:1098-1109 and 1115-1123). -/
def sdToGlobal (A : SDTiles) (rank : Nat) : SDKey → SDKey
  | .int i => .int (i + (A.per.take rank).sum)
  | .slice a b =>
    let prev := (A.per.take rank).sum
    let loc := A.per.getD rank 0
    let start := (a.map (· + prev)).getD prev
    let stop := (b.map (· + prev)).getD (prev + loc)
    .slice (some start) (some (if (stop : Int) - start < loc then stop else start + loc))

/-- `local_get` on process `me` (tiling.py:979-997). -/
def sdLocalGet (A : SDTiles) (me : Nat) (k0 k1 : SDKey) : SDGot :=
  if A.split = 0 then sdGet A me (sdToGlobal A me k0) k1 else sdGet A me k0 (sdToGlobal A me k1)

end Heat
