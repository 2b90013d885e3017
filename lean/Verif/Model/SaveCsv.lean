import Mathlib.Data.Nat.Digits.Defs
import Mathlib.Data.Nat.Log
import Mathlib.Algebra.Order.Round
import Mathlib.Data.Rat.Floor
import Verif.Model.Basic
/-!
# `save_csv` (heat/core/io.py:1194-1325)

A file is the list of its bytes; a text is a list of code points and `enc` its encoding.  Tables are lists of rows; a one-dimensional array is a table with
one column (io.py:1280-1282, 1294-1296 treat it like that).  `MPI.File` is a library: `Write_at` overwrites bytes at an offset, a hole before it is filled with
zeros.
-/
namespace Heat
variable {β : Type}

/-- `Write_at(offset, bytes)`. -/
def fileWrite (file : List Nat) (off : Nat) (bs : List Nat) : List Nat :=
  if bs = [] then file
  else (file ++ List.replicate (off - file.length) 0).take off ++ bs ++ file.drop (off + bs.length)

/-- All writes of all ranks in the order in which they reach the file. -/
def applyWrites (ws : List (Nat × List Nat)) (file : List Nat) : List Nat := ws.foldl (fun f w => fileWrite f w.1 w.2) file

/-- A header line as it is written (io.py:1248-1250): with a line feed at the end. -/
def headerLine (hl : List Nat) : List Nat := if hl.getLast? = some 10 then hl else hl ++ [10]

/-- `hl_displacement` (io.py:1245-1250): the number of characters of the header. -/
def headerDispl (lines : List (List Nat)) : Nat := (lines.map fun hl => (headerLine hl).length).sum

/-- The `Write` calls of rank 0 for the header (io.py:1251-1252): one after the other from the beginning of the file. -/
def headerWrites (enc : Nat → List Nat) (pos : Nat) : List (List Nat) → List (Nat × List Nat)
  | [] => []
  | hl :: t => (pos, (headerLine hl).flatMap enc) :: headerWrites enc (pos + ((headerLine hl).flatMap enc).length) t

/-- `sep.join(fmt % item for item in row)` (io.py:1300). -/
def joinItems (sep : List Nat) : List (List Nat) → List Nat
  | [] => []
  | [x] => x
  | x :: y :: t => x ++ sep ++ joinItems sep (y :: t)

/-- The text of a local row (io.py:1294-1309): `last` says whether the row ends here (line feed) or goes on at the next rank (separator). -/
def rowText (fmt : β → List Nat) (sep : List Nat) (last : Bool) (row : List β) : List Nat :=
  joinItems sep (row.map fmt) ++ (if last then [10] else sep)

/-- The `Write_at` calls of rank `r` (io.py:1284-1315).  `split` as in the code; `loc r` are the local rows; `displs r` is `counts_displs()[1][r]`;
`cols`: number of columns; `lcols r`: local number of columns (equal to `cols` unless `split = 1`). -/
def csvWrites (fmt : β → List Nat) (sep : List Nat) (itemSize hl : Nat) (split : Option Nat) (cols : Nat) (lcols displs : Nat → Nat) (loc : Nat → List (List β))
    (r : Nat) : List (Nat × List Nat) :=
  let rowWidth := cols * (itemSize + 1)
  let offset := match split with
    | none => hl
    | some 0 => hl + displs r * rowWidth
    | some _ => hl + displs r * (itemSize + 1)
  let last := match split with
    | none => true
    | some 0 => true
    | some _ => decide (displs r + lcols r = cols)
  if lcols r = 0 then []
  else if split = none ∧ r ≠ 0 then []
  else (List.range (loc r).length).map fun i => (offset + i * rowWidth, rowText fmt sep last ((loc r).getD i []))

/-- All writes of a `save_csv` on `P` ranks, rank by rank. -/
def saveCsvWrites (enc : Nat → List Nat) (lines : List (List Nat)) (fmt : β → List Nat) (sep : List Nat) (itemSize : Nat) (split : Option Nat) (cols : Nat)
    (lcols displs : Nat → Nat) (P : Nat) (loc : Nat → List (List β)) : List (Nat × List Nat) :=
  headerWrites enc 0 lines ++ (List.range P).flatMap (csvWrites fmt sep itemSize (headerDispl lines) split cols lcols displs loc)

/-! ## Formatting -/

/-- Decimal digits of a natural number. -/
def decText (n : Nat) : List Nat := if n = 0 then [48] else ((Nat.digits 10 n).reverse.map (48 + ·))

/-- Right-justified in a field of `w` characters (C's `%wd`). -/
def padLeft (w : Nat) (t : List Nat) : List Nat := List.replicate (w - t.length) 32 ++ t

/-- `pre_point_digits` for integers with largest absolute value `m` (io.py:1257-1261), with an exact `log10` (`int(log10(m)) + 1`). -/
def prePointInt (m : Nat) : Nat := if m > 0 then Nat.log 10 m + 1 else 1

/-- `sign` (io.py:1256). -/
def csvSign (min : Bool) : Nat := if min then 1 else 0

/-- `fmt % x` for integers (io.py:1266-1271): `%{pre_point_digits + sign}d`. -/
def fmtInt (lo hi : Int) (x : Int) : List Nat :=
  padLeft (prePointInt (max hi.natAbs lo.natAbs) + csvSign (decide (lo < 0))) ((if x < 0 then [45] else []) ++ decText x.natAbs)

/-- `item_size` for integers (io.py:1279 with `decimals = 0`, `dec_sep = 0`). -/
def itemSizeInt (lo hi : Int) : Nat := 0 + 0 + csvSign (decide (lo < 0)) + prePointInt (max hi.natAbs lo.natAbs)

/-- Nearest integer, ties to even (the rounding of `%.nf`). -/
def roundEven (q : Rat) : Nat :=
  let f := ⌊q⌋.toNat
  if q - (f : Rat) < 1 / 2 then f else if 1 / 2 < q - (f : Rat) then f + 1 else if f % 2 = 0 then f else f + 1

/-- `%.{dec}f` of a number (Python: the exact value is rounded). -/
def fixedText (dec : Nat) (x : Rat) : List Nat :=
  let n := roundEven (|x| * 10 ^ dec)
  (if x < 0 then [45] else []) ++ decText (n / 10 ^ dec) ++ (if dec = 0 then [] else [46] ++ List.replicate (dec - (decText (n % 10 ^ dec)).length) 48 ++ decText (n % 10 ^ dec))

/-- `pre_point_digits` for floats with largest absolute value `m` (io.py:1257-1261) with an exact `log10`: `int` cuts towards zero, so that it is
`1 - floor(log10(1/m))` for `m < 1`. -/
def prePointFloat (m : Rat) : Int :=
  if m > 0 then (if 1 ≤ m then (Nat.log 10 ⌊m⌋.toNat : Int) + 1 else 1 - (Nat.log 10 ⌊1 / m⌋.toNat : Int)) else 1

/-- `fmt % x` for floats (io.py:1272-1276): `%{pre_point_digits + decimals + 1 + sign}.{decimals}f`. -/
def fmtFloat (dec : Nat) (lo hi x : Rat) : List Nat :=
  padLeft (prePointFloat (max |hi| |lo|) + dec + 1 + csvSign (decide (lo < 0))).toNat (fixedText dec x)

/-- `item_size` for floats (io.py:1279). -/
def itemSizeFloat (dec : Nat) (lo hi : Rat) : Int := dec + 1 + csvSign (decide (lo < 0)) + prePointFloat (max |hi| |lo|)

end Heat
