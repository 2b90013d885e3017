import Verif.Model.Basic
import Verif.Model.Chunk
import Verif.Model.Mpi
import Verif.Spec.Csv
/-!
# `load_csv(path, split=0)` (heat/core/io.py:1064-1169)

The file is a list of bytes (10 line feed, 13 carriage return), the separator a single byte.  A row is the list of its cells as bytes; decoding and `float` are not modelled.
The final `balance_` (1169) is C09.
-/
namespace Heat

/-- `l[lo:hi]` for non-negative bounds. -/
def bytesOf (l : List Nat) (lo hi : Nat) : List Nat := (l.take hi).drop lo

/-- `f.seek(displs[rank]); r = f.read(counts[rank])` (io.py:1065-1072). -/
def csvChunk (bytes : List Nat) (P r : Nat) : List Nat := bytesOf bytes (chunkRange bytes.length r P).1 (chunkRange bytes.length r P).2

/-- What position `pos` of the chunk adds to `line_starts` (io.py:1073-1084); `r[pos - 1]` is the last byte for `pos = 0`. -/
def startsAt (c : List Nat) (pos : Nat) : List Nat :=
  if c.getD pos 0 = 10 then
    if c.getD (if pos = 0 then c.length - 1 else pos - 1) 0 ≠ 13 then [pos + 1] else []
  else if c.getD pos 0 = 13 then
    if pos + 1 < c.length ∧ c.getD (pos + 1) 0 = 10 then [pos + 2] else [pos + 1]
  else []

/-- `line_starts` before the header is skipped (io.py:1071-1087). -/
def lineStarts (bytes : List Nat) (P r : Nat) : List Nat :=
  (if r = 0 then [0] else []) ++ (List.range (csvChunk bytes P r).length).flatMap (startsAt (csvChunk bytes P r))

/-- Does position `pos` hold a carriage return followed by a line feed within the chunk? (io.py:1078-1082) -/
def crlfAt (c : List Nat) (pos : Nat) : Bool := c.getD pos 0 == 13 && decide (pos + 1 < c.length) && c.getD (pos + 1) 0 == 10

/-- `lineter_len` (io.py:1067, 1082). -/
def lineterLen (c : List Nat) : Nat := if (List.range c.length).any (crlfAt c) then 2 else 1

/-- Number of line starts of the ranks before `r` (`cumsum[r - 1]`, io.py:1093). -/
def startsBefore (bytes : List Nat) (P r : Nat) : Nat := ((List.range r).map fun q => (lineStarts bytes P q).length).sum

/-- `start = next(i for i in range(size) if cumsum[i] > header_lines)` (io.py:1094). -/
def firstRank (bytes : List Nat) (P header : Nat) : Option Nat := (List.range P).find? fun i => decide (header < startsBefore bytes P (i + 1))

/-- `line_starts` after the header is skipped (io.py:1095-1099). -/
def keptStarts (bytes : List Nat) (P header start r : Nat) : List Nat :=
  if r < start then [] else if r = start then (lineStarts bytes P r).drop (header - startsBefore bytes P start) else lineStarts bytes P r

/-- `columns` of one rank (io.py:1102-1108): the separators between its first two line starts, plus one. -/
def rankColumns (c : List Nat) (sep : Nat) : List Nat → Nat
  | s :: t :: _ => 1 + (bytesOf c s t).count sep
  | _ => 0

/-- `comm.Allreduce(MPI.IN_PLACE, columns, MPI.MAX)` (io.py:1110-1111). -/
def csvColumns (bytes : List Nat) (P header sep start : Nat) : Nat :=
  ((List.range P).map fun r => rankColumns (csvChunk bytes P r) sep (keptStarts bytes P header start r)).foldl max 0

/-- `last_line` (io.py:1114-1128): one before the first line start of the next rank, the end of the file on the last rank and on ranks that do not take part.
`none` if the next rank has no line start (`line_starts[0]` raises there). -/
def lastLine (bytes : List Nat) (P header start r : Nat) : Option Nat :=
  if start ≤ r ∧ r + 1 < P then (keptStarts bytes P header start (r + 1)).head?.map fun s => (chunkRange bytes.length (r + 1) P).1 + s - 1 else some bytes.length

/-- The lines of a rank (io.py:1137-1142). -/
def rankLines (bytes c : List Nat) (displ ter last : Nat) : List Nat → List (List Nat)
  | [] => []
  | [s] => [bytesOf bytes (displ + s) last]
  | s :: t :: rest => bytesOf c s (t - ter) :: rankLines bytes c displ ter last (t :: rest)

/-- `local_tensor[actual_length] = torch.tensor(sep_values)` (io.py:1147): a row with one value is broadcast, another number of values raises. -/
def fitRow (columns : Nat) (cells : List (List Nat)) : Option (List (List Nat)) :=
  if cells.length = columns then some cells
  else match cells with
    | [x] => some (List.replicate columns x)
    | _ => none

/-- The rows of rank `r` (io.py:1137-1151); a rank after the first one without line start raises in `line_starts[0]` (1121, 1125). -/
def rankRows (bytes : List Nat) (P header sep start r : Nat) : Option (List (List (List Nat))) :=
  if start < r ∧ keptStarts bytes P header start r = [] then none else
  (lastLine bytes P header start r).bind fun last =>
    ((rankLines bytes (csvChunk bytes P r) (chunkRange bytes.length r P).1 (lineterLen (csvChunk bytes P r)) last (keptStarts bytes P header start r)).filter
      fun l => !l.isEmpty).mapM fun l => fitRow (csvColumns bytes P header sep start) (Spec.cutBytes sep l)

/-- `load_csv(path, header_lines, sep, split=0)`: the number of columns and the rows of every rank; `none` if the header has more lines than the file (`StopIteration` on
every rank); the rows of a rank are `none` if an error is raised on it or on the rank it waits for. -/
def loadCsv (bytes : List Nat) (P header sep : Nat) : Option (Nat × (Nat → Option (List (List (List Nat))))) :=
  (firstRank bytes P header).map fun start => (csvColumns bytes P header sep start, rankRows bytes P header sep start)

/-- `comm.Send(first_line, dest=rank - 1)` (io.py:1121-1122, 1125-1126); the state of a rank is `(first_line, last_line)`. -/
def csvSend (r : Nat) : BOp (Nat × Nat) Nat := .send (r - 1) 0 Prod.fst id

/-- `comm.Recv(last_line, source=rank + 1)` (io.py:1117, 1127). -/
def csvRecv (r : Nat) : BOp (Nat × Nat) Nat := .recv (r + 1) 0 fun m s => (s.1, m)

/-- The messages of rank `r` of `P`, the first one concerned being `start` (io.py:1114-1128). -/
def csvMessages (P start r : Nat) : List (BOp (Nat × Nat) Nat) :=
  if 1 < P - start then
    if r = start then [csvRecv r]
    else if r + 1 = P then [csvSend r]
    else if start < r ∧ r + 1 < P then [csvSend r, csvRecv r]
    else []
  else []

/-- The ranks before they share where their last lines end: `last_line = file_size` (io.py:1114). -/
def csvShare (P start size : Nat) (first : Nat → Nat) : BState (Nat × Nat) Nat :=
  { prog := csvMessages P start, loc := fun r => (first r, size), chan := fun _ _ _ => [] }

end Heat
