import Verif.Model.BinaryOp
import Verif.Model.Concat
/-!
# Combining one-dimensional arrays: hstack, vstack, row_stack, column_stack, and hsplit
(heat/core/manipulations.py:428-443, 1298-1306, 1347-1358, 3326-3373, 4054-4068, 4143-4148)

Operands are one-dimensional arrays (`Opnd`), replicated or split along axis 0, on `P ≥ 2` processes; a two-dimensional array is the list of its rows.  Element types are
not modelled.
-/
namespace Heat
variable {α : Type}

/-- The operand as `concatenate` along axis 0 sees it. -/
def Opnd.cat (a : Opnd α) : CatArr α := if a.dist then .along a.loc else .rep (a.loc 0)

/-- `arr.expand_dims(0).resplit_(arr.split)` (manipulations.py:4146): one row; if `arr` is split, the array of extent 1 along axis 0 is split along axis 0, every process getting
its chunk of the single row (C12). -/
def rowOf (P : Nat) (a : Opnd α) : CatArr (List α) :=
  if a.dist then .along fun r => ([Spec.content P a.loc].take (chunkRange 1 r P).2).drop (chunkRange 1 r P).1 else .rep [a.loc 0]

/-- `concatenate` along axis 0 of two-dimensional arrays with their numbers of columns, one after the other (manipulations.py:520-543, and C61): different numbers of columns
are a ValueError. -/
def rowsMore (P : Nat) (acc : Except Err (Nat × CatArr (List α))) (x : Nat × CatArr (List α)) : Except Err (Nat × CatArr (List α)) :=
  match acc with
  | .error e => .error e
  | .ok (w, a) =>
    if w ≠ x.1 then .error .valueError
    else match concat2 P [0, w] 0 a x.2 with
      | .error e => .error e
      | .ok c => .ok (w, c)

/-- All arrays; fewer than two are a ValueError (manipulations.py:520-528). -/
def rowsConcat (P : Nat) : List (Nat × CatArr (List α)) → Except Err (Nat × CatArr (List α))
  | a :: b :: rest => (b :: rest).foldl (rowsMore P) (.ok a)
  | _ => .error .valueError

/-- `vstack(arrays)` of vectors (manipulations.py:4143-4148): the number of columns and the rows. -/
def vstack (P : Nat) (ops : List (Opnd α)) : Except Err (Nat × CatArr (List α)) := rowsConcat P (ops.map fun a => (a.n, rowOf P a))

/-- An operand of `row_stack`: a vector, or a matrix with `w` columns, replicated or split along axis 0. -/
inductive RowOpnd (α : Type) where
  | vec (a : Opnd α)
  | mat (w : Nat) (rows : CatArr (List α))

/-- `reshape((1, size))` of a vector (manipulations.py:4066; the result is split along axis 0 if the vector is, C41), a matrix as it is. -/
def RowOpnd.rows (P : Nat) : RowOpnd α → Nat × CatArr (List α)
  | .vec a => (a.n, rowOf P a)
  | .mat w m => (w, m)

/-- `row_stack(arrays)` if not all arrays are vectors (manipulations.py:4060-4068). -/
def rowStackMixed (P : Nat) (ops : List (RowOpnd α)) : Except Err (Nat × CatArr (List α)) := rowsConcat P (ops.map (RowOpnd.rows P))

/-- `concatenate` along axis 1 of two matrices that are replicated or split along axis 0 (manipulations.py:563-600). -/
def concatAcross (P : Nat) (a b : CatArr (List α)) : Except Err (CatArr (List α)) :=
  if a.len P ≠ b.len P then .error .valueError
  else
    let res : Nat → Except Err (List (List α)) := match a, b with
      | .rep l, .rep l' => fun _ => catRows l l'
      | .along d, .along d' => catLocalSplit d d'
      | .rep l, .along d' => catSliceLeft P l d'
      | .along d, .rep l' => catSliceRight P d l'
    if (List.range P).any fun r => isErr (res r) then .error .runtimeError
    else match a, b with
      | .rep _, .rep _ => .ok (.rep (okOr [] (res 0)))
      | _, _ => .ok (.along fun r => okOr [] (res r))

/-- One more matrix. -/
def acrossMore (P : Nat) (acc : Except Err (CatArr (List α))) (x : CatArr (List α)) : Except Err (CatArr (List α)) :=
  match acc with
  | .error e => .error e
  | .ok c => concatAcross P c x

/-- The elements of an operand, one by one changed. -/
def CatArr.mapEl {β : Type} (f : α → β) : CatArr α → CatArr β
  | .rep l => .rep (l.map f)
  | .along d => .along fun r => (d r).map f

/-- Result of `hstack`: a vector or the rows of a matrix. -/
inductive HStackRes (α : Type) where
  | vec (a : CatArr α)
  | mat (rows : CatArr (List α))

/-- `hstack(arrays)` of vectors (manipulations.py:1347-1358): two vectors are concatenated; otherwise each becomes a column and the columns are concatenated along
axis 1. -/
def hstack (P : Nat) : List (Opnd α) → Except Err (HStackRes α)
  | [a, b] => match concat2 P [0] 0 a.cat b.cat with
    | .error e => .error e
    | .ok c => .ok (.vec c)
  | a :: b :: rest => match (b :: rest).foldl (fun acc x => acrossMore P acc (x.cat.mapEl fun v => [v])) (.ok (a.cat.mapEl fun v => [v])) with
    | .error e => .error e
    | .ok c => .ok (.mat c)
  | _ => .error .valueError

/-- The operands of `stack` aligned with the first one (manipulations.py:3330-3337, sanitation.py:93-156); a split operand next to a first operand that is not split is a
ValueError. -/
def stackAlign (fuel P : Nat) (t : Opnd α) (a : Opnd α) : Except Err (Nat → List α) :=
  if !t.dist then (if a.dist then .error .valueError else .ok a.loc)
  else sanitizeDist fuel P (fun r => ((t.loc r).length : Int)) t.n (t.isBalanced P) a

/-- `torch.stack` of vectors (manipulations.py:3351-3357): equal lengths, otherwise a ValueError.  The rows of the result are the vectors. -/
def torchStackRows (ls : List (List α)) : Except Err (List (List α)) :=
  match ls with
  | [] => .error .runtimeError
  | l :: rest => if rest.all fun l' => l'.length == l.length then .ok (l :: rest) else .error .valueError

/-- `torch.stack(dim=1)`: the columns of the result are the vectors. -/
def torchStackCols [Inhabited α] (ls : List (List α)) : Except Err (List (List α)) :=
  match torchStackRows ls with
  | .error e => .error e
  | .ok ls => .ok ((List.range (ls.headD []).length).map fun i => ls.map fun l => l.getD i default)

/-- `row_stack` of vectors, `stack(arrays, axis=0)` (manipulations.py:4057-4059, 3326-3373): the local rows of every process; the result is split along axis 1 if the first
vector is split. -/
def rowStack (fuel P : Nat) (ops : List (Opnd α)) : Except Err (Nat → Except Err (List (List α))) :=
  match ops with
  | t :: _ :: _ => match ops.mapM (stackAlign fuel P t) with
    | .error e => .error e
    | .ok ls => .ok fun r => torchStackRows (ls.map fun l => l r)
  | _ => .error .valueError

/-- `column_stack` of vectors, `stack(arrays, axis=1)` (manipulations.py:431-433, 3326-3373): the local rows of every process, split along axis 0 if the first vector is. -/
def columnStack [Inhabited α] (fuel P : Nat) (ops : List (Opnd α)) : Except Err (Nat → Except Err (List (List α))) :=
  match ops with
  | t :: _ :: _ => match ops.mapM (stackAlign fuel P t) with
    | .error e => .error e
    | .ok ls => .ok fun r => torchStackCols (ls.map fun l => l r)
  | _ => .error .valueError

/-- First step of `hsplit(x, ...)` of a vector on process `r` (manipulations.py:1299-1300): `reshape(x, (1, x.lshape[0]))` with the local length; numpy refuses a shape with
another number of elements (2196). -/
def hsplitShape (a : Opnd α) (r : Nat) : Except Err (List Nat) :=
  let shape := [1, (a.loc r).length]
  if shape.prod ≠ a.n then .error .valueError else .ok shape

end Heat
