/-!
# Sparse matrices

A matrix is the list of its rows (columns for the column-oriented class), a row the list of its stored entries (position, value).
-/
namespace Heat.Spec
variable {α : Type}

/-- A compressed matrix: where the rows begin and end, the positions and the values of the entries. -/
structure Csr (α : Type) where
  indptr : List Nat
  indices : List Nat
  data : List α
  deriving DecidableEq, Repr

/-- Beginnings of the rows, and the end of the last one, counted from `k`. -/
def rowEnds {β : Type} (k : Nat) : List (List β) → List Nat
  | [] => [k]
  | r :: rs => k :: rowEnds (k + r.length) rs

/-- The compressed form of a matrix. -/
def csrOf (rows : List (List (Nat × α))) : Csr α := ⟨rowEnds 0 rows, rows.flatten.map Prod.fst, rows.flatten.map Prod.snd⟩

/-- A row of `n` elements written out: the sum of the entries of every position. -/
def denseRow (n : Nat) (row : List (Nat × Int)) : List Int := (List.range n).map fun j => ((row.filter fun e => e.1 == j).map Prod.snd).sum

/-- The number of stored entries. -/
def nnz (rows : List (List (Nat × α))) : Nat := rows.flatten.length

end Heat.Spec
