import Verif.Model.Chunk
/-!
# Printing of distributed arrays (heat/core/printing.py)

Printing handles the axes one after the other, so the model treats one axis: `xs` is the list of the slabs of the array along that axis (for a tensor, the global indices along it), and what reaches torch's printing code on rank 0 is a list of slabs.
-/
namespace Heat

/-- The slabs of `xs` on process `r` of `P` (after `balance_`, printing.py:229-230). -/
def prChunk {α : Type _} (xs : List α) (P r : Nat) : List α :=
  (xs.drop (chunkRange xs.length r P).1).take ((chunkRange xs.length r P).2 - (chunkRange xs.length r P).1)

/-- What a process keeps along the split axis (printing.py:265-283); `n` is the global extent, `e` is `edgeitems`. -/
def prLocal {α : Type _} (e n offset : Nat) (data : List α) : List α :=
  if offset < e + 1 then data.take (min data.length (e + 1 - offset))
  else if (n : Int) - e < (offset : Int) - data.length then data.drop (max 0 ((n : Int) - e - offset)).toNat
  else data

/-- What rank 0 receives (`Gatherv` along the split axis, printing.py:285-298). -/
def prGather {α : Type _} (e : Nat) (xs : List α) (P : Nat) : List α :=
  (List.range P).flatMap fun r => prLocal e xs.length (chunkRange xs.length r P).1 (prChunk xs P r)

/-- The split axis in the summarized branch (printing.py:243-247, 265-298): short axes are not cut. -/
def prSplitAxis {α : Type _} (e : Nat) (xs : List α) (P : Nat) : List α :=
  if xs.length ≤ 2 * e then (List.range P).flatMap fun r => prChunk xs P r else prGather e xs P

/-- Any other axis in the summarized branch (printing.py:243-263). -/
def prOtherAxis {α : Type _} (e : Nat) (xs : List α) : List α :=
  if xs.length ≤ 2 * e then xs else xs.take (e + 1) ++ xs.drop (xs.length - e)

end Heat
