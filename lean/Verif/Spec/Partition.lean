import Verif.Spec.Datatype
/-!
# Specification vocabulary: tilings of an array by blocks
-/
namespace Heat.Spec

/-- The multi-index lies in the block with the given start and extents. -/
def InTile (start shape idx : List Nat) : Prop :=
  start.length = idx.length ∧ shape.length = idx.length ∧ ∀ k < idx.length, start.getD k 0 ≤ idx.getD k 0 ∧ idx.getD k 0 < start.getD k 0 + shape.getD k 0

/-- The blocks tile the array of extents `gshape`: every position of the array is in exactly one block, and blocks contain nothing else. -/
def Tiles (gshape : List Nat) (tiles : List (List Nat × List Nat)) : Prop :=
  (∀ idx ∈ indices gshape, ∃ i, ∃ h : i < tiles.length, InTile tiles[i].1 tiles[i].2 idx ∧
    ∀ j, ∀ h : j < tiles.length, InTile tiles[j].1 tiles[j].2 idx → j = i) ∧
  ∀ t ∈ tiles, ∀ idx, InTile t.1 t.2 idx → idx ∈ indices gshape

end Heat.Spec
