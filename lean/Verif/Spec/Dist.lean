/-!
# Specification vocabulary: distributions along the split axis

An array that is distributed along its split axis over `P` processes is the list of its local
parts, one list of slabs per rank (rank order).  A slab (an (n-1)-dimensional sub-array) is a value of
an arbitrary type `α`.  What a user calls "the array" is the concatenation of the parts.
-/
namespace Heat.Spec

/-- The global array, given the local parts in rank order. -/
def glob {α : Type} (parts : List (List α)) : List α := parts.flatten

/-- Local sizes along the split axis, in rank order. -/
def sizes {α : Type} (parts : List (List α)) : List Nat := parts.map List.length

/-- Number of slabs held by the ranks before `r`: the global index of the first slab of rank `r`. -/
def before (counts : List Nat) (r : Nat) : Nat := (counts.take r).sum

/-- The canonical ("as even as possible") size of rank `r`'s part of `n` slabs on `P` ranks:
the first `n % P` ranks get one more slab than the others. -/
def evenSize (n P r : Nat) : Nat := n / P + (if r < n % P then 1 else 0)

/-- The canonical local sizes, in rank order. -/
def evenSizes (n P : Nat) : List Nat := (List.range P).map (evenSize n P)

/-- The parts have the canonical sizes. -/
def Even {α : Type} (parts : List (List α)) : Prop :=
  sizes parts = evenSizes (glob parts).length parts.length

end Heat.Spec

namespace Heat.Spec

/-- The global array of a distribution given as a function from ranks to local lists: the local lists of
ranks `0, ..., P-1` one after the other. -/
def content {α : Type} (P : Nat) (parts : Nat → List α) : List α := (List.range P).flatMap parts

/-- Global index of the first slab of rank `r`: the number of slabs on lower ranks. -/
def startOf {α : Type} (parts : Nat → List α) (r : Nat) : Nat := (content r parts).length

/-- Every rank has the canonical share of the array. -/
def Balanced {α : Type} (P : Nat) (parts : Nat → List α) : Prop :=
  ∀ r < P, (parts r).length = evenSize (content P parts).length P r

end Heat.Spec
