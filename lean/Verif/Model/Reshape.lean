import Verif.Model.ND
import Verif.Model.Dist
/-!
# reshape (heat/core/manipulations.py:2093-2295)
-/
namespace Heat
variable {α : Type}

/-- A tensor of the given shape made from its elements in row-major order. -/
def NArr.ofFlat [Inhabited α] (shape : List Nat) (l : List α) : NArr α :=
  ⟨shape.length, fun k => shape.getD k 0, fun idx =>
    l.getD (Spec.dot ((List.range shape.length).map idx) (Spec.cStrides shape)) default⟩

/-- `tensor.reshape(shape)` (torch): row-major order is kept. -/
def NArr.reshape [Inhabited α] (a : NArr α) (shape : List Nat) : NArr α := .ofFlat shape a.flat

/-- `tensor[..., start:start+len, ...]` along axis `ax`. -/
def NArr.slice (a : NArr α) (ax start len : Nat) : NArr α :=
  ⟨a.ndim, fun k => if k = ax then len else a.dim k, fun idx => a.get (Spec.shift ax start idx)⟩

/-- `x.resplit_(axis)` (heat/core/dndarray.py:1536-1639): nothing if `x` is split along `axis` already, otherwise every rank obtains its
canonical chunk along `axis`.  The communication is the subject of C13 and C58; here only its effect is used. -/
def resplitTo (P : Nat) (x : DND α) (ax : Nat) : DND α :=
  if x.split = some ax then x
  else
    let w := resplitNone P x
    let n := x.gshape.getD ax 0
    ⟨x.gshape, some ax, fun r => (w.loc r).slice ax (chunkRange n r P).1 ((chunkRange n r P).2 - (chunkRange n r P).1), some true⟩

/-- Local shape of rank `r` of an array of the given shape split along axis 0 (`comm.chunk(shape, 0, rank=r)`, manipulations.py:2271);
the whole shape for a 0-d array. -/
def chunk0 (shape : List Nat) (r P : Nat) : List Nat :=
  match chunk shape (some 0) r P with
  | .ok c => c.lshape
  | .error _ => []

/-- The argument after `a.resplit_(axis=0)` (manipulations.py:2203-2204). -/
def reshapeArg (P : Nat) (x : DND α) : DND α :=
  match x.split with
  | none => x
  | some _ => resplitTo P x 0

/-- `new_split` (manipulations.py:2209-2216). -/
def reshapeSplit (newSplit : Option Int) (orig : Option Nat) (newDims oldDims : Nat) : Option Int :=
  match newSplit with
  | some v => some v
  | none => match orig with
    | none => none
    | some s => if newDims ≠ oldDims then some 0 else some (s : Int)

/-- `reshape(a, shape, new_split=...)` (manipulations.py:2175-2295), the shape being the one resolved by numpy (2196; a wrong number of elements
is numpy's ValueError).  Returns the result, and the argument as the caller sees it afterwards: `a.resplit_(axis=0)` (2204) works in
place.  `fuel` bounds the recursion depth of `redistribute_`. -/
def reshape [Inhabited α] (fuel P : Nat) (x : DND α) (shape : List Nat) (newSplit : Option Int) : Except Err (DND α × DND α) :=
  if shape.prod ≠ x.gshape.prod then .error .valueError
  else
    let a := reshapeArg P x
    match sanitizeAxis shape.length (reshapeSplit newSplit x.split shape.length a.gshape.length) with
    | .error e => .error e
    | .ok ns =>
      if a.split = none ∨ P ≤ 1 then
        let loc := fun r =>
          let t := (a.loc r).reshape shape
          match ns with
          | none => t
          | some s => if 1 < P then
              t.slice s (chunkRange (shape.getD s 0) r P).1 ((chunkRange (shape.getD s 0) r P).2 - (chunkRange (shape.getD s 0) r P).1)
            else t
        .ok (⟨shape, ns, loc, some true⟩, a)
      else
        let flat := fun r => (a.loc r).flat
        let total := ((List.range P).map fun r => (flat r).length).sum
        let target := fun r => (chunk0 shape r P).prod
        let moved := if (List.range P).all fun r => target r == (flat r).length then Except.ok flat
          else redistribute fuel total P (some fun r => ((target r : Nat) : Int)) flat
        match moved with
        | .error e => .error e
        | .ok f =>
          let fin : DND α := ⟨shape, some 0, fun r => .ofFlat (chunk0 shape r P) (f r), none⟩
          .ok (match ns with
            | none => resplitNone P fin
            | some s => resplitTo P fin s, a)

end Heat
