import Verif.Model.Matmul
import Verif.Model.LinAlg
/-!
# `matmul` with vectors (heat/core/linalg/basics.py:604-905)

A vector is expanded to a matrix with one row (left operand) or one column (right operand), multiplied like a matrix and the extent 1 removed again; two vectors are
multiplied elementwise on each rank and summed.
-/
namespace Heat

/-- `manipulations.expand_dims(b, axis=1)` of a vector (basics.py:708-709). -/
def colDND (x : DND Int) : DND Int :=
  ⟨x.gshape ++ [1], x.split, fun r => ⟨2, fun k => if k = 0 then (x.loc r).dim 0 else 1, fun idx => (x.loc r).get fun _ => idx 0⟩, x.balanced⟩

/-- `manipulations.expand_dims(a, axis=0)` of a vector (basics.py:706-707): split axis 0 becomes 1. -/
def rowDND (x : DND Int) : DND Int :=
  ⟨1 :: x.gshape, x.split.map (· + 1), fun r => ⟨2, fun k => if k = 0 then 1 else (x.loc r).dim 0, fun idx => (x.loc r).get fun _ => idx 1⟩, x.balanced⟩

/-- `squeeze` of the local result (basics.py:743-751, 886-898): a matrix without elements becomes a vector without elements, otherwise axis 0 is removed if its extent is 1,
then axis 1 if there still is one.  (A matrix with more than one row and column stays as it is; this never happens here and is not distinguished.) -/
def squeezeLoc (c : NArr Int) : NArr Int :=
  if c.dim 0 * c.dim 1 = 0 then ⟨1, fun _ => 0, c.get⟩
  else if c.dim 0 = 1 then ⟨1, fun _ => c.dim 1, fun idx => c.get (Spec.ix 0 (idx 0))⟩
  else ⟨1, fun _ => c.dim 0, fun idx => c.get (Spec.ix (idx 0) 0)⟩

/-- The canonical part of a replicated vector (`factories.array(c, split=0)`, basics.py:753-760). -/
def keepVec (P r : Nat) (v : NArr Int) : NArr Int :=
  ⟨1, fun _ => (chunkRange (v.dim 0) r P).2 - (chunkRange (v.dim 0) r P).1, fun idx => v.get fun _ => idx 0 + (chunkRange (v.dim 0) r P).1⟩

/-- `torch.matmul(A, v)` of a replicated matrix and a replicated vector (basics.py:694-700). -/
def torchMatVec (A v : NArr Int) : Option (NArr Int) :=
  if A.dim 1 = v.dim 0 then some ⟨1, fun _ => A.dim 0, fun idx => Spec.sumTo (A.dim 1) fun k => A.get (Spec.ix (idx 0) k) * v.get fun _ => k⟩ else none

/-- `torch.matmul(v, B)` (basics.py:694-700). -/
def torchVecMat (v B : NArr Int) : Option (NArr Int) :=
  if v.dim 0 = B.dim 0 then some ⟨1, fun _ => B.dim 1, fun idx => Spec.sumTo (v.dim 0) fun k => (v.get fun _ => k) * B.get (Spec.ix k (idx 0))⟩ else none

/-- `matmul(a, x)` of a matrix and a vector on `P > 1` ranks (basics.py:604-905). -/
def matVecHeat (P : Nat) (a x : DND Int) : Except Err MatRes :=
  if a.gshape.getD 1 0 ≠ x.gshape.getD 0 0 then .error .valueError
  else
    let m := a.gshape.getD 0 0
    let b := colDND x
    match a.split, x.split with
    | none, none => .ok ⟨none, fun r => torchMatVec (a.loc r) (x.loc r)⟩
    | some 0, none => .ok ⟨some 0, fun r => (torchMatmul (a.loc r) (b.loc r)).map squeezeLoc⟩
    | some 1, none => .ok ⟨some 0, fun r => (sumArr P (part1None P a b)).map fun c => keepVec P r (squeezeLoc c)⟩
    | none, some 0 => .ok ⟨some 0, fun r => (sumArr P (partNone0 P a b)).map fun c => keepVec P r (squeezeLoc c)⟩
    | some 0, some 0 => .ok ⟨some 0, fun r => (accumulate (zerosLoc m 1 0 P r) (step00 P a b r) P).map squeezeLoc⟩
    | some 1, some 0 => .ok ⟨some 0, fun r => (accumulate (zerosLoc m 1 1 P r) (step11 P a (resplitTo P b 1) r) P).map squeezeLoc⟩
    | _, _ => .error .indexError

/-- `matmul(x, b)` of a vector and a matrix on `P > 1` ranks (basics.py:604-905). -/
def vecMatHeat (P : Nat) (x b : DND Int) : Except Err MatRes :=
  if x.gshape.getD 0 0 ≠ b.gshape.getD 0 0 then .error .valueError
  else
    let n := b.gshape.getD 1 0
    let a := rowDND x
    match x.split, b.split with
    | none, none => .ok ⟨none, fun r => torchVecMat (x.loc r) (b.loc r)⟩
    | none, some 1 => .ok ⟨some 0, fun r => (torchMatmul (a.loc r) (b.loc r)).map squeezeLoc⟩
    | some 0, none => .ok ⟨some 0, fun r => (sumArr P (part1None P a b)).map fun c => keepVec P r (squeezeLoc c)⟩
    | none, some 0 => .ok ⟨some 0, fun r => (sumArr P (partNone0 P a b)).map fun c => keepVec P r (squeezeLoc c)⟩
    | some 0, some 1 => .ok ⟨some 0, fun r => (accumulate (zerosLoc 1 n 1 P r) (step11 P a b r) P).map squeezeLoc⟩
    | some 0, some 0 => .ok ⟨some 0, fun r => (accumulate (zerosLoc 1 n 1 P r) (step11 P a (resplitTo P b 1) r) P).map squeezeLoc⟩
    | _, _ => .error .indexError

/-- `a.resplit_(0)` of a vector: the canonical part of a replicated one, nothing if it is split already (basics.py:673-674). -/
def resplitVec (P r : Nat) : CatArr Int → List Int
  | .rep l => (l.take (chunkRange l.length r P).2).drop (chunkRange l.length r P).1
  | .along d => d r

/-- `matmul(a, b)` of two vectors on `P > 1` ranks (basics.py:671-677): what each rank adds (`none`: its lengths differ, torch raises), and the sum on every rank
if all of them take part; the arguments have become split vectors. -/
def vecVecHeat (P : Nat) (a b : CatArr Int) : Option Int × CatArr Int × CatArr Int :=
  (if (List.range P).all fun r => (resplitVec P r a).length == (resplitVec P r b).length then
      some (Spec.sumTo P fun r => Spec.inner (resplitVec P r a) (resplitVec P r b)) else none,
    .along fun r => resplitVec P r a, .along fun r => resplitVec P r b)

end Heat
