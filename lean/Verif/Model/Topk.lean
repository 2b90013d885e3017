import Verif.Model.Basic
import Verif.Model.Chunk
import Verif.Model.Reduce
import Verif.Model.Arg
import Verif.Spec.Dist
import Verif.Spec.Topk
/-!
# `topk(a, k, dim, largest)` along the split axis (heat/core/manipulations.py:4406-4610)

One position of the other axes (for every other position the same happens).  An entry is a pair (value, index); `T k l` is `torch.topk` followed by the
selection of the indices; values are integers and travel as float64: `conv`.
-/
namespace Heat

/-- The offset a rank adds to its indices (manipulations.py:4487-4493): `chunk` of the *local* extent `n`, times the rank. -/
def topkOffset (n P r : Nat) : Nat := (chunkRange n r P).1 * r

/-- `local_topk` (manipulations.py:4467-4511): a rank with fewer than `k` elements fills up with the neutral value and index 0.  `ConstantPad1d` gets one number per axis,
which is right for matrices (`pads`) along axis 1; for vectors (one number) it raises RuntimeError.  The other cases are not modelled: along axis 0 the wrong axis is
treated, with an odd number of axes it raises. -/
def topkLocal (T : Nat → List (Int × Nat) → List (Int × Nat)) (conv : Int → Int) (neutral : Int) (pads : Bool) (k P r : Nat) (l : List Int) : Except Err (List (Int × Nat)) :=
  if l.length < k then
    if pads then .ok ((T l.length l.zipIdx ++ List.replicate (k - l.length) (neutral, 0)).map fun e : Int × Nat => (conv e.1, e.2 + topkOffset l.length P r))
    else .error .runtimeError
  else .ok ((T k l.zipIdx).map fun e : Int × Nat => (conv e.1, e.2 + topkOffset l.length P r))

/-- `mpi_topk` (manipulations.py:4567-4607). -/
def topkOp (T : Nat → List (Int × Nat) → List (Int × Nat)) (k : Nat) (a b : List (Int × Nat)) : List (Int × Nat) := T k (a ++ b)

/-- `v` is a possible result: every rank contributes, and the contributions are combined in any order (manipulations.py:4513-4530, 4610: `commute=True`). -/
def TopkResult (T : Nat → List (Int × Nat) → List (Int × Nat)) (conv : Int → Int) (neutral : Int) (pads : Bool) (k P : Nat) (d : Nat → List Int) (v : List (Int × Nat)) : Prop :=
  ∃ parts : Nat → List (Int × Nat), (∀ r < P, topkLocal T conv neutral pads k P r (d r) = .ok (parts r)) ∧ Combine (topkOp T k) ((List.range P).map parts) v

end Heat
