import Verif.Model.BinaryOp
import Verif.Model.Moments
/-!
# Standard deviations, `vdot`, matrix exponentials
(heat/core/statistics.py:2008-2029, heat/core/linalg/basics.py:1502-1522, 2038-2071, 1091-1099)
-/
namespace Heat

/-- The divisor `ddof` that `std` passes on (statistics.py:2015-2026). -/
def stdDdof (ddof : Int) (bessel : Option Bool) : Except Err Int :=
  if ddof < 0 then .error .valueError
  else .ok (if (if bessel = some true then true else decide (ddof ≠ 0)) then 1 else ddof)

/-- The square of `std(x, ddof=..., bessel=...)` over the whole array (statistics.py:2022-2029): `np.std` of an array that is not distributed, the root of `var` otherwise.
Exact arithmetic. -/
def stdSq (distributed : Bool) (P : Nat) (d : Nat → List Rat) (ddof : Int) (bessel : Option Bool) : Except Err FNum :=
  match stdDdof ddof bessel with
  | .error e => .error e
  | .ok c =>
    if distributed then
      match varCorrection c bessel with
      | .error e => .error e
      | .ok corr => .ok (varAll corr P d)
    else .ok (Spec.variance c.toNat (d 0))

/-- `vdot(x1, x2)` (basics.py:2067-2071) of arrays that have been flattened: the products with the usual broadcasting, then the sum over all processes (the local sum if the
product is not split). -/
def vdotModel {K : Type} [Mul K] [Add K] [Zero K] (conj : K → K) (fuel P : Nat) (x1 x2 : Opnd K) : Except Err K :=
  match binaryOp fuel P (· * ·) ⟨x1.n, x1.dist, fun r => (x1.loc r).map conj, x1.flag⟩ x2 with
  | .error e => .error e
  | .ok res =>
    let part : Nat → Except Err K := fun r => (res.loc r).map List.sum
    if res.dist then (List.range P).foldl (fun acc r => acc.bind fun a => (part r).map (a + ·)) (.ok 0) else part 0

/-- The local assignment `out.larray[...] = t` of a tensor with `t.length` matrices to a buffer with room for `c` (basics.py:1098): torch broadcasts one matrix. -/
def batchAssign {M : Type} (c : Nat) (t : List M) : Except Err (List M) :=
  match t with
  | [x] => .ok (List.replicate c x)
  | l => if l.length = c then .ok l else .error .runtimeError

/-- `matrix_exp(A)` of a batch of `n` matrices that is split along the batch axis (basics.py:1091-1099): `empty_like` distributes the result in the default way, whatever the
distribution of `A`. -/
def matrixExpBatch {M : Type} (expm : M → M) (P n : Nat) (a : Nat → List M) (r : Nat) : Except Err (List M) :=
  batchAssign ((chunkRange n r P).2 - (chunkRange n r P).1) ((a r).map expm)

/-- `matrix_exp(A)` refuses arrays that are distributed along one of the two last axes (basics.py:1093-1096). -/
def matrixExpAxis (distributed : Bool) (split ndim : Nat) : Except Err Unit := if distributed && decide (ndim ≤ split + 2) then .error .valueError else .ok ()

end Heat
