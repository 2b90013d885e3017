import Verif.Model.Reshape
import Mathlib.Algebra.BigOperators.Group.Finset.Basic
import Mathlib.Algebra.Ring.Defs
/-!
# Discrete Fourier transforms (heat/fft/fft.py)

Exact arithmetic. The transforms of torch are functions of the elements along one axis (`run`), applied to all lines of the local tensor. A rank's torch type matters only as far as it is
complex or not: buffers of an all-to-all exchange are allocated by every rank with its own type (dndarray.py:1610-1612). The argument `norm` is part of `run`; devices are left out.
-/
namespace Heat
variable {K : Type}

/-- Apply a transform of sequences to all lines of an array along axis `a`; the result has extent `m` there. -/
def NArr.along (x : NArr K) (a m : Nat) (f : (Nat → K) → Nat → K) : NArr K :=
  ⟨x.ndim, Function.update x.dim a m, fun idx => f (fun i => x.get (Function.update idx a i)) (idx a)⟩

/-- `tensor.numel() == 0`. -/
def NArr.isEmpty (x : NArr K) : Bool := decide (∃ k < x.ndim, x.dim k = 0)

/-- A DNDarray together with the kind of type of the local tensors: complex or not. -/
structure FD (K : Type) where
  x : DND K
  cplx : Nat → Bool

/-- A one-dimensional transform of torch. `run N n` transforms `N` elements with argument `n`; `real` marks `rfft` and `ihfft` (`real_to_generic_fft_ops`, fft.py:66-69), for which `run` is
the generic transform; `cplx` is the type of the result. -/
structure FftOp (K : Type) where
  run : Nat → Nat → (Nat → K) → Nat → K
  real : Bool
  cplx : Bool

/-- Extent of the result along the transformed axis (fft.py:70-75). -/
def FftOp.out (op : FftOp K) (n : Nat) : Nat := if op.real then n / 2 + 1 else n

/-- The generic transform (fft.py:114-116). -/
def FftOp.generic (op : FftOp K) : FftOp K := ⟨op.run, false, op.cplx⟩

/-- What an empty rank contributes: `torch.empty` of the output shape, with extent 0 along the split axis (fft.py:80-86). -/
def emptyLoc (out : List Nat) (s : Nat) (x : NArr K) : NArr K := ⟨x.ndim, fun k => if k = s then 0 else out.getD k 0, x.get⟩

/-- Transform along an axis that is not distributed (fft.py:77-97). Errors: an empty undivided array (`local_shape[None] = 0`), `n < 1` (torch).
An empty rank keeps the type of its input (line 85). -/
def fftLocal (P : Nat) (op : FftOp K) (X : FD K) (n a : Nat) : Except Err (FD K) :=
  let out := X.x.gshape.set a (op.out n)
  if ∃ r < P, (X.x.loc r).isEmpty ∧ X.x.split = none then .error .typeError
  else if ∃ r < P, ¬ (X.x.loc r).isEmpty ∧ n = 0 then .error .runtimeError
  else .ok ⟨⟨out, X.x.split, fun r => if (X.x.loc r).isEmpty then emptyLoc out (X.x.split.getD 0) (X.x.loc r) else (X.x.loc r).along a (op.out n) (op.run ((X.x.loc r).dim a) n), X.x.balanced⟩,
    fun r => if (X.x.loc r).isEmpty then X.cplx r else op.cplx⟩

/-- Do two ranks exchange elements when an array is redistributed along `ax` (block `p` to `q` is part `q` of the local tensor of `p`), although their buffers have different types? -/
def typeClash (P : Nat) (X : FD K) (ax : Nat) : Prop :=
  ∃ p < P, ∃ q < P, X.cplx p ≠ X.cplx q ∧ (∀ k < (X.x.loc p).ndim, k ≠ ax → (X.x.loc p).dim k ≠ 0) ∧ (chunkRange (X.x.gshape.getD ax 0) q P).1 < (chunkRange (X.x.gshape.getD ax 0) q P).2

instance (P : Nat) (X : FD K) (ax : Nat) : Decidable (typeClash P X ax) := by unfold typeClash; infer_instance

/-- `resplit_(axis)` (dndarray.py:1552-1622), with the types of the buffers: an undivided array is sliced locally, otherwise blocks are exchanged by `Alltoallw` and a block of another type
ends the exchange with an MPI error. -/
def fdResplit (P : Nat) (X : FD K) (ax : Nat) : Except Err (FD K) :=
  match X.x.split with
  | none => .ok ⟨resplitTo P X.x ax, X.cplx⟩
  | some s => if s = ax then .ok X else if typeClash P X ax then .error .runtimeError else .ok ⟨resplitTo P X.x ax, X.cplx⟩

/-- `transpose` with axes 0 and `a` exchanged (fft.py:100-107, 121-124); nothing happens for `a = 0`. -/
def fdSwap (X : FD K) (a : Nat) : Except Err (FD K) :=
  if a = 0 then .ok X
  else match transpose X.x (some ((swapOrder X.x.gshape.length 0 a).map fun (k : Nat) => (k : Int))) with
    | .ok y => .ok ⟨y, X.cplx⟩
    | .error e => .error e

/-- Gather or redistribute before the transform of axis 0 (fft.py:109-113). -/
def fdAway (P : Nat) (X : FD K) : Except Err (FD K) :=
  if 1 < X.x.gshape.length then fdResplit P X 1 else .ok ⟨resplitNone P X.x, X.cplx⟩

/-- `__fft_op(x, op, n, axis)` (fft.py:40-136). `n` counts elements (a negative `n` is an error of torch). The last step of `rfft` and `ihfft` along the split axis (lines 129-134) indexes with a *list* of slices,
which `__getitem__` takes for one index of axis 0 (dndarray.py:975-995): torch rejects it. -/
def fftOp (P : Nat) (op : FftOp K) (X : FD K) (n : Option Nat) (axis : Int) : Except Err (FD K) :=
  match sanitizeAxis X.x.gshape.length (some axis) with
  | .error _ => .error .indexError
  | .ok none => .error .typeError
  | .ok (some a) =>
    let m := n.getD (X.x.gshape.getD a 0)
    if P ≤ 1 ∨ X.x.split ≠ some a then fftLocal P op X m a
    else
      match fdSwap X a with
      | .error e => .error e
      | .ok X1 =>
        match fdAway P X1 with
        | .error e => .error e
        | .ok X2 =>
          match fftLocal P op.generic X2 m 0 with
          | .error e => .error e
          | .ok X3 =>
            match fdResplit P X3 0 with
            | .error e => .error e
            | .ok X4 =>
              match fdSwap X4 a with
              | .error e => .error e
              | .ok X5 => if op.real then .error .typeError else .ok X5

end Heat
