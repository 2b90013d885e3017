import Verif.Model.ND
import Verif.Model.Reduce
import Mathlib.Analysis.SpecialFunctions.Pow.Real
/-!
# Norms (heat/core/linalg/basics.py:923-1050, 1124-1272, 2111-2230)

Elements are real numbers (or any ordered group for the norms that need only sums and maxima); rounding and overflow are not modelled,
except for the product of two 32-bit integers (`int32Norm`).  Complex elements are not modelled.
-/
namespace Heat
variable {α : Type}

/-- `torch.max(t, dim)` of the elements along the dimension; torch refuses an empty dimension, here the value is then 0. -/
def lmax [Zero α] [Max α] : List α → α
  | [] => 0
  | x :: xs => xs.foldl max x

/-- `torch.min(t, dim)`. -/
def lmin [Zero α] [Min α] : List α → α
  | [] => 0
  | x :: xs => xs.foldl min x

/-- The index of the array before the reduction along axis `ax` from the index afterwards and the position on the axis.  With `keepdims`, and
for a 1-dimensional array (heat/core/_operations.py:493 leaves the axis in that case), the axis stays with extent 1. -/
def unReduce (stay : Bool) (ax : Nat) (idx : Nat → Nat) (i : Nat) : Nat → Nat := fun k =>
  if stay then (if k = ax then i else idx k) else if k < ax then idx k else if k = ax then i else idx (k - 1)

/-- One reduction along one axis, seen globally (heat/core/_operations.py:454-514; its distribution over the processes is C20, its metadata
C22). -/
def redAxis (f : List α → α) (a : NArr α) (ax : Nat) (keep : Bool) : NArr α :=
  let stay := keep || a.ndim == 1
  ⟨if stay then a.ndim else a.ndim - 1,
   fun k => if stay then (if k = ax then 1 else a.dim k) else if k < ax then a.dim k else a.dim (k + 1),
   fun idx => f ((List.range (a.dim ax)).map fun i => a.get (unReduce stay ax idx i))⟩

/-- `sum(x, axis=axis, keepdims=keep)`, `max(...)`, `min(...)` for one integer axis.  A 0-dimensional array has no axis to reduce. -/
def reduceH (f : List α → α) (a : NArr α) (axis : Int) (keep : Bool) : Except Err (NArr α) :=
  match sanitizeAxis a.ndim (some axis) with
  | .error e => .error e
  | .ok none => .ok ⟨0, fun _ => 1, fun idx => f [a.get idx]⟩
  | .ok (some k) => .ok (redAxis f a k keep)

/-- Element-wise map. -/
def NArr.mapE {β : Type} (f : α → β) (a : NArr α) : NArr β := ⟨a.ndim, a.dim, fun idx => f (a.get idx)⟩

/-- The argument `ord` of `matrix_norm`; `None` and `'fro'` are the same case. -/
inductive MOrd where
  | one | negOne | two | negTwo | inf | negInf | fro | nuc | other
  deriving DecidableEq, Repr

/-- The axes of the two successive reductions: lines 1003-1006 and 1012-1015 of basics.py for ±1, 1025-1028 and 1033-1036 for ±inf. -/
def normAxes (row : Bool) (r c : Int) (keep : Bool) : Int × Int :=
  if row then (r, if c > r ∧ keep = false then c - 1 else c)
  else (c, if r > c ∧ keep = false then r - 1 else r)

/-- `max(sum(abs(x), axis=first, keepdims), axis=second, keepdims)` and its three siblings (basics.py:1005-1040). -/
def twoStep (g : List α → α) [AddGroup α] [Lattice α] (x : NArr α) (ax : Int × Int) (keep : Bool) : Except Err (NArr α) :=
  match reduceH List.sum (x.mapE fun v => |v|) ax.1 keep with
  | .error e => .error e
  | .ok y => reduceH g y ax.2 keep

/-- Sum over a tuple of axes (heat/core/_operations.py:486-503): one after the other keeping the dimensions, then the axes are dropped.  An axis
named twice is summed once, its extent being 1 the second time. -/
def sumAxes [AddGroup α] (a : NArr α) (axes : List Nat) (keep : Bool) : NArr α :=
  let s := axes.foldl (fun t ax => redAxis List.sum t ax true) a
  if keep || a.ndim == 1 then s else s.dropAxes axes

/-- `matrix_norm(x, axis, keepdims, ord)` (basics.py:983-1050).  `sq v` stands for `(conj(v) * v).real`, `rt` for the square root. -/
def matrixNorm [AddGroup α] [LinearOrder α] (sq rt : α → α) (x : NArr α) (axis : Option (List Int)) (keep : Bool) (ord : MOrd) :
    Except Err (NArr α) :=
  if x.ndim < 2 then .error .valueError
  else if axis = none ∧ x.ndim > 2 then .error .valueError
  else
    match axis.getD [0, 1] with
    | [r, c] =>
      match ord with
      | .one => twoStep lmax x (normAxes true r c keep) keep
      | .negOne => twoStep lmin x (normAxes true r c keep) keep
      | .inf => twoStep lmax x (normAxes false r c keep) keep
      | .negInf => twoStep lmin x (normAxes false r c keep) keep
      | .fro => match sanitizeAxes x.ndim [r, c] with
        | .error e => .error e
        | .ok l => .ok ((sumAxes (x.mapE sq) (l.getD []) keep).mapE rt)
      | .two => .error .notImplemented
      | .negTwo => .error .notImplemented
      | .nuc => .error .notImplemented
      | .other => .error .valueError
    | _ => .error .typeError

/-! ## Vectors -/

/-- The argument `ord` of `vector_norm`. `p` is any other number than 0, 1, 2 and ±inf. -/
inductive VOrd where
  | inf | negInf | zero | one | two | p (v : Real) | str

/-- `v` is a possible value of `vector_norm(x, ord=ord)` over all elements (basics.py:2177-2230; `axis=None`, or an array of one dimension);
`d r` lists the elements of the local tensor of rank `r`.  `big` is the neutral element of `max` and `min` (`sanitize_infinity`,
heat/core/statistics.py:852). -/
noncomputable def VNorm (big : Real) (ord : VOrd) (P : Nat) (d : Nat → List Real) (v : Real) : Prop :=
  match ord with
  | .inf => ReduceResult max id (-big) P (fun r => (d r).map fun x => |x|) v
  | .negInf => ReduceResult min id big P (fun r => (d r).map fun x => |x|) v
  | .zero => ReduceResult (· + ·) id 0 P (fun r => (d r).map fun x => if x = 0 then (0 : Real) else 1) v
  | .one => ReduceResult (· + ·) id 0 P (fun r => (d r).map fun x => |x|) v
  | .two => ∃ s, ReduceResult (· + ·) id 0 P (fun r => (d r).map fun x => x * x) s ∧ v = Real.sqrt s
  | .p q => ∃ s, ReduceResult (· + ·) id 0 P (fun r => (d r).map fun x => |x| ^ q) s ∧ v = s ^ (1 / q)
  | .str => False

/-- Columns of a matrix distributed along its rows (`split=0`, rows as functions): `matrix_norm(x, ord=1)` sums over the split axis and takes
the maximum locally; `ord=inf` sums locally and takes the maximum over the split axis (basics.py:1005-1031). For `split=1` the roles of the two
orders are exchanged. -/
def MNormRows (big : Real) (m : Nat) (colSums : Bool) (P : Nat) (d : Nat → List (Nat → Real)) (v : Real) : Prop :=
  if colSums then
    ∃ s : Nat → Real, ReduceResult (fun a b k => a k + b k) id (fun _ => 0) P (fun r => (d r).map fun row k => |row k|) s ∧
      v = lmax ((List.range m).map s)
  else ReduceResult max id (-big) P (fun r => (d r).map fun row => ((List.range m).map fun k => |row k|).sum) v

/-! ## norm -/

/-- What `norm` calls (basics.py:1237-1272): the square root of the inner product of the flattened array with itself, a matrix norm, a vector
norm, or ValueError. -/
inductive NormCall where
  | dot | matrix | vector | improper
  deriving DecidableEq, Repr

/-- The argument `ord` of `norm`, as far as the dispatch looks at it. -/
inductive NOrd where
  | none | two | fro | other
  deriving DecidableEq, Repr

/-- The dispatch of `norm`; `axes` is the number of axes given (an integer counts as one). -/
def normCall (ndim : Nat) (axes : Option Nat) (ord : NOrd) : NormCall :=
  match axes with
  | none =>
    if ord = .none ∨ (ord = .two ∧ ndim = 1) ∨ (ord = .fro ∧ ndim = 2) then .dot
    else if ndim = 2 then .matrix else .vector
  | some 1 => .vector
  | some 2 => .matrix
  | some _ => .improper

/-- `torch.int32` multiplication and addition wrap around; `sqrt` converts to a floating point number afterwards: what is under the root of
`norm(x)` for an int32 array (basics.py:1243-1246: `dot(x, x)`). -/
def int32Dot (x : List Int) : Int := (x.map fun v => Int.bmod (v * v) (2 ^ 32)).foldl (fun a b => Int.bmod (a + b) (2 ^ 32)) 0

end Heat
