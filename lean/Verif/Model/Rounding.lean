import Verif.Model.Basic
import Mathlib.Data.Rat.Floor
/-!
# Rounding functions, `pow` and `divmod`: values and side effects
(heat/core/rounding.py:96-429, heat/core/arithmetics.py:1189-1269, 2511-2585)

Everything here is element-wise and without communication, so one process is modelled, with arbitrary local data: the arrays it can reach are
objects in a heap, a call is a transition of the heap that returns an object, and exceptions keep what was written before them.
Elements are rational numbers (no rounding errors, no overflow); of the element types only "integer or floating point" is modelled, for the
`dtype` attribute (`ty`) and for the local tensor (`tt`) separately.  An `out` array has the local length of the operand (else a
`ValueError`; the broadcasting of `__local_op` is C169).
-/
namespace Heat

/-- A one-dimensional array as one process sees it: is it split, is the `dtype` attribute / the tensor a floating point type, the local data. -/
structure HArr where
  dist : Bool
  ty : Bool
  tt : Bool
  data : List Rat
deriving DecidableEq

/-- The objects of one process: those with numbers below `next` exist. -/
structure Heap where
  obj : Nat → HArr
  next : Nat

/-- What a call returns: an array object or a bare local tensor. -/
inductive Ret where
  | arr (i : Nat)
  | tensor (v : List Rat)
deriving DecidableEq

/-- A call: the new heap, whatever happens, and the result. -/
abbrev Call (ρ : Type) := Heap → Heap × Except Err ρ

/-- A new object (`DNDarray(...)`, e.g. heat/core/_operations.py:386-394). -/
def Heap.alloc (h : Heap) (a : HArr) : Heap × Nat := (⟨fun i => if i = h.next then a else h.obj i, h.next + 1⟩, h.next)

/-- Overwriting the local data of an object in place (`out.larray.copy_(result)`, heat/core/_operations.py:230). -/
def Heap.write (h : Heap) (i : Nat) (d : List Rat) : Heap := ⟨fun j => if j = i then { h.obj i with data := d } else h.obj j, h.next⟩

/-- `torch.round`: to the nearest integer, halves to the even one. -/
def torchRound (q : Rat) : Int :=
  if q - q.floor < 1 / 2 then q.floor else if 1 / 2 < q - q.floor then q.floor + 1 else if q.floor % 2 = 0 then q.floor else q.floor + 1

/-- `torch.trunc`: towards zero. -/
def torchTrunc (q : Rat) : Int := if 0 ≤ q then q.floor else q.ceil

/-- The local operation of `__local_op` with a cast to floating point (heat/core/_operations.py:374-411): into a new array, or into
`out` (torch refuses to write floating point results to an integer tensor). -/
def localCall (f : Rat → Rat) (x : Nat) (out : Option Nat) : Call Nat := fun h =>
  match out with
  | none => let (h', i) := h.alloc ⟨(h.obj x).dist, true, true, (h.obj x).data.map f⟩; (h', .ok i)
  | some o =>
    if (h.obj o).data.length ≠ (h.obj x).data.length then (h, .error .valueError)
    else if (h.obj o).tt = false then (h, .error .runtimeError)
    else (h.write o ((h.obj x).data.map f), .ok o)

/-- `floor`, `ceil`, `trunc` (heat/core/rounding.py:117, 222, 449). -/
def floorCall (x : Nat) (out : Option Nat) : Call Nat := localCall (fun q => q.floor) x out
@[inherit_doc floorCall] def ceilCall (x : Nat) (out : Option Nat) : Call Nat := localCall (fun q => q.ceil) x out
@[inherit_doc floorCall] def truncCall (x : Nat) (out : Option Nat) : Call Nat := localCall (fun q => torchTrunc q) x out

/-- `x *= c` and `x /= c` for a Python scalar (heat/core/arithmetics.py:2195-2206, heat/core/_operations.py:105-110): a floating point scalar is
refused for an integer array. -/
def scaleInplace (x : Nat) (cfl : Bool) (f : Rat → Rat) : Call Unit := fun h =>
  if cfl && !(h.obj x).ty then (h, .error .typeError) else (h.write x ((h.obj x).data.map f), .ok ())

/-- `round(x, decimals, out)` (heat/core/rounding.py:326-334): `x *= 10**decimals`, the local rounding, `rounded_values /= 10**decimals`;
`10**decimals` is an `int` for positive and a `float` for negative `decimals`. -/
def roundCall (x : Nat) (d : Int) (out : Option Nat) : Call Nat := fun h =>
  if d = 0 then localCall (fun q => torchRound q) x out h
  else
    match scaleInplace x (decide (d < 0)) (fun v => v * (10 : Rat) ^ d) h with
    | (h1, .error e) => (h1, .error e)
    | (h1, .ok ()) =>
      match localCall (fun q => torchRound q) x out h1 with
      | (h2, .error e) => (h2, .error e)
      | (h2, .ok i) =>
        match scaleInplace i (decide (d < 0)) (fun v => v / (10 : Rat) ^ d) h2 with
        | (h3, .error e) => (h3, .error e)
        | (h3, .ok ()) => (h3, .ok i)

/-- `torch.clamp(min, max)`: `min(max(v, lo), hi)`, a bound that is `None` is left out. -/
def torchClamp (lo hi : Option Rat) (v : Rat) : Rat :=
  let w := match lo with | none => v | some l => if v < l then l else v
  match hi with | none => w | some u => if u < w then u else w

/-- `clip(x, min, max, out)` (heat/core/rounding.py:148-168); `bfl`: one of the bounds is a floating point number.  Without `out` the new array keeps the `dtype` attribute of `x`.
With `out` the value of the call is `tensor and out`: the truth value of the local tensor is an error unless it has one element. -/
def clipCall (x : Nat) (lo hi : Option Rat) (bfl : Bool) (out : Option Nat) : Call Ret := fun h =>
  if lo = none ∧ hi = none then (h, .error .valueError)
  else
    let d := (h.obj x).data.map (torchClamp lo hi)
    match out with
    | none => let (h', i) := h.alloc ⟨(h.obj x).dist, (h.obj x).ty, (h.obj x).tt || bfl, d⟩; (h', .ok (.arr i))
    | some o =>
      if (h.obj o).data.length ≠ (h.obj x).data.length ∨ (h.obj o).dist ≠ (h.obj x).dist then (h, .error .valueError)
      else if (h.obj o).tt = false ∧ ((h.obj x).tt || bfl) = true then (h, .error .runtimeError)
      else (h.write o d, match d with | [v] => .ok (if v = 0 then .tensor [v] else .arr o) | _ => .error .runtimeError)

/-- `x - y` of two arrays in the same distribution, a new array (heat/core/_operations.py:203-214). -/
def subCall (x y : Nat) : Call Nat := fun h =>
  let (h', i) := h.alloc ⟨(h.obj x).dist, (h.obj x).ty || (h.obj y).ty, (h.obj x).tt || (h.obj y).tt, List.zipWith (· - ·) (h.obj x).data (h.obj y).data⟩
  (h', .ok i)

/-- `out.larray = t` (heat/core/dndarray.py:147-169, heat/core/sanitation.py:262-284): the tensor replaces the local data if its length is right or
0, and whatever its length if the array is split; the `dtype` attribute stays. -/
def setLarray (o : Nat) (a : HArr) : Call Unit := fun h =>
  if (h.obj o).dist || a.data.length == (h.obj o).data.length || a.data.length == 0 then
    (⟨fun j => if j = o then { h.obj o with tt := a.tt, data := a.data } else h.obj j, h.next⟩, .ok ())
  else (h, .error .valueError)

/-- `modf(x, out)` (heat/core/rounding.py:264-282). -/
def modfCall (x : Nat) (out : Option (Nat × Nat)) : Call (Nat × Nat) := fun h =>
  match truncCall x none h with
  | (h1, .error e) => (h1, .error e)
  | (h1, .ok i) =>
    match subCall x i h1 with
    | (h2, .error e) => (h2, .error e)
    | (h2, .ok f) =>
      match out with
      | none => (h2, .ok (f, i))
      | some (o0, o1) =>
        match setLarray o0 (h2.obj f) h2 with
        | (h3, .error e) => (h3, .error e)
        | (h3, .ok ()) =>
          match setLarray o1 (h3.obj i) h3 with
          | (h4, .error e) => (h4, .error e)
          | (h4, .ok ()) => (h4, .ok (o0, o1))

/-- A binary operation of two arrays in the same distribution (heat/core/_operations.py:195-231): into a new array, or converted into `out`, which must
have the shape and split of the result. -/
def binCall (f : Rat → Rat → Rat) (t1 t2 : Nat) (out : Option Nat) : Call Nat := fun h =>
  let d := List.zipWith f (h.obj t1).data (h.obj t2).data
  match out with
  | none => let (h', i) := h.alloc ⟨(h.obj t1).dist, (h.obj t1).ty || (h.obj t2).ty, (h.obj t1).tt || (h.obj t2).tt, d⟩; (h', .ok i)
  | some o =>
    if d.length ≠ (h.obj o).data.length ∨ (h.obj o).dist ≠ (h.obj t1).dist then (h, .error .valueError)
    else (h.write o (if (h.obj o).tt then d else d.map fun q => (torchTrunc q : Rat)), .ok o)

/-- `divmod(t1, t2, out1, out2)` (heat/core/arithmetics.py:1265-1269): the quotient first, then the remainder. -/
def divmodCall (t1 t2 : Nat) (out1 out2 : Option Nat) : Call (Nat × Nat) := fun h =>
  match binCall (fun a b => ((a / b).floor : Rat)) t1 t2 out1 h with
  | (h1, .error e) => (h1, .error e)
  | (h1, .ok d) =>
    match binCall (fun a b => a - b * ((a / b).floor : Rat)) t1 t2 out2 h1 with
    | (h2, .error e) => (h2, .error e)
    | (h2, .ok m) => (h2, .ok (d, m))

/-- The exponent of `pow`: a Python `int` or an array. -/
inductive Expo where
  | int (e : Int)
  | arr (t2 : Nat)

/-- `pow(t1, t2, out)` (heat/core/arithmetics.py:2550-2585): the early exit for an integer exponent comes before `out` is looked at.  `tp` is
torch's power function; torch refuses negative powers of integer tensors. -/
def powCall (tp : Rat → Rat → Rat) (t1 : Nat) (t2 : Expo) (out : Option Nat) : Call Nat := fun h =>
  match t2 with
  | .int e =>
    if (h.obj t1).tt = false ∧ e < 0 then (h, .error .runtimeError)
    else
      let (h', i) := h.alloc ⟨(h.obj t1).dist, (h.obj t1).ty, (h.obj t1).tt, (h.obj t1).data.map fun v => tp v e⟩
      (h', .ok i)
  | .arr t2 => binCall tp t1 t2 out h

end Heat
