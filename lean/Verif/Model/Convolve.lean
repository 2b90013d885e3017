import Verif.Model.Halo
import Verif.Model.Pad
import Verif.Spec.Dist
import Verif.Spec.Conv
/-!
# `convolve` of one-dimensional arrays (heat/core/signal.py:19-515)

The element type is a commutative semiring (exact arithmetic); data types, devices and batches are not modelled.
-/
namespace Heat
open Spec
variable {R : Type} [CommSemiring R]

/-- One output of `torch.nn.functional.conv1d` (a library): the correlation of the signal from `g` on with the weights. -/
def corrAt (S W : List R) (g : Nat) : R := ∑ j ∈ Finset.range W.length, S.getD (g + j) 0 * W.getD j 0

/-- `fc.conv1d(signal, weight, stride=stride)` without padding; it raises if the weights are longer than the signal. -/
def conv1d (S W : List R) (stride : Nat) : Except Err (List R) :=
  if W = [] ∨ S.length < W.length then .error .runtimeError
  else .ok ((List.range ((S.length - W.length) / stride + 1)).map fun g => corrAt S W (g * stride))

/-- `a.get_halo(halo_size); a.array_with_halos` (signal.py:409-412); `get_halo(0)` does nothing (dndarray.py:405). -/
def haloSignal (P : Nat) (d : Nat → List R) (h r : Nat) : Except Err (List R) := if h = 0 then .ok (d r) else withHalos P d h true true r

/-- `local_index` (signal.py:415-428) for rank `r`; `start` is the number of elements of the ranks before. -/
def strideShift (start h M stride r : Nat) : Nat :=
  if r = 0 then 0
  else
    let li := (((start : Int) - h) % stride).toNat
    let li := if li ≠ 0 then stride - li else li
    if M % 2 = 0 ∧ li = 0 then stride else li

/-- Rank `r`, signal distributed, weights not (signal.py:405-432, 493-505).  `W`: the flipped weights. -/
def convPlain (P : Nat) (d : Nat → List R) (W : List R) (stride r : Nat) : Except Err (List R) :=
  let h := W.length / 2
  match haloSignal P d h r with
  | .error e => .error e
  | .ok signal =>
    let signal := if stride > 1 then signal.drop (strideShift (((List.range r).map fun q => (d q).length).sum) h W.length stride r) else signal
    let out := if signal.length ≥ W.length then conv1d signal W stride else .ok []
    match out with
    | .error e => .error e
    | .ok out => .ok (if r ≠ 0 ∧ W.length % 2 = 0 ∧ stride = 1 then out.drop 1 else out)

/-- `weight`/`rec_v` of round `q` (signal.py:437-448, 459-461): the flipped weights of rank `q`, padded in front to the length of those of rank 0. -/
def roundWeight (w : Nat → List R) (q : Nat) : List R := List.replicate ((w 0).length - (w q).length) 0 ++ w q

/-- Rank `r` in round `q`, weights distributed (signal.py:463-470); `signal` is the local signal with halos. -/
def convRound (w : Nat → List R) (q r : Nat) (signal : List R) : Except Err (List R) :=
  match conv1d signal (roundWeight w q) 1 with
  | .error e => .error e
  | .ok out => .ok (if r ≠ 0 ∧ (w 0).length % 2 = 0 then out.drop 1 else out)

/-- `signal_filtered += global_signal_filtered[start:start+gshape]` (signal.py:484-492) on global arrays: an element-wise addition of distributed arrays (C23); arrays of different lengths are an error. -/
def addSlice (acc F : List R) (start gshape : Nat) : Except Err (List R) :=
  let s := (F.drop start).take gshape
  if acc.length = s.length then .ok (List.zipWith (· + ·) acc s) else .error .valueError

/-- The loop over the ranks that broadcast their weights (signal.py:456-495): rounds `q, q+1, ..., q+n-1`. -/
def convRounds (P : Nat) (w : Nat → List R) (signal : Nat → List R) (gshape : Nat) : Nat → Nat → Nat → List R → Except Err (List R)
  | 0, _, _, acc => .ok acc
  | n + 1, q, start, acc =>
    match (List.range P).mapM fun r => convRound w q r (signal r) with
    | .error e => .error e
    | .ok parts =>
      match addSlice acc parts.flatten start gshape with
      | .error e => .error e
      | .ok acc => convRounds P w signal gshape n (q + 1) (start + (w (q + 1)).length) acc

/-- An argument: the same list on every rank, or distributed. -/
inductive ConvArg (R : Type)
  | repl (l : List R)
  | dist (d : Nat → List R)

/-- The array that an argument is on `P` ranks. -/
def ConvArg.value (P : Nat) : ConvArg R → List R
  | .repl l => l
  | .dist d => content P d

/-- The result: one list per rank that claims to be the whole array, or (the content of) a distributed array. -/
inductive ConvResult (R : Type)
  | perRank (f : Nat → List R)
  | array (l : List R)

/-- `pad_size` (signal.py:349-354). -/
def convPad (mode : ConvMode) (M : Nat) : Nat :=
  match mode with
  | .full => M - 1
  | .same => M / 2
  | .valid => 0

/-- Elementary checks (signal.py:136-165): lengths swapped beforehand. -/
def convChecks (mode : ConvMode) (stride M : Nat) : Except Err Unit :=
  if mode = .same ∧ M % 2 = 0 then .error .valueError
  else if stride < 1 then .error .valueError
  else if stride > 1 ∧ mode = .same then .error .valueError
  else .ok ()

/-- `pad(a, pad_size, "constant", 0)` (signal.py:400); padding by 0 returns the array itself (manipulations.py:1525). -/
def convPadded (P p : Nat) : ConvArg R → Except Err (ConvArg R)
  | .repl l => .ok (.repl (padWhole p p id 0 0 l))
  | .dist d => if p = 0 then .ok (.dist d) else
    match padSplit P p p id 0 0 (content P d).length d with
    | .error e => .error e
    | .ok d' => .ok (.dist d')

/-- The flipped weights (signal.py:434, manipulations.py:1160-1184): `flip` of a distributed array exchanges the parts and balances. -/
def flipParts (P : Nat) (v : Nat → List R) : Except Err (Nat → List R) := balance 2 (content P v).length P (fun r => (v (P - 1 - r)).reverse)

/-- Signal distributed, weights not (signal.py:405-432, 434-452, 493-515). -/
def convDistRepl (P : Nat) (d : Nat → List R) (v : List R) (stride : Nat) : Except Err (ConvResult R) :=
  if (List.range P).any fun r => decide (v.length > (d r).length) then .error .valueError
  else
    match (List.range P).mapM fun r => convPlain P d v.reverse stride r with
    | .error e => .error e
    | .ok parts => .ok (.array parts.flatten)

/-- Neither is distributed (signal.py:432, 493-515): rank `r`. -/
def convReplRepl (s v : List R) (stride r : Nat) : Except Err (List R) :=
  match (if s.length ≥ v.length then conv1d s v.reverse stride else .ok []) with
  | .error e => .error e
  | .ok out => .ok (if r ≠ 0 ∧ v.length % 2 = 0 ∧ stride = 1 then out.drop 1 else out)

/-- Weights distributed, `signal r` the local signal (with halos) (signal.py:434-497). -/
def convKernelDist (P : Nat) (signal : Nat → List R) (w : Nat → List R) (gshape1 stride : Nat) : Except Err (ConvResult R) :=
  match convRounds P w signal gshape1 P 0 0 (List.replicate gshape1 0) with
  | .error e => .error e
  | .ok acc => .ok (.array (if stride > 1 then everyNth stride acc else acc))

/-- The part of `convolve` after padding (signal.py:402-515); `a` is the padded signal. -/
def convBody (P : Nat) (a v : ConvArg R) (stride : Nat) : Except Err (ConvResult R) :=
  match a, v with
  | .repl s, .repl v =>
    match (List.range P).mapM fun r => convReplRepl s v stride r with
    | .error e => .error e
    | .ok outs => .ok (.perRank fun r => outs.getD r [])
  | .dist d, .repl v => convDistRepl P d v stride
  | .repl s, .dist v =>
    match flipParts P v with
    | .error e => .error e
    | .ok w => convKernelDist P (fun _ => s) w (s.length - (content P v).length + 1) stride
  | .dist d, .dist v =>
    if (List.range P).any fun r => decide ((v r).length > (d r).length) then .error .valueError
    else
      match (List.range P).mapM fun r => haloSignal P d ((v 0).length / 2) r with
      | .error e => .error e
      | .ok signals =>
        match flipParts P v with
        | .error e => .error e
        | .ok w => convKernelDist P (fun r => signals.getD r []) w ((content P d).length - (content P v).length + 1) stride

/-- `v.is_balanced()` (signal.py:340-342; dndarray.py:870-900, computed anew). -/
def ConvArg.balancedCheck (P : Nat) : ConvArg R → Bool
  | .repl _ => true
  | .dist v => isBalancedCheck (content P v).length P v

/-- `convolve` for a signal `a` that is at least as long as the weights `v` (signal.py:147-515). -/
def convOrdered (P : Nat) (a v : ConvArg R) (mode : ConvMode) (stride : Nat) : Except Err (ConvResult R) :=
  match convChecks mode stride (v.value P).length with
  | .error e => .error e
  | .ok _ =>
    if v.balancedCheck P then
      match convPadded P (convPad mode (v.value P).length) a with
      | .error e => .error e
      | .ok a => convBody P a v stride
    else .error .valueError

/-- `convolve(a, v, mode, stride)` of one-dimensional non-empty arrays on `P ≥ 2` ranks: the longer one becomes the signal (signal.py:139-147). -/
def convolve (P : Nat) (a v : ConvArg R) (mode : ConvMode) (stride : Nat) : Except Err (ConvResult R) :=
  if (v.value P).length > (a.value P).length then convOrdered P v a mode stride else convOrdered P a v mode stride

end Heat
