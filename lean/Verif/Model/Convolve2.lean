import Verif.Model.Convolve
/-!
# `convolve2d` (heat/core/signal.py:518-858)

Two-dimensional operands on `P ≥ 2` ranks, no batches.  A matrix is a list of slabs along the axis along which an operand is distributed (axis 0 or 1; the code treats both alike, so for
axis 1 the slabs are the columns and everything is transposed); a slab is a list of numbers and its length is called the width.  If both operands are distributed, the code first brings the
kernel to the split axis of the signal with `resplit_` (signal.py:601-606); here both are given along one axis.  Element type: a commutative semiring (exact arithmetic).
-/
namespace Heat
open Spec
variable {R : Type} [CommSemiring R]

/-- One output of `torch.nn.functional.conv2d` (a library): the correlation of the signal from slab `g`, position `h` on with the weights, summed over the slabs of the weights. -/
def corr2At (S W : List (List R)) (g h : Nat) : R := ∑ j ∈ Finset.range W.length, corrAt (S.getD (g + j) []) (W.getD j []) h

/-- `fc.conv2d(signal, weight, stride=(st, so))` for slabs of width `ws` and weights of width `wk`; it raises if the weights are larger than the signal. -/
def conv2d (ws wk : Nat) (S W : List (List R)) (st so : Nat) : Except Err (List (List R)) :=
  if W = [] ∨ S.length < W.length ∨ wk = 0 ∨ ws < wk then .error .runtimeError
  else .ok ((List.range ((S.length - W.length) / st + 1)).map fun g => (List.range ((ws - wk) / so + 1)).map fun h => corr2At S W (g * st) (h * so))

/-- `a.get_halo(halo_size); a.array_with_halos` (signal.py:687-693); `get_halo(0)` does nothing (dndarray.py:405). -/
def haloSlabs {α : Type} (P : Nat) (d : Nat → List α) (h r : Nat) : Except Err (List α) := if h = 0 then .ok (d r) else withHalos P d h true true r

/-- Rank `r`, signal distributed, weights not (signal.py:793-841).  `W`: the weights, flipped in both directions.  A signal that is too short after the shift gives an empty result
(signal.py:823-826). -/
def conv2Plain (P ws wk : Nat) (d : Nat → List (List R)) (W : List (List R)) (st so r : Nat) : Except Err (List (List R)) :=
  let h := W.length / 2
  match haloSlabs P d h r with
  | .error e => .error e
  | .ok signal =>
    let signal := if st > 1 then signal.drop (strideShift (((List.range r).map fun q => (d q).length).sum) h W.length st r) else signal
    let out := if signal.length ≥ W.length then conv2d ws wk signal W st so else .ok []
    match out with
    | .error e => .error e
    | .ok out => .ok (if r ≠ 0 ∧ W.length % 2 = 0 ∧ st = 1 then out.drop 1 else out)

/-- `result.balance_()` (signal.py:855-856): the empty result of signal.py:824-826 keeps the width of the signal, and `torch.cat` of it with received slabs raises if the result is
narrower.  A rank has to receive slabs if it has none and its share of the balanced array is not empty.  (Simplification: a rank that would only pass slabs on is not considered.) -/
def conv2Balance (P ws wo : Nat) (parts : List (List (List R))) : Except Err (List (List R)) :=
  let n := parts.flatten.length
  if ws ≠ wo ∧ ((List.range P).any fun r => decide (parts.getD r [] = [] ∧ (chunkRange n r P).1 < (chunkRange n r P).2)) = true then .error .runtimeError
  else .ok parts.flatten

/-- Signal distributed, weights not (signal.py:678-696, 793-858). -/
def conv2DistRepl (P ws wk : Nat) (d : Nat → List (List R)) (v : List (List R)) (st so : Nat) : Except Err (List (List R)) :=
  if (List.range P).any fun r => decide (v.length > (d r).length) then .error .valueError
  else
    match (List.range P).mapM fun r => conv2Plain P ws wk d (v.map List.reverse).reverse st so r with
    | .error e => .error e
    | .ok parts => conv2Balance P ws ((ws - wk) / so + 1) parts

/-- `weight`/`rec_v` of round `q` (signal.py:703-713, 736-738): the flipped weights of rank `q`, padded in front with slabs of zeros to the number of slabs of rank 0. -/
def roundWeight2 (wk : Nat) (w : Nat → List (List R)) (q : Nat) : List (List R) := List.replicate ((w 0).length - (w q).length) (List.replicate wk 0) ++ w q

/-- Rank `r` in round `q`, weights distributed (signal.py:740-750); the duplicate is removed if the signal is distributed. -/
def conv2Round (ws wk : Nat) (w : Nat → List (List R)) (q r : Nat) (distributed : Bool) (signal : List (List R)) : Except Err (List (List R)) :=
  match conv2d ws wk signal (roundWeight2 wk w q) 1 1 with
  | .error e => .error e
  | .ok out => .ok (if distributed = true ∧ r ≠ 0 ∧ (w 0).length % 2 = 0 then out.drop 1 else out)

/-- `signal_filtered += filter_results[start : start + gshape]` (signal.py:768-785). -/
def addSlice2 (acc F : List (List R)) (start gshape : Nat) : Except Err (List (List R)) :=
  let s := (F.drop start).take gshape
  if acc.length = s.length then .ok (List.zipWith (List.zipWith (· + ·)) acc s) else .error .valueError

/-- The loop over the ranks that broadcast their weights (signal.py:735-785): rounds `q, ..., q+n-1`; `round q` is the filtered signal of round `q` (all ranks together, or one rank if the
signal is replicated), `start_idx` of round `q + 1` is the sum of the sizes before it minus its padding. -/
def conv2Rounds (round : Nat → Except Err (List (List R))) (len : Nat → Nat) (gshape : Nat) : Nat → Nat → List (List R) → Except Err (List (List R))
  | 0, _, acc => .ok acc
  | n + 1, q, acc =>
    match round q with
    | .error e => .error e
    | .ok F =>
      match addSlice2 acc F (if q > 0 then ((List.range q).map len).sum - (len 0 - len q) else 0) gshape with
      | .error e => .error e
      | .ok acc => conv2Rounds round len gshape n (q + 1) acc

/-- `signal_filtered[::st, ::so]` (signal.py:787-788). -/
def everyNth2 (st so : Nat) (l : List (List R)) : List (List R) :=
  (List.range ((l.length + st - 1) / st)).map fun i => everyNth so (l.getD (i * st) [])

/-- All rounds and the stride (signal.py:722-792). -/
def conv2KernelDist (P ws wk : Nat) (round : Nat → Except Err (List (List R))) (len : Nat → Nat) (gshape st so : Nat) : Except Err (List (List R)) :=
  match conv2Rounds round len gshape P 0 (List.replicate gshape (List.replicate (ws - wk + 1) 0)) with
  | .error e => .error e
  | .ok acc => .ok (if st > 1 ∨ so > 1 then everyNth2 st so acc else acc)

/-- `flip(v, [0, 1])` of distributed weights (signal.py:699-700, manipulations.py:1160-1184). -/
def flipParts2 (P : Nat) (v : Nat → List (List R)) : Except Err (Nat → List (List R)) := balance 2 (content P v).length P (fun r => ((v (P - 1 - r)).map List.reverse).reverse)

/-- The value of an operand. -/
def slabsOf {α : Type} (P : Nat) : ConvArg α → List α
  | .repl l => l
  | .dist d => content P d

/-- The part after padding (signal.py:678-858); `a` is the padded signal of width `ws`. -/
def conv2Body (P ws wk : Nat) (a v : ConvArg (List R)) (st so : Nat) : Except Err (ConvResult (List R)) :=
  match a, v with
  | .repl s, .repl v =>
    match conv2d ws wk s (v.map List.reverse).reverse st so with
    | .error e => .error e
    | .ok out => .ok (.perRank fun _ => out)
  | .dist d, .repl v =>
    match conv2DistRepl P ws wk d v st so with
    | .error e => .error e
    | .ok out => .ok (.array out)
  | .repl s, .dist v =>
    match flipParts2 P v with
    | .error e => .error e
    | .ok w =>
      match conv2KernelDist P ws wk (fun q => conv2Round ws wk w q 0 false s) (fun q => (w q).length) (s.length - (content P v).length + 1) st so with
      | .error e => .error e
      | .ok out => .ok (.perRank fun _ => out)
  | .dist d, .dist v =>
    if (List.range P).any fun r => decide ((v r).length > (d r).length) then .error .valueError
    else
      match (List.range P).mapM fun r => haloSlabs P d ((v 0).length / 2) r with
      | .error e => .error e
      | .ok signals =>
        match flipParts2 P v with
        | .error e => .error e
        | .ok w =>
          match conv2KernelDist P ws wk (fun q => match (List.range P).mapM fun r => conv2Round ws wk w q r true (signals.getD r []) with
              | .error e => .error e
              | .ok parts => .ok parts.flatten) (fun q => (w q).length) ((content P d).length - (content P v).length + 1) st so with
          | .error e => .error e
          | .ok out => .ok (.array out)

/-- Padding one slab. -/
def padSlab (p : Nat) (l : List R) : List R := List.replicate p 0 ++ l ++ List.replicate p 0

/-- `pad(a, ((p0, p0), (p1, p1)))` (signal.py:673-675); not called for mode "valid".  `w` is the width. -/
def conv2Padded (P : Nat) (mode : ConvMode) (p0 p1 w : Nat) (a : ConvArg (List R)) : Except Err (ConvArg (List R)) :=
  if mode = .valid then .ok a
  else match a with
    | .repl l => .ok (.repl (padWhole p0 p0 (padSlab p1) (List.replicate (w + 2 * p1) 0) (List.replicate (w + 2 * p1) 0) l))
    | .dist d =>
      match padSplit P p0 p0 (padSlab p1) (List.replicate (w + 2 * p1) 0) (List.replicate (w + 2 * p1) 0) (content P d).length d with
      | .error e => .error e
      | .ok d' => .ok (.dist d')

/-- The checks on mode and strides (signal.py:156-173). -/
def conv2Checks (mode : ConvMode) (st so m0 m1 : Nat) : Except Err Unit :=
  if mode = .same ∧ (m0 % 2 = 0 ∨ m1 % 2 = 0) then .error .valueError
  else if st < 1 ∨ so < 1 then .error .valueError
  else if (st > 1 ∨ so > 1) ∧ mode = .same then .error .valueError
  else .ok ()

/-- `v.is_balanced()` (signal.py:608-610). -/
def balancedArg {α : Type} (P : Nat) : ConvArg α → Bool
  | .repl _ => true
  | .dist v => isBalancedCheck (content P v).length P v

/-- `convolve2d` after the operands have been ordered (signal.py:151-173, 608-858); `wa`, `wv`: the widths. -/
def conv2Ordered (P wa wv : Nat) (a v : ConvArg (List R)) (mode : ConvMode) (st so : Nat) : Except Err (ConvResult (List R)) :=
  let m0 := (slabsOf P v).length
  if m0 > (slabsOf P a).length ∨ wv > wa then .error .valueError
  else match conv2Checks mode st so m0 wv with
    | .error e => .error e
    | .ok _ =>
      if balancedArg P v then
        match conv2Padded P mode (convPad mode m0) (convPad mode wv) wa a with
        | .error e => .error e
        | .ok a => conv2Body P (wa + 2 * convPad mode wv) wv a v st so
      else .error .valueError

/-- `convolve2d(a, v, mode, stride)`: a kernel that is at least as large as the signal in both directions and not equal becomes the signal (signal.py:141-149). -/
def convolve2d (P wa wv : Nat) (a v : ConvArg (List R)) (mode : ConvMode) (st so : Nat) : Except Err (ConvResult (List R)) :=
  let n := (slabsOf P a).length
  let m := (slabsOf P v).length
  if (m ≥ n ∧ wv ≥ wa) ∧ ¬ (m = n ∧ wv = wa) then conv2Ordered P wv wa v a mode st so else conv2Ordered P wa wv a v mode st so

end Heat
