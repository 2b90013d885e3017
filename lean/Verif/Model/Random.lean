import Verif.Model.Chunk
import Verif.Model.Float32
/-!
# Model of `heat/core/random.py`

torch int32/int64 tensors hold two's complement words (`BitVec`); arithmetic wraps, `>>` is the
arithmetic shift.
-/
namespace Heat

/-! ## Threefry -/

/-- `(x << k) | ((x >> (w-k)) & mask)` as written in every round (random.py:1062, 1067, ...). -/
def mixRot {w : Nat} (x : BitVec w) (k : Nat) (mask : BitVec w) : BitVec w :=
  (x <<< k) ||| ((x.sshiftRight (w - k)) &&& mask)

/-- One round: `x0 += x1; x1 = rot(x1); x1 ^= x0` (random.py:1061-1063 etc.). -/
def mixRound {w : Nat} (k : Nat) (mask : BitVec w) (p : BitVec w × BitVec w) : BitVec w × BitVec w :=
  let x0 := p.1 + p.2
  (x0, mixRot p.2 k mask ^^^ x0)

/-- Add key words (random.py:1056-1057, 1082-1083, 1115-1116). -/
def inject {w : Nat} (a b : BitVec w) (p : BitVec w × BitVec w) : BitVec w × BitVec w :=
  (p.1 + a, p.2 + b)

/-- `__threefry32` for one pair of counters (random.py:1019-1118). `seed & 0x7FFFFFFF` is `seed % 2^31`. -/
def threefry32 (seed : Int) (x : BitVec 32 × BitVec 32) : BitVec 32 × BitVec 32 :=
  let ks0 : BitVec 32 := BitVec.ofInt 32 (seed % 2 ^ 31)
  let ks1 : BitVec 32 := BitVec.ofInt 32 (seed % 2 ^ 31)
  let ks2 : BitVec 32 := (466688986#32 ^^^ ks0) ^^^ ks1
  let x := inject ks0 ks1 x
  let x := mixRound 13 0x1FFF#32 x
  let x := mixRound 15 0x7FFF#32 x
  let x := mixRound 26 0x3FFFFFF#32 x
  let x := mixRound 6 0x3F#32 x
  let x := inject ks1 (ks2 + 1#32) x
  let x := mixRound 17 0x1FFFF#32 x
  let x := mixRound 29 0x1FFFFFFF#32 x
  let x := mixRound 16 0xFFFF#32 x
  let x := mixRound 24 0xFFFFFF#32 x
  inject ks0 (ks1 + 3#32) x

/-- `__threefry64` for one pair of counters (random.py:1122-1218).  Simplification: a seed outside the
int64 range, for which `torch.full` raises, is reduced modulo 2^64 here. -/
def threefry64 (seed : Int) (x : BitVec 64 × BitVec 64) : BitVec 64 × BitVec 64 :=
  let ks0 : BitVec 64 := BitVec.ofInt 64 seed
  let ks1 : BitVec 64 := BitVec.ofInt 64 seed
  let ks2 : BitVec 64 := (2004413935125273122#64 ^^^ ks0) ^^^ ks1
  let x := inject ks0 ks1 x
  let x := mixRound 16 0xFFFF#64 x
  let x := mixRound 42 0x3FFFFFFFFFF#64 x
  let x := mixRound 12 0xFFF#64 x
  let x := mixRound 31 0x7FFFFFFF#64 x
  let x := inject ks1 (ks2 + 1#64) x
  let x := mixRound 16 0xFFFF#64 x
  let x := mixRound 32 0xFFFFFFFF#64 x
  let x := mixRound 24 0xFFFFFF#64 x
  let x := mixRound 21 0x1FFFFF#64 x
  inject ks0 (ks1 + 3#64) x

/-! ## Conversion of words to numbers -/

/-- `__int32_to_float32` (random.py:242-254): the low 23 bits times 2^-23.  Returns the numerator; the
value is `numerator / 2^23`, exact in float32 since the numerator has at most 24 bits and the factor
is a power of two. -/
def toFloat32Num (x : BitVec 32) : Nat := (x &&& 0x7FFFFF#32).toNat

/-- `__int64_to_float64` (random.py:257-269): the low 53 bits times 2^-53. -/
def toFloat64Num (x : BitVec 64) : Nat := (x &&& 0x1FFFFFFFFFFFFF#64).toNat

/-- `torch.abs_` of a word: `abs(INT_MIN) = INT_MIN`. -/
def absWord {w : Nat} (x : BitVec w) : BitVec w := if x.toInt < 0 then -x else x

/-- `(values.abs_() % span) + low` for one word (random.py:628).  torch `%` takes the sign of the
divisor (floor modulus).  A Python scalar that does not fit the tensor's type raises
`RuntimeError`. -/
def randintWord {w : Nat} (low span : Int) (x : BitVec w) : Except Err (BitVec w) :=
  if span ≥ 2 ^ (w - 1) ∨ low < -2 ^ (w - 1) ∨ low ≥ 2 ^ (w - 1) then .error .runtimeError
  else .ok (BitVec.ofInt w ((absWord x).toInt % span) + BitVec.ofInt w low)

/-- `randint(low, high)` per element (random.py:581-587, 628): the bounds check, then `randintWord`. -/
def randint {w : Nat} (low high : Int) (x : BitVec w) : Except Err (BitVec w) :=
  if low ≥ high then .error .valueError
  else randintWord low (high - low) x

/-! ## The counter sequence -/

/-- `local_elements[i] = total / shape[split] * counts[i]` (random.py:147), with `n = shape[split]` and
`rowSize = total / n` (exact).  Simplification: the Python float division is exact arithmetic. -/
def localElements (n rowSize P i : Nat) : Nat := rowSize * (countsShape n P).getD i 0

/-- `cum_elements[r-1]` for `r > 0`, and 0 for `r = 0` (random.py:148, 151-152): the running sums, stored as
float32 (`torch.tensor` of Python floats).  `rnd` is the rounding to float32 (`f32`). -/
def cumElements (rnd : Nat → Nat) (n rowSize P r : Nat) : Nat :=
  rnd (((List.range r).map fun i => rnd (localElements n rowSize P i)).sum)

/-- A rank's share of a draw: counters `[start, stop)` relative to nothing, i.e. `c_1` included, and
how many numbers are dropped at the front and at the end by `lslice`. -/
structure Share where
  start : Nat
  stop : Nat
  dropFront : Nat
  dropBack : Nat
  deriving DecidableEq, Repr

/-- `split is None` (random.py:135-141). -/
def shareNone (c1 total : Nat) : Share :=
  ⟨c1, c1 + (total / 2 + total % 2), 0, if total % 2 = 0 then 0 else 1⟩

/-- `split is not None` (random.py:143-175).  `elements == int(elements)` is evenness of the local number. -/
def shareSplit (rnd : Nat → Nat) (c1 n rowSize P rank : Nat) : Share :=
  let cum := cumElements rnd n rowSize P rank
  let evenStart := rank = 0 ∨ cum % 2 = 0
  let start := if rank = 0 then c1 else cum / 2 + c1
  let l := localElements n rowSize P rank
  if evenStart then
    if l % 2 = 0 then ⟨start, start + l / 2, 0, 0⟩ else ⟨start, start + l / 2 + 1, 0, 1⟩
  else
    if l % 2 = 0 then ⟨start, start + l / 2 + 1, 1, 1⟩ else ⟨start, start + l / 2 + 1, 1, 0⟩

/-- `while diff > mask: x += mask; diff -= mask` followed by `x += diff` (random.py:185-189, 197-200).
`fuel` bounds the number of iterations (`diff` itself is enough). -/
def addUp {w : Nat} (mask : Nat) : (fuel : Nat) → (diff : Nat) → BitVec w → BitVec w
  | 0, diff, x => x + BitVec.ofNat w diff
  | fuel + 1, diff, x =>
    if diff > mask then addUp mask fuel (diff - mask) (x + BitVec.ofNat w mask)
    else x + BitVec.ofNat w diff

/-- Element `i` of `x_1` (random.py:178-189): `arange(start - diff, stop - diff)`, then `diff` added. -/
def ctrLow (w start stop i : Nat) : BitVec w :=
  let mask := 2 ^ (w - 1) - 1
  let diff := if stop ≤ mask then 0 else stop - mask
  addUp mask diff diff (BitVec.ofInt w ((start : Int) - diff + i))

/-- `x_0` before the carry (random.py:192-202). -/
def ctrHigh (w c0 : Nat) : BitVec w :=
  let mask := 2 ^ (w - 1) - 1
  if c0 > mask then addUp mask (c0 - mask) (c0 - mask) (BitVec.ofNat w mask) else BitVec.ofNat w c0

/-- Element `i` of `x_0` after random.py:205-211.  `x_0[-k:] += 1` increments the last `k` elements, but all
of them when `k = 0` (Python's `[-0:]` is `[0:]`). -/
def ctrHighCarry (w c0 start stop i : Nat) : BitVec w :=
  let maxCount := 2 ^ w - 1
  let x := ctrHigh w c0
  if stop > maxCount then
    if start > maxCount then x + 1#w
    else
      let k := stop - maxCount - 1
      if k = 0 ∨ i + k ≥ stop - start then x + 1#w else x
  else x

/-- The counter pair at local position `i` of a rank's share (random.py:126-130, 178-211). -/
def ctrPair (w counter : Nat) (sh : Share) (i : Nat) : BitVec w × BitVec w :=
  let c0 := (counter / 2 ^ w) % 2 ^ w
  (ctrHighCarry w c0 sh.start sh.stop i, ctrLow w sh.start sh.stop i)

/-- `torch.stack([x_0, x_1], dim=1).flatten()[lslice]` (random.py:500, 626): the numbers a rank holds, in the
row-major order of its local block; `g` is the Threefry function. -/
def drawLocal {w : Nat} (g : BitVec w × BitVec w → BitVec w × BitVec w) (counter : Nat) (sh : Share) :
    List (BitVec w) :=
  let flat := (List.range (sh.stop - sh.start)).flatMap fun i =>
    let p := g (ctrPair w counter sh i)
    [p.1, p.2]
  (flat.drop sh.dropFront).take (flat.length - sh.dropFront - sh.dropBack)

/-- The new counter (random.py:214-217): `ceil(total / 2)` computed in float32 (an int64 tensor divided by
2), masked to 128 bits. -/
def nextCounter (rnd : Nat → Nat) (counter total : Nat) : Nat :=
  (counter + (rnd total + 1) / 2) % 2 ^ 128

/-- A draw as the user asks for it: split = None with `total` elements, or split along an axis of
extent `n` with `rowSize` elements per index. -/
inductive DrawReq where
  | whole (total : Nat)
  | split (n rowSize : Nat)
  deriving DecidableEq, Repr

/-- Number of elements of the global array. -/
def DrawReq.total : DrawReq → Nat
  | .whole t => t
  | .split n m => n * m

/-- `__counter_sequence` followed by Threefry on one rank (random.py:75-219, 491-515): the local numbers
and the rank's new `__counter`. -/
def drawRank {w : Nat} (rnd : Nat → Nat) (g : BitVec w × BitVec w → BitVec w × BitVec w) (P rank : Nat)
    (counter : Nat) (d : DrawReq) : List (BitVec w) × Nat :=
  let c1 := counter % 2 ^ w
  let sh := match d with
    | .whole t => shareNone c1 t
    | .split n m => shareSplit rnd c1 n m P rank
  (drawLocal g counter sh, nextCounter rnd counter d.total)

/-! ## Generator state -/

/-- Which generator (`__rng`, random.py:54). -/
inductive Rng where
  | threefry | batchparallel
  deriving DecidableEq, Repr

/-- The module's global state on one rank (random.py:54-63) together with the state of torch's own
generator: its seed and how many numbers have been taken from it. -/
structure RngState where
  rng : Rng
  seed : Option Int
  localseed : Option Int
  counter : Option Int
  torchSeed : Int
  torchPos : Nat
  deriving DecidableEq, Repr

/-- A state tuple `(name, seed, counter or local seed)`; the two trailing constants are omitted. -/
structure StateTuple where
  rng : Rng
  seed : Option Int
  third : Option Int
  deriving DecidableEq, Repr

/-- `get_state` (random.py:222-239). -/
def getState (s : RngState) : StateTuple :=
  match s.rng with
  | .threefry => ⟨.threefry, s.seed, s.counter⟩
  | .batchparallel => ⟨.batchparallel, s.seed, s.localseed⟩

/-- `set_state` (random.py:945-967) on rank `rank`: the exception raised, if any, and the state afterwards.
`int(None)` raises `TypeError`; assignments made before the exception stay. -/
def setState (rank : Nat) (t : StateTuple) (s : RngState) : Option Err × RngState :=
  match t.rng with
  | .threefry =>
    let s := { s with rng := .threefry }
    match t.seed with
    | none => (some .typeError, s)
    | some sd =>
      let s := { s with seed := some sd }
      match t.third with
      | none => (some .typeError, s)
      | some c => (none, { s with counter := some c, torchSeed := sd, torchPos := 0 })
  | .batchparallel =>
    match t.seed with
    | some sd => (none, { s with seed := some sd, localseed := some (sd + rank),
                                 torchSeed := sd + rank, torchPos := 0 })
    | none =>
      let s := { s with seed := none }
      match t.third with
      | some l => (none, { s with localseed := some l, torchSeed := l, torchPos := 0 })
      | none => (some .typeError, s)

/-- `seed(value)` (random.py:888-914). -/
def seedState (rank : Nat) (sd : Int) (s : RngState) : RngState :=
  match s.rng with
  | .threefry => { s with seed := some sd, counter := some 0, localseed := none, torchSeed := sd,
                          torchPos := 0 }
  | .batchparallel => { s with seed := some sd, localseed := some (sd + rank), counter := none,
                               torchSeed := sd + rank, torchPos := 0 }

/-- A draw of `k` numbers on this rank (random.py:491-531): Threefry advances the counter by
`ceil(k/2)` (random.py:214-217, small draws), the batchparallel generator takes `k` numbers from torch.
Simplification: `k` is the same number for both. -/
def drawState (k : Nat) (s : RngState) : RngState :=
  match s.rng with
  | .threefry => { s with counter := s.counter.map fun c => (c + (k + 1) / 2) % 2 ^ 128 }
  | .batchparallel => { s with torchPos := s.torchPos + k }

/-- The state after `import heat` and the module-level `seed()` (random.py:54-63, 1222). -/
def initState (rank : Nat) (sd : Int) : RngState :=
  seedState rank sd ⟨.batchparallel, none, none, none, 0, 0⟩

/-- What a user can do to the generator. -/
inductive RngOp where
  | seed (sd : Int)
  | set (t : StateTuple)
  | draw (k : Nat)
  deriving Repr

/-- One user operation (an exception of `set_state` is caught by the user). -/
def rngStep (rank : Nat) (s : RngState) : RngOp → RngState
  | .seed sd => seedState rank sd s
  | .set t => (setState rank t s).2
  | .draw k => drawState k s

end Heat
