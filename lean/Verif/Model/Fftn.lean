import Verif.Model.Fft
/-!
# Transforms along several axes, shifts and frequencies (heat/fft/fft.py:139-360)
-/
namespace Heat
variable {K : Type}

/-- An n-dimensional transform of torch: `last` acts on the last of the listed axes, `first` on the others; `half` marks `rfftn`, `rfft2`, `ihfftn`, `ihfft2` (`real_op`), for which the last axis keeps `n / 2 + 1` entries;
`shift` marks `fftshift` and `ifftshift`; `needAxis`: torch refuses an empty list of axes (all but `fftn`, `ifftn`); `cplx` is the type of the result, `emptyCplx` the type an empty rank gives to its result (fft.py:223-228). -/
structure FftnOp (K : Type) where
  first : Nat → Nat → (Nat → K) → Nat → K
  last : Nat → Nat → (Nat → K) → Nat → K
  half : Bool
  shift : Bool
  needAxis : Bool
  cplx : Bool → Bool
  emptyCplx : Bool

/-- Extent of the result along the last axis. -/
def FftnOp.out (op : FftnOp K) (n : Nat) : Nat := if op.half then n / 2 + 1 else n

/-- The generic transform for the second pass (`real_to_generic_fftn_ops`, fft.py:155-168, 292-293). -/
def FftnOp.second (op : FftnOp K) : FftnOp K := if op.half then ⟨op.first, op.first, false, false, false, fun _ => true, true⟩ else op

/-- The local transform along the listed axes with the listed lengths. (torch transforms the last axis first for `rfftn`; the order is immaterial in exact arithmetic.) -/
def fftnApply (op : FftnOp K) : NArr K → List (Nat × Nat) → NArr K
  | x, [] => x
  | x, [(a, n)] => x.along a (op.out n) (op.last (x.dim a) n)
  | x, (a, n) :: q :: rest => fftnApply op (x.along a n (op.first (x.dim a) n)) (q :: rest)

/-- The output shape (fft.py:202-203, 212-214). -/
def fftnShape (op : FftnOp K) : List Nat → List (Nat × Nat) → List Nat
  | sh, [] => sh
  | sh, [(a, n)] => sh.set a (op.out n)
  | sh, (a, n) :: q :: rest => fftnShape op (sh.set a n) (q :: rest)

/-- Axes and lengths (fft.py:171-210): errors for too many lengths (ValueError), axes out of range (IndexError), axes of a 0-d array (`None`, TypeError), fewer lengths than axes (IndexError), repeated axes (NotImplementedError),
more lengths than axes (torch, RuntimeError). Without axes the last ones are used; `range(ndim)[-0:]` is everything. -/
def fftnAxes (shift : Bool) (gshape : List Nat) (s : Option (List Nat)) (axes : Option (List Int)) : Except Err (List (Nat × Nat)) :=
  let nd := gshape.length
  let s := if shift then none else s
  if ∃ l ∈ s, nd < l.length then .error .valueError
  else
    let ax : Except Err (List Nat) := match axes with
      | none => match s with
        | none => .ok (List.range nd)
        | some l => .ok (if l.length = 0 then List.range nd else (List.range nd).drop (nd - l.length))
      | some l => match sanitizeAxes nd l with
        | .error _ => .error .indexError
        | .ok none => .error .typeError
        | .ok (some l) => .ok l
    match ax with
    | .error e => .error e
    | .ok ax =>
      let s := s.getD (ax.map fun a => gshape.getD a 0)
      if s.length < ax.length then .error .indexError
      else if ¬ ax.Nodup then .error .notImplemented
      else if ax.length < s.length then .error .runtimeError
      else .ok (ax.zip s)

/-- Transform along axes that are not distributed (fft.py:216-241). Errors: `s[-1]` without axes, an empty undivided array, no axes or a length 0 (torch). -/
def fftnLocal (P : Nat) (op : FftnOp K) (X : FD K) (ax : List (Nat × Nat)) : Except Err (FD K) :=
  let out := fftnShape op X.x.gshape ax
  if op.half ∧ ax = [] then .error .indexError
  else if ∃ r < P, (X.x.loc r).isEmpty ∧ X.x.split = none then .error .typeError
  else if ∃ r < P, ¬ (X.x.loc r).isEmpty ∧ (op.needAxis ∧ ax = [] ∨ ∃ p ∈ ax, p.2 = 0) then .error .runtimeError
  else .ok ⟨⟨out, X.x.split, fun r => if (X.x.loc r).isEmpty then emptyLoc out (X.x.split.getD 0) (X.x.loc r) else fftnApply op (X.x.loc r) ax, X.x.balanced⟩,
    fun r => if (X.x.loc r).isEmpty then op.emptyCplx else op.cplx (X.cplx r)⟩

/-- `__fftn_op` after the arguments have been resolved (fft.py:215-296). The recursive calls (lines 257, 267, 270, 285, 294) are made with axes that are not distributed. -/
def fftnCore (P : Nat) (op : FftnOp K) (X : FD K) (ax : List (Nat × Nat)) : Except Err (FD K) :=
  match X.x.split with
  | none => fftnLocal P op X ax
  | some a =>
    match ax.find? fun p => p.1 = a with
    | none => fftnLocal P op X ax
    | some (_, n) =>
      if P ≤ 1 then fftnLocal P op X ax
      else
        match fdSwap X a with
        | .error e => .error e
        | .ok X1 =>
          match fdAway P X1 with
          | .error e => .error e
          | .ok X2 =>
            if X1.x.gshape.length = 1 then
              match fftnLocal P op X2 ax with
              | .error e => .error e
              | .ok X3 => fdResplit P X3 0
            else
              match fftnLocal P op X2 [(0, n)] with
              | .error e => .error e
              | .ok X3 =>
                match fdResplit P X3 0 with
                | .error e => .error e
                | .ok X4 =>
                  match fdSwap X4 a with
                  | .error e => .error e
                  | .ok X5 => fftnLocal P op.second X5 (ax.filter fun p => p.1 ≠ a)

/-- `__fftn_op(x, op, s, axes)` (fft.py:139-296). -/
def fftnOp (P : Nat) (op : FftnOp K) (X : FD K) (s : Option (List Nat)) (axes : Option (List Int)) : Except Err (FD K) :=
  match fftnAxes op.shift X.x.gshape s axes with
  | .error e => .error e
  | .ok ax => fftnCore P op X ax

/-! ## Frequencies -/

/-- Rank `r`'s part of `arange(n, split=0)`, of which the entries from `mid` on are reduced by `n` (fft.py:350-355: `freqs[mid:] -= n`), before the division by `n * d` (lines 358-359). -/
def freqPart (P n len mid : Nat) (sub : Bool) (r : Nat) : List Int :=
  (List.range ((chunkRange len r P).2 - (chunkRange len r P).1)).map fun i =>
    let g := (chunkRange len r P).1 + i
    if sub ∧ mid ≤ g then (g : Int) - n else g

/-- `middle_channel` (fft.py:336-341). -/
def middleChannel (n : Nat) : Nat := if n % 2 = 0 then n / 2 else n / 2 + 1

/-- `fftfreq(n, d, split=0)` and `rfftfreq(n, d, split=0)` (fft.py:299-360) on rank `r`: the numerators, all of which are divided by `n * d`. -/
def freqSplit (P n : Nat) (real : Bool) (r : Nat) : List Int :=
  if real then freqPart P n (middleChannel n) (middleChannel n) false r else freqPart P n n (middleChannel n) true r

/-- The argument `split` (fft.py:328-334): anything but `None` and 0 raises IndexError. -/
def freqCheck (split : Option Int) : Except Err Bool :=
  match split with
  | none => .ok false
  | some s => if s = 0 then .ok true else .error .indexError

end Heat
