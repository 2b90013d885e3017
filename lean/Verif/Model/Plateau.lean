import Verif.Model.Basic
import Mathlib.Algebra.Order.Field.Rat
/-!
# `DetectMetricPlateau` (heat/optim/utils.py)

Metrics are rational numbers (not NaN, not infinite).
-/
namespace Heat

/-- The attributes (utils.py:57-71, 73-107); `best = none` is the worst value of the mode (infinity with the right sign); `badEpochs`, `cooldownCounter` and `lastEpoch` are counters. -/
structure Plateau where
  maximise : Bool
  relative : Bool
  threshold : Rat
  patience : Nat
  cooldown : Nat
  best : Option Rat
  badEpochs : Nat
  cooldownCounter : Nat
  lastEpoch : Nat
  deriving DecidableEq

/-- `is_better` (utils.py:159-187).  The product of infinity and `1 - threshold` is infinity only for `threshold < 1`, otherwise NaN or negative infinity. -/
def Plateau.isBetter (s : Plateau) (a : Rat) : Bool :=
  match s.best with
  | none => if s.relative && !s.maximise then decide (s.threshold < 1) else true
  | some b =>
    if !s.maximise && s.relative then decide (a < if 0 ≤ b then b * (1 - s.threshold) else b * (1 + s.threshold))
    else if !s.maximise then decide (a < b - s.threshold)
    else if s.relative then decide (a > b * (s.threshold + 1))
    else decide (a > b + s.threshold)

/-- `test_if_improving` (utils.py:117-151). -/
def Plateau.test (s : Plateau) (a : Rat) : Bool × Plateau :=
  let s1 := if s.isBetter a then { s with best := some a, badEpochs := 0 } else { s with badEpochs := s.badEpochs + 1 }
  let s2 := if 0 < s1.cooldownCounter then { s1 with cooldownCounter := s1.cooldownCounter - 1, badEpochs := 0 } else s1
  let s3 := { s2 with lastEpoch := s.lastEpoch + 1 }
  if s3.patience < s3.badEpochs then (true, { s3 with cooldownCounter := s3.cooldown, badEpochs := 0 }) else (false, s3)

/-- `reset` (utils.py:109-115). -/
def Plateau.reset (s : Plateau) : Plateau := { s with best := none, cooldownCounter := 0, badEpochs := 0 }

/-- `__init__` (utils.py:50-71). -/
def Plateau.new (maximise relative : Bool) (threshold : Rat) (patience cooldown : Nat) : Plateau := ⟨maximise, relative, threshold, patience, cooldown, none, 0, 0, 0⟩

/-- The values of the dictionary of `get_state` (utils.py:73-89); `mode_worse` is determined by the mode. -/
structure PlateauState where
  patience : Nat
  cooldown : Nat
  cooldownCounter : Nat
  maximise : Bool
  threshold : Rat
  relative : Bool
  best : Option Rat
  badEpochs : Nat
  lastEpoch : Nat

/-- `get_state` (utils.py:73-89). -/
def Plateau.getState (s : Plateau) : PlateauState := ⟨s.patience, s.cooldown, s.cooldownCounter, s.maximise, s.threshold, s.relative, s.best, s.badEpochs, s.lastEpoch⟩

/-- `set_state` (utils.py:91-107). -/
def Plateau.setState (s : Plateau) (d : PlateauState) : Plateau :=
  { s with patience := d.patience, cooldown := d.cooldown, cooldownCounter := d.cooldownCounter, maximise := d.maximise, threshold := d.threshold, relative := d.relative, best := d.best, badEpochs := d.badEpochs, lastEpoch := d.lastEpoch }

/-- A run over several metrics: the answers and the final state. -/
def Plateau.run (s : Plateau) : List Rat → List Bool × Plateau
  | [] => ([], s)
  | a :: l => let (b, s') := s.test a; let (bs, s'') := s'.run l; (b :: bs, s'')

end Heat
