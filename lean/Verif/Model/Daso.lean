import Verif.Model.Basic
import Mathlib.Algebra.Field.Basic
import Mathlib.Algebra.Field.Rat
import Mathlib.Algebra.BigOperators.Group.Finset.Basic
import Mathlib.Data.Finset.Range
/-!
# DASO (heat/optim/dp_optimizer.py:63-850)

`nodes` nodes with `gpus` GPUs each; process `(k, l)` drives GPU `l` of node `k`.  The model follows one component of the flattened parameters (all components are treated alike); packing and splitting into chunks are in
`Model/DasoPack`.  Exact arithmetic: the casts to bfloat16/half are left out.  The flag `require_backward_grad_sync` only changes which local gradients are used; the local optimizer is an arbitrary function here.
Broadcasts inside a node (torch.distributed) are exact copies.
-/
namespace Heat
variable {𝕜 : Type} [Field 𝕜]

/-- The attributes of the optimizer (dp_optimizer.py:188-243) and the parameters of all processes. The counters have the same values on all processes, `x` and `pend` (`_prev_params`: the reduced sum and `batches_to_wait`) belong to process `(k, l)`. -/
structure Daso (𝕜 : Type) where
  nodes : Nat
  gpus : Nat
  lastBatch : Nat
  batch : Nat
  epoch : Nat
  sendMod : Nat
  sendModM1 : Option Nat
  globalSkip : Nat
  localSkip : Nat
  batchesToWait : Int
  x : Nat → Nat → 𝕜
  pend : Nat → Nat → List (𝕜 × Int)

/-- `__init__` (dp_optimizer.py:211-225): nothing is pending. -/
def dasoInit (nodes gpus lastBatch : Nat) (x : Nat → Nat → 𝕜) : Daso 𝕜 := ⟨nodes, gpus, lastBatch, 0, 0, 0, none, 0, 0, 0, x, fun _ _ => []⟩

/-- `_gs_send_params` (dp_optimizer.py:610-668): the members of group `sendMod` (GPU `sendMod` of every node) start an `Iallreduce` of a copy of their parameters. -/
def dasoSend (s : Daso 𝕜) (btw : Int) : Daso 𝕜 :=
  { s with pend := fun k l => if l = s.sendMod then s.pend k l ++ [(∑ i ∈ Finset.range s.nodes, s.x i s.sendMod, btw)] else s.pend k l }

/-- The weight of the own parameters (dp_optimizer.py:537). -/
def dasoNumer (between : Int) : 𝕜 := if 0 < between then (between : 𝕜) * 2 else 1

/-- `_gs_rcv_update_params` (dp_optimizer.py:520-573). -/
def dasoReceive (s : Daso 𝕜) : Daso 𝕜 :=
  match s.sendModM1 with
  | none => s
  | some g =>
    { s with
      x := fun k l => if l = g then
          (match s.pend k l with
          | [] => s.x k l
          | (sum, between) :: _ => s.x k l * (dasoNumer between / ((s.nodes : 𝕜) + dasoNumer between)) + sum / ((s.nodes : 𝕜) + dasoNumer between))
        else s.x k l
      pend := fun k l => if l = g then (s.pend k l).tail else s.pend k l }

/-- `_local_update` (dp_optimizer.py:671-684): GPU `src` of every node sends its parameters to the other GPUs of the node. -/
def dasoLocal (s : Daso 𝕜) (src : Option Nat) : Daso 𝕜 :=
  match src with
  | none => s
  | some g => { s with x := fun k _ => s.x k g }

/-- `_gs_rcv_update_params_last_batch` on the members of the group and the check on the others (dp_optimizer.py:467-479, 576-607). -/
def dasoReceiveLast (s : Daso 𝕜) : Except Err (Daso 𝕜) :=
  if ∃ k < s.nodes, ∃ l < s.gpus, l ≠ s.sendMod ∧ (s.pend k l).length ≠ 0 then .error .valueError
  else if ∃ k < s.nodes, 1 < (s.pend k s.sendMod).length then .error .valueError
  else if ∃ k < s.nodes, (s.pend k s.sendMod).length = 0 then .error .indexError
  else .ok { s with
    x := fun k l => if l = s.sendMod then (((s.pend k l).head?.map Prod.fst).getD 0) / (s.nodes : 𝕜) else s.x k l
    pend := fun k l => if l = s.sendMod then (s.pend k l).tail else s.pend k l }

/-- `_send_mod + 1 if _send_mod <= loc_gpus - 2 else 0` (dp_optimizer.py:489, 493). -/
def dasoNext (s : Daso 𝕜) : Nat := if (s.sendMod : Int) ≤ (s.gpus : Int) - 2 then s.sendMod + 1 else 0

/-- `_global_sync` (dp_optimizer.py:450-493). -/
def dasoSync (s : Daso 𝕜) (btw : Int) : Except Err (Daso 𝕜) :=
  let s1 := dasoSend s btw
  let s2 := if s.batchesToWait ≠ 0 then dasoLocal (dasoReceive s1) s.sendModM1 else s1
  if s.batch = s.lastBatch ∨ s.batchesToWait = 0 then
    match dasoReceiveLast s2 with
    | .error e => .error e
    | .ok s3 =>
      let s4 := { dasoLocal s3 (some s.sendMod) with sendModM1 := none }
      .ok (if s.batch = s.lastBatch then { s4 with sendMod := 0, epoch := s.epoch + 1, batch := 0 } else { s4 with batch := s.batch + 1, sendMod := dasoNext s })
  else .ok { s2 with batch := s.batch + 1, sendModM1 := some s.sendMod, sendMod := dasoNext s }

/-- `step` (dp_optimizer.py:747-831); `u k l` is what the local optimizer of process `(k, l)` does. -/
def dasoStep (u : Nat → Nat → 𝕜 → 𝕜) (s0 : Daso 𝕜) : Except Err (Daso 𝕜) :=
  let s := { s0 with x := fun k l => u k l (s0.x k l) }
  let gmod : Nat := if 0 < s.globalSkip then s.batch % s.globalSkip else 0
  let btw : Int := if s.batchesToWait + (s.batch : Int) ≤ (s.lastBatch : Int) then s.batchesToWait else (s.lastBatch : Int) - s.batch
  if s.batch = s.lastBatch ∨ gmod = 0 then dasoSync s btw
  else if (s.batch + 1) % s.globalSkip = 0 then .ok { s with batch := s.batch + 1 }
  else if (gmod : Int) < btw then .ok { s with batch := s.batch + 1 }
  else if (gmod : Int) = btw then .ok { dasoLocal (dasoReceive s) s.sendModM1 with batch := s.batch + 1 }
  else .ok { s with batch := s.batch + 1 }

/-- The options of `__init__` that `epoch_loss_logic` uses. -/
structure DasoOptions where
  total : Nat
  warmup : Nat
  cooldown : Nat
  maxGlobalSkips : Nat
  reduction : Nat
  localFactor : Nat

/-- The last part of `epoch_loss_logic` (dp_optimizer.py:423-441). -/
def dasoAdapt (o : DasoOptions) (stable : Bool) (s : Daso 𝕜) : Daso 𝕜 :=
  if stable ∧ 1 < s.globalSkip then
    let gs := s.globalSkip / o.reduction
    let ls := s.localSkip / o.reduction
    let btw := s.batchesToWait - 1
    if 0 < gs then { s with globalSkip := gs, batchesToWait := if btw = 0 then 1 else btw, localSkip := if ls = 0 then 1 else ls }
    else { s with globalSkip := gs, batchesToWait := btw, localSkip := ls }
  else if s.globalSkip = 1 ∧ stable then
    { s with globalSkip := o.maxGlobalSkips, localSkip := o.maxGlobalSkips / o.localFactor, batchesToWait := (o.maxGlobalSkips / o.localFactor : Nat) }
  else s

/-- `epoch_loss_logic` (dp_optimizer.py:354-447); `stable` is the answer of the plateau detector (C115), which is only asked in the cycling phase. -/
def dasoEpoch (o : DasoOptions) (stable : Bool) (s : Daso 𝕜) : Daso 𝕜 :=
  if s.epoch < o.warmup then { s with globalSkip := 0, localSkip := 0, batchesToWait := 0 }
  else
    let s1 := if o.warmup = s.epoch then { s with globalSkip := 4, localSkip := 1, batchesToWait := 1 } else s
    if (o.total : Int) - o.cooldown ≤ s.epoch then { s1 with globalSkip := 0, localSkip := 0, batchesToWait := 0 }
    else dasoAdapt o stable s1

/-- `reset` (dp_optimizer.py:711-724): the detector, the counters and the list of pending sends; `_send_mod` and `_send_mod_m1` are kept. -/
def dasoReset (s : Daso 𝕜) : Daso 𝕜 :=
  { s with globalSkip := 0, localSkip := 0, batchesToWait := 0, batch := 0, epoch := 0, pend := fun _ _ => [] }

/-- Several batches: the loop `for batch in loader: ...; optimizer.step()` (examples/nn/imagenet-DASO.py). -/
def dasoSteps : List (Nat → Nat → 𝕜 → 𝕜) → Daso 𝕜 → Except Err (Daso 𝕜)
  | [], s => .ok s
  | u :: us, s =>
    match dasoStep u s with
    | .error e => .error e
    | .ok s' => dasoSteps us s'

/-- A training: the batches of an epoch, then `epoch_loss_logic` (dp_optimizer.py:100-104, examples/nn/imagenet-DASO.py). -/
def dasoTrain (o : DasoOptions) : List (List (Nat → Nat → 𝕜 → 𝕜) × Bool) → Daso 𝕜 → Except Err (Daso 𝕜)
  | [], s => .ok s
  | (us, stable) :: es, s =>
    match dasoSteps us s with
    | .error e => .error e
    | .ok s' => dasoTrain o es (dasoEpoch o stable s')

end Heat
