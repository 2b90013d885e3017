import Verif.Spec.DataParallel
/-!
# DataParallel and DataParallelOptimizer (heat/nn/data_parallel.py:22-312, heat/optim/dp_optimizer.py:851-892)

The parameters of a layer are treated together (one gradient). The optimizer is a function of the state of a layer and its gradient (`opt`): per-parameter optimizers (SGD, with momentum or weight decay, Adam) are of this form.
Gradients exist from the beginning (torch: `None` until the first backward). Exact arithmetic; the cast to float is left out. Communication is exact and completes at `wait`.
-/
namespace Heat
variable {L W 𝕜 : Type} [DecidableEq L] [Field 𝕜]

/-- The state: process `r`, layer `ℓ`. `keys`/`vals` are `_layer_wait_handles` (keys in order of insertion), `active` is `_active_layers`, `updateNext` the flag of the optimizer (data_parallel.py:66-77, dp_optimizer.py:865-875).
`seen` and `log` record what the forwards read. -/
structure DpState (L W 𝕜 : Type) where
  w : Nat → L → W
  grad : Nat → L → 𝕜
  keys : List L
  vals : L → List 𝕜
  active : List L
  updateNext : Bool
  seen : Nat → L → W
  log : List (L × (Nat → W))

/-- A new model: the parameters `w0` (data_parallel.py:104-106 resets them from one seed). -/
def dpInit (w0 : Nat → L → W) : DpState L W 𝕜 := ⟨w0, fun _ _ => 0, [], fun _ => [], [], false, w0, []⟩

/-- `_blocking_hook`/`_nonblocking_hook` (data_parallel.py:220-238, 240-276): the gradients scaled by `1/size`, summed over the processes. -/
def dpReduce (size : Nat) (g : Nat → (L → W) → L → 𝕜) (seen : Nat → L → W) (ℓ : L) : 𝕜 := ∑ r ∈ Finset.range size, g r (seen r) ℓ * (1 / (size : 𝕜))

/-- `_iparam_update(slice, [layer])` (data_parallel.py:172-218) as the forward hook calls it (278-296): only an active layer is updated; the optimizer sees only this layer. -/
def dpFinish (opt : W → 𝕜 → W) (s : DpState L W 𝕜) (ℓ : L) : DpState L W 𝕜 :=
  if ℓ ∈ s.active then
    let grad := fun r m => if m = ℓ then s.grad r m + (s.vals ℓ).sum else s.grad r m
    { s with
      grad := grad
      active := s.active.filter (fun m => decide (m ≠ ℓ))
      w := if s.updateNext then fun r m => if m = ℓ then opt (s.w r m) (grad r m) else s.w r m else s.w }
  else s

/-- A layer reads its parameters (data_parallel.py:153, the forward of the wrapped module). -/
def dpRead (s : DpState L W 𝕜) (ℓ : L) : DpState L W 𝕜 :=
  { s with seen := fun r m => if m = ℓ then s.w r m else s.seen r m, log := s.log ++ [(ℓ, fun r => s.w r ℓ)] }

/-- The forward of the wrapped module with the registered hooks (data_parallel.py:141-151): a layer with a wait handle is finished before it is called. `hooked ℓ`: the layer is a submodule and is called; parameters of the module itself,
or parameters read without calling their submodule, are not hooked. -/
def dpCalls (opt : W → 𝕜 → W) (hooked : L → Bool) (regs : List L) : List L → DpState L W 𝕜 → DpState L W 𝕜
  | [], s => s
  | ℓ :: ls, s => dpCalls opt hooked regs ls (dpRead (if hooked ℓ ∧ ℓ ∈ regs then dpFinish opt s ℓ else s) ℓ)

/-- `forward` in training mode (data_parallel.py:137-170): hooks, the wrapped forward, the layers still active, then the flag and the handles are cleared. -/
def dpForward (opt : W → 𝕜 → W) (hooked : L → Bool) (calls : List L) (s : DpState L W 𝕜) : DpState L W 𝕜 :=
  let s1 := dpCalls opt hooked s.keys calls s
  let s2 := s1.active.foldl (dpFinish opt) s1
  { s2 with updateNext := false, keys := [], vals := fun _ => [] }

/-- The non-blocking hook of one layer (data_parallel.py:240-276). -/
def dpHook (v : L → 𝕜) (s : DpState L W 𝕜) (ℓ : L) : DpState L W 𝕜 :=
  { s with
    keys := if ℓ ∈ s.keys then s.keys else s.keys ++ [ℓ]
    active := if ℓ ∈ s.active then s.active else s.active ++ [ℓ]
    vals := fun m => if m = ℓ then s.vals m ++ [v m] else s.vals m }

/-- The loop of `_iparam_update()` over all layers (data_parallel.py:196-213): `false` when it returns early. -/
def dpFlush : List L → DpState L W 𝕜 → DpState L W 𝕜 × Bool
  | [], s => (s, true)
  | ℓ :: ls, s =>
    if ℓ ∈ s.active then
      dpFlush ls { s with grad := fun r m => if m = ℓ then s.grad r m + (s.vals ℓ).sum else s.grad r m, active := s.active.filter (fun m => decide (m ≠ ℓ)) }
    else (s, false)

/-- Setting `training` to `False` (data_parallel.py:128-135) and the end of `_iparam_update` (216-218). -/
def dpEval (opt : W → 𝕜 → W) (s : DpState L W 𝕜) : DpState L W 𝕜 :=
  let p := dpFlush s.keys.reverse s
  if p.2 ∧ p.1.updateNext then { p.1 with w := fun r ℓ => opt (p.1.w r ℓ) (p.1.grad r ℓ) } else p.1

/-- A call with non-blocking updates (data_parallel.py:128-296; dp_optimizer.py:876-892). -/
def dpOp (size : Nat) (opt : W → 𝕜 → W) (hooked : L → Bool) (s : DpState L W 𝕜) : DpOp L W 𝕜 → DpState L W 𝕜
  | .zero => { s with grad := fun _ _ => 0 }
  | .forward calls => dpForward opt hooked calls s
  | .backward reach g => reach.foldl (dpHook (dpReduce size g s.seen)) s
  | .step => { s with updateNext := true }
  | .eval => dpEval opt s
  | .test calls => { calls.foldl dpRead s with updateNext := false, keys := [], vals := fun _ => [] }

/-- A call with blocking updates (data_parallel.py:220-238; dp_optimizer.py:876-884). -/
def dpBlockingOp (size : Nat) (opt : W → 𝕜 → W) (s : DpState L W 𝕜) : DpOp L W 𝕜 → DpState L W 𝕜
  | .zero => { s with grad := fun _ _ => 0 }
  | .forward calls => calls.foldl dpRead s
  | .backward reach g => { s with grad := fun r ℓ => if ℓ ∈ reach then s.grad r ℓ + dpReduce size g s.seen ℓ else s.grad r ℓ }
  | .step => { s with w := fun r ℓ => opt (s.w r ℓ) (s.grad r ℓ) }
  | .eval => s
  | .test calls => calls.foldl dpRead s

/-- A program with non-blocking updates (data_parallel.py:22-312). -/
def dpRun (size : Nat) (opt : W → 𝕜 → W) (hooked : L → Bool) (ops : List (DpOp L W 𝕜)) (s : DpState L W 𝕜) : DpState L W 𝕜 := ops.foldl (dpOp size opt hooked) s

/-- A program with blocking updates (data_parallel.py:22-312). -/
def dpRunBlocking (size : Nat) (opt : W → 𝕜 → W) (ops : List (DpOp L W 𝕜)) (s : DpState L W 𝕜) : DpState L W 𝕜 := ops.foldl (dpBlockingOp size opt) s

end Heat
