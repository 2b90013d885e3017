import Mathlib.Algebra.Field.Basic
import Mathlib.Algebra.BigOperators.Group.Finset.Basic
import Mathlib.Data.Finset.Range
/-!
# Training programs

A program is a list of calls; the same program can be run with blocking or non-blocking parameter updates. `L` are the layers, `W` the state of a layer (parameters and what the optimizer keeps for them), `𝕜` the gradients.
-/
namespace Heat

/-- The calls of a training program. -/
inductive DpOp (L W 𝕜 : Type) where
  /-- `optimizer.zero_grad()` -/
  | zero
  /-- `model(x)` in training mode; the layers read, in order -/
  | forward (calls : List L)
  /-- `loss.backward()`: the layers that get a gradient, and the gradient of process `r` as a function of the parameters its last forward read -/
  | backward (reach : List L) (g : Nat → (L → W) → L → 𝕜)
  /-- `optimizer.step()` -/
  | step
  /-- `model.eval()` -/
  | eval
  /-- `model(x)` in evaluation mode -/
  | test (calls : List L)

/-- One batch: the layers the forward reads, the layers that get a gradient, the gradients. -/
structure DpBatch (L W 𝕜 : Type) where
  calls : List L
  reach : List L
  g : Nat → (L → W) → L → 𝕜

/-- The usual loop: `zero_grad, forward, backward, step`. -/
def zeroFirst {L W 𝕜 : Type} (bs : List (DpBatch L W 𝕜)) : List (DpOp L W 𝕜) := bs.flatMap (fun b => [.zero, .forward b.calls, .backward b.reach b.g, .step])

/-- The other loop: `forward, zero_grad, backward, (forward, backward) ..., step`: one update per group of batches. -/
def zeroSecond {L W 𝕜 : Type} (gs : List (DpBatch L W 𝕜 × List (DpBatch L W 𝕜))) : List (DpOp L W 𝕜) :=
  gs.flatMap (fun p => [.forward p.1.calls, .zero, .backward p.1.reach p.1.g] ++ p.2.flatMap (fun b => [.forward b.calls, .backward b.reach b.g]) ++ [.step])

/-- The mean of the gradients of the processes. -/
def meanGradient {𝕜 : Type} [Field 𝕜] (size : Nat) (g : Nat → 𝕜) : 𝕜 := (∑ r ∈ Finset.range size, g r) / (size : 𝕜)

end Heat
