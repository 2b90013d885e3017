import Mathlib.Algebra.Field.Basic
import Mathlib.Algebra.BigOperators.Group.Finset.Basic
import Mathlib.Data.Finset.Range
/-!
# What a distributed training promises

Written without the implementation: process `(k, l)` is GPU `l` of node `k`.
-/
namespace Heat

/-- The mean over the nodes. -/
def nodeMean {𝕜 : Type} [Field 𝕜] (nodes : Nat) (f : Nat → 𝕜) : 𝕜 := (∑ i ∈ Finset.range nodes, f i) / (nodes : 𝕜)

/-- Every process holds the parameters `v`. -/
def AllHold {𝕜 : Type} (x : Nat → Nat → 𝕜) (v : 𝕜) : Prop := ∀ k l, x k l = v

end Heat
