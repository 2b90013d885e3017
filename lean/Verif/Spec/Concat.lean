import Verif.Model.Concat
import Verif.Spec.Dist
/-!
# Vocabulary of C61 (concatenate): what an operand is globally, and how it is distributed
-/
namespace Heat
open Spec

variable {α : Type}

/-- The global list of slabs of an operand. -/
def CatArr.glob (P : Nat) : CatArr α → List α
  | .rep l => l
  | .along d => content P d

/-- No rank holds more of the operand than its share of `n` slabs. -/
def CatArr.Fits (P n : Nat) : CatArr α → Prop
  | .rep _ => True
  | .along d => ∀ r < P, (d r).length ≤ evenSize n P r

/-- Canonical distribution (or replicated). -/
def CatArr.Canonical (P : Nat) : CatArr α → Prop
  | .rep _ => True
  | .along d => Balanced P d

/-- The operand is replicated. -/
def CatArr.isRep : CatArr α → Bool
  | .rep _ => true
  | .along _ => false

end Heat
