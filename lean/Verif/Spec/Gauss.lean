import Verif.Spec.Dist
import Mathlib.LinearAlgebra.Matrix.Determinant.Basic
/-!
# The matrix a distribution of rows stands for
-/
namespace Heat.Spec

/-- The `n × n` matrix whose rows are held, one after the other, by ranks `0, …, P - 1`. -/
def matOf {K : Type} [Zero K] (n P : Nat) (parts : Nat → List (Nat → K)) : Matrix (Fin n) (Fin n) K :=
  Matrix.of fun i j => ((content P parts).getD i fun _ => 0) j

end Heat.Spec
