import Mathlib.LinearAlgebra.Matrix.DotProduct
import Mathlib.Data.Real.Sqrt
/-!
# The Lanczos algorithm (heat/core/linalg/solver.py:68-302), real matrices (solver.py:244-296)

Exact arithmetic over the reals, on whole vectors. A value that is not a number is `none`. The random vectors are an argument.
-/
namespace Heat
open Matrix

/-- The columns of `V`, the entries of `T` and the vector `w`. -/
structure LzState (n : Nat) where
  V : Nat → Fin n → ℝ
  T : Nat → Nat → ℝ
  w : Fin n → ℝ

/-- Orthogonalisation against the first `i` columns (solver.py:263-270, 277-283). The sums of the local products `a` and `b` over the processes are the products, multiplied by the number of processes `c` when the vectors are not distributed (`c = 1` when they are). -/
noncomputable def lzOrth {n : Nat} (c : ℝ) (V : Nat → Fin n → ℝ) (i : Nat) (u : Fin n → ℝ) : Fin n → ℝ :=
  (List.range i).foldl (fun u j => u - ((c * (u ⬝ᵥ V j)) / (c * (V j ⬝ᵥ V j))) • V j) u

/-- Iteration 0 (solver.py:252-256). -/
noncomputable def lzInit {n : Nat} (A : Matrix (Fin n) (Fin n) ℝ) (v0 : Fin n → ℝ) : LzState n :=
  let w := A *ᵥ v0
  let alpha := w ⬝ᵥ v0
  ⟨fun _ => v0, fun a b => if a = 0 ∧ b = 0 then alpha else 0, w - alpha • v0⟩

/-- Iteration `i` (solver.py:257-296): `rnd i` is the random vector of a breakdown. A vector of norm zero cannot be normalised. -/
noncomputable def lzStep {n : Nat} (A : Matrix (Fin n) (Fin n) ℝ) (rnd : Nat → Fin n → ℝ) (c : ℝ) (st : LzState n) (i : Nat) : Option (LzState n) :=
  let beta := Real.sqrt (st.w ⬝ᵥ st.w)
  let vr := lzOrth c st.V i (if |beta| < 1 / 10 ^ 10 then rnd i else st.w)
  if Real.sqrt (vr ⬝ᵥ vr) = 0 then none
  else
    let vi := (1 / Real.sqrt (vr ⬝ᵥ vr)) • vr
    let w := A *ᵥ vi
    let alpha := w ⬝ᵥ vi
    some ⟨fun j => if j = i then vi else st.V j,
      fun a b => if a = i ∧ b = i then alpha else if (a + 1 = i ∧ b = i) ∨ (a = i ∧ b + 1 = i) then beta else st.T a b,
      w - alpha • vi - beta • st.V (i - 1)⟩

/-- `lanczos(A, m, v0)` after `m + 1` vectors: iterations 0 to `m`. -/
noncomputable def lzRun {n : Nat} (A : Matrix (Fin n) (Fin n) ℝ) (rnd : Nat → Fin n → ℝ) (c : ℝ) (v0 : Fin n → ℝ) : Nat → Option (LzState n)
  | 0 => some (lzInit A v0)
  | m + 1 => (lzRun A rnd c v0 m).bind (fun st => lzStep A rnd c st (m + 1))

end Heat
