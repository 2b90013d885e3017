import Verif.Model.QrCols
/-!
# `solve_triangular` (heat/core/linalg/solver.py:430-623)

Block-wise back substitution of an upper triangular system with several right-hand sides, without batch dimensions. Exact arithmetic over a field. A local array is a function of row and column; `c r` is the number of rows (or columns) of process `r` along the split axis, `cx r` the number of rows of process `r` in the result `x` as created by `zeros_like` (always the balanced share). The local solver `torch.linalg.solve_triangular` is an argument.
-/
namespace Heat
open Spec
variable {K : Type} [CommRing K]

/-- The state of the loop: `btilde_loc` and `x.larray` of every process. -/
structure TriState (K : Type) where
  bt : Nat → Nat → Nat → K
  x : Nat → Nat → Nat → K

/-- The local solver: size, matrix, right-hand sides (row, column). -/
abbrev TriSolver (K : Type) := Nat → (Nat → Nat → K) → (Nat → Nat → K) → Nat → Nat → K

/-- One pass for a matrix split along the columns (solver.py:563-588, and 513-536 for a matrix that is not split, whose columns are cut locally). Process `i` solves its block, multiplies all its columns by the solution and scatters the rows: process `r` receives `count[r] = cx r` rows from `displ[r]` on and subtracts them from its `btilde_loc`; a single row is repeated by torch, another number of rows is refused. Rows outside the buffer are refused. -/
def triPassCols (solve : TriSolver K) (n : Nat) (c cx : Nat → Nat) (A : Nat → Nat → Nat → K) (st : TriState K) (i : Nat) : Option (TriState K) :=
  let xi := solve (c i) (fun a j => A i (colOff c i + a) j) (st.bt i)
  let res := fun g k => ∑ j ∈ Finset.range (c i), A i g j * xi j k
  if ∀ r < i, (cx r = c r ∨ cx r = 1) ∧ colOff c r + cx r ≤ n then
    some ⟨fun r a k => if r < i then st.bt r a k - res (colOff c r + if cx r = c r then a else 0) k else st.bt r a k,
      fun r => if r = i then xi else st.x r⟩
  else none

/-- One pass for a matrix split along the rows (solver.py:596-616): process `i` solves its block and broadcasts the solution into buffers of `cx i` rows. -/
def triPassRows (solve : TriSolver K) (c cx : Nat → Nat) (A : Nat → Nat → Nat → K) (st : TriState K) (i : Nat) : Option (TriState K) :=
  let xi := solve (c i) (fun a j => A i a (colOff c i + j)) (st.bt i)
  if cx i = c i then
    some ⟨fun r a k => if r < i then st.bt r a k - ∑ j ∈ Finset.range (c i), A r a (colOff c i + j) * xi j k else st.bt r a k,
      fun r => if r = i then xi else st.x r⟩
  else none

/-- The passes `i = m, m - 1, …, 1` (`for i in range(nprocs - 1, 0, -1)`). -/
def triLoop (pass : TriState K → Nat → Option (TriState K)) : Nat → TriState K → Option (TriState K)
  | 0, st => some st
  | m + 1, st => (pass st (m + 1)).bind (triLoop pass m)

/-- `solve_triangular` of a matrix split along the columns (solver.py:545-593): the passes, then process 0 solves its block. The result is split along the rows. -/
def triCols (solve : TriSolver K) (n P : Nat) (c cx : Nat → Nat) (A b : Nat → Nat → Nat → K) : Option (Nat → Nat → Nat → K) :=
  (triLoop (triPassCols solve n c cx A) (P - 1) ⟨b, fun _ _ _ => 0⟩).map (fun st r =>
    if r = 0 then solve (c 0) (fun a j => A 0 a j) (st.bt 0) else st.x r)

/-- `solve_triangular` of a matrix split along the rows (solver.py:545-561, 595-621). -/
def triRows (solve : TriSolver K) (P : Nat) (c cx : Nat → Nat) (A b : Nat → Nat → Nat → K) : Option (Nat → Nat → Nat → K) :=
  (triLoop (triPassRows solve c cx A) (P - 1) ⟨b, fun _ _ _ => 0⟩).map (fun st r =>
    if r = 0 then solve (c 0) (fun a j => A 0 a j) (st.bt 0) else st.x r)

/-- `solve_triangular` of a matrix that is not split and a right-hand side split along the rows (solver.py:501-543): every process cuts its columns out of its copy of `A` (`A.larray[..., s:e]`). The receive buffer `res_recv` has torch's default type (solver.py:521): unless the data has that type (`default`), the message is longer than the buffer of any process that receives rows. `k` is the number of right-hand sides. -/
def triWhole (solve : TriSolver K) (default : Bool) (n k P : Nat) (c cx : Nat → Nat) (A : Nat → Nat → K) (b : Nat → Nat → Nat → K) : Option (Nat → Nat → Nat → K) :=
  if default = true ∨ P ≤ 1 ∨ k = 0 ∨ ∀ r < P - 1, cx r = 0 then triCols solve n P c cx (fun r g j => A g (colOff c r + j)) b else none

/-- The branches of `solve_triangular`. -/
inductive TriBranch where
  | loc        -- no distribution
  | whole      -- `A` not split, `b` split along the rows
  | batch      -- both split along the same batch axis
  | cols       -- `A` split along the columns
  | rows       -- `A` split along the rows
  deriving DecidableEq, Repr

/-- The checks of `solve_triangular` and the branch taken (solver.py:455-499, 545-563, 595). `sameLayout` says whether the rows of `b` are distributed as the split axis of `A`. -/
def triCheck (shA shB : List Nat) (spA spB : Option Nat) (sameLayout : Bool) : Except Err TriBranch :=
  let d := shA.length - 2
  if shA.length < 2 then .error .valueError
  else if shB.length ≠ shA.length then .error .valueError
  else if shA.getD d 0 ≠ shA.getD (d + 1) 0 then .error .valueError
  else if shA.take d ≠ shB.take d then .error .valueError
  else if spB = some (d + 1) then .error .valueError
  else if shB.getD d 0 ≠ shA.getD (d + 1) 0 then .error .valueError
  else if (∃ s ∈ spA, s < d) ∨ (∃ s ∈ spB, s < d) then
    (if spA ≠ spB then .error .valueError else .ok .batch)
  else if spA.isSome ∧ spB.isSome ∧ sameLayout = false then .error .runtimeError
  else match spA with
    | none => .ok (if spB = none then .loc else .whole)
    | some s => .ok (if s = d + 1 then .cols else .rows)

end Heat
