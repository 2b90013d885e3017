import Verif.Model.Mpi
import Mathlib.Algebra.Order.Field.Basic
import Mathlib.Data.Matrix.Mul
/-!
# Hierarchical singular value decomposition (heat/core/linalg/svdtools.py)

Exact arithmetic in an ordered field. A matrix with `m` rows is the list of its columns. `torch.linalg.svd(M, full_matrices=False)` is a parameter: it returns the left singular vectors and the singular values
(the right factor is discarded by the code). Tolerances enter squared, as in the comparisons of the code. For an array split along axis 0 the code transposes it first (svdtools.py:290-292); the model starts with the transposed array:
`A r` are the columns of process `r` (all columns on every process for an array that is not split).
-/
namespace Heat
open Matrix
variable {K : Type} [Field K] [LinearOrder K] {m : Nat}

/-- `torch.norm(v) ** 2` of a tensor of singular values. -/
def sqSum (l : List K) : K := (l.map fun x => x * x).sum

/-- `U @ diag(sigma)` (svdtools.py:323, 405). -/
def scaleCols (U : List (Fin m → K)) (σ : List K) : List (Fin m → K) := List.zipWith (fun u s => s • u) U σ

/-- `max(nonzero(sigma >= noiselevel)) + 1`, 0 if there is none (svdtools.py:479-482). -/
def noiseRank (noise : K) (σ : List K) : Nat := ((List.range σ.length).filter fun i => noise ≤ σ.getD i 0).foldl (fun _ i => i + 1) 0

/-- `min(nonzero(|sigma[k:]|^2 < atol^2 for k in 0, ..., len))` (svdtools.py:486-496). -/
def idealRank (a2 : K) (σ : List K) : Option Nat := (List.range (σ.length + 1)).find? fun k => sqSum (σ.drop k) < a2

/-- The truncation rank before the safety shift (svdtools.py:483-498); the case without any `k` is `truncFails`. -/
def truncRank (noise : K) (maxrank : Nat) (a2 : Option K) (σ : List K) : Nat :=
  match a2 with
  | none => min maxrank (noiseRank noise σ)
  | some a => min (min maxrank ((idealRank a σ).getD 0)) (noiseRank noise σ)

/-- `min` of an empty tensor raises (svdtools.py:487): no `k` with `|sigma[k:]|^2 < atol^2`. -/
def truncFails (noise : K) (a2 : Option K) (σ : List K) : Prop := noiseRank noise σ ≠ 0 ∧ ∃ a ∈ a2, idealRank a σ = none

instance (noise : K) (a2 : Option K) (σ : List K) : Decidable (truncFails noise a2 σ) := by
  unfold truncFails
  cases a2 <;> simp only [Option.mem_def] <;> infer_instance

/-- `_compute_local_truncated_svd` (svdtools.py:456-514): columns, singular values, squared error. `sigma[t - safetyshift:]` with a negative start counts from the end, so that it starts at `len - (safetyshift - t)`, or at 0. -/
def truncSvd (svd : List (Fin m → K) → List (Fin m → K) × List K) (noise : K) (maxrank : Nat) (a2 : Option K) (shift : Nat) (M : List (Fin m → K)) : List (Fin m → K) × List K × K :=
  let U := (svd M).1
  let σ := (svd M).2
  if noiseRank noise σ ≠ 0 then
    let t := min σ.length (truncRank noise maxrank a2 σ + shift)
    let start := if shift ≤ t then t - shift else σ.length - (shift - t)
    (U.take t, σ.take t, sqSum (σ.drop start))
  else ([0], [0], sqSum σ)

/-- State of a process: `U_loc` and `err_squared_loc`. -/
structure HNode (K : Type) (m : Nat) where
  cols : List (Fin m → K)
  err : K

/-- State of the planning loop (svdtools.py:336-343). -/
structure HPlan where
  future : List Nat
  send : Nat → Option Nat
  cur : Nat
  used : Nat
  counter : Nat

/-- One pass of the planning loop (svdtools.py:345-357). -/
def planStep (dims : Nat → Nat) (mm : Nat) (nom : Option Nat) (s : HPlan) (i : Nat) : HPlan :=
  if mm < s.used + dims i ∨ nom = some s.counter then ⟨s.future ++ [i], s.send, i, dims i, 1⟩
  else ⟨s.future, if s.used ≠ 0 then Function.update s.send i (some s.cur) else s.send, s.cur, s.used + dims i, s.counter + 1⟩

/-- Which processes go on, and which process sends to which (svdtools.py:335-357). -/
def hPlan (dims : Nat → Nat) (mm : Nat) (nom : Option Nat) (active : List Nat) : HPlan := active.foldl (planStep dims mm nom) ⟨[0], fun _ => none, 0, 0, 0⟩

/-- `recv_from[i]` (svdtools.py:359-361). -/
def recvFrom (P : Nat) (p : HPlan) (i : Nat) : List Nat := (List.range P).filter fun k => p.send k = some i

/-- The transfers of one level, in an order compatible with the programs of all processes: `Recv` of the matrix and the error from every process in `recv_from` (svdtools.py:377-382), `Send` by the others (svdtools.py:411-419).
The local state of a process is its list of matrices and errors. -/
def hXfers (P : Nat) (p : HPlan) : List (Xfer (List (HNode K m)) (List (HNode K m))) :=
  p.future.flatMap fun i => (recvFrom P p i).map fun k => ⟨k, i, k, id, id, fun msg s => s ++ msg⟩

/-- What a process of the next level has after the exchange: its own matrix and those received, side by side, and the sum of the errors (svdtools.py:363-386). -/
def hGather (P : Nat) (p : HPlan) (nodes : Nat → HNode K m) (i : Nat) : HNode K m :=
  ⟨(nodes i).cols ++ (recvFrom P p i).flatMap fun k => (nodes k).cols, (nodes i).err + ((recvFrom P p i).map fun k => (nodes k).err).sum⟩

/-- The parameters of `hsvd`: local SVD, noise level, `maxrank`, `maxmergedim`, `no_of_merges`, squared absolute tolerance, `safetyshift`. -/
structure HPar (K : Type) (m : Nat) where
  svd : List (Fin m → K) → List (Fin m → K) × List K
  noise : K
  maxrank : Nat
  mm : Nat
  nom : Option Nat
  a2 : Option K
  shift : Nat

/-- One level (svdtools.py:326-424): `none` for an error: a process that neither goes on nor sends anywhere (`Send` to `[]`, TypeError), a sender without columns (`U_loc[-1, 0]`, IndexError), a failing truncation. -/
def hLevel (P : Nat) (h : HPar K m) (nodes : Nat → HNode K m) (active : List Nat) : Option ((Nat → HNode K m) × List Nat) :=
  let p := hPlan (fun i => (nodes i).cols.length) h.mm h.nom active
  if ∃ k ∈ active, k ∉ p.future ∧ (p.send k = none ∨ (nodes k).cols = []) then none
  else if ∃ i ∈ p.future, truncFails h.noise h.a2 (h.svd (hGather P p nodes i).cols).2 then none
  else
    let last := p.future.length = 1
    some (fun i =>
      if i ∈ p.future then
        let g := hGather P p nodes i
        let t := truncSvd h.svd h.noise h.maxrank h.a2 (if last then 0 else h.shift) g.cols
        ⟨if last then t.1 else scaleCols t.1 t.2.1, g.err + t.2.2⟩
      else nodes i, p.future)

/-- Result of a run: an error, still running after the given number of levels, or the state of process 0. -/
inductive HRes (K : Type) (m : Nat) where
  | error
  | running
  | done (x : HNode K m)

/-- The loop over the levels (svdtools.py:325-424), at most `fuel` of them, and the final broadcast (lines 426-436), which fails without columns. -/
def hLoop (P : Nat) (h : HPar K m) : Nat → (Nat → HNode K m) → List Nat → HRes K m
  | 0, _, _ => .running
  | fuel + 1, nodes, active =>
    match hLevel P h nodes active with
    | none => .error
    | some (nodes', future) =>
      if future.length = 1 then (if (nodes' 0).cols = [] then .error else .done (nodes' 0))
      else hLoop P h fuel nodes' future

/-- Level 0 (svdtools.py:308-323). -/
def hStart (h : HPar K m) (A : Nat → List (Fin m → K)) (r : Nat) : HNode K m :=
  let t := truncSvd h.svd h.noise h.maxrank h.a2 h.shift (A r)
  ⟨scaleCols t.1 t.2.1, t.2.2⟩

/-- `hsvd` up to the broadcast of `U` and of the squared error estimate (svdtools.py:286-440), running at most `fuel` levels. -/
def hsvd (P : Nat) (h : HPar K m) (A : Nat → List (Fin m → K)) (fuel : Nat) : HRes K m :=
  if ∃ r < P, truncFails h.noise h.a2 (h.svd (A r)).2 then .error else hLoop P h fuel (hStart h A) (List.range P)

/-- `V = A^T U`, `sigma = vector_norm(V, axis=0)`, and `V` scaled by `1 / sigma` unless all of `sigma` is zero (svdtools.py:445-450): for every column of `U` the value and the column of `V`. `rt` is the square root. -/
def hRight (rt : K → K) (U A : List (Fin m → K)) : List (K × List K) :=
  let V := U.map fun u => A.map fun c => c ⬝ᵥ u
  let σ := V.map fun v => rt (sqSum v)
  if ∃ s ∈ σ, s ≠ 0 then List.zipWith (fun v s => (s, v.map fun x => x * (1 / s))) V σ else List.zipWith (fun v s => (s, v)) V σ

/-! ## Arguments -/

/-- The choice of `maxmergedim` in `hsvd_rank` (svdtools.py:83-96); `size` is the largest local number of columns. -/
def hsvdRankArgs (size maxrank shift : Nat) (mm : Option Nat) : Except Err Nat :=
  match mm with
  | some d => if d < 2 * (maxrank + shift) + 1 then .error .runtimeError else .ok d
  | none => .ok (if 2 * (maxrank + shift) ≤ size then size else 2 * (maxrank + shift) + 1)

/-- The choices of `maxrank`, `maxmergedim` and `no_of_merges` in `hsvd_rtol` (svdtools.py:195-226); `n` is the number of columns of the argument. -/
def hsvdRtolArgs (size n shift : Nat) (maxrank mm nom : Option Nat) : Except Err (Nat × Nat × Option Nat) :=
  match (match maxrank, mm with
    | none, some d => if size / 2 ≤ shift then .error .valueError else .ok (some (size / 2 - shift), some d)
    | some k, none => .ok (some k, some (if 2 * (k + shift) ≤ size then size else 2 * (k + shift) + 1))
    | a, b => .ok (a, b) : Except Err (Option Nat × Option Nat)) with
  | .error e => .error e
  | .ok (some k, some d) => if d < 2 * (k + shift) + 1 then .error .valueError else if ∃ q ∈ nom, q < 2 then .error .valueError else .ok (k, d, nom)
  | .ok _ =>
    let nom := nom.getD 2
    if nom < 2 then .error .valueError else .ok (n, 2 * (n + shift) + 1, some nom)

end Heat
