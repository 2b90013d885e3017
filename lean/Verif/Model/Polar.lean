import Verif.Model.Eigh
import Verif.Model.Chunk
import Mathlib.LinearAlgebra.Matrix.NonsingularInverse
/-!
# Model of `polar` (heat/core/linalg/polar.py)

Exact real arithmetic; a matrix with `m` rows and `n <= m` columns distributed over `P >= 2` processes.  The Zolotarev coefficients `c` (elliptic
functions) and the QR factorisations are parameters.
-/
namespace Heat
open Matrix

/-- Automatic choice of `r` (heat/core/linalg/polar.py:213-217). -/
def polarR (P rmax : ℕ) : Option ℕ := ((List.range rmax).reverse.map (· + 1)).find? fun i => P % i == 0 && decide (P / i > 1)

/-- `_zolopd_n_iterations` (heat/core/linalg/polar.py:29-46). -/
def zoloIts (r kappa : ℕ) : ℕ :=
  (if kappa ≤ 10 ^ 2 then [4, 3, 2, 2, 2, 2, 2, 2]
   else if kappa ≤ 10 ^ 3 then [3, 3, 2, 2, 2, 2, 2, 2]
   else if kappa ≤ 10 ^ 5 then [5, 3, 3, 3, 2, 2, 2, 2]
   else if kappa ≤ 10 ^ 7 then [5, 4, 3, 3, 3, 2, 2, 2]
   else [6, 4, 3, 3, 3, 3, 3, 2]).getD (r - 1) 0

/-- `X_collected_local` of a process: the slabs of its horizontal communicator, whose ranks have the same `rank // r`
(heat/core/linalg/polar.py:249-269). -/
def polarCollected {α : Type} (r : ℕ) (loc : ℕ → List α) (rank : ℕ) : List α :=
  ((List.range r).map fun h => loc (rank / r * r + h)).flatten

/-- `X` in the vertical communicator of `rank` (ranks with the same `rank % r`): the collected parts in the order of `rank // r`
(heat/core/linalg/polar.py:252, 270). -/
def polarCopy {α : Type} (P r : ℕ) (loc : ℕ → List α) (rank : ℕ) : List α :=
  ((List.range (P / r)).map fun v => polarCollected r loc (v * r + rank % r)).flatten

/-- `counts` and `displacements` (heat/core/linalg/polar.py:340-344) for a part of `m` slabs. -/
def polarCount (m r h : ℕ) : ℕ := m / r + if h < m % r then 1 else 0

def polarDispl (m r h : ℕ) : ℕ := ((List.range h).map (polarCount m r)).sum

/-- `U_local` (heat/core/linalg/polar.py:345-357) of a process, where `X` is balanced over the vertical communicators. -/
def polarSlice {α : Type} (P r : ℕ) (X : List α) (rank : ℕ) : List α :=
  let part := (X.take (chunkRange X.length (rank / r) (P / r)).2).drop (chunkRange X.length (rank / r) (P / r)).1
  (part.drop (polarDispl part.length r (rank % r))).take (polarCount part.length r (rank % r))

/-- `aa[j]` (heat/core/linalg/polar.py:66-74); `d j` stands for `cc[2 * j]` and `b j` for `cc[2 * j + 1]`, counted from zero. -/
noncomputable def zoloA (r : ℕ) (b d : ℕ → ℝ) (j : ℕ) : ℝ :=
  -(∏ k ∈ Finset.range r, (d j - b k)) / ∏ k ∈ (Finset.range r).erase j, (d j - d k)

/-- `Mhat` (heat/core/linalg/polar.py:75). -/
noncomputable def zoloM (r : ℕ) (b d : ℕ → ℝ) : ℝ := ∏ j ∈ Finset.range r, (1 + d j) / (1 + b j)

/-- Contribution of the horizontal rank `j` to one iteration (heat/core/linalg/polar.py:291-318): `Q1`, `Q2` are the two parts of the factor `Q` of
the matrix `X` on top of `sqrt(c) I`. -/
noncomputable def zoloPart {m n : ℕ} (r : ℕ) (b d : ℕ → ℝ) (X Q1 : Matrix (Fin m) (Fin n) ℝ) (Q2 : RMat n) (j : ℕ) : Matrix (Fin m) (Fin n) ℝ :=
  zoloM r b d • ((1 / (r : ℝ)) • X + (zoloA r b d j / Real.sqrt (d j)) • (Q1 * Q2ᵀ))

/-- One iteration: the sum over the horizontal communicator (heat/core/linalg/polar.py:319-320). -/
noncomputable def zoloStep {m n : ℕ} (r : ℕ) (b d : ℕ → ℝ) (X : Matrix (Fin m) (Fin n) ℝ) (Q1 : ℕ → Matrix (Fin m) (Fin n) ℝ) (Q2 : ℕ → RMat n) :
    Matrix (Fin m) (Fin n) ℝ := ∑ j ∈ Finset.range r, zoloPart r b d X (Q1 j) (Q2 j) j

/-- The update of `ell` (heat/core/linalg/polar.py:333-336). -/
noncomputable def zoloEll (r : ℕ) (b d : ℕ → ℝ) (ell : ℝ) : ℝ :=
  (∏ j ∈ Finset.range r, (ell ^ 2 + b j) / (ell ^ 2 + d j)) * (zoloM r b d * ell)

/-- The loop (heat/core/linalg/polar.py:280-341) with the coefficients `(b, d)` of each iteration and exact QR factorisations: the matrix `X` on top
of `sqrt(d j) I` is `Q R` with orthonormal columns of `Q`.  Running less iterations because of the convergence test is a shorter list. -/
inductive ZoloRun {m n : ℕ} (r : ℕ) : List ((ℕ → ℝ) × (ℕ → ℝ)) → Matrix (Fin m) (Fin n) ℝ → Matrix (Fin m) (Fin n) ℝ → Prop where
  | done (X : Matrix (Fin m) (Fin n) ℝ) : ZoloRun r [] X X
  | step (b d : ℕ → ℝ) (cs : List ((ℕ → ℝ) × (ℕ → ℝ))) (X Y : Matrix (Fin m) (Fin n) ℝ) (Q1 : ℕ → Matrix (Fin m) (Fin n) ℝ) (Q2 R : ℕ → RMat n)
      (h1 : ∀ j < r, X = Q1 j * R j) (h2 : ∀ j < r, Real.sqrt (d j) • (1 : RMat n) = Q2 j * R j)
      (h3 : ∀ j < r, (Q1 j)ᵀ * Q1 j + (Q2 j)ᵀ * Q2 j = 1) (h4 : ZoloRun r cs (zoloStep r b d X Q1 Q2) Y) : ZoloRun r ((b, d) :: cs) X Y

/-- `H` (heat/core/linalg/polar.py:363-364). -/
noncomputable def polarH {m n : ℕ} (U A : Matrix (Fin m) (Fin n) ℝ) : RMat n := (1 / 2 : ℝ) • (Uᵀ * A + (Uᵀ * A)ᵀ)

end Heat
