import Verif.Spec.ND
import Verif.Spec.Dist
/-!
# Specification vocabulary: diagonals, positions of non-zero elements
-/
namespace Heat.Spec
variable {α : Type}

/-- The local extents along axis `s` are the canonical ones. -/
def BalancedND (P : Nat) (x : DND α) (G : NArr α) (s : Nat) : Prop := ∀ r < P, (x.loc r).dim s = evenSize (G.dim s) P r

/-- `T` is the diagonal of `G` over the axes `d1`, `d2` with offset `off` (numpy.diagonal): the two axes vanish and the diagonal becomes the
last axis; position `t` on it belongs to the elements with `min (i_d1) (i_d2) = t` and `i_d2 = i_d1 + off`. -/
def IsDiagonal (G : NArr α) (off : Int) (d1 d2 : Nat) (T : NArr α) : Prop :=
  T.ndim + 1 = G.ndim ∧ (∀ t, t < T.dim (T.ndim - 1) ↔ t + (-off).toNat < G.dim d1 ∧ t + off.toNat < G.dim d2) ∧
  ∃ old : Nat → Nat, (∀ i j, i < j → j < T.ndim - 1 → old i < old j) ∧
    (∀ k < T.ndim - 1, old k < G.ndim ∧ old k ≠ d1 ∧ old k ≠ d2 ∧ T.dim k = G.dim (old k)) ∧
    ∀ idx, InB G idx → (idx d2 : Int) = idx d1 + off →
      T.get (fun k => if k = T.ndim - 1 then min (idx d1) (idx d2) else idx (old k)) = G.get idx

/-- `M` is the square matrix with the vector `v` on the diagonal with offset `off` (numpy.diag of a vector). -/
def IsDiagMatrix (zero : α) (v : List α) (off : Int) (M : NArr α) : Prop :=
  M.ndim = 2 ∧ M.dim 0 = v.length + off.natAbs ∧ M.dim 1 = v.length + off.natAbs ∧
  ∀ idx, InB M idx → (if (idx 1 : Int) = idx 0 + off then v[min (idx 0) (idx 1)]? = some (M.get idx) else M.get idx = zero)

/-- `T` is `G` with `v` on the main diagonal. -/
def IsFilled (G : NArr α) (v : α) (T : NArr α) : Prop :=
  T.ndim = G.ndim ∧ (∀ k < G.ndim, T.dim k = G.dim k) ∧ ∀ idx, T.get idx = if idx 0 = idx 1 then v else G.get idx

/-- Positions of the elements satisfying `p`, in row-major order (numpy.argwhere). -/
def positions (p : α → Bool) (G : NArr α) : List (List Nat) :=
  (indices G.shape).filter fun l => p (G.get fun k => l.getD k 0)

end Heat.Spec
