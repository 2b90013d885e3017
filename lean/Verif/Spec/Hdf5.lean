import Verif.Spec.ND
import Verif.Spec.Select
/-!
# Reading a part of a data set
-/
namespace Heat.Spec

/-- `G` is the part of `F` selected by one Python slice `start:stop` per axis: element `idx` of `G` is the element of `F` at the
`idx k`-th selected position of every axis `k`. -/
def IsSliced {α : Type} (F : NArr α) (sl : Nat → Option Int × Option Int) (G : NArr α) : Prop :=
  let sel (k : Nat) := pySlice (List.range (F.dim k)) (sl k).1 (sl k).2 1
  G.ndim = F.ndim ∧ (∀ k < F.ndim, G.dim k = (sel k).length) ∧
  ∀ idx, InB G idx → G.get idx = F.get fun k => (sel k).getD (idx k) 0

end Heat.Spec
