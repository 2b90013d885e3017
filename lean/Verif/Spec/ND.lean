import Verif.Spec.Datatype
/-!
# Specification vocabulary: n-dimensional arrays and their distribution

An array is its number of dimensions, its extents and its elements.  An index is a function from axes to
positions; only the coordinates of existing axes matter (`Local`).
-/
namespace Heat

/-- An n-dimensional array (a numpy array or a local torch tensor). -/
structure NArr (α : Type) where
  ndim : Nat
  dim : Nat → Nat
  get : (Nat → Nat) → α

/-- The extents as a list. -/
def NArr.shape {α : Type} (a : NArr α) : List Nat := (List.range a.ndim).map a.dim

/-- All elements in row-major order. -/
def NArr.flat {α : Type} (a : NArr α) : List α := (Spec.indices a.shape).map fun l => a.get fun k => l.getD k 0

namespace Spec
variable {α : Type}

/-- `T` is `G` reshaped to `shape`: same elements in row-major order (numpy.reshape). -/
def IsReshape (G : NArr α) (shape : List Nat) (T : NArr α) : Prop := T.shape = shape ∧ T.flat = G.flat

/-- The index is within the bounds of the array. -/
def InB (a : NArr α) (idx : Nat → Nat) : Prop := ∀ k < a.ndim, idx k < a.dim k

/-- Elements depend only on the coordinates of existing axes. -/
def Local (a : NArr α) : Prop := ∀ i j, (∀ k < a.ndim, i k = j k) → a.get i = a.get j

/-- Position along axis `s` of the first element of rank `r`: the extents of the ranks before. -/
def axisStart (loc : Nat → NArr α) (s r : Nat) : Nat := ((List.range r).map fun q => (loc q).dim s).sum

/-- Move an index along one axis. -/
def shift (s off : Nat) (idx : Nat → Nat) : Nat → Nat := fun k => if k = s then idx k + off else idx k

/-- `T` is `G` with its axes permuted: axis `k` of `T` is axis `axes k` of `G` (numpy.transpose). -/
def IsTranspose (G : NArr α) (axes : Nat → Nat) (T : NArr α) : Prop :=
  T.ndim = G.ndim ∧ (∀ k < G.ndim, T.dim k = G.dim (axes k)) ∧
  ∀ idx, T.get (fun k => idx (axes k)) = G.get idx

/-- `T` is `G` with new axes of extent 1 at the positions `new` of the result (numpy.expand_dims): `old k` is the position
in `T` of axis `k` of `G`; the old axes keep their order. -/
def IsExpand (G : NArr α) (new : List Nat) (T : NArr α) : Prop :=
  T.ndim = G.ndim + new.length ∧ (∀ a ∈ new, a < T.ndim ∧ T.dim a = 1) ∧
  ∃ old : Nat → Nat, (∀ i j, i < j → old i < old j) ∧ (∀ k < G.ndim, old k < T.ndim ∧ old k ∉ new ∧ T.dim (old k) = G.dim k) ∧
    ∀ idx, T.get idx = G.get fun k => idx (old k)

/-- `T` is `G` without the axes `gone` (of extent 1) (numpy.squeeze): `old k` is the position in `G` of axis `k` of `T`. -/
def IsSqueeze (G : NArr α) (gone : List Nat) (T : NArr α) : Prop :=
  T.ndim + gone.length = G.ndim ∧
  ∃ old : Nat → Nat, (∀ i j, i < j → j < T.ndim → old i < old j) ∧
    (∀ k < T.ndim, old k < G.ndim ∧ old k ∉ gone ∧ T.dim k = G.dim (old k)) ∧
    ∀ idx, InB G idx → T.get (fun k => idx (old k)) = G.get idx

/-- `T` is the stack of `G 0, ..., G (m-1)` along a new axis (numpy.stack). -/
def IsStack (m : Nat) (G : Nat → NArr α) (axis : Nat) (T : NArr α) : Prop :=
  T.ndim = (G 0).ndim + 1 ∧ T.dim axis = m ∧ (∀ k < (G 0).ndim, T.dim (if k < axis then k else k + 1) = (G 0).dim k) ∧
  ∀ idx, idx axis < m → T.get idx = (G (idx axis)).get fun k => idx (if k < axis then k else k + 1)

end Spec

/-- A DNDarray: its declared global shape and split axis, the local tensors of all ranks, and its `balanced` attribute. -/
structure DND (α : Type) where
  gshape : List Nat
  split : Option Nat
  loc : Nat → NArr α
  balanced : Option Bool

/-- The DNDarray `x` on `P` processes is a consistent representation of the array `G`. -/
def Spec.Rep {α : Type} (P : Nat) (x : DND α) (G : NArr α) : Prop :=
  Spec.Local G ∧ x.gshape.length = G.ndim ∧ (∀ k < G.ndim, x.gshape.getD k 0 = G.dim k) ∧ (∀ r < P, (x.loc r).ndim = G.ndim) ∧
  match x.split with
  | none => ∀ r < P, (∀ k < G.ndim, (x.loc r).dim k = G.dim k) ∧ ∀ idx, Spec.InB (x.loc r) idx → (x.loc r).get idx = G.get idx
  | some s => s < G.ndim ∧ Spec.axisStart x.loc s P = G.dim s ∧
      ∀ r < P, (∀ k < G.ndim, k ≠ s → (x.loc r).dim k = G.dim k) ∧
        ∀ idx, Spec.InB (x.loc r) idx → (x.loc r).get idx = G.get (Spec.shift s (Spec.axisStart x.loc s r) idx)

end Heat
