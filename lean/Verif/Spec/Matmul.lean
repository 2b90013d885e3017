import Verif.Spec.LinAlg
/-!
# The matrix product
-/
namespace Heat.Spec

/-- Index `(i, j)`. -/
def ix (i j : Nat) : Nat → Nat := fun a => if a = 0 then i else if a = 1 then j else 0

/-- The product of two matrices: `C[i, j] = Σ_k A[i, k] B[k, j]`. -/
def product (A B : NArr Int) : NArr Int :=
  ⟨2, fun a => if a = 0 then A.dim 0 else B.dim 1, fun idx => sumTo (A.dim 1) fun k => A.get (ix (idx 0) k) * B.get (ix k (idx 1))⟩

/-- Every rank has returned from an operation, and together they hold `T`, distributed along `split`. -/
def Returned (P : Nat) (split : Option Nat) (loc : Nat → Option (NArr Int)) (T : NArr Int) : Prop :=
  ∃ l : Nat → NArr Int, (∀ r < P, loc r = some (l r)) ∧ Rep P ⟨[T.dim 0, T.dim 1], split, l, none⟩ T

/-- A matrix times a vector. -/
def matVec (A v : NArr Int) : NArr Int := ⟨1, fun _ => A.dim 0, fun idx => sumTo (A.dim 1) fun k => A.get (ix (idx 0) k) * v.get fun _ => k⟩

/-- A vector times a matrix. -/
def vecMat (v B : NArr Int) : NArr Int := ⟨1, fun _ => B.dim 1, fun idx => sumTo (v.dim 0) fun k => (v.get fun _ => k) * B.get (ix k (idx 0))⟩

/-- Every rank has returned, and together they hold the vector `T`. -/
def ReturnedVec (P : Nat) (split : Option Nat) (loc : Nat → Option (NArr Int)) (T : NArr Int) : Prop :=
  ∃ l : Nat → NArr Int, (∀ r < P, loc r = some (l r)) ∧ Rep P ⟨[T.dim 0], split, l, none⟩ T

end Heat.Spec
