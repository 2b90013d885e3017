import Verif.Spec.ND
/-!
# Specification vocabulary: triangles, traces, inner products
-/
namespace Heat.Spec
variable {α : Type}

/-- `T` is the lower (upper) triangle of the last two axes of `G`: elements above (below) the `k`-th diagonal are zero (numpy.tril, numpy.triu). -/
def IsTri (lower : Bool) (zero : α) (k : Int) (G T : NArr α) : Prop :=
  T.ndim = G.ndim ∧ (∀ a < G.ndim, T.dim a = G.dim a) ∧
  ∀ idx, InB G idx → T.get idx =
    if (lower = true ∧ (idx (G.ndim - 1) : Int) - idx (G.ndim - 2) ≤ k) ∨ (lower = false ∧ k ≤ (idx (G.ndim - 1) : Int) - idx (G.ndim - 2)) then G.get idx else zero

/-- `T` is the square matrix all of whose rows are the vector `G`. -/
def IsRowRepeat (G T : NArr α) : Prop :=
  T.ndim = 2 ∧ T.dim 0 = G.dim 0 ∧ T.dim 1 = G.dim 0 ∧ ∀ idx, T.get idx = G.get fun _ => idx 1

/-- Sum of `f 0, ..., f (n-1)`. -/
def sumTo (n : Nat) (f : Nat → Int) : Int := ((List.range n).map f).sum

/-- The trace of a matrix: the sum of the elements `G[i, i + off]` (numpy.trace). -/
def trace2 (G : NArr Int) (off : Int) : Int :=
  sumTo (G.dim 0) fun i => if 0 ≤ (i : Int) + off ∧ (i : Int) + off < G.dim 1 then G.get fun a => if a = 0 then i else ((i : Int) + off).toNat else 0

/-- `T` is `D` summed over its last axis. -/
def IsSumLast (D T : NArr Int) : Prop :=
  T.ndim + 1 = D.ndim ∧ (∀ a < T.ndim, T.dim a = D.dim a) ∧
  ∀ idx, InB T idx → T.get idx = sumTo (D.dim T.ndim) fun t => D.get fun a => if a = T.ndim then t else idx a

/-- Inner product of two vectors. -/
def inner (a b : List Int) : Int := ((a.zip b).map fun p => p.1 * p.2).sum

end Heat.Spec
