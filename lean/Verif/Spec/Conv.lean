import Mathlib.Algebra.Ring.Defs
import Mathlib.Algebra.BigOperators.NatAntidiagonal
/-!
# Discrete convolution
-/
namespace Heat.Spec
variable {R : Type} [CommSemiring R]

/-- Coefficient `k` of the convolution: the sum of `a i * v j` over all `i + j = k` (entries outside the lists are zero). -/
def convAt (a v : List R) (k : Nat) : R := ∑ ij ∈ Finset.antidiagonal k, a.getD ij.1 0 * v.getD ij.2 0

/-- All coefficients of the convolution. -/
def convFull (a v : List R) : List R := (List.range (a.length + v.length - 1)).map (convAt a v)

/-- The three modes. -/
inductive ConvMode
  | full | same | valid
  deriving DecidableEq

/-- The part of the full convolution that a mode selects: all of it; the central part as long as the longer list; the part where the shorter list lies inside the longer one. -/
def convModeOf (mode : ConvMode) (a v : List R) : List R :=
  match mode with
  | .full => convFull a v
  | .same => ((convFull a v).drop ((min a.length v.length - 1) / 2)).take (max a.length v.length)
  | .valid => ((convFull a v).drop (min a.length v.length - 1)).take (max a.length v.length - min a.length v.length + 1)

/-- Every `s`-th element, beginning with the first. -/
def everyNth (s : Nat) (l : List R) : List R := (List.range ((l.length + s - 1) / s)).map fun i => l.getD (i * s) 0

/-- What `convolve(a, v, mode, stride)` is meant to be. -/
def convolution (mode : ConvMode) (stride : Nat) (a v : List R) : List R := everyNth stride (convModeOf mode a v)

end Heat.Spec
