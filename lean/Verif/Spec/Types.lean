import Verif.Model.Types
/-!
# Which integers a number type can hold (IEEE-754 / two's complement), independent of heat's tables
-/
namespace Heat.Spec

/-- The integer `n` is exactly a floating point number with `p` significand bits and largest
exponent `emax` (largest finite value `(2^p - 1) * 2^(emax + 1 - p)`). -/
def FloatHolds (p emax : Nat) (n : Int) : Prop :=
  ∃ m e : Nat, n.natAbs = m * 2 ^ e ∧ m < 2 ^ p ∧ e + p ≤ emax + 1

/-- The integer `n` is a value of the type. -/
def Holds' : Dt → Int → Prop
  | .bool, n => 0 ≤ n ∧ n ≤ 1
  | .int8, n => -2 ^ 7 ≤ n ∧ n < 2 ^ 7
  | .int16, n => -2 ^ 15 ≤ n ∧ n < 2 ^ 15
  | .int32, n => -2 ^ 31 ≤ n ∧ n < 2 ^ 31
  | .int64, n => -2 ^ 63 ≤ n ∧ n < 2 ^ 63
  | .uint8, n => 0 ≤ n ∧ n < 2 ^ 8
  | .float16, n => FloatHolds 11 15 n
  | .float32, n => FloatHolds 24 127 n
  | .float64, n => FloatHolds 53 1023 n
  | .complex64, n => FloatHolds 24 127 n
  | .complex128, n => FloatHolds 53 1023 n

end Heat.Spec
