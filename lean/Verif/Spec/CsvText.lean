import Mathlib.Data.Rat.Defs
import Mathlib.Algebra.Field.Rat
/-!
# The number that a text denotes

Leading blanks, an optional minus sign (45), decimal digits (48-57) and possibly a point (46) with further digits.
-/
namespace Heat.Spec

/-- The value of a string of decimal digits. -/
def digitsValue (t : List Nat) : Nat := t.foldl (fun a c => 10 * a + (c - 48)) 0

/-- The value of an unsigned decimal number. -/
def unsignedValue (t : List Nat) : Rat :=
  let a := t.takeWhile (· ≠ 46)
  let b := (t.dropWhile (· ≠ 46)).drop 1
  (digitsValue (a ++ b) : Rat) / 10 ^ b.length

/-- The value of a decimal number with leading blanks and sign. -/
def textValue (t : List Nat) : Rat :=
  let t := t.dropWhile (· = 32)
  if t.head? = some 45 then - unsignedValue (t.drop 1) else unsignedValue t

end Heat.Spec
