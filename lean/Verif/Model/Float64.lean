/-!
# IEEE binary64 rounding of rationals

`fl64 q` is the double nearest to `q` (ties to even) as a rational number.  The exponent range is unbounded:
overflow and gradual underflow are not modelled.
-/
namespace Heat

/-- `n / d` rounded to the nearest natural number, ties to even. -/
def roundHalfEven (n d : Nat) : Nat :=
  let q := n / d
  let r := n % d
  if 2 * r > d then q + 1 else if 2 * r = d then (if q % 2 = 0 then q else q + 1) else q

/-- The exponent `e` with `2^52 ≤ (n / d) / 2^e < 2^53`. -/
def exp64 (n d : Nat) : Int :=
  let e : Int := (Nat.log2 n : Int) - Nat.log2 d - 52
  if n * 2 ^ (-(e + 52)).toNat < d * 2 ^ (e + 52).toNat then e - 1 else e

/-- `n / d > 0` rounded to 53 significant bits. -/
def fl64Pos (n d : Nat) : Rat :=
  let e := exp64 n d
  (roundHalfEven (n * 2 ^ (-e).toNat) (d * 2 ^ e.toNat) : Rat) * (2 : Rat) ^ e.toNat / (2 : Rat) ^ (-e).toNat

/-- Rounding to binary64. -/
def fl64 (q : Rat) : Rat :=
  if q.num = 0 then 0 else if q.num > 0 then fl64Pos q.num.natAbs q.den else - fl64Pos q.num.natAbs q.den

end Heat
