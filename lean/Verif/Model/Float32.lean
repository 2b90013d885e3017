/-!
# float32 rounding of natural numbers
Only used where heat stores sizes or counters in `torch.float32` tensors.
-/
namespace Heat

/-- Conversion of a natural number to IEEE float32 (round to nearest, ties to even), as the natural number it
denotes.  Numbers up to `2^24` are exact.  (Overflow to infinity beyond `2^128` is not modelled.) -/
def f32 (n : Nat) : Nat :=
  if n ≤ 2 ^ 24 then n
  else
    let e := Nat.log2 n - 23
    let q := n / 2 ^ e
    let rem := n % 2 ^ e
    let half := 2 ^ (e - 1)
    let q := if rem > half then q + 1 else if rem = half then (if q % 2 = 0 then q else q + 1) else q
    q * 2 ^ e

theorem f32_exact {n : Nat} (h : n ≤ 2 ^ 24) : f32 n = n := by unfold f32; rw [if_pos h]

end Heat
