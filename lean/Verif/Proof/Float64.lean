import Verif.Model.Float64
import Mathlib.Tactic.Linarith
import Mathlib.Tactic.Ring
import Mathlib.Tactic.FieldSimp
import Mathlib.Tactic.Positivity
import Mathlib.Tactic.NormNum
import Mathlib.Algebra.Order.Field.Basic
import Mathlib.Data.Rat.Floor
/-! # binary64 rounding: relative error and exactness on integers -/
namespace Heat

theorem roundHalfEven_err (n d : Nat) (hd : 0 < d) :
    2 * n ≤ 2 * (roundHalfEven n d * d) + d ∧ 2 * (roundHalfEven n d * d) ≤ 2 * n + d := by
  have h1 := Nat.div_add_mod n d
  have h2 := Nat.mod_lt n hd
  have h3 : n / d * d = n - n % d := by rw [Nat.mul_comm]; omega
  have h4 : (n / d + 1) * d = n - n % d + d := by rw [Nat.add_mul, h3, Nat.one_mul]
  unfold roundHalfEven
  simp only
  split
  · rw [h4]; omega
  · split
    · split
      · rw [h3]; omega
      · rw [h4]; omega
    · rw [h3]; omega

theorem roundHalfEven_exact (n d : Nat) (hd : 0 < d) : roundHalfEven (n * d) d = n := by
  unfold roundHalfEven
  simp [hd]
  intro h; omega

theorem two_zpow (e : Int) : (2 : ℚ) ^ e.toNat / (2 : ℚ) ^ (-e).toNat = (2 : ℚ) ^ e := by
  rcases Int.le_total 0 e with h | h
  · have : (-e).toNat = 0 := by omega
    rw [this, pow_zero, div_one]
    conv => rhs; rw [← Int.toNat_of_nonneg h]
    rw [zpow_natCast]
  · have h0 : e.toNat = 0 := by omega
    rw [h0, pow_zero]
    have : e = -((-e).toNat : Int) := by omega
    conv => rhs; rw [this]
    rw [zpow_neg, zpow_natCast, one_div]

theorem exp64_le (n d : Nat) (hn : 0 < n) (hd : 0 < d) :
    (2 : ℚ) ^ (exp64 n d + 52) ≤ (n : ℚ) / d := by
  have key : ∀ e : Int, d * 2 ^ e.toNat ≤ n * 2 ^ (-e).toNat → (2 : ℚ) ^ e ≤ (n : ℚ) / d := by
    intro e h
    rw [← two_zpow, div_le_div_iff₀ (by positivity) (by positivity)]
    have : ((d * 2 ^ e.toNat : Nat) : ℚ) ≤ ((n * 2 ^ (-e).toNat : Nat) : ℚ) := by exact_mod_cast h
    push_cast at this
    linarith
  unfold exp64
  simp only
  split
  · have h1 := Nat.log2_self_le (n := n) (by omega)
    have h2 := Nat.lt_log2_self (n := d)
    apply key
    rw [show ((Nat.log2 n : Int) - Nat.log2 d - 52 - 1 + 52) = (Nat.log2 n : Int) - ((Nat.log2 d + 1 : Nat) : Int) by push_cast; ring]
    generalize Nat.log2 n = a at *
    generalize Nat.log2 d + 1 = b at *
    rcases Nat.le_total a b with h | h
    · rw [show ((a : Int) - b).toNat = 0 by omega, show (-((a : Int) - b)).toNat = b - a by omega, pow_zero, Nat.mul_one]
      calc d ≤ 2 ^ b := Nat.le_of_lt h2
        _ = 2 ^ a * 2 ^ (b - a) := by rw [← Nat.pow_add]; congr 1; omega
        _ ≤ n * 2 ^ (b - a) := Nat.mul_le_mul_right _ h1
    · rw [show ((a : Int) - b).toNat = a - b by omega, show (-((a : Int) - b)).toNat = 0 by omega, pow_zero, Nat.mul_one]
      calc d * 2 ^ (a - b) ≤ 2 ^ b * 2 ^ (a - b) := Nat.mul_le_mul_right _ (Nat.le_of_lt h2)
        _ = 2 ^ a := by rw [← Nat.pow_add]; congr 1; omega
        _ ≤ n := h1
  · rename_i h
    apply key
    omega

theorem fl64Pos_err (n d : Nat) (hn : 0 < n) (hd : 0 < d) :
    |fl64Pos n d - (n : ℚ) / d| ≤ (n : ℚ) / d / 2 ^ 53 := by
  unfold fl64Pos
  simp only
  have hle := exp64_le n d hn hd
  generalize exp64 n d = e at *
  rw [mul_div_assoc, two_zpow]
  have hb : 0 < d * 2 ^ e.toNat := by positivity
  obtain ⟨h1, h2⟩ := roundHalfEven_err (n * 2 ^ (-e).toNat) (d * 2 ^ e.toNat) hb
  generalize roundHalfEven (n * 2 ^ (-e).toNat) (d * 2 ^ e.toNat) = R at *
  have q1 : (2 : ℚ) * (n * 2 ^ (-e).toNat) ≤ 2 * (R * (d * 2 ^ e.toNat)) + d * 2 ^ e.toNat := by exact_mod_cast h1
  have q2 : (2 : ℚ) * (R * (d * 2 ^ e.toNat)) ≤ 2 * (n * 2 ^ (-e).toNat) + d * 2 ^ e.toNat := by exact_mod_cast h2
  have hz := two_zpow e
  have p1 : (0 : ℚ) < 2 ^ e.toNat := by positivity
  have p2 : (0 : ℚ) < 2 ^ (-e).toNat := by positivity
  have hd' : (0 : ℚ) < d := by exact_mod_cast hd
  have hz' : (2 : ℚ) ^ e.toNat = 2 ^ e * 2 ^ (-e).toNat := by rw [← hz]; field_simp
  rw [hz'] at q1 q2
  have r1 : (2 : ℚ) * n ≤ 2 * (R * (d * 2 ^ e)) + d * 2 ^ e := by
    apply le_of_mul_le_mul_right _ p2; linarith
  have r2 : (2 : ℚ) * (R * (d * 2 ^ e)) ≤ 2 * n + d * 2 ^ e := by
    apply le_of_mul_le_mul_right _ p2; linarith
  have hx : (n : ℚ) = (n / d) * d := by field_simp
  have hle' : (2 : ℚ) ^ e ≤ (n : ℚ) / d / 2 ^ 52 := by
    rw [le_div_iff₀ (by positivity)]
    rw [zpow_add₀ (by norm_num)] at hle
    exact_mod_cast hle
  generalize (n : ℚ) / d = x at *
  have s1 : 2 * x ≤ 2 * (R * 2 ^ e) + 2 ^ e := by
    apply le_of_mul_le_mul_right _ hd'; rw [hx] at r1; linarith
  have s2 : 2 * (R * 2 ^ e) ≤ 2 * x + 2 ^ e := by
    apply le_of_mul_le_mul_right _ hd'; rw [hx] at r2; linarith
  rw [abs_le]
  constructor <;> linarith

/-- The relative error of binary64 rounding is at most `2^-53`. -/
theorem fl64_err (q : ℚ) : |fl64 q - q| ≤ |q| / 2 ^ 53 := by
  have hd := q.den_pos
  have hq : q = (q.num : ℚ) / q.den := (Rat.num_div_den q).symm
  unfold fl64
  split
  · rename_i h
    have : q = 0 := by rw [hq, h]; simp
    simp [this]
  · split
    · rename_i h0 h
      have hn : ((q.num.natAbs : Nat) : ℚ) = q.num := by
        have : ((q.num.natAbs : Nat) : Int) = q.num := by omega
        rw [← Int.cast_natCast, this]
      have := fl64Pos_err q.num.natAbs q.den (by omega) hd
      rw [hn, ← hq] at this
      have hpos : 0 ≤ q := by rw [hq]; apply div_nonneg <;> [exact_mod_cast h.le; positivity]
      rw [abs_of_nonneg hpos]; exact this
    · rename_i h0 h
      have hn : ((q.num.natAbs : Nat) : ℚ) = -q.num := by
        have : ((q.num.natAbs : Nat) : Int) = -q.num := by omega
        rw [← Int.cast_natCast, this, Int.cast_neg]
      have := fl64Pos_err q.num.natAbs q.den (by omega) hd
      rw [hn, neg_div, ← hq] at this
      have hneg : q ≤ 0 := by
        rw [hq]; apply div_nonpos_of_nonpos_of_nonneg <;> [exact_mod_cast (by omega : q.num ≤ 0); positivity]
      rw [abs_of_nonpos hneg]
      rw [show -fl64Pos q.num.natAbs q.den - q = -(fl64Pos q.num.natAbs q.den - -q) by ring, abs_neg]
      exact this

theorem fl64Pos_nat (n : Nat) (hn : 0 < n) (h : n < 2 ^ 53) : fl64Pos n 1 = n := by
  have hlog : Nat.log2 n < 53 := (Nat.log2_lt (by omega)).2 h
  have he : exp64 n 1 ≤ 0 := by
    unfold exp64
    simp only
    have : Nat.log2 1 = 0 := rfl
    rw [this]
    split <;> omega
  unfold fl64Pos
  simp only
  generalize exp64 n 1 = e at *
  have h0 : e.toNat = 0 := by omega
  rw [h0]
  have := roundHalfEven_exact (n * 2 ^ (-e).toNat) 1 (by omega)
  simp only [Nat.mul_one] at this
  simp only [pow_zero, Nat.mul_one, this]
  push_cast
  field_simp

/-- Integers below `2^53` are doubles. -/
theorem fl64_int (k : Int) (h : |k| < 2 ^ 53) : fl64 (k : ℚ) = k := by
  have hn : (k : ℚ).num = k := Rat.num_intCast k
  have hd : (k : ℚ).den = 1 := Rat.den_intCast k
  rw [abs_lt] at h
  unfold fl64
  by_cases h0 : (k : ℚ).num = 0
  · rw [if_pos h0, ← hn, h0]; simp
  · rw [if_neg h0]
    by_cases h1 : (k : ℚ).num > 0
    · rw [if_pos h1, hd, fl64Pos_nat _ (by omega) (by omega)]
      have : (((k : ℚ).num.natAbs : Nat) : Int) = k := by omega
      rw [← Int.cast_natCast, this]
    · rw [if_neg h1, hd, fl64Pos_nat _ (by omega) (by omega)]
      have : (((k : ℚ).num.natAbs : Nat) : Int) = -k := by omega
      rw [← Int.cast_natCast, this, Int.cast_neg, neg_neg]

/-- Correctly rounded division of integers followed by `ceil` is exact for dividends below `2^53`. -/
theorem ceil_fl64_div (a b : Int) (hb : b ≠ 0) (ha : |a| < 2 ^ 53) :
    ⌈fl64 ((a : ℚ) / b)⌉ = ⌈(a : ℚ) / b⌉ := by
  have hbq : (b : ℚ) ≠ 0 := by exact_mod_cast hb
  by_cases hdiv : ∃ k : Int, (a : ℚ) / b = k
  · obtain ⟨k, hk⟩ := hdiv
    rw [hk, fl64_int]
    have : a = k * b := by
      have : (a : ℚ) = k * b := by rw [← hk]; field_simp
      exact_mod_cast this
    have h1 : 1 ≤ |b| := Int.one_le_abs hb
    have : |a| = |k| * |b| := by rw [this, abs_mul]
    nlinarith [abs_nonneg k]
  · set x := (a : ℚ) / b with hx
    have herr := fl64_err x
    have hb0 : 0 < |(b : ℚ)| := abs_pos.2 hbq
    have hab : |x| / 2 ^ 53 < 1 / |(b : ℚ)| := by
      rw [hx, abs_div, div_div, div_lt_div_iff₀ (by positivity) hb0]
      have : |(a : ℚ)| < 2 ^ 53 := by exact_mod_cast ha
      nlinarith
    set k := ⌈x⌉ with hk
    have c1 : x ≤ k := Int.le_ceil x
    have c2 : (k : ℚ) - 1 < x := by have := Int.ceil_lt_add_one x; linarith
    have c3 : x ≠ k := fun h => hdiv ⟨k, h⟩
    have e1 : x * b = a := by rw [hx]; field_simp
    -- distance to the neighbouring integers is at least 1/|b|
    have dist : ∀ m : Int, x ≠ m → 1 / |(b : ℚ)| ≤ |x - m| := by
      intro m hm
      rw [div_le_iff₀ hb0, ← abs_mul, sub_mul, e1]
      have hne : a - m * b ≠ 0 := by
        intro h
        apply hm
        rw [hx, div_eq_iff hbq]
        have : a = m * b := by omega
        exact_mod_cast this
      have := Int.one_le_abs hne
      exact_mod_cast this
    have d1 := dist k c3
    have d2 := dist (k - 1) (by push_cast; exact c2.ne')
    rw [abs_of_nonpos (show x - k ≤ 0 by linarith)] at d1
    rw [abs_of_nonneg (show 0 ≤ x - ((k - 1 : Int) : ℚ) by push_cast; linarith)] at d2
    push_cast at d2
    rw [abs_le] at herr
    rw [Int.ceil_eq_iff]
    constructor <;> linarith

end Heat
