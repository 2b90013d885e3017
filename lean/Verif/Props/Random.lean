import Verif.Model.Random
import Verif.Spec.Dist
import Verif.Proof.Chunk
import Verif.Proof.Dist
/-!
# C27-C32: the random number generator
-/
namespace Heat
open Spec

/-! ## C29: Threefry is a bijection -/

/-- The mask used with a rotation by `k`: the `k` low bits. -/
theorem mixRot_eq {w : Nat} (x : BitVec w) (k : Nat) (hk : k < w) :
    mixRot x k (BitVec.ofNat w (2 ^ k - 1)) = x.rotateLeft k := by
  apply BitVec.eq_of_getLsbD_eq
  intro i hi
  unfold mixRot
  rw [BitVec.getLsbD_or, BitVec.getLsbD_shiftLeft, BitVec.getLsbD_and, BitVec.getLsbD_sshiftRight,
    BitVec.getLsbD_ofNat, Nat.testBit_two_pow_sub_one, BitVec.getLsbD_rotateLeft,
    Nat.mod_eq_of_lt hk]
  by_cases h : i < k
  · have h1 : ¬ w ≤ i := by omega
    have h2 : w - k + i < w := by omega
    simp [h, hi, h1, h2]
  · simp [h, hi]

theorem rotateLeft_inj {w : Nat} (k : Nat) (hk : k < w) {x y : BitVec w}
    (h : x.rotateLeft k = y.rotateLeft k) : x = y := by
  apply BitVec.eq_of_getLsbD_eq
  intro i hi
  have key : ∀ z : BitVec w, z.getLsbD i = (z.rotateLeft k).getLsbD ((i + k) % w) := by
    intro z
    rw [BitVec.getLsbD_rotateLeft, Nat.mod_eq_of_lt hk]
    by_cases h1 : i + k < w
    · rw [Nat.mod_eq_of_lt h1]
      have : ¬ (i + k < k) := by omega
      simp [h1, this]
    · have h2 : (i + k) % w = i + k - w := by
        rw [Nat.mod_eq_sub_mod (by omega), Nat.mod_eq_of_lt (by omega)]
      rw [h2]
      have h3 : i + k - w < k := by omega
      have h4 : w - k + (i + k - w) = i := by omega
      simp [h3, h4]
  rw [key x, key y, h]

/-- A function with a left and a right inverse; what "bijection" means for the theorems below. -/
def Spec.Bijection {A : Type} (f : A → A) : Prop :=
  (∀ x y, f x = f y → x = y) ∧ ∀ y, ∃ x, f x = y

theorem Spec.Bijection.comp {A : Type} {f g : A → A} (hf : Bijection f) (hg : Bijection g) :
    Bijection (fun x => g (f x)) :=
  ⟨fun x y h => hf.1 _ _ (hg.1 _ _ h), fun y => by
    obtain ⟨z, hz⟩ := hg.2 y
    obtain ⟨x, hx⟩ := hf.2 z
    exact ⟨x, by show g (f x) = y; rw [hx, hz]⟩⟩

theorem rotateLeft_surj {w : Nat} (k : Nat) (hk : k < w) (y : BitVec w) : ∃ x : BitVec w, x.rotateLeft k = y := by
  refine ⟨y.rotateRight k, ?_⟩
  apply BitVec.eq_of_getLsbD_eq
  intro i hi
  rw [BitVec.getLsbD_rotateLeft, Nat.mod_eq_of_lt hk]
  by_cases h : i < k
  · rw [BitVec.getLsbD_rotateRight, Nat.mod_eq_of_lt hk]
    have h1 : ¬ (w - k + i < w - k) := by omega
    have h2 : w - k + i < w := by omega
    simp [h, h1, h2]
  · rw [BitVec.getLsbD_rotateRight, Nat.mod_eq_of_lt hk]
    have h1 : i - k < w - k := by omega
    have h3 : k + (i - k) = i := by omega
    simp [h, h1, hi, h3, Nat.mod_eq_of_lt hk]

theorem mixRound_bij {w : Nat} (k : Nat) (hk : k < w) (mask : BitVec w)
    (hm : mask = BitVec.ofNat w (2 ^ k - 1)) : Bijection (mixRound k mask) := by
  subst hm
  constructor
  · rintro ⟨a, b⟩ ⟨c, d⟩ h
    simp only [mixRound, mixRot_eq _ k hk, Prod.mk.injEq] at h
    obtain ⟨h1, h2⟩ := h
    rw [h1] at h2
    have h3 : b.rotateLeft k = d.rotateLeft k := by
      have := congrArg (· ^^^ (c + d)) h2
      simpa [BitVec.xor_assoc] using this
    have h4 := rotateLeft_inj k hk h3
    subst h4
    have := congrArg (· - b) h1
    simp only [BitVec.add_sub_cancel] at this
    rw [this]
  · rintro ⟨a, b⟩
    obtain ⟨x1, hx⟩ := rotateLeft_surj k hk (b ^^^ a)
    refine ⟨(a - x1, x1), ?_⟩
    simp only [mixRound, mixRot_eq _ k hk, BitVec.sub_add_cancel, hx, BitVec.xor_assoc,
      BitVec.xor_self, BitVec.xor_zero]

theorem inject_bij {w : Nat} (a b : BitVec w) : Bijection (inject a b) := by
  constructor
  · rintro ⟨x, y⟩ ⟨x', y'⟩ h
    simp only [inject, Prod.mk.injEq, BitVec.add_left_inj] at h
    rw [h.1, h.2]
  · rintro ⟨x, y⟩
    exact ⟨(x - a, y - b), by simp [inject, BitVec.sub_add_cancel]⟩

/-- C29: for every seed, the 32-bit Threefry function is a bijection on counter pairs. -/
theorem threefry32_bijective (seed : Int) : Bijection (threefry32 seed) := by
  unfold threefry32
  refine Bijection.comp ?_ (inject_bij _ _)
  refine Bijection.comp ?_ (mixRound_bij 24 (by decide) _ (by decide))
  refine Bijection.comp ?_ (mixRound_bij 16 (by decide) _ (by decide))
  refine Bijection.comp ?_ (mixRound_bij 29 (by decide) _ (by decide))
  refine Bijection.comp ?_ (mixRound_bij 17 (by decide) _ (by decide))
  refine Bijection.comp ?_ (inject_bij _ _)
  refine Bijection.comp ?_ (mixRound_bij 6 (by decide) _ (by decide))
  refine Bijection.comp ?_ (mixRound_bij 26 (by decide) _ (by decide))
  refine Bijection.comp ?_ (mixRound_bij 15 (by decide) _ (by decide))
  refine Bijection.comp ?_ (mixRound_bij 13 (by decide) _ (by decide))
  exact inject_bij _ _

/-- C29: for every seed, the 64-bit Threefry function is a bijection on counter pairs. -/
theorem threefry64_bijective (seed : Int) : Bijection (threefry64 seed) := by
  unfold threefry64
  refine Bijection.comp ?_ (inject_bij _ _)
  refine Bijection.comp ?_ (mixRound_bij 21 (by decide) _ (by decide))
  refine Bijection.comp ?_ (mixRound_bij 24 (by decide) _ (by decide))
  refine Bijection.comp ?_ (mixRound_bij 32 (by decide) _ (by decide))
  refine Bijection.comp ?_ (mixRound_bij 16 (by decide) _ (by decide))
  refine Bijection.comp ?_ (inject_bij _ _)
  refine Bijection.comp ?_ (mixRound_bij 31 (by decide) _ (by decide))
  refine Bijection.comp ?_ (mixRound_bij 12 (by decide) _ (by decide))
  refine Bijection.comp ?_ (mixRound_bij 42 (by decide) _ (by decide))
  refine Bijection.comp ?_ (mixRound_bij 16 (by decide) _ (by decide))
  exact inject_bij _ _

/-! ## C30: rand lies in [0, 1) -/

/-- C30 (float32): the value `numerator / 2^23` lies in [0, 1). -/
theorem rand32_range (x : BitVec 32) : 0 ≤ (toFloat32Num x : Rat) / 2 ^ 23 ∧
    (toFloat32Num x : Rat) / 2 ^ 23 < 1 := by
  have h : toFloat32Num x < 2 ^ 23 := by
    unfold toFloat32Num
    rw [BitVec.toNat_and, show (0x7FFFFF#32).toNat = 2 ^ 23 - 1 by decide, Nat.and_two_pow_sub_one_eq_mod]
    exact Nat.mod_lt _ (by decide)
  constructor
  · rw [Rat.div_def]; exact Rat.mul_nonneg (by exact_mod_cast Nat.zero_le _) (by decide +kernel)
  · rw [Rat.div_lt_iff (by decide +kernel), Rat.one_mul]
    exact_mod_cast h

/-- C30 (float64): the value `numerator / 2^53` lies in [0, 1). -/
theorem rand64_range (x : BitVec 64) : 0 ≤ (toFloat64Num x : Rat) / 2 ^ 53 ∧
    (toFloat64Num x : Rat) / 2 ^ 53 < 1 := by
  have h : toFloat64Num x < 2 ^ 53 := by
    unfold toFloat64Num
    rw [BitVec.toNat_and, show (0x1FFFFFFFFFFFFF#64).toNat = 2 ^ 53 - 1 by decide,
      Nat.and_two_pow_sub_one_eq_mod]
    exact Nat.mod_lt _ (by decide)
  constructor
  · rw [Rat.div_def]; exact Rat.mul_nonneg (by exact_mod_cast Nat.zero_le _) (by decide +kernel)
  · rw [Rat.div_lt_iff (by decide +kernel), Rat.one_mul]
    exact_mod_cast h

/-- C30: every numerator occurs, so the upper bound cannot be improved: 1 - 2^-23 is attained. -/
example : toFloat32Num 0xFFFFFFFF#32 = 2 ^ 23 - 1 := by decide

/-! ## C31: randint lies in [low, high) -/

/-- C31: whenever `randint` returns, the element (read as a signed number) lies in [low, high), for
every generator output, including the word `INT_MIN` whose absolute value is itself. -/
theorem randint_range {w : Nat} (hw : 0 < w) (low high : Int) (x y : BitVec w)
    (hhigh : high ≤ 2 ^ (w - 1)) (h : randint low high x = .ok y) :
    low ≤ y.toInt ∧ y.toInt < high := by
  unfold randint at h
  split at h
  · cases h
  rename_i hlt
  unfold randintWord at h
  split at h
  · cases h
  rename_i hfit
  cases h
  have hspan : 0 < high - low := by omega
  generalize hr : (absWord x).toInt % (high - low) = r
  have h0 : 0 ≤ r := by rw [← hr]; exact Int.emod_nonneg _ (by omega)
  have h1 : r < high - low := by rw [← hr]; exact Int.emod_lt_of_pos _ hspan
  rw [← BitVec.ofInt_add, BitVec.toInt_ofInt]
  have hpow : ((2 ^ w : Nat) : Int) = 2 * 2 ^ (w - 1) := by
    have : (2 : Nat) ^ w = 2 * 2 ^ (w - 1) := by
      rw [← Nat.pow_succ', show (w - 1).succ = w by omega]
    rw [this]; push_cast; rfl
  have hp : (0 : Int) < 2 ^ (w - 1) := Int.pow_pos (by decide)
  generalize (2 : Int) ^ (w - 1) = q at *
  have hb : (r + low).bmod (2 ^ w) = r + low := by
    apply Int.bmod_eq_of_le
    · rw [hpow]; omega
    · rw [hpow]; omega
  rw [hb]; omega

/-- C31: an empty range raises `ValueError`. -/
theorem randint_empty_range {w : Nat} (low high : Int) (x : BitVec w) (h : high ≤ low) :
    randint low high x = .error .valueError := by
  unfold randint; rw [if_pos (by omega)]

/-- C31: `randint` returns for all ranges of at most half the type's range. -/
theorem randint_total {w : Nat} (low high : Int) (x : BitVec w) (h : low < high)
    (hs : high - low < 2 ^ (w - 1)) (hl : -2 ^ (w - 1) ≤ low) (hl' : low < 2 ^ (w - 1)) :
    ∃ y, randint low high x = .ok y := by
  unfold randint; rw [if_neg (by omega)]
  unfold randintWord; rw [if_neg (by omega)]
  exact ⟨_, rfl⟩

example : randint (-3) 4 0x80000000#32 = .ok 2#32 := by decide

/-! ## C27: Threefry arrays do not depend on the number of processes -/

/-- Specification: number `k` of the stream is one half of the Threefry image of the `2w`-bit counter
`counter + k / 2`. -/
def Spec.stream {w : Nat} (g : BitVec w × BitVec w → BitVec w × BitVec w) (counter k : Nat) : BitVec w :=
  let c := counter + k / 2
  let p := g (BitVec.ofNat w (c / 2 ^ w), BitVec.ofNat w c)
  if k % 2 = 0 then p.1 else p.2

theorem addUp_eq {w : Nat} (mask : Nat) : ∀ fuel diff (x : BitVec w),
    addUp mask fuel diff x = x + BitVec.ofNat w diff := by
  intro fuel
  induction fuel with
  | zero => intro diff x; rfl
  | succ fuel ih =>
    intro diff x
    unfold addUp
    split
    · rw [ih, BitVec.add_assoc, ← BitVec.ofNat_add]
      congr 2; omega
    · rfl

theorem ctrLow_eq (w start stop i : Nat) : ctrLow w start stop i = BitVec.ofNat w (start + i) := by
  unfold ctrLow
  simp only [addUp_eq]
  generalize (if stop ≤ 2 ^ (w - 1) - 1 then 0 else stop - (2 ^ (w - 1) - 1)) = diff
  rw [← BitVec.ofInt_natCast, ← BitVec.ofInt_add, ← BitVec.ofInt_natCast]
  congr 1; omega

theorem ctrHigh_eq (w c0 : Nat) : ctrHigh w c0 = BitVec.ofNat w c0 := by
  unfold ctrHigh
  simp only []
  split
  · rw [addUp_eq, ← BitVec.ofNat_add]; congr 1; omega
  · rfl

theorem ctrHighCarry_eq (w c0 start stop i : Nat) (hi : i < stop - start) (hb : stop ≠ 2 ^ w)
    (h2 : stop ≤ 2 * 2 ^ w) :
    ctrHighCarry w c0 start stop i = BitVec.ofNat w (c0 + (start + i) / 2 ^ w) := by
  have hp : 0 < 2 ^ w := Nat.two_pow_pos w
  unfold ctrHighCarry
  simp only [ctrHigh_eq]
  generalize 2 ^ w = q at *
  have one : (start + i) / q = if q ≤ start + i then 1 else 0 := by
    split
    · rename_i h
      rw [Nat.div_eq_iff hp]; omega
    · rename_i h; exact Nat.div_eq_of_lt (by omega)
  rw [one]
  have inc : BitVec.ofNat w c0 + 1#w = BitVec.ofNat w (c0 + 1) := by rw [BitVec.ofNat_add]
  split
  · split
    · rw [if_pos (by omega), inc]
    · split
      · rw [if_pos (by omega), inc]
      · rw [if_neg (by omega), Nat.add_zero]
  · rw [if_neg (by omega), Nat.add_zero]

/-- The counter pair at local position `i` is the pair of words of `counter + j`, `j` the distance from the
start of the draw. -/
theorem ctrPair_eq (w counter : Nat) (sh : Share) (i : Nat) (hi : i < sh.stop - sh.start)
    (hc : counter % 2 ^ w ≤ sh.start) (hb : sh.stop ≠ 2 ^ w) (h2 : sh.stop ≤ 2 * 2 ^ w) :
    ctrPair w counter sh i =
      (BitVec.ofNat w ((counter + (sh.start - counter % 2 ^ w + i)) / 2 ^ w),
       BitVec.ofNat w (counter + (sh.start - counter % 2 ^ w + i))) := by
  have hp : 0 < 2 ^ w := Nat.two_pow_pos w
  unfold ctrPair
  simp only []
  rw [ctrLow_eq, ctrHighCarry_eq _ _ _ _ _ hi hb h2]
  have hdm := Nat.div_add_mod counter (2 ^ w)
  have e : counter + (sh.start - counter % 2 ^ w + i) = (sh.start + i) + 2 ^ w * (counter / 2 ^ w) := by
    omega
  rw [e]
  congr 1
  · rw [Nat.add_mul_div_left _ _ hp]
    apply BitVec.eq_of_toNat_eq
    simp only [BitVec.toNat_ofNat]
    rw [Nat.add_comm, Nat.add_mod_mod]
  · apply BitVec.eq_of_toNat_eq
    simp only [BitVec.toNat_ofNat]
    rw [Nat.add_mul_mod_self_left]

theorem flatMap_pairs {β : Type} (f : Nat → β) (m : Nat) :
    ((List.range m).flatMap fun i => [f (2 * i), f (2 * i + 1)]) = (List.range (2 * m)).map f := by
  induction m with
  | zero => rfl
  | succ m ih =>
    rw [List.range_succ, List.flatMap_append, ih, show 2 * (m + 1) = 2 * m + 1 + 1 by omega,
      List.range_succ, List.range_succ]
    simp

theorem drop_take_map_range {β : Type} (f : Nat → β) (N a b : Nat) (h : a + b ≤ N) :
    (((List.range N).map f).drop a).take b = (List.range b).map fun i => f (a + i) := by
  apply List.ext_getElem
  · simp; omega
  · intro i h1 h2; simp

/-- What a rank holds: a contiguous piece of the stream. -/
theorem drawLocal_eq {w : Nat} (g : BitVec w × BitVec w → BitVec w × BitVec w) (counter : Nat)
    (sh : Share) (hc : counter % 2 ^ w ≤ sh.start) (hb : sh.stop ≠ 2 ^ w) (h2 : sh.stop ≤ 2 * 2 ^ w)
    (hd : sh.dropFront + sh.dropBack ≤ 2 * (sh.stop - sh.start)) :
    drawLocal g counter sh =
      (List.range (2 * (sh.stop - sh.start) - sh.dropFront - sh.dropBack)).map fun i =>
        Spec.stream g counter (2 * (sh.start - counter % 2 ^ w) + sh.dropFront + i) := by
  unfold drawLocal
  simp only []
  have e : ((List.range (sh.stop - sh.start)).flatMap fun i =>
      [(g (ctrPair w counter sh i)).1, (g (ctrPair w counter sh i)).2]) =
      (List.range (2 * (sh.stop - sh.start))).map fun k =>
        Spec.stream g counter (2 * (sh.start - counter % 2 ^ w) + k) := by
    rw [← flatMap_pairs]
    have : ∀ l : List Nat, (∀ i ∈ l, i < sh.stop - sh.start) →
        (l.flatMap fun i => [(g (ctrPair w counter sh i)).1, (g (ctrPair w counter sh i)).2]) =
        l.flatMap fun i => [Spec.stream g counter (2 * (sh.start - counter % 2 ^ w) + 2 * i),
          Spec.stream g counter (2 * (sh.start - counter % 2 ^ w) + (2 * i + 1))] := by
      intro l
      induction l with
      | nil => intro _; rfl
      | cons i l ih =>
        intro hl
        rw [List.flatMap_cons, List.flatMap_cons, ih (fun j hj => hl j (by simp [hj]))]
        congr 1
        have hi := hl i (by simp)
        rw [ctrPair_eq w counter sh i hi hc hb h2]
        unfold Spec.stream
        simp only []
        have e1 : (2 * (sh.start - counter % 2 ^ w) + 2 * i) / 2 = sh.start - counter % 2 ^ w + i := by omega
        have e2 : (2 * (sh.start - counter % 2 ^ w) + (2 * i + 1)) / 2 = sh.start - counter % 2 ^ w + i := by
          omega
        have e3 : (2 * (sh.start - counter % 2 ^ w) + 2 * i) % 2 = 0 := by omega
        have e4 : ¬ (2 * (sh.start - counter % 2 ^ w) + (2 * i + 1)) % 2 = 0 := by omega
        rw [e1, e2, if_pos e3, if_neg e4]
    exact this _ (fun i hi => List.mem_range.1 hi)
  rw [e]
  simp only [List.length_map, List.length_range]
  rw [drop_take_map_range _ _ _ _ (by omega)]
  apply List.map_congr_left
  intro i _
  rw [Nat.add_assoc]

/-- Elements held by ranks below `r`. -/
def cumExact (n rowSize P r : Nat) : Nat := rowSize * (chunkRange n r P).1

theorem localElements_eq (n rowSize P i : Nat) (hi : i < P) :
    localElements n rowSize P i = rowSize * evenSize n P i := by
  unfold localElements
  rw [countsShape_eq n P (by omega)]
  unfold evenSizes
  simp [hi]

theorem cumExact_succ (n rowSize P r : Nat) :
    cumExact n rowSize P (r + 1) = cumExact n rowSize P r + rowSize * evenSize n P r := by
  unfold cumExact
  rw [← Nat.mul_add]
  congr 1
  have h1 := chunkRange_fst n (r + 1) P
  have h2 := chunkRange_fst n r P
  unfold evenSize
  split
  · rw [h1, h2]
    have : (r + 1) * (n / P) = r * (n / P) + n / P := by rw [Nat.add_mul, Nat.one_mul]
    omega
  · rw [h1, h2]
    have : (r + 1) * (n / P) = r * (n / P) + n / P := by rw [Nat.add_mul, Nat.one_mul]
    omega

theorem cumElements_exact (rnd : Nat → Nat) (n rowSize P r : Nat) (hr : r ≤ P) (hP : 0 < P)
    (hrnd : ∀ m ≤ n * rowSize, rnd m = m) : cumElements rnd n rowSize P r = cumExact n rowSize P r := by
  have hle : ∀ s ≤ P, cumExact n rowSize P s ≤ n * rowSize := by
    intro s hs
    unfold cumExact
    rw [Nat.mul_comm n]
    apply Nat.mul_le_mul_left
    have := chunkRange_mono n P hs
    rw [chunkRange_at_P n P hP] at this
    exact this
  have hsum : ∀ s ≤ P, ((List.range s).map fun i => rnd (localElements n rowSize P i)).sum =
      cumExact n rowSize P s := by
    intro s hs
    induction s with
    | zero => simp [cumExact, chunkRange_zero]
    | succ s ih =>
      rw [List.range_succ, List.map_append, List.sum_append, ih (by omega), cumExact_succ,
        ← localElements_eq n rowSize P s (by omega)]
      simp only [List.map_cons, List.map_nil, List.sum_cons, List.sum_nil, Nat.add_zero]
      rw [hrnd]
      have h1 := hle (s + 1) hs
      rw [cumExact_succ, ← localElements_eq n rowSize P s (by omega)] at h1
      omega
  unfold cumElements
  rw [hsum r hr, hrnd _ (hle r hr)]

/-- The share of a rank describes exactly its elements: it starts at stream position
`cumExact ... rank`, and has `rowSize * evenSize` elements. -/
theorem shareSplit_spec (rnd : Nat → Nat) (c1 n rowSize P rank : Nat) (hr : rank < P)
    (hrnd : ∀ m ≤ n * rowSize, rnd m = m) :
    let sh := shareSplit rnd c1 n rowSize P rank
    c1 ≤ sh.start ∧ sh.stop = c1 + (cumExact n rowSize P (rank + 1) + 1) / 2 ∧
    sh.dropFront + sh.dropBack ≤ 2 * (sh.stop - sh.start) ∧
    2 * (sh.start - c1) + sh.dropFront = cumExact n rowSize P rank ∧
    2 * (sh.stop - sh.start) - sh.dropFront - sh.dropBack = rowSize * evenSize n P rank := by
  have hz : rank = 0 → cumExact n rowSize P rank = 0 := by
    rintro rfl; simp [cumExact, chunkRange_zero]
  have hs := cumExact_succ n rowSize P rank
  unfold shareSplit
  simp only [cumElements_exact rnd n rowSize P rank (by omega) (by omega) hrnd,
    localElements_eq n rowSize P rank hr]
  rw [hs]
  generalize rowSize * evenSize n P rank = l at *
  generalize cumExact n rowSize P rank = c at *
  by_cases h0 : rank = 0
  · have := hz h0
    subst this
    simp only [h0, true_or, if_true]
    split <;> simp <;> omega
  · simp only [h0, false_or, if_false]
    split
    · split <;> simp <;> omega
    · split <;> simp <;> omega

theorem map_range_append {β : Type} (f : Nat → β) (a b : Nat) :
    (List.range a).map f ++ (List.range b).map (fun i => f (a + i)) = (List.range (a + b)).map f := by
  rw [List.range_add, List.map_append, List.map_map]; rfl

/-- C27 for split = 0 (partial: see the hypotheses): the numbers of all ranks, in rank order, are the
first `n * rowSize` numbers of the stream, which does not mention the number of processes.
`n = shape[0]`, `rowSize` the product of the other extents.  Missing: more than 2^24 elements (the
element counts are kept in float32) and draws in which a rank's last counter is exactly the last one
before a carry into the upper word; both are false there, see `random_array_violated` and
`random_large_violated`. -/
theorem random_split0_partial {w : Nat} (g : BitVec w × BitVec w → BitVec w × BitVec w)
    (counter n rowSize P : Nat) (hP : 0 < P) (h24 : n * rowSize ≤ 2 ^ 24)
    (hfit : counter % 2 ^ w + (n * rowSize + 1) / 2 ≤ 2 * 2 ^ w)
    (hb : ∀ r < P, counter % 2 ^ w + (rowSize * (chunkRange n (r + 1) P).1 + 1) / 2 ≠ 2 ^ w) :
    content P (fun r => drawLocal g counter (shareSplit f32 (counter % 2 ^ w) n rowSize P r)) =
      (List.range (n * rowSize)).map (Spec.stream g counter) := by
  have hrnd : ∀ m ≤ n * rowSize, f32 m = m := fun m hm => f32_exact (by omega)
  have key : ∀ k ≤ P, content k (fun r => drawLocal g counter (shareSplit f32 (counter % 2 ^ w) n rowSize P r)) =
      (List.range (cumExact n rowSize P k)).map (Spec.stream g counter) := by
    intro k hk
    induction k with
    | zero => simp [content_zero, cumExact, chunkRange_zero]
    | succ k ih =>
      rw [content_succ, ih (by omega), cumExact_succ, ← map_range_append]
      congr 1
      obtain ⟨h1, h2, h3, h4, h5⟩ := shareSplit_spec f32 (counter % 2 ^ w) n rowSize P k (by omega) hrnd
      have hle : cumExact n rowSize P (k + 1) ≤ n * rowSize := by
        unfold cumExact
        rw [Nat.mul_comm n]
        apply Nat.mul_le_mul_left
        have := chunkRange_mono n P hk
        rw [chunkRange_at_P n P hP] at this
        exact this
      rw [drawLocal_eq g counter _ h1 (by rw [h2]; exact hb k (by omega)) (by rw [h2]; omega) h3, h5, h4]
  have := key P (Nat.le_refl _)
  rw [this]
  unfold cumExact
  rw [chunkRange_at_P n P hP, Nat.mul_comm]

/-- C27 for split = None: every rank holds the same numbers of the stream. -/
theorem random_none_partial {w : Nat} (g : BitVec w × BitVec w → BitVec w × BitVec w)
    (counter total : Nat) (hfit : counter % 2 ^ w + (total + 1) / 2 ≤ 2 * 2 ^ w)
    (hb : counter % 2 ^ w + (total + 1) / 2 ≠ 2 ^ w) :
    drawLocal g counter (shareNone (counter % 2 ^ w) total) =
      (List.range total).map (Spec.stream g counter) := by
  have e : (shareNone (counter % 2 ^ w) total).stop = counter % 2 ^ w + (total + 1) / 2 := by
    simp only [shareNone]; omega
  have e2 : 2 * ((shareNone (counter % 2 ^ w) total).stop - (shareNone (counter % 2 ^ w) total).start) -
      (shareNone (counter % 2 ^ w) total).dropFront - (shareNone (counter % 2 ^ w) total).dropBack = total := by
    simp only [shareNone]; split <;> omega
  rw [drawLocal_eq g counter _ (by simp [shareNone]) (by rw [e]; exact hb) (by rw [e]; exact hfit)
    (by simp only [shareNone]; split <;> omega), e2]
  apply List.map_congr_left
  intro i _
  simp [shareNone]

/-- C27: for draws that do not reach a carry into the upper counter word, and of at most 2^24
elements, the array split along axis 0 over `P` processes is, for every `P`, the array that every rank of
any other run (with `Q` processes) holds for split = None. -/
theorem random_array_partial {w : Nat} (g : BitVec w × BitVec w → BitVec w × BitVec w)
    (counter n rowSize P Q q : Nat) (hP : 0 < P) (h24 : n * rowSize ≤ 2 ^ 24)
    (hfit : counter % 2 ^ w + (n * rowSize + 1) / 2 < 2 ^ w) :
    content P (fun r => (drawRank f32 g P r counter (.split n rowSize)).1) =
      (drawRank f32 g Q q counter (.whole (n * rowSize))).1 := by
  show content P (fun r => drawLocal g counter (shareSplit f32 (counter % 2 ^ w) n rowSize P r)) =
      drawLocal g counter (shareNone (counter % 2 ^ w) (n * rowSize))
  rw [random_none_partial g counter _ (by omega) (by omega), random_split0_partial g counter n rowSize P hP h24 (by omega)]
  intro r hr
  have hle : rowSize * (chunkRange n (r + 1) P).1 ≤ n * rowSize := by
    rw [Nat.mul_comm n]
    apply Nat.mul_le_mul_left
    have := chunkRange_mono n P (show r + 1 ≤ P by omega)
    rw [chunkRange_at_P n P hP] at this
    exact this
  omega

/-- A draw of 5 x 3 numbers on 4 processes meets the hypotheses. -/
example : content 4 (fun r => (drawRank f32 (threefry32 42) 4 r 7 (.split 5 3)).1) =
    (drawRank f32 (threefry32 42) 1 0 7 (.whole 15)).1 :=
  random_array_partial (threefry32 42) 7 5 3 4 1 0 (by decide) (by decide) (by decide)

/-- C27 fails when the last counter of a rank is the last one before the carry: from counter
2^32 - 2, four numbers on one process are taken from upper word 1 (the slice `[-0:]` selects everything),
on two processes the first two come from upper word 0. -/
theorem random_array_violated :
    content 1 (fun r => drawLocal (threefry32 0) (2 ^ 32 - 2) (shareSplit f32 (2 ^ 32 - 2) 4 1 1 r)) ≠
    content 2 (fun r => drawLocal (threefry32 0) (2 ^ 32 - 2) (shareSplit f32 (2 ^ 32 - 2) 4 1 2 r)) := by
  decide +kernel

/-- C27 fails beyond 2^24 elements per rank: with 2^25 + 2 elements on two processes, rank 1 starts
again at the first half of a counter whose first half is the last number of rank 0. -/
theorem random_large_violated :
    shareSplit f32 0 (2 ^ 25 + 2) 1 2 0 = ⟨0, 2 ^ 23 + 1, 0, 1⟩ ∧
    shareSplit f32 0 (2 ^ 25 + 2) 1 2 1 = ⟨2 ^ 23, 2 ^ 24 + 1, 0, 1⟩ ∧
    shareSplit id 0 (2 ^ 25 + 2) 1 2 1 = ⟨2 ^ 23, 2 ^ 24 + 1, 1, 0⟩ := by
  decide +kernel

/-- Element (i, j) of an `a × b` array with split = 1 on `P` processes: the owner of column `j` holds its block
in row-major order. -/
def Spec.elemSplit1 {β : Type} (locals : Nat → List β) (b P i j : Nat) (dflt : β) : β :=
  let owner := ((List.range P).find? fun r => decide ((chunkRange b r P).1 ≤ j ∧ j < (chunkRange b r P).2)).getD 0
  let rg := chunkRange b owner P
  (locals owner).getD (i * (rg.2 - rg.1) + (j - rg.1)) dflt

/-- C27 fails for split = 1: the local blocks take consecutive pieces of the stream, so the position of
a number in the global array depends on the number of processes (2 × 2 array, element (0, 1)). -/
theorem random_split1_violated :
    Spec.elemSplit1 (fun r => drawLocal (threefry32 0) 0 (shareSplit f32 0 2 2 1 r)) 2 1 0 1 0#32 ≠
    Spec.elemSplit1 (fun r => drawLocal (threefry32 0) 0 (shareSplit f32 0 2 2 2 r)) 2 2 0 1 0#32 := by
  decide +kernel

/-! ## C28: streams do not overlap -/

/-- The counters used by a history of draws, one interval `[from, to)` per draw, starting from `counter`. -/
def usedCounters (rnd : Nat → Nat) : Nat → List Nat → List (Nat × Nat)
  | _, [] => []
  | c, t :: ts => (c, c + (t + 1) / 2) :: usedCounters rnd (nextCounter rnd c t) ts

/-- The counter after a history of draws. -/
def finalCounter (rnd : Nat → Nat) (c : Nat) (ts : List Nat) : Nat := ts.foldl (nextCounter rnd) c

/-- C28 (partial: at most 2^24 elements per draw, no wrap around of the 128-bit counter): the intervals
of counters used by any two different draws of a history are disjoint, and they start at the
initial counter and end at the final one. -/
theorem random_streams_disjoint_partial (c : Nat) (ts : List Nat) (h24 : ∀ t ∈ ts, t ≤ 2 ^ 24)
    (hfit : c + (ts.map fun t => (t + 1) / 2).sum < 2 ^ 128) :
    (usedCounters f32 c ts).Pairwise (fun a b => a.2 ≤ b.1) ∧
    finalCounter f32 c ts = c + (ts.map fun t => (t + 1) / 2).sum ∧
    (∀ p ∈ usedCounters f32 c ts, c ≤ p.1 ∧ p.1 ≤ p.2 ∧ p.2 ≤ finalCounter f32 c ts) := by
  induction ts generalizing c with
  | nil => exact ⟨List.Pairwise.nil, rfl, by simp [usedCounters]⟩
  | cons t ts ih =>
    simp only [List.map_cons, List.sum_cons] at hfit ⊢
    have hn : nextCounter f32 c t = c + (t + 1) / 2 := by
      unfold nextCounter
      rw [f32_exact (h24 t (by simp)), Nat.mod_eq_of_lt (by omega)]
    obtain ⟨h1, h2, h3⟩ := ih (c + (t + 1) / 2) (fun u hu => h24 u (by simp [hu])) (by omega)
    unfold usedCounters
    have hf : finalCounter f32 c (t :: ts) = finalCounter f32 (c + (t + 1) / 2) ts := by
      unfold finalCounter; rw [List.foldl_cons, hn]
    rw [hn, hf, h2]
    refine ⟨List.Pairwise.cons (fun p hp => (h3 p hp).1) h1, by omega, ?_⟩
    intro p hp
    rcases List.mem_cons.1 hp with rfl | hp
    · exact ⟨by omega, by omega, by simp only []; omega⟩
    · have := h3 p hp; rw [h2] at this; omega

/-- C28: if all ranks start with the same counter, then after any history of draws (with any splits)
they have the same counter again: `get_state` agrees on all ranks. -/
theorem random_counter_agrees {w : Nat} (g : BitVec w × BitVec w → BitVec w × BitVec w) (P c : Nat)
    (ds : List DrawReq) (r s : Nat) :
    ds.foldl (fun c d => (drawRank f32 g P r c d).2) c = ds.foldl (fun c d => (drawRank f32 g P s c d).2) c := by
  have : ∀ r, ds.foldl (fun c d => (drawRank f32 g P r c d).2) c =
      finalCounter f32 c (ds.map DrawReq.total) := by
    intro r
    unfold finalCounter
    induction ds generalizing c with
    | nil => rfl
    | cons d ds ih => exact ih _
  rw [this, this]

/-- C28 with C29: no counter pair, hence (by bijectivity) no pair of 32-bit outputs, occurs twice in a
history of draws with a fixed seed, as long as fewer than 2^64 counters are used. -/
theorem random_pairs_distinct_partial (seed : Int) (c : Nat) (ts : List Nat) (h24 : ∀ t ∈ ts, t ≤ 2 ^ 24)
    (hfit : c + (ts.map fun t => (t + 1) / 2).sum ≤ 2 ^ 64) (p q : Nat × Nat)
    (hpq : [p, q].Sublist (usedCounters f32 c ts)) (x y : Nat) (hx : p.1 ≤ x ∧ x < p.2)
    (hy : q.1 ≤ y ∧ y < q.2) :
    threefry32 seed (BitVec.ofNat 32 (x / 2 ^ 32), BitVec.ofNat 32 x) ≠
      threefry32 seed (BitVec.ofNat 32 (y / 2 ^ 32), BitVec.ofNat 32 y) := by
  obtain ⟨h1, h2, h3⟩ := random_streams_disjoint_partial c ts h24 (by omega)
  have hsub := h1.sublist hpq
  have hle : p.2 ≤ q.1 := by
    rw [List.pairwise_cons] at hsub
    exact hsub.1 q (by simp)
  have hq := h3 q (hpq.subset (by simp))
  intro h
  have := (threefry32_bijective seed).1 _ _ h
  simp only [Prod.mk.injEq] at this
  have e1 := congrArg BitVec.toNat this.1
  have e2 := congrArg BitVec.toNat this.2
  simp only [BitVec.toNat_ofNat] at e1 e2
  omega

example : usedCounters f32 5 [3, 4, 7] = [(5, 7), (7, 9), (9, 13)] := by decide

/-- C28 fails for large draws: after drawing 2^25 + 2 numbers (2^24 + 1 counters) the counter has advanced
by 2^24 only, because `ceil(total / 2)` is computed in float32; the next draw reuses a counter. -/
theorem random_streams_violated :
    usedCounters f32 0 [2 ^ 25 + 2, 2] = [(0, 2 ^ 24 + 1), (2 ^ 24, 2 ^ 24 + 1)] := by decide +kernel

/-! ## C32: get_state / set_state -/

/-- States reachable on `rank` by any history of `seed`, `set_state` and draws. -/
def Spec.ReachableRng (rank : Nat) (s : RngState) : Prop :=
  ∃ sd ops, s = (ops : List RngOp).foldl (rngStep rank) (initState rank sd)

/-- C32 for Threefry: the tuple returned by `get_state` restores the generator completely (state, and
the tuple returned by the next `get_state`), whatever the later state. -/
theorem threefry_state_roundtrip (rank : Nat) (s later : RngState) (hs : s.rng = .threefry) (sd c : Int)
    (h1 : s.seed = some sd) (h2 : s.counter = some c) :
    ∃ s', setState rank (getState s) later = (none, s') ∧ getState s' = getState s ∧
      s'.rng = s.rng ∧ s'.seed = s.seed ∧ s'.counter = s.counter := by
  refine ⟨(setState rank (getState s) later).2, ?_, ?_⟩
  all_goals simp [getState, hs, h1, h2, setState]

/-- In every reachable state the batchparallel generator's local seed is `seed + rank` whenever a global
seed is known. -/
theorem localseed_invariant (rank : Nat) (s : RngState) (h : Spec.ReachableRng rank s) (sd l : Int)
    (h1 : s.seed = some sd) (h2 : s.localseed = some l) (hb : s.rng = .batchparallel) :
    l = sd + rank := by
  obtain ⟨sd0, ops, rfl⟩ := h
  have key : ∀ s : RngState, (s.rng = .batchparallel → ∀ sd l, s.seed = some sd → s.localseed = some l →
      l = sd + rank) → ∀ op, ((rngStep rank s op).rng = .batchparallel → ∀ sd l,
      (rngStep rank s op).seed = some sd → (rngStep rank s op).localseed = some l → l = sd + rank) := by
    intro s hs op
    cases op with
    | seed v =>
      intro hb sd l h1 h2
      cases hr : s.rng <;> simp [rngStep, seedState, hr] at hb h1 h2
      omega
    | draw k =>
      intro hb sd l h1 h2
      cases hr : s.rng <;> simp [rngStep, drawState, hr] at hb h1 h2
      exact hs hr sd l h1 h2
    | set t =>
      intro hb sd l h1 h2
      obtain ⟨tr, ts, tt⟩ := t
      cases tr with
      | threefry =>
        cases ts <;> cases tt <;> simp [rngStep, setState] at hb
      | batchparallel =>
        cases ts with
        | some v => simp [rngStep, setState] at hb h1 h2; omega
        | none => cases tt <;> simp [rngStep, setState] at h1
  have all : ∀ (ops : List RngOp) (s : RngState), (s.rng = .batchparallel → ∀ sd l, s.seed = some sd →
      s.localseed = some l → l = sd + rank) → ((ops.foldl (rngStep rank) s).rng = .batchparallel → ∀ sd l,
      (ops.foldl (rngStep rank) s).seed = some sd → (ops.foldl (rngStep rank) s).localseed = some l →
      l = sd + rank) := by
    intro ops
    induction ops with
    | nil => intro s hs; exact hs
    | cons op ops ih => intro s hs; exact ih _ (key s hs op)
  refine all ops _ ?_ hb sd l h1 h2
  intro _ sd l h1 h2
  simp [initState, seedState] at h1 h2
  omega

/-- C32 for the batchparallel generator, restored while it is still the active generator: `get_state` returns
the same tuple again. -/
theorem batchparallel_state_roundtrip_partial (rank : Nat) (s later : RngState)
    (h : Spec.ReachableRng rank s) (hs : s.rng = .batchparallel) (hl : later.rng = .batchparallel)
    (l : Int) (h2 : s.localseed = some l) :
    ∃ s', setState rank (getState s) later = (none, s') ∧ getState s' = getState s := by
  cases hseed : s.seed with
  | some sd =>
    have := localseed_invariant rank s h sd l hseed h2 hs
    subst this
    exact ⟨(setState rank (getState s) later).2, by simp [getState, hs, hseed, h2, setState],
      by simp [getState, hs, hl, hseed, h2, setState]⟩
  | none =>
    exact ⟨(setState rank (getState s) later).2, by simp [getState, hs, hseed, h2, setState],
      by simp [getState, hs, hl, hseed, h2, setState]⟩

/-- C32 fails after a switch to Threefry: restoring a batchparallel state does not switch the generator
back; the next `get_state` reports Threefry. -/
theorem set_state_batchparallel_violated : ∃ s later, Spec.ReachableRng 0 s ∧ Spec.ReachableRng 0 later ∧
    (getState (setState 0 (getState s) later).2).rng = .threefry ∧ (getState s).rng = .batchparallel := by
  refine ⟨initState 0 1, rngStep 0 (initState 0 1) (.set ⟨.threefry, some 1, some 0⟩), ⟨1, [], rfl⟩,
    ⟨1, [.set ⟨.threefry, some 1, some 0⟩], rfl⟩, by decide, by decide⟩

/-- C32 fails for the position in the batchparallel stream: after a draw, `set_state(get_state())` rewinds
torch's generator to its beginning, so the next draw repeats old numbers. -/
theorem set_state_position_violated : ∃ s, Spec.ReachableRng 0 s ∧ s.torchPos = 3 ∧
    (setState 0 (getState s) s).2.torchPos = 0 :=
  ⟨rngStep 0 (initState 0 1) (.draw 3), ⟨1, [.draw 3], rfl⟩, by decide, by decide⟩

example : Spec.ReachableRng 2 (rngStep 2 (initState 2 10) (.draw 3)) ∧
    (rngStep 2 (initState 2 10) (.draw 3)).localseed = some 12 := ⟨⟨10, [.draw 3], rfl⟩, by decide⟩

/-! ## C55: seeding -/

/-- **C55, reproducibility.** Whatever happened before, after `seed(sd)` every later sequence of operations leads to the same
generator state (and, in between, draws the same numbers), as long as the same generator is active. -/
theorem seed_reproducible (rank : Nat) (sd : Int) (s s' : RngState) (h : s.rng = s'.rng) (ops : List RngOp) :
    ops.foldl (rngStep rank) (rngStep rank s (.seed sd)) = ops.foldl (rngStep rank) (rngStep rank s' (.seed sd)) := by
  have : rngStep rank s (.seed sd) = rngStep rank s' (.seed sd) := by
    obtain ⟨a, b, c, d, e, f⟩ := s
    obtain ⟨a', b', c', d', e', f'⟩ := s'
    simp only at h
    subst h
    cases a <;> rfl
  rw [this]

/-- What must agree between ranks for `Threefry` to be independent of the number of processes. -/
def Spec.SameStream (a b : RngState) : Prop := a.rng = b.rng ∧ a.seed = b.seed ∧ a.counter = b.counter

theorem sameStream_step (r r' : Nat) (a b : RngState) (h : Spec.SameStream a b) (op : RngOp) :
    Spec.SameStream (rngStep r a op) (rngStep r' b op) := by
  obtain ⟨a1, a2, a3, a4, a5, a6⟩ := a
  obtain ⟨b1, b2, b3, b4, b5, b6⟩ := b
  obtain ⟨h1, h2, h3⟩ := h
  simp only at h1 h2 h3
  subst h1 h2 h3
  cases op with
  | seed sd => cases a1 <;> exact ⟨rfl, rfl, rfl⟩
  | draw k => cases a1 <;> exact ⟨rfl, rfl, rfl⟩
  | set t =>
    obtain ⟨t1, t2, t3⟩ := t
    cases t1 <;> cases t2 <;> cases t3 <;> exact ⟨rfl, rfl, rfl⟩

/-- **C55, agreement.** After every history of `seed`, `set_state` and draws that all ranks execute, all ranks
agree on the active generator, its seed and its counter. -/
theorem ranks_agree_on_stream (r r' : Nat) (sd : Int) (ops : List RngOp) :
    Spec.SameStream (ops.foldl (rngStep r) (initState r sd)) (ops.foldl (rngStep r') (initState r' sd)) := by
  have : ∀ (ops : List RngOp) a b, Spec.SameStream a b →
      Spec.SameStream (ops.foldl (rngStep r) a) (ops.foldl (rngStep r') b) := by
    intro ops
    induction ops with
    | nil => intro a b h; exact h
    | cons op ops ih => intro a b h; exact ih _ _ (sameStream_step r r' a b h op)
  exact this ops _ _ ⟨rfl, rfl, rfl⟩

/-- **C55, fresh start.** In Threefry mode `seed(sd)` restarts at counter 0: the state tuple is `(sd, 0)`. -/
theorem seed_restarts (rank : Nat) (sd : Int) (s : RngState) (h : s.rng = .threefry) :
    getState (rngStep rank s (.seed sd)) = ⟨.threefry, some sd, some 0⟩ := by
  simp [rngStep, seedState, getState, h]

example : (rngStep 1 (rngStep 1 (initState 1 5) (.set ⟨.threefry, some 7, some 100⟩)) (.draw 9)).counter = some 105 ∧
    (rngStep 1 (rngStep 1 (rngStep 1 (initState 1 5) (.set ⟨.threefry, some 7, some 100⟩)) (.draw 9)) (.seed 3)).counter
      = some 0 := by decide

end Heat
