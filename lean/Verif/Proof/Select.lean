import Verif.Spec.Select
import Verif.Proof.Dist
namespace Heat
open Heat.Spec
variable {α : Type}

theorem pick_append (p : Nat → Bool) (o : Nat) (l l' : List α) :
    pick p o (l ++ l') = pick p o l ++ pick p (o + l.length) l' := by
  induction l generalizing o with
  | nil => simp [pick]
  | cons x xs ih =>
    simp only [List.cons_append, pick, List.length_cons, ih (o + 1)]
    rw [show o + (xs.length + 1) = o + 1 + xs.length by omega]
    split <;> simp

theorem pick_congr {p q : Nat → Bool} {o o' : Nat} {l : List α}
    (h : ∀ j < l.length, p (o + j) = q (o' + j)) : pick p o l = pick q o' l := by
  induction l generalizing o o' with
  | nil => rfl
  | cons x xs ih =>
    have h0 : p o = q o' := by simpa using h 0 (by simp)
    have ih' := ih (o := o + 1) (o' := o' + 1) (by
      intro j hj
      have := h (j + 1) (by simp; omega)
      rwa [show o + 1 + j = o + (j + 1) by omega, show o' + 1 + j = o' + (j + 1) by omega])
    simp only [pick, h0, ih']

theorem pick_none {p : Nat → Bool} {o : Nat} {l : List α} (h : ∀ j < l.length, p (o + j) = false) :
    pick p o l = [] := by
  induction l generalizing o with
  | nil => rfl
  | cons x xs ih =>
    have h0 : p o = false := by simpa using h 0 (by simp)
    simp only [pick, h0]
    apply ih
    intro j hj
    have := h (j + 1) (by simp; omega)
    rwa [show o + 1 + j = o + (j + 1) by omega]

theorem pick_all {p : Nat → Bool} {o : Nat} {l : List α} (h : ∀ j < l.length, p (o + j) = true) :
    pick p o l = l := by
  induction l generalizing o with
  | nil => rfl
  | cons x xs ih =>
    have h0 : p o = true := by simpa using h 0 (by simp)
    simp only [pick, h0, if_true]
    congr 1
    apply ih
    intro j hj
    have := h (j + 1) (by simp; omega)
    rwa [show o + 1 + j = o + (j + 1) by omega]

/-- picking from the global array is picking on each rank with its offset -/
theorem pick_content (p : Nat → Bool) (P : Nat) (d : Nat → List α) :
    pick p 0 (content P d) = content P fun r => pick p (startOf d r) (d r) := by
  induction P with
  | zero => rfl
  | succ k ih =>
    rw [content_succ, content_succ, pick_append, ih]
    simp [startOf]

/-- number of picked elements -/
theorem pick_length (p : Nat → Bool) (o : Nat) (l : List α) :
    (pick p o l).length = ((List.range l.length).filter fun j => p (o + j)).length := by
  induction l generalizing o with
  | nil => rfl
  | cons x xs ih =>
    rw [List.length_cons, List.range_succ_eq_map, List.filter_cons, List.filter_map]
    simp only [pick, Nat.add_zero]
    have : ((List.range xs.length).filter ((fun j => p (o + j)) ∘ Nat.succ)).length =
        ((List.range xs.length).filter fun j => p (o + 1 + j)).length := by
      congr 2; funext j; simp [Nat.succ_eq_add_one]; congr 1; omega
    split
    · simp [ih, this]
    · simp [ih, this]

theorem overwrite_append (p : Nat → Bool) (c : α) (l l' : List α) :
    overwrite p c (l ++ l') = overwrite p c l ++ overwrite (fun g => p (l.length + g)) c l' := by
  simp [overwrite, List.mapIdx_append, Nat.add_comm]

theorem overwrite_congr {p q : Nat → Bool} {c : α} {l : List α} (h : ∀ j < l.length, p j = q j) :
    overwrite p c l = overwrite q c l := by
  apply List.ext_getElem
  · simp [overwrite]
  · intro i h1 h2
    have hi : i < l.length := by simpa [overwrite] using h1
    simp [overwrite, h i hi]

theorem overwrite_none {p : Nat → Bool} {c : α} {l : List α} (h : ∀ j < l.length, p j = false) :
    overwrite p c l = l := by
  apply List.ext_getElem
  · simp [overwrite]
  · intro i h1 h2
    simp [overwrite, h i h2]

theorem overwrite_content (p : Nat → Bool) (c : α) (P : Nat) (d : Nat → List α) :
    overwrite p c (content P d) = content P fun r => overwrite (fun j => p (startOf d r + j)) c (d r) := by
  induction P with
  | zero => rfl
  | succ k ih =>
    rw [content_succ, content_succ, overwrite_append, ih]; rfl

theorem lastWhere_some {P i : Nat} {p : Nat → Bool} (h : (List.range P).reverse.find? p = some i) :
    i < P ∧ p i = true ∧ ∀ j, i < j → j < P → p j = false := by
  have h1 := List.find?_some h
  have h2 := List.mem_of_find?_eq_some h
  refine ⟨by simpa using h2, h1, ?_⟩
  induction P with
  | zero => intro j _ h; omega
  | succ k ih =>
    rw [List.range_succ, List.reverse_append] at h
    simp only [List.reverse_cons, List.reverse_nil, List.nil_append, List.cons_append,
      List.find?_cons] at h
    intro j hj hjk
    cases hk : p k with
    | true =>
      rw [hk] at h
      simp at h
      omega
    | false =>
      rw [hk] at h
      simp only at h
      by_cases hjk2 : j = k
      · subst hjk2; exact hk
      · exact ih h (by simpa using List.mem_of_find?_eq_some h) j hj (by omega)

theorem lastWhere_none {P : Nat} {p : Nat → Bool} (h : (List.range P).reverse.find? p = none) :
    ∀ j < P, p j = false := by
  intro j hj
  rw [List.find?_eq_none] at h
  simpa using h j (by simpa using hj)

/-- Arithmetic of strided positions: number of multiples of `s` below `m`. -/
theorem count_mult (s m : Nat) (hs : 0 < s) :
    ((List.range m).filter fun t => t % s = 0).length = (m + s - 1) / s := by
  induction m with
  | zero => simp; rw [Nat.div_eq_of_lt (by omega)]
  | succ m ih =>
    rw [List.range_succ, List.filter_append, List.length_append, ih]
    rw [show m + 1 + s - 1 = m + s by omega, Nat.add_div_right _ hs]
    have hdm := Nat.div_add_mod m s
    have hlt := Nat.mod_lt m hs
    by_cases h : m % s = 0
    · simp [h]
      rw [Nat.div_eq_of_lt_le (k := m / s)]
      · have : m / s * s = s * (m / s) := Nat.mul_comm _ _
        omega
      · rw [Nat.succ_mul]
        have : m / s * s = s * (m / s) := Nat.mul_comm _ _
        omega
    · simp [h]
      rw [Nat.div_eq_of_lt_le (k := m / s + 1)]
      · rw [Nat.succ_mul]
        have : m / s * s = s * (m / s) := Nat.mul_comm _ _
        omega
      · rw [Nat.succ_mul, Nat.succ_mul]
        have : m / s * s = s * (m / s) := Nat.mul_comm _ _
        omega

/-- number of positions `j < len` with `ks ≤ j < ke`, `(j - ks) % s = 0`, for `ke ≤ len` -/
theorem count_slice (s len ks ke : Nat) (hs : 0 < s) (hke : ke ≤ len) :
    ((List.range len).filter fun j => decide (ks ≤ j ∧ j < ke ∧ (j - ks) % s = 0)).length =
      (ke - ks + s - 1) / s := by
  rw [← count_mult s (ke - ks) hs]
  induction len with
  | zero => have : ke = 0 := by omega
            subst this; simp
  | succ len ih =>
    by_cases h : ke ≤ len
    · rw [← ih h, List.range_succ, List.filter_append, List.length_append]
      simp; intro h1 h2; omega
    · have hke' : ke = len + 1 := by omega
      subst hke'
      clear ih hke h
      induction len with
      | zero =>
        by_cases hk : ks = 0
        · subst hk; simp [List.range_succ]
        · rw [show 0 + 1 - ks = 0 by omega]; simp [List.range_succ]; omega
      | succ len ih2 =>
        rw [List.range_succ, List.filter_append, List.length_append]
        have hstep : ((List.range (len + 1)).filter fun j =>
            decide (ks ≤ j ∧ j < len + 1 + 1 ∧ (j - ks) % s = 0)).length =
            ((List.range (len + 1)).filter fun j =>
            decide (ks ≤ j ∧ j < len + 1 ∧ (j - ks) % s = 0)).length := by
          congr 1
          apply List.filter_congr
          intro j hj
          rw [List.mem_range] at hj
          simp [hj, show j < len + 1 + 1 by omega]
        rw [hstep, ih2]
        by_cases hk : ks ≤ len + 1
        · rw [show len + 1 + 1 - ks = (len + 1 - ks) + 1 by omega, List.range_succ, List.filter_append,
            List.length_append]
          congr 1
          simp only [List.filter_cons, List.filter_nil]
          by_cases hm : (len + 1 - ks) % s = 0 <;> simp [hk, hm]
        · rw [show len + 1 + 1 - ks = 0 by omega, show len + 1 - ks = 0 by omega]
          simp; omega

end Heat
