import Verif.Model.Chunk
import Verif.Spec.Dist
/-! Helper lemmas about the chunking arithmetic. -/
namespace Heat
open Heat.Spec

theorem chunkRange_eq (n r P : Nat) :
    chunkRange n r P = (r * (n / P) + min r (n % P), r * (n / P) + min r (n % P) + evenSize n P r) := by
  unfold chunkRange evenSize
  by_cases h : n % P > r
  · have : min r (n % P) = r := by omega
    simp [h, this, Nat.mul_add]
  · have : min r (n % P) = n % P := by omega
    simp [h, this]

theorem chunkRange_fst (n r P : Nat) :
    (chunkRange n r P).1 = r * (n / P) + min r (n % P) := by rw [chunkRange_eq]

theorem chunkRange_snd (n r P : Nat) :
    (chunkRange n r P).2 = (chunkRange n r P).1 + evenSize n P r := by rw [chunkRange_eq]

theorem chunkRange_succ (n r P : Nat) :
    (chunkRange n (r + 1) P).1 = (chunkRange n r P).2 := by
  rw [chunkRange_snd, chunkRange_fst, chunkRange_fst, evenSize, Nat.add_mul]
  split <;> omega

theorem chunkRange_zero (n P : Nat) : (chunkRange n 0 P).1 = 0 := by simp [chunkRange_fst]

theorem chunkRange_at_P (n P : Nat) (hP : 0 < P) : (chunkRange n P P).1 = n := by
  rw [chunkRange_fst]
  have := Nat.mod_lt n hP
  have h2 := Nat.div_add_mod n P
  rw [Nat.min_eq_right (by omega)]; omega

theorem chunkRange_mono (n P : Nat) {r s : Nat} (h : r ≤ s) :
    (chunkRange n r P).1 ≤ (chunkRange n s P).1 := by
  rw [chunkRange_fst, chunkRange_fst]
  have := Nat.mul_le_mul_right (n / P) h
  omega

theorem evenSizes_length (n P : Nat) : (evenSizes n P).length = P := by simp [evenSizes]

theorem before_evenSizes (n P r : Nat) (h : r ≤ P) :
    before (evenSizes n P) r = (chunkRange n r P).1 := by
  induction r with
  | zero => simp [before, chunkRange_zero]
  | succ r ih =>
    rw [chunkRange_succ, chunkRange_snd, ← ih (by omega)]
    unfold before
    rw [List.take_add_one, List.sum_append]
    simp [evenSizes, show r < P by omega]

theorem sum_evenSizes (n P : Nat) (hP : 0 < P) : (evenSizes n P).sum = n := by
  have := before_evenSizes n P P (Nat.le_refl _)
  rw [chunkRange_at_P n P hP] at this
  rw [before, List.take_of_length_le (by simp [evenSizes])] at this; exact this

theorem countsShape_eq (n P : Nat) (hP : 0 < P) : countsShape n P = evenSizes n P := by
  have hm := Nat.mod_lt n hP
  apply List.ext_getElem
  · simp [countsShape, evenSizes]; omega
  · intro i h1 h2
    have hi : i < P := by simpa [evenSizes] using h2
    simp only [countsShape, evenSizes, evenSize, List.getElem_append, List.getElem_map,
      List.getElem_take, List.getElem_replicate, List.getElem_drop, List.length_map, List.length_take,
      List.length_replicate, List.getElem_range]
    rw [Nat.min_eq_left (by omega)]
    split <;> simp

theorem cumsumExcl_length (a : Nat) (l : List Nat) : (cumsumExcl a l).length = l.length := by
  induction l generalizing a with
  | nil => rfl
  | cons c cs ih => simp [cumsumExcl, ih]

theorem cumsumExcl_get (a : Nat) (l : List Nat) (r : Nat) (h : r < l.length) :
    (cumsumExcl a l)[r]? = some (a + before l r) := by
  induction l generalizing a r with
  | nil => simp at h
  | cons c cs ih =>
    cases r with
    | zero => simp [cumsumExcl, before]
    | succ r =>
      simp only [cumsumExcl, List.getElem?_cons_succ]
      rw [ih _ _ (by simpa using h)]
      simp [before]; omega

theorem before_succ (l : List Nat) (r : Nat) (h : r < l.length) :
    before l (r + 1) = before l r + l[r] := by
  unfold before
  rw [List.take_add_one, List.sum_append]; simp [h]

theorem before_all (l : List Nat) : before l l.length = l.sum := by simp [before]

theorem before_mono (l : List Nat) {r s : Nat} (h : r ≤ s) : before l r ≤ before l s := by
  unfold before
  obtain ⟨k, rfl⟩ := Nat.exists_eq_add_of_le h
  rw [List.take_add, List.sum_append]; omega

/-- Every index below the total is owned by exactly one part. -/
theorem owner_existsUnique (l : List Nat) (g : Nat) (hg : g < l.sum) :
    ∃ r, (∃ h : r < l.length, before l r ≤ g ∧ g < before l r + l[r]) ∧
      ∀ s, (∃ h : s < l.length, before l s ≤ g ∧ g < before l s + l[s]) → s = r := by
  have key : ∀ k, k ≤ l.length → g < before l k →
      ∃ r, ∃ h : r < l.length, before l r ≤ g ∧ g < before l r + l[r] := by
    intro k
    induction k with
    | zero => intro _ h; simp [before] at h
    | succ k ih =>
      intro hk h
      by_cases h2 : g < before l k
      · exact ih (by omega) h2
      · refine ⟨k, by omega, by omega, ?_⟩
        rw [← before_succ]; exact h
  obtain ⟨r, hr, h1, h2⟩ := key l.length (Nat.le_refl _) (by rw [before_all]; exact hg)
  refine ⟨r, ⟨hr, h1, h2⟩, ?_⟩
  rintro s ⟨hs, h3, h4⟩
  rw [← before_succ] at h2 h4
  rcases Nat.lt_trichotomy s r with h | h | h
  · have := before_mono l (show s + 1 ≤ r by omega); omega
  · exact h
  · have := before_mono l (show r + 1 ≤ s by omega); omega

end Heat
