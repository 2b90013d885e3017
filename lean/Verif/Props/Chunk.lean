import Verif.Proof.Chunk
import Verif.Proof.StrideTricks
/-!
# C01-C03: chunking
-/
namespace Heat
open Heat.Spec

/-- C01.  For every shape, valid split axis `s` (given as any accepted integer `a`) and every `P ≥ 1`:
`chunk` succeeds on every rank; there are boundaries `b 0 = 0 ≤ ... ≤ b P = shape[s]` such that rank `r` gets
exactly `[b r, b (r+1))` (so ranges are consecutive and cover the axis), its offset is `b r`, its local size is
the length of the range, and every other axis is whole. -/
theorem chunk_partition (shape : List Nat) (a : Int) (s P : Nat) (hP : 0 < P)
    (hs : s < shape.length) (ha : a = s ∨ a = (s : Int) - shape.length) :
    ∃ b : Nat → Nat, b 0 = 0 ∧ b P = shape[s] ∧ (∀ r, b r ≤ b (r + 1)) ∧
      ∀ r < P, ∃ c, chunk shape (some a) r P = .ok c ∧ c.offset = b r ∧
        c.lshape = shape.set s (b (r + 1) - b r) ∧
        c.slices = (shape.map fun e => (0, e)).set s (b r, b (r + 1)) := by
  refine ⟨fun r => (chunkRange shape[s] r P).1, chunkRange_zero _ _, chunkRange_at_P _ _ hP,
    fun r => chunkRange_mono _ _ (Nat.le_succ r), ?_⟩
  intro r hr
  have hsan : sanitizeAxis shape.length (some a) = .ok (some s) := by
    rw [sanitizeAxis_some _ _ (by omega), if_pos (by omega)]
    congr 2; split <;> omega
  refine ⟨_, by unfold chunk; rw [hsan], ?_, ?_, ?_⟩
  · simp [hs]
  · apply List.ext_getElem
    · simp
    · intro i h1 h2
      have hi : i < shape.length := by simpa using h2
      simp only [List.getElem_map, List.getElem_range, List.getElem_set, chunkRange_succ]
      by_cases h : i = s
      · subst h; simp [hi]
      · have h' : ¬ s = i := fun x => h x.symm
        simp [h, h', hi]
  · apply List.ext_getElem
    · simp
    · intro i h1 h2
      have hi : i < shape.length := by simpa using h2
      simp only [List.getElem_map, List.getElem_range, List.getElem_set, chunkRange_succ]
      by_cases h : i = s
      · subst h; simp [hi]
      · have h' : ¬ s = i := fun x => h x.symm
        simp [h, h', hi]

example : ∃ c, chunk [3, 7] (some (-1)) 2 4 = .ok c ∧ c.offset = 4 ∧ c.lshape = [3, 2] ∧
    c.slices = [(0, 3), (4, 6)] := ⟨_, rfl, rfl, rfl, rfl⟩

/-- C01, ownership form: every global index along the split axis lies in the slice of exactly one rank. -/
theorem chunk_owner_unique (shape : List Nat) (s P : Nat) (hP : 0 < P) (hs : s < shape.length)
    (g : Nat) (hg : g < shape[s]) :
    ∃ r, (r < P ∧ ∃ c lo hi, chunk shape (some (s : Int)) r P = .ok c ∧ c.slices[s]? = some (lo, hi) ∧
            lo ≤ g ∧ g < hi) ∧
      ∀ r', (r' < P ∧ ∃ c lo hi, chunk shape (some (s : Int)) r' P = .ok c ∧ c.slices[s]? = some (lo, hi) ∧
            lo ≤ g ∧ g < hi) → r' = r := by
  obtain ⟨b, hb0, hbP, hmono, hch⟩ := chunk_partition shape s s P hP hs (Or.inl rfl)
  have hm : ∀ i k, b i ≤ b (i + k) := by
    intro i k
    induction k with
    | zero => simp
    | succ k ih => exact Nat.le_trans ih (hmono _)
  have hex : ∃ r, r < P ∧ b r ≤ g ∧ g < b (r + 1) := by
    have : ∀ k, k ≤ P → g < b k → ∃ r, r < P ∧ b r ≤ g ∧ g < b (r + 1) := by
      intro k
      induction k with
      | zero => intro _ h; omega
      | succ k ih =>
        intro hk h
        by_cases h2 : g < b k
        · exact ih (by omega) h2
        · exact ⟨k, by omega, by omega, h⟩
    exact this P (Nat.le_refl _) (by omega)
  obtain ⟨r, hr, h1, h2⟩ := hex
  have slice_of : ∀ r, r < P → ∀ c, chunk shape (some (s : Int)) r P = .ok c →
      c.slices[s]? = some (b r, b (r + 1)) := by
    intro r hr c hc
    obtain ⟨c', hc', _, _, h3⟩ := hch r hr
    rw [hc] at hc'
    cases hc'
    rw [h3]; simp [hs]
  refine ⟨r, ⟨hr, ?_⟩, ?_⟩
  · obtain ⟨c, hc, _⟩ := hch r hr
    exact ⟨c, _, _, hc, slice_of r hr c hc, h1, h2⟩
  · rintro r' ⟨hr', c, lo, hi, hc, hsl, h3, h4⟩
    rw [slice_of r' hr' c hc] at hsl
    cases hsl
    rcases Nat.lt_trichotomy r' r with h | h | h
    · have := hm (r' + 1) (r - (r' + 1)); rw [show r' + 1 + (r - (r' + 1)) = r by omega] at this; omega
    · exact h
    · have := hm (r + 1) (r' - (r + 1)); rw [show r + 1 + (r' - (r + 1)) = r' by omega] at this; omega

example : ∃ c lo hi, chunk [5] (some 0) 1 3 = .ok c ∧ c.slices[0]? = some (lo, hi) ∧ lo ≤ 3 ∧ 3 < hi :=
  ⟨_, _, _, rfl, rfl, by decide, by decide⟩

/-- C01, error branch: an out-of-range split axis of a non-scalar shape raises ValueError on every rank. -/
theorem chunk_invalid_split (shape : List Nat) (a : Int) (r P : Nat) (hne : shape ≠ [])
    (ha : a < -(shape.length : Int) ∨ (shape.length : Int) ≤ a) :
    chunk shape (some a) r P = .error .valueError := by
  have : shape.length ≠ 0 := by simpa using hne
  have hsan : sanitizeAxis shape.length (some a) = .error .valueError := by
    unfold sanitizeAxis
    simp only [this, if_false]
    rw [if_neg (by omega)]
    by_cases h : a < 0
    · rw [if_pos h, if_pos (by omega)]
    · rw [if_neg h, if_pos (by omega)]
  unfold chunk; rw [hsan]

example : chunk [3, 7] (some 2) 0 4 = .error .valueError := rfl

/-- C01, `split=None`: every rank keeps everything. -/
theorem chunk_none (shape : List Nat) (r P : Nat) :
    chunk shape none r P = .ok ⟨0, shape, shape.map fun e => (0, e)⟩ := by
  unfold chunk sanitizeAxis; simp

/-- C02.  Local sizes along the split axis differ by at most one and never increase with the rank. -/
theorem chunk_balanced (shape : List Nat) (s P r r' : Nat) (_ : 0 < P) (hs : s < shape.length)
    (hrr : r ≤ r') (_ : r' < P) :
    ∃ c c' k k', chunk shape (some (s : Int)) r P = .ok c ∧ chunk shape (some (s : Int)) r' P = .ok c' ∧
      c.lshape[s]? = some k ∧ c'.lshape[s]? = some k' ∧ k' ≤ k ∧ k ≤ k' + 1 := by
  have hsan : sanitizeAxis shape.length (some (s : Int)) = .ok (some s) := by
    unfold sanitizeAxis
    have : shape.length ≠ 0 := by omega
    simp [this, hs]
  refine ⟨_, _, evenSize shape[s] P r, evenSize shape[s] P r', by unfold chunk; rw [hsan],
    by unfold chunk; rw [hsan], ?_, ?_, ?_, ?_⟩
  · simp [hs, chunkRange_snd]
  · simp [hs, chunkRange_snd]
  · unfold evenSize; split <;> split <;> omega
  · unfold evenSize; split <;> split <;> omega

example : (chunk [10] (some 0) 0 4).toOption.map (·.lshape) = some [3] ∧
    (chunk [10] (some 0) 3 4).toOption.map (·.lshape) = some [2] := ⟨rfl, rfl⟩

/-- C03.  `counts_displs_shape` and `chunk` agree on every rank. -/
theorem counts_displs_shape_eq_chunk (shape : List Nat) (s P r : Nat) (hP : 0 < P)
    (hs : s < shape.length) (hr : r < P) :
    ∃ c, chunk shape (some (s : Int)) r P = .ok c ∧
      (displsShape shape[s] P)[r]? = some c.offset ∧ (countsShape shape[s] P)[r]? = c.lshape[s]? ∧
      (countsShape shape[s] P).length = P ∧ (displsShape shape[s] P).length = P ∧
      (countsShape shape[s] P).sum = shape[s] := by
  have hsan : sanitizeAxis shape.length (some (s : Int)) = .ok (some s) := by
    unfold sanitizeAxis
    have : shape.length ≠ 0 := by omega
    simp [this, hs]
  refine ⟨_, by unfold chunk; rw [hsan], ?_, ?_, ?_, ?_, ?_⟩
  · unfold displsShape
    rw [countsShape_eq _ _ hP, cumsumExcl_get _ _ _ (by simpa [evenSizes] using hr),
      before_evenSizes _ _ _ (by omega)]
    simp [hs]
  · rw [countsShape_eq _ _ hP]; simp [evenSizes, hr, hs, chunkRange_snd]
  · rw [countsShape_eq _ _ hP]; simp [evenSizes]
  · rw [displsShape, cumsumExcl_length, countsShape_eq _ _ hP]; simp [evenSizes]
  · rw [countsShape_eq _ _ hP, sum_evenSizes _ _ hP]

example : countsShape 10 4 = [3, 3, 2, 2] ∧ displsShape 10 4 = [0, 3, 6, 8] := ⟨rfl, rfl⟩

end Heat
