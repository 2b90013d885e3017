import Verif.Model.Gauss
import Verif.Spec.Gauss
import Verif.Props.Outer
import Mathlib.LinearAlgebra.Matrix.Block
import Mathlib.LinearAlgebra.Matrix.NonsingularInverse
import Mathlib.Tactic.Ring
import Mathlib.Tactic.FieldSimp
/-!
# C70, C71: `det` and `inv` of distributed matrices
-/
namespace Heat

open Spec

section rows

variable {K : Type}

theorem mapRows_length (A : Nat → List (GRow K)) (F : Nat → GRow K → GRow K) (r : Nat) : (mapRows A F r).length = (A r).length := by simp [mapRows]

theorem content_length_congr {β γ : Type} (A : Nat → List β) (B : Nat → List γ) (P : Nat) (h : ∀ r < P, (A r).length = (B r).length) : (content P A).length = (content P B).length := by
  induction P with
  | zero => simp [content_zero]
  | succ P ih => rw [content_succ, content_succ, List.length_append, List.length_append, ih (fun r hr => h r (by omega)), h P (by omega)]

theorem startOf_congr_len {β γ : Type} (A : Nat → List β) (B : Nat → List γ) (P : Nat) (h : ∀ r < P, (A r).length = (B r).length) : startOf A P = startOf B P :=
  content_length_congr A B P h

theorem mapRows_content_length (A : Nat → List (GRow K)) (F : Nat → GRow K → GRow K) (P : Nat) : (content P (mapRows A F)).length = (content P A).length :=
  content_length_congr _ _ _ fun r _ => mapRows_length A F r

variable [Field K]

theorem rowAt_owner (A : Nat → List (GRow K)) (P r t : Nat) (hr : r < P) (ht : t < (A r).length) : rowAt P A (startOf A r + t) = (A r)[t] := by
  unfold rowAt
  rw [List.getD_eq_getElem?_getD, content_get A P r t hr ht]; rfl

theorem rowAt_mapRows (A : Nat → List (GRow K)) (F : Nat → GRow K → GRow K) (P i : Nat) (hi : i < (content P A).length) : rowAt P (mapRows A F) i = F i (rowAt P A i) := by
  obtain ⟨r, hr, h1, h2⟩ := startOf_owner A P i hi
  rw [startOf_succ] at h2
  have ht : i - startOf A r < (A r).length := by omega
  have e1 := rowAt_owner A P r _ hr ht
  have e2 := rowAt_owner (mapRows A F) P r (i - startOf A r) hr (by rw [mapRows_length]; exact ht)
  have es : startOf (mapRows A F) r = startOf A r := mapRows_content_length A F r
  rw [es, show startOf A r + (i - startOf A r) = i by omega] at e2
  rw [show startOf A r + (i - startOf A r) = i by omega] at e1
  rw [e2, e1]
  simp only [mapRows, List.getElem_mapIdx]
  rw [show startOf A r + (i - startOf A r) = i by omega]

theorem matOf_apply (n P : Nat) (A : Nat → List (GRow K)) (i j : Fin n) : matOf n P A i j = rowAt P A i j := rfl

/-! ## Row operations and the determinant -/

/-- Rows exchanged. -/
theorem swap_rowAt (P : Nat) (A : Nat → List (GRow K)) (i j g : Nat) (hg : g < (content P A).length) :
    rowAt P (swapRows P A i j) g = if g = i then rowAt P A j else if g = j then rowAt P A i else rowAt P A g := by
  unfold swapRows; rw [rowAt_mapRows _ _ _ _ hg]

theorem elim_rowAt (P : Nat) (A : Nat → List (GRow K)) (i g : Nat) (hg : g < (content P A).length) :
    rowAt P (elimRows P A i) g = if i < g then fun c => rowAt P A g c - rowAt P A g i / rowAt P A i i * rowAt P A i c else rowAt P A g := by
  unfold elimRows; rw [rowAt_mapRows _ _ _ _ hg]

theorem det_swapRows (n P : Nat) (A : Nat → List (GRow K)) (hA : (content P A).length = n) (i j : Nat) (hi : i < n) (hj : j < n) (hij : i ≠ j) :
    (matOf n P (swapRows P A i j)).det = -(matOf n P A).det := by
  have e : matOf n P (swapRows P A i j) = (matOf n P A).submatrix (Equiv.swap ⟨i, hi⟩ ⟨j, hj⟩) id := by
    ext a b
    rw [matOf_apply, Matrix.submatrix_apply, matOf_apply, swap_rowAt P A i j a (by omega)]
    simp only [Equiv.swap_apply_def, Fin.ext_iff, id]
    split
    · rfl
    · split <;> rfl
  rw [e, Matrix.det_permute, Equiv.Perm.sign_swap (by simpa [Fin.ext_iff] using hij)]
  simp

theorem det_elimRows (n P : Nat) (A : Nat → List (GRow K)) (hA : (content P A).length = n) (i : Nat) (hi : i < n) : (matOf n P (elimRows P A i)).det = (matOf n P A).det := by
  refine Matrix.det_eq_of_forall_row_eq_smul_add_const (fun g => if i < (g : Nat) then -(rowAt P A g i / rowAt P A i i) else 0) ⟨i, hi⟩ (by simp) ?_
  intro g c
  rw [matOf_apply, matOf_apply, matOf_apply, elim_rowAt P A i g (by omega)]
  by_cases h : i < (g : Nat)
  · simp only [h, if_true]; ring
  · simp only [h, if_false]; ring

/-- The first `i` columns are zero below the diagonal. -/
def LowerZero (n P i : Nat) (A : Nat → List (GRow K)) : Prop := ∀ c < i, ∀ g < n, c < g → rowAt P A g c = 0

theorem pivotRow_some {tiny : K → Bool} {n P : Nat} {A : Nat → List (GRow K)} {i j : Nat} (h : pivotRow tiny n P A i = some j) (hi : i < n) :
    i ≤ j ∧ j < n ∧ tiny (rowAt P A j i) = false := by
  unfold pivotRow at h
  by_cases ht : tiny (rowAt P A i i) = true
  · rw [if_pos ht] at h
    have h1 := List.mem_range'_1.1 (List.mem_of_find?_eq_some h)
    have h2 := List.find?_some h
    refine ⟨by omega, by omega, by simpa using h2⟩
  · rw [if_neg ht, Option.some.injEq] at h
    subst h
    exact ⟨Nat.le_refl _, hi, by simpa using ht⟩

theorem pivotRow_none {tiny : K → Bool} {n P : Nat} {A : Nat → List (GRow K)} {i : Nat} (h : pivotRow tiny n P A i = none) :
    ∀ g < n, i ≤ g → tiny (rowAt P A g i) = true := by
  unfold pivotRow at h
  by_cases ht : tiny (rowAt P A i i) = true
  · rw [if_pos ht] at h
    intro g hg hig
    by_cases e : g = i
    · subst e; exact ht
    · have := List.find?_eq_none.1 h g (List.mem_range'_1.2 (by omega))
      simpa using this
  · rw [if_neg ht] at h; cases h

/-- State after the exchange in step `i`. -/
def afterSwap (P : Nat) (A : Nat → List (GRow K)) (i j : Nat) : Nat → List (GRow K) := if j = i then A else swapRows P A i j

theorem afterSwap_length (P : Nat) (A : Nat → List (GRow K)) (i j r : Nat) : (afterSwap P A i j r).length = (A r).length := by
  unfold afterSwap; split
  · rfl
  · exact mapRows_length _ _ _

theorem afterSwap_rowAt (P : Nat) (A : Nat → List (GRow K)) (i j g : Nat) (hg : g < (content P A).length) :
    rowAt P (afterSwap P A i j) g = if g = i then rowAt P A j else if g = j then rowAt P A i else rowAt P A g := by
  unfold afterSwap
  by_cases h : j = i
  · subst h; simp only [if_true]
    by_cases e : g = j
    · subst e; simp
    · simp [e]
  · rw [if_neg h, swap_rowAt P A i j g hg]

theorem afterSwap_lowerZero (n P : Nat) (A : Nat → List (GRow K)) (hA : (content P A).length = n) (i j : Nat) (hij : i ≤ j) (hj : j < n) (h : LowerZero n P i A) : LowerZero n P i (afterSwap P A i j) := by
  intro c hc g hg hcg
  rw [afterSwap_rowAt P A i j g (by omega)]
  split
  · exact h c hc j hj (by omega)
  · split
    · exact h c hc i (by omega) hc
    · exact h c hc g hg hcg

theorem elim_lowerZero (n P : Nat) (A : Nat → List (GRow K)) (hA : (content P A).length = n) (i : Nat) (hi : i < n) (hp : rowAt P A i i ≠ 0) (h : LowerZero n P i A) : LowerZero n P (i + 1) (elimRows P A i) := by
  intro c hc g hg hcg
  rw [elim_rowAt P A i g (by omega)]
  by_cases hig : i < g
  · rw [if_pos hig]
    by_cases e : c = i
    · subst e
      show rowAt P A g c - rowAt P A g c / rowAt P A c c * rowAt P A c c = 0
      field_simp; ring
    · show rowAt P A g c - rowAt P A g i / rowAt P A i i * rowAt P A i c = 0
      rw [h c (by omega) g hg hcg, h c (by omega) i hi (by omega)]; ring
  · rw [if_neg hig]
    exact h c (by omega) g hg hcg

theorem prod_diag_congr (A B : Nat → Nat → K) (i : Nat) (h : ∀ c < i, A c c = B c c) : ∏ c ∈ Finset.range i, A c c = ∏ c ∈ Finset.range i, B c c :=
  Finset.prod_congr rfl fun c hc => h c (Finset.mem_range.1 hc)

theorem det_upper (n P : Nat) (A : Nat → List (GRow K)) (h : LowerZero n P n A) : (matOf n P A).det = ∏ c ∈ Finset.range n, rowAt P A c c := by
  rw [Matrix.det_of_isUpperTriangular]
  · rw [Finset.prod_range]; rfl
  · intro a b hab
    exact h b b.2 a a.2 hab

theorem det_zero_column (n P : Nat) (A : Nat → List (GRow K)) (i : Nat) (hi : i < n) (h : LowerZero n P i A) (h0 : ∀ g < n, i ≤ g → rowAt P A g i = 0) : (matOf n P A).det = 0 := by
  rw [Matrix.twoBlockTriangular_det (matOf n P A) (fun g => (g : Nat) < i)]
  · have : (Matrix.toSquareBlockProp (matOf n P A) fun g => ¬ (g : Nat) < i).det = 0 := by
      refine Matrix.det_eq_zero_of_column_eq_zero ⟨⟨i, hi⟩, by simp⟩ ?_
      rintro ⟨g, hg⟩
      exact h0 g g.2 (by omega)
    rw [this, mul_zero]
  · intro g hg c hc
    exact h c hc g g.2 (by omega)

theorem detLoop_spec (tiny : K → Bool) (h0 : tiny 0 = true) (n P : Nat) : ∀ (k i : Nat), i + k = n → ∀ (A : Nat → List (GRow K)) (d : K) (m : Nat), (content P A).length = n → LowerZero n P i A →
    d = ∏ c ∈ Finset.range i, rowAt P A c c →
    (∀ d' m', detLoop tiny n P (List.range' i k) A d m = some (d', m') → (-1) ^ m' * d' = (-1) ^ m * (matOf n P A).det) ∧
    ((∀ x, tiny x = true → x = 0) → detLoop tiny n P (List.range' i k) A d m = none → (matOf n P A).det = 0)
  | 0, i, hik, A, d, m, hA, hz, hd => by
    obtain rfl : i = n := by omega
    refine ⟨?_, fun _ h => by simp [detLoop] at h⟩
    intro d' m' h
    simp only [List.range'_zero, detLoop, Option.some.injEq, Prod.mk.injEq] at h
    rw [← h.1, ← h.2, det_upper i P A hz, hd]
  | k + 1, i, hik, A, d, m, hA, hz, hd => by
    have hi : i < n := by omega
    rw [List.range'_succ]
    simp only [detLoop]
    cases hp : pivotRow tiny n P A i with
    | none =>
      refine ⟨fun _ _ h => by simp at h, fun ht _ => ?_⟩
      exact det_zero_column n P A i hi hz fun g hg hig => ht _ (pivotRow_none hp g hg hig)
    | some j =>
      obtain ⟨h1, h2, h3⟩ := pivotRow_some hp hi
      have hA' : (content P (afterSwap P A i j)).length = n := by rw [content_length_congr _ A P fun r _ => afterSwap_length P A i j r, hA]
      have hA'' : (content P (elimRows P (afterSwap P A i j) i)).length = n := by unfold elimRows; rw [mapRows_content_length, hA']
      have hpiv : rowAt P (afterSwap P A i j) i i ≠ 0 := by
        rw [afterSwap_rowAt P A i j i (by omega), if_pos rfl]
        intro e; rw [e, h0] at h3; cases h3
      have hz' := afterSwap_lowerZero n P A hA i j h1 h2 hz
      have hz'' := elim_lowerZero n P _ hA' i hi hpiv hz'
      have hd' : d * rowAt P (afterSwap P A i j) i i = ∏ c ∈ Finset.range (i + 1), rowAt P (elimRows P (afterSwap P A i j) i) c c := by
        rw [Finset.prod_range_succ, elim_rowAt P _ i i (by omega), if_neg (by omega), hd]
        congr 1
        apply Finset.prod_congr rfl
        intro c hc
        have hc := Finset.mem_range.1 hc
        rw [elim_rowAt P _ i c (by omega), if_neg (by omega), afterSwap_rowAt P A i j c (by omega), if_neg (by omega), if_neg (by omega)]
      obtain ⟨r1, r2⟩ := detLoop_spec tiny h0 n P k (i + 1) (by omega) (elimRows P (afterSwap P A i j) i) _ (if j = i then m else m + 1) hA'' hz'' hd'
      rw [det_elimRows n P _ hA' i hi] at r1 r2
      have hdet : (matOf n P (afterSwap P A i j)).det = if j = i then (matOf n P A).det else -(matOf n P A).det := by
        unfold afterSwap
        by_cases e : j = i
        · rw [if_pos e, if_pos e]
        · rw [if_neg e, if_neg e]
          exact det_swapRows n P A hA i j hi h2 (Ne.symm e)
      have hfold : (if j = i then A else swapRows P A i j) = afterSwap P A i j := rfl
      simp only [hfold]
      constructor
      · intro d' m' h
        rw [r1 d' m' h, hdet]
        by_cases e : j = i
        · rw [if_pos e, if_pos e]
        · rw [if_neg e, if_neg e, pow_succ]; ring
      · intro ht h
        have := r2 ht h
        rw [hdet] at this
        by_cases e : j = i
        · rw [if_pos e] at this; exact this
        · rw [if_neg e] at this; exact neg_eq_zero.1 this

theorem sign_pow (m : Nat) (d : K) : (if m % 2 ≠ 0 then -d else d) = (-1) ^ m * d := by
  by_cases h : m % 2 = 0
  · rw [if_neg (by omega), Even.neg_one_pow (Nat.even_iff.2 h), one_mul]
  · rw [if_pos h, Odd.neg_one_pow (Nat.odd_iff.2 (by omega)), neg_one_mul]

/-- **C70.**  If the test for zero is exact, `det` of a matrix distributed in any way is the determinant (numbers of an arbitrary field: rounding is not modelled). -/
theorem det_spec_partial (tiny : K → Bool) (ht : ∀ x, tiny x = true ↔ x = 0) (n P : Nat) (A : Nat → List (GRow K)) (hA : (content P A).length = n) : detHeat tiny n P A = (matOf n P A).det := by
  obtain ⟨h1, h2⟩ := detLoop_spec tiny ((ht 0).2 rfl) n P n 0 (by omega) A 1 0 hA (fun c hc => by omega) (by simp)
  rw [← List.range_eq_range'] at h1 h2
  unfold detHeat
  cases h : detLoop tiny n P (List.range n) A 1 0 with
  | none => exact (h2 (fun x hx => (ht x).1 hx) h).symm
  | some p =>
    obtain ⟨d, m⟩ := p
    have := h1 d m h
    simp only
    rw [sign_pow, this]; ring

/-- **C70, for the test that is used.**  Whatever counts as close to 0 (0 itself has to), the result is 0 or the determinant. -/
theorem det_zero_or_right (tiny : K → Bool) (h0 : tiny 0 = true) (n P : Nat) (A : Nat → List (GRow K)) (hA : (content P A).length = n) :
    detHeat tiny n P A = (matOf n P A).det ∨ (detHeat tiny n P A = 0 ∧ detLoop tiny n P (List.range n) A 1 0 = none) := by
  obtain ⟨h1, -⟩ := detLoop_spec tiny h0 n P n 0 (by omega) A 1 0 hA (fun c hc => by omega) (by simp)
  rw [← List.range_eq_range'] at h1
  unfold detHeat
  cases h : detLoop tiny n P (List.range n) A 1 0 with
  | none => exact .inr ⟨rfl, rfl⟩
  | some p =>
    obtain ⟨d, m⟩ := p
    have := h1 d m h
    left
    simp only
    rw [sign_pow, this]; ring

/-! ## `inv` -/

/-- A row times a matrix. -/
def rowMul (n : Nat) (M : Nat → Nat → K) (b : GRow K) : GRow K := fun c => ∑ k ∈ Finset.range n, b k * M k c

theorem rowMul_sub (n : Nat) (M : Nat → Nat → K) (b b' : GRow K) (f : K) (c : Nat) : rowMul n M (fun k => b k - f * b' k) c = rowMul n M b c - f * rowMul n M b' c := by
  unfold rowMul
  rw [Finset.mul_sum, ← Finset.sum_sub_distrib]
  exact Finset.sum_congr rfl fun k _ => by ring

theorem rowMul_div (n : Nat) (M : Nat → Nat → K) (b : GRow K) (s : K) (c : Nat) : rowMul n M (fun k => b k / s) c = rowMul n M b c / s := by
  unfold rowMul
  rw [div_eq_mul_inv, Finset.sum_mul]
  exact Finset.sum_congr rfl fun k _ => by ring

/-- `A = B * M` -/
def RowRel (n P : Nat) (M : Nat → Nat → K) (A B : Nat → List (GRow K)) : Prop := ∀ g < n, ∀ c < n, rowAt P A g c = rowMul n M (rowAt P B g) c

theorem scaleRow_eq (A : Nat → List (GRow K)) (rank i : Nat) (s : K) (h1 : startOf A rank ≤ i) (h2 : i < startOf A (rank + 1)) :
    scaleRow A rank i s = some (mapRows A fun g row => if g = i then fun c => row c / s else row) := by
  have hs := startOf_succ A rank
  unfold scaleRow
  rw [if_pos ⟨h1, by omega⟩]
  congr 1
  funext r
  unfold mapRows
  by_cases e : r = rank
  · subst e
    rw [if_pos rfl]
    apply List.ext_getElem (by simp)
    intro t ht _
    simp only [List.getElem_mapIdx]
    have : t = i - startOf A r ↔ startOf A r + t = i := by omega
    simp only [this]
  · rw [if_neg e]
    apply List.ext_getElem (by simp)
    intro t ht _
    simp only [List.getElem_mapIdx]
    rw [if_neg]
    have hsr := startOf_succ A r
    rcases Nat.lt_or_gt_of_ne e with h | h
    · have := startOf_mono A (show r + 1 ≤ rank by omega); omega
    · have := startOf_mono A (show rank + 1 ≤ r by omega); omega

theorem det_scale (n P : Nat) (A : Nat → List (GRow K)) (hA : (content P A).length = n) (i : Nat) (hi : i < n) (s : K) :
    (matOf n P (mapRows A fun g row => if g = i then fun c => row c / s else row)).det = s⁻¹ * (matOf n P A).det := by
  have e : matOf n P (mapRows A fun g row => if g = i then fun c => row c / s else row) = (matOf n P A).updateRow ⟨i, hi⟩ (s⁻¹ • matOf n P A ⟨i, hi⟩) := by
    ext a b
    rw [matOf_apply, rowAt_mapRows _ _ _ _ (by omega), Matrix.updateRow_apply]
    by_cases h : (a : Nat) = i
    · rw [if_pos h, if_pos (by exact Fin.ext h), Pi.smul_apply, matOf_apply, smul_eq_mul, h]
      field_simp
    · rw [if_neg h, if_neg (by intro e; exact h (by rw [e])), matOf_apply]
  rw [e, Matrix.det_updateRow_smul, Matrix.updateRow_eq_self]

theorem sub_rowAt (P : Nat) (A B : Nat → List (GRow K)) (i : Nat) (sel : Nat → Bool) (g : Nat) (hg : g < (content P B).length) :
    rowAt P (subRows P A B i sel) g = if sel g then fun c => rowAt P B g c - rowAt P A g i * rowAt P B i c else rowAt P B g := by
  unfold subRows; rw [rowAt_mapRows _ _ _ _ hg]

theorem det_subRows (n P : Nat) (A : Nat → List (GRow K)) (hA : (content P A).length = n) (i : Nat) (hi : i < n) (sel : Nat → Bool) (hs : sel i = false) :
    (matOf n P (subRows P A A i sel)).det = (matOf n P A).det := by
  refine Matrix.det_eq_of_forall_row_eq_smul_add_const (fun g => if sel g then -(rowAt P A g i) else 0) ⟨i, hi⟩ (by simp [hs]) ?_
  intro g c
  rw [matOf_apply, matOf_apply, matOf_apply, sub_rowAt P A A i sel g (by omega)]
  by_cases h : sel g = true
  · simp only [h, if_true]; ring
  · simp only [h]; simp

theorem rel_sub (n P : Nat) (M : Nat → Nat → K) (A B : Nat → List (GRow K)) (hA : (content P A).length = n) (hB : (content P B).length = n) (i : Nat) (hi : i < n) (sel : Nat → Bool)
    (h : RowRel n P M A B) : RowRel n P M (subRows P A A i sel) (subRows P A B i sel) := by
  intro g hg c hc
  rw [sub_rowAt P A A i sel g (by omega), sub_rowAt P A B i sel g (by omega)]
  by_cases hs : sel g = true
  · rw [if_pos hs, if_pos hs]
    show rowAt P A g c - rowAt P A g i * rowAt P A i c = _
    rw [rowMul_sub, h g hg c hc, h i hi c hc]
  · rw [if_neg hs, if_neg hs]; exact h g hg c hc

theorem rel_swap (n P : Nat) (M : Nat → Nat → K) (A B : Nat → List (GRow K)) (hA : (content P A).length = n) (hB : (content P B).length = n) (i j : Nat) (hi : i < n) (hj : j < n)
    (h : RowRel n P M A B) : RowRel n P M (afterSwap P A i j) (afterSwap P B i j) := by
  intro g hg c hc
  rw [afterSwap_rowAt P A i j g (by omega), afterSwap_rowAt P B i j g (by omega)]
  split
  · exact h j hj c hc
  · split
    · exact h i hi c hc
    · exact h g hg c hc

theorem rel_scale (n P : Nat) (M : Nat → Nat → K) (A B : Nat → List (GRow K)) (hA : (content P A).length = n) (hB : (content P B).length = n) (i : Nat) (s : K) (h : RowRel n P M A B) :
    RowRel n P M (mapRows A fun g row => if g = i then fun c => row c / s else row) (mapRows B fun g row => if g = i then fun c => row c / s else row) := by
  intro g hg c hc
  rw [rowAt_mapRows _ _ _ _ (by omega), rowAt_mapRows _ _ _ _ (by omega)]
  by_cases e : g = i
  · rw [if_pos e, if_pos e, rowMul_div, h g hg c hc]
  · rw [if_neg e, if_neg e]; exact h g hg c hc

/-- The rank that is followed in the loop: it holds row `i - 1`. -/
def Tracked (A : Nat → List (GRow K)) (P rank i : Nat) : Prop := rank < P ∧ startOf A rank ≤ i ∧ (i = 0 ∧ rank = 0 ∨ startOf A rank < i ∧ i ≤ startOf A (rank + 1))

theorem track_step (n P : Nat) (A : Nat → List (GRow K)) (hb : ∀ r < P, (A r).length = evenSize n P r) (hA : (content P A).length = n) (rank i : Nat) (hi : i < n) (h : Tracked A P rank i) :
    trackRank P A rank i < P ∧ startOf A (trackRank P A rank i) ≤ i ∧ i < startOf A (trackRank P A rank i + 1) := by
  have hpos : ∀ r, r < P → startOf A r ≤ i → (∀ q < r, startOf A (q + 1) ≤ i) → 0 < evenSize n P r := by
    intro r hr _ hq
    obtain ⟨o, ho, h1, h2⟩ := startOf_owner A P i (show i < (content P A).length by omega)
    have hro : r ≤ o := by
      rcases Nat.lt_or_ge o r with h | h
      · have := hq o h; omega
      · exact h
    have hl := hb o ho
    rw [startOf_succ] at h2
    have : evenSize n P o ≤ evenSize n P r := by
      unfold evenSize; split <;> split <;> omega
    omega
  obtain ⟨hP, h1, h2⟩ := h
  have hend : startOf A P = n := hA
  have hs1 := startOf_succ A rank
  have hl := hb rank hP
  unfold trackRank
  by_cases hc : rank < P - 1 ∧ startOf A (rank + 1) ≤ i
  · rw [if_pos hc]
    have hs2 := startOf_succ A (rank + 1)
    have := hpos (rank + 1) (by omega) hc.2 (fun q hq => Nat.le_trans (startOf_mono A (show q + 1 ≤ rank + 1 by omega)) hc.2)
    have hl2 := hb (rank + 1) (by omega)
    rcases h2 with ⟨rfl, rfl⟩ | h2
    · have := hpos 0 (by omega) (by omega) (fun q hq => by omega)
      omega
    · refine ⟨by omega, hc.2, by omega⟩
  · rw [if_neg hc]
    refine ⟨hP, h1, ?_⟩
    by_cases e : rank = P - 1
    · rw [e, show P - 1 + 1 = P by omega]; omega
    · omega

/-- What the forward loop keeps. -/
structure FwdInv (n P : Nat) (M : Nat → Nat → K) (i : Nat) (A B : Nat → List (GRow K)) : Prop where
  la : ∀ r < P, (A r).length = evenSize n P r
  lb : ∀ r < P, (B r).length = evenSize n P r
  ca : (content P A).length = n
  cb : (content P B).length = n
  rel : RowRel n P M A B
  zero : LowerZero n P i A
  one : ∀ c < i, rowAt P A c c = 1

theorem afterSwap_content (P : Nat) (A : Nat → List (GRow K)) (i j : Nat) : (content P (afterSwap P A i j)).length = (content P A).length :=
  content_length_congr _ A P fun r _ => afterSwap_length P A i j r

theorem forward_step (n P : Nat) (M : Nat → Nat → K) (i j : Nat) (A B : Nat → List (GRow K)) (h : FwdInv n P M i A B) (h1 : i ≤ j) (h2 : j < n) (hp : rowAt P A j i ≠ 0) :
    let A1 := mapRows (afterSwap P A i j) fun g row => if g = i then fun c => row c / rowAt P A j i else row
    let B1 := mapRows (afterSwap P B i j) fun g row => if g = i then fun c => row c / rowAt P A j i else row
    FwdInv n P M (i + 1) (subRows P A1 A1 i fun g => decide (i < g)) (subRows P A1 B1 i fun g => decide (i < g)) ∧
      ((matOf n P (subRows P A1 A1 i fun g => decide (i < g))).det = 0 → (matOf n P A).det = 0) := by
  intro A1 B1
  have hi : i < n := by omega
  have hcs : (content P (afterSwap P A i j)).length = n := by rw [afterSwap_content, h.ca]
  have hcsB : (content P (afterSwap P B i j)).length = n := by rw [afterSwap_content, h.cb]
  have hc1 : (content P A1).length = n := by simp only [A1]; rw [mapRows_content_length, hcs]
  have hc1B : (content P B1).length = n := by simp only [B1]; rw [mapRows_content_length, hcsB]
  have hrow1 : ∀ g < n, rowAt P A1 g = if g = i then fun c => rowAt P A j c / rowAt P A j i else if g = j then rowAt P A i else rowAt P A g := by
    intro g hg
    simp only [A1]
    rw [rowAt_mapRows _ _ _ _ (by omega), afterSwap_rowAt P A i j g (by rw [h.ca]; omega)]
    by_cases e : g = i
    · rw [if_pos e, if_pos e, if_pos e]
    · rw [if_neg e, if_neg e, if_neg e]
  have hii : rowAt P A1 i i = 1 := by rw [hrow1 i hi, if_pos rfl]; exact div_self hp
  have hz1 : LowerZero n P i A1 := by
    intro c hc g hg hcg
    rw [hrow1 g hg]
    split
    · show rowAt P A j c / _ = 0
      rw [h.zero c hc j h2 (by omega), zero_div]
    · split
      · exact h.zero c hc i hi hc
      · exact h.zero c hc g hg hcg
  refine ⟨⟨?_, ?_, ?_, ?_, ?_, ?_, ?_⟩, ?_⟩
  · intro r hr; unfold subRows; rw [mapRows_length]; simp only [A1]; rw [mapRows_length, afterSwap_length, h.la r hr]
  · intro r hr; unfold subRows; rw [mapRows_length]; simp only [B1]; rw [mapRows_length, afterSwap_length, h.lb r hr]
  · unfold subRows; rw [mapRows_content_length, hc1]
  · unfold subRows; rw [mapRows_content_length, hc1B]
  · exact rel_sub n P M A1 B1 hc1 hc1B i hi _ (rel_scale n P M _ _ hcs hcsB i _ (rel_swap n P M A B h.ca h.cb i j hi h2 h.rel))
  · intro c hc g hg hcg
    rw [sub_rowAt P A1 A1 i _ g (by omega)]
    by_cases hig : i < g
    · rw [if_pos (by simpa using hig)]
      show rowAt P A1 g c - rowAt P A1 g i * rowAt P A1 i c = 0
      by_cases e : c = i
      · subst e; rw [hii]; ring
      · rw [hz1 c (by omega) g hg hcg, hz1 c (by omega) i hi (by omega)]; ring
    · rw [if_neg (by simpa using hig)]
      exact hz1 c (by omega) g hg hcg
  · intro c hc
    rw [sub_rowAt P A1 A1 i _ c (by omega), if_neg (by simp; omega)]
    by_cases e : c = i
    · subst e; exact hii
    · rw [hrow1 c (by omega), if_neg e, if_neg (by omega)]
      exact h.one c (by omega)
  · rw [det_subRows n P A1 hc1 i hi _ (by simp)]
    simp only [A1]
    rw [det_scale n P _ hcs i hi]
    intro h0
    have h0 := (mul_eq_zero.1 h0).resolve_left (inv_ne_zero hp)
    unfold afterSwap at h0
    by_cases e : j = i
    · rw [if_pos e] at h0; exact h0
    · rw [if_neg e, det_swapRows n P A h.ca i j hi h2 (Ne.symm e)] at h0
      exact neg_eq_zero.1 h0

theorem invForward_spec (tiny : K → Bool) (h0 : tiny 0 = true) (n P : Nat) (M : Nat → Nat → K) : ∀ (k i : Nat), i + k = n → ∀ (rank : Nat) (A B : Nat → List (GRow K)), FwdInv n P M i A B →
    Tracked A P rank i →
    (∀ A' B', invForward tiny n P (List.range' i k) rank A B = some (A', B') → FwdInv n P M n A' B') ∧
    ((∀ x, tiny x = true → x = 0) → invForward tiny n P (List.range' i k) rank A B = none → (matOf n P A).det = 0)
  | 0, i, hik, rank, A, B, hI, hT => by
    obtain rfl : i = n := by omega
    refine ⟨?_, fun _ h => by simp [invForward] at h⟩
    intro A' B' h
    simp only [List.range'_zero, invForward, Option.some.injEq, Prod.mk.injEq] at h
    rw [← h.1, ← h.2]; exact hI
  | k + 1, i, hik, rank, A, B, hI, hT => by
    have hi : i < n := by omega
    rw [List.range'_succ]
    simp only [invForward]
    cases hp : pivotRow tiny n P A i with
    | none =>
      refine ⟨fun _ _ h => by simp at h, fun ht _ => ?_⟩
      exact det_zero_column n P A i hi hI.zero fun g hg hig => ht _ (pivotRow_none hp g hg hig)
    | some j =>
      obtain ⟨h1, h2, h3⟩ := pivotRow_some hp hi
      have hpiv : rowAt P A j i ≠ 0 := by intro e; rw [e, h0] at h3; cases h3
      have hfA : (if j = i then A else swapRows P A i j) = afterSwap P A i j := rfl
      have hfB : (if j = i then B else swapRows P B i j) = afterSwap P B i j := rfl
      simp only [hfA, hfB]
      have hsw : ∀ r, startOf (afterSwap P A i j) r = startOf A r := fun r => startOf_congr_len _ _ _ fun q _ => afterSwap_length P A i j q
      have htr : trackRank P (afterSwap P A i j) rank i = trackRank P A rank i := by unfold trackRank; rw [hsw]
      obtain ⟨t1, t2, t3⟩ := track_step n P A hI.la hI.ca rank i hi hT
      have hsB : ∀ r ≤ P, startOf (afterSwap P B i j) r = startOf A r := fun r hr => startOf_congr_len _ _ _ fun q hq => by
        rw [afterSwap_length, hI.lb q (by omega), hI.la q (by omega)]
      rw [htr, scaleRow_eq (afterSwap P A i j) _ i _ (by rw [hsw]; exact t2) (by rw [hsw]; exact t3),
        scaleRow_eq (afterSwap P B i j) _ i _ (by rw [hsB _ (by omega)]; exact t2) (by rw [hsB _ (by omega)]; exact t3)]
      have hs : rowAt P (afterSwap P A i j) i i = rowAt P A j i := by rw [afterSwap_rowAt P A i j i (by rw [hI.ca]; exact hi), if_pos rfl]
      simp only [hs]
      obtain ⟨f1, f2⟩ := forward_step n P M i j A B hI h1 h2 hpiv
      have hstA : ∀ r ≤ P, startOf (subRows P (mapRows (afterSwap P A i j) fun g row => if g = i then fun c => row c / rowAt P A j i else row)
          (mapRows (afterSwap P A i j) fun g row => if g = i then fun c => row c / rowAt P A j i else row) i fun g => decide (i < g)) r = startOf A r :=
        fun r hr => startOf_congr_len _ _ _ fun q hq => by rw [f1.la q (by omega), hI.la q (by omega)]
      have hT' : Tracked (subRows P (mapRows (afterSwap P A i j) fun g row => if g = i then fun c => row c / rowAt P A j i else row)
          (mapRows (afterSwap P A i j) fun g row => if g = i then fun c => row c / rowAt P A j i else row) i fun g => decide (i < g)) P (trackRank P A rank i) (i + 1) := by
        refine ⟨t1, ?_, .inr ⟨?_, ?_⟩⟩
        · rw [hstA _ (by omega)]; omega
        · rw [hstA _ (by omega)]; omega
        · rw [hstA _ (by omega)]; omega
      obtain ⟨r1, r2⟩ := invForward_spec tiny h0 n P M k (i + 1) (by omega) (trackRank P A rank i) _ _ f1 hT'
      exact ⟨r1, fun ht h => f2 (r2 ht h)⟩

/-- What the backward loop keeps. -/
structure BwdInv (n P : Nat) (M : Nat → Nat → K) (k : Nat) (A B : Nat → List (GRow K)) : Prop where
  lb : ∀ r < P, (B r).length = evenSize n P r
  ca : (content P A).length = n
  cb : (content P B).length = n
  rel : RowRel n P M A B
  zero : LowerZero n P n A
  one : ∀ c < n, rowAt P A c c = 1
  done : ∀ c < n, k < c → ∀ g < n, g ≠ c → rowAt P A g c = 0

theorem invBackward_spec (n P : Nat) (M : Nat → Nat → K) : ∀ (k : Nat) (A B : Nat → List (GRow K)), k < n → BwdInv n P M k A B →
    BwdInv n P M 0 (invBackward P (List.range' 1 k).reverse A B).1 (invBackward P (List.range' 1 k).reverse A B).2
  | 0, A, B, _, h => by simpa [invBackward] using h
  | k + 1, A, B, hk, h => by
    rw [List.range'_1_concat, List.reverse_append, List.reverse_singleton, List.singleton_append, Nat.add_comm 1 k]
    simp only [invBackward]
    apply invBackward_spec n P M k _ _ (by omega)
    have hrow : ∀ g < n, rowAt P (subRows P A A (k + 1) fun g => decide (g < k + 1)) g = if g < k + 1 then fun c => rowAt P A g c - rowAt P A g (k + 1) * rowAt P A (k + 1) c else rowAt P A g := by
      intro g hg
      rw [sub_rowAt P A A (k + 1) _ g (by rw [h.ca]; omega)]
      by_cases e : g < k + 1 <;> simp [e]
    have hkrow : ∀ c < n, c ≠ k + 1 → rowAt P A (k + 1) c = 0 := by
      intro c hc hne
      rcases Nat.lt_or_gt_of_ne hne with h' | h'
      · exact h.zero c hc (k + 1) hk h'
      · exact h.done c hc h' (k + 1) hk (Ne.symm hne)
    refine ⟨?_, ?_, ?_, rel_sub n P M A B h.ca h.cb (k + 1) hk _ h.rel, ?_, ?_, ?_⟩
    · intro r hr; unfold subRows; rw [mapRows_length, h.lb r hr]
    · unfold subRows; rw [mapRows_content_length, h.ca]
    · unfold subRows; rw [mapRows_content_length, h.cb]
    · intro c hc g hg hcg
      rw [hrow g hg]
      by_cases e : g < k + 1
      · rw [if_pos e]
        show rowAt P A g c - rowAt P A g (k + 1) * rowAt P A (k + 1) c = 0
        rw [h.zero c hc g hg hcg, hkrow c hc (by omega)]; ring
      · rw [if_neg e]; exact h.zero c hc g hg hcg
    · intro c hc
      rw [hrow c hc]
      by_cases e : c < k + 1
      · rw [if_pos e]
        show rowAt P A c c - rowAt P A c (k + 1) * rowAt P A (k + 1) c = 1
        rw [h.one c hc, hkrow c hc (by omega)]; ring
      · rw [if_neg e]; exact h.one c hc
    · intro c hc hkc g hg hgc
      rw [hrow g hg]
      by_cases e : g < k + 1
      · rw [if_pos e]
        show rowAt P A g c - rowAt P A g (k + 1) * rowAt P A (k + 1) c = 0
        by_cases e2 : c = k + 1
        · rw [e2, h.one (k + 1) hk]; ring
        · rw [h.done c hc (by omega) g hg hgc, hkrow c hc e2]; ring
      · rw [if_neg e]
        by_cases e2 : c = k + 1
        · exact h.zero c hc g hg (by omega)
        · exact h.done c hc (by omega) g hg hgc

theorem inv_start (n P : Nat) (A : Nat → List (GRow K)) (hA : (content P A).length = n) (hb : ∀ r < P, (A r).length = evenSize n P r) :
    FwdInv n P (fun i j => rowAt P A i j) 0 A (identityRows A) := by
  refine ⟨hb, fun r hr => by unfold identityRows; rw [mapRows_length, hb r hr], hA, by unfold identityRows; rw [mapRows_content_length, hA], ?_, fun c hc => by omega, fun c hc => by omega⟩
  intro g hg c hc
  unfold identityRows
  rw [rowAt_mapRows _ _ _ _ (by omega)]
  unfold rowMul
  rw [Finset.sum_eq_single g]
  · simp
  · intro b _ hb; simp [hb]
  · intro h; exact absurd (Finset.mem_range.2 hg) h

/-- **C71.**  If `inv` of a canonically distributed matrix returns, the result is distributed in the same way and is the inverse, whatever counts as close to 0. -/
theorem inv_spec_partial (tiny : K → Bool) (h0 : tiny 0 = true) (n P : Nat) (A : Nat → List (GRow K)) (hA : (content P A).length = n) (hb : Balanced P A) (B : Nat → List (GRow K))
    (h : invHeat tiny n P A = some B) : (∀ r < P, (B r).length = (A r).length) ∧ matOf n P A * matOf n P B = 1 ∧ matOf n P B * matOf n P A = 1 := by
  have hb' : ∀ r < P, (A r).length = evenSize n P r := fun r hr => by rw [hb r hr, hA]
  unfold invHeat at h
  cases hf : invForward tiny n P (List.range n) 0 A (identityRows A) with
  | none => rw [hf] at h; cases h
  | some AB =>
    obtain ⟨A', B'⟩ := AB
    rw [hf] at h
    simp only [Option.map_some, Option.some.injEq] at h
    rw [List.range_eq_range'] at hf
    rcases Nat.eq_zero_or_pos n with hn | hn
    · subst hn
      refine ⟨?_, by ext i; exact i.elim0, by ext i; exact i.elim0⟩
      simp only [List.range'_zero, invForward, Option.some.injEq, Prod.mk.injEq] at hf
      intro r hr
      rw [← h]
      simp only [Nat.zero_sub, List.range'_zero, List.reverse_nil, invBackward]
      rw [← hf.2]; unfold identityRows; rw [mapRows_length]
    · have hP : 0 < P := by
        rcases Nat.eq_zero_or_pos P with e | e
        · subst e; simp [content_zero] at hA; omega
        · exact e
      have hF := (invForward_spec tiny h0 n P _ n 0 (by omega) 0 A (identityRows A) (inv_start n P A hA hb') ⟨hP, by simp [startOf, content_zero], .inl ⟨rfl, rfl⟩⟩).1 A' B' hf
      have hB := invBackward_spec n P _ (n - 1) A' B' (by omega) ⟨hF.lb, hF.ca, hF.cb, hF.rel, hF.zero, hF.one, fun c hc hk => by omega⟩
      rw [h] at hB
      have hone : ∀ g < n, ∀ c < n, rowAt P (invBackward P (List.range' 1 (n - 1)).reverse A' B').1 g c = if g = c then 1 else 0 := by
        intro g hg c hc
        by_cases e : g = c
        · rw [if_pos e, e]; exact hB.one c hc
        · rw [if_neg e]
          rcases Nat.eq_zero_or_pos c with hc0 | hc0
          · exact hB.zero c hc g hg (by omega)
          · exact hB.done c hc hc0 g hg e
      have hmul : matOf n P B * matOf n P A = 1 := by
        ext i j
        rw [Matrix.mul_apply, Matrix.one_apply]
        have := hB.rel i i.2 j j.2
        rw [hone i i.2 j j.2] at this
        unfold rowMul at this
        rw [Finset.sum_range] at this
        simp only [Fin.ext_iff]
        exact this.symm
      exact ⟨fun r hr => by rw [hB.lb r hr, hb' r hr], mul_eq_one_comm.1 hmul, hmul⟩

/-- If the test for zero is exact, `inv` raises exactly for the matrices that have no inverse. -/
theorem inv_raises_iff_partial (tiny : K → Bool) (ht : ∀ x, tiny x = true ↔ x = 0) (n P : Nat) (A : Nat → List (GRow K)) (hA : (content P A).length = n) (hb : Balanced P A) :
    invHeat tiny n P A = none ↔ (matOf n P A).det = 0 := by
  have hb' : ∀ r < P, (A r).length = evenSize n P r := fun r hr => by rw [hb r hr, hA]
  constructor
  · intro h
    unfold invHeat at h
    rw [Option.map_eq_none_iff, List.range_eq_range'] at h
    rcases Nat.eq_zero_or_pos n with hn | hn
    · subst hn; simp [invForward] at h
    · have hP : 0 < P := by
        rcases Nat.eq_zero_or_pos P with e | e
        · subst e; simp [content_zero] at hA; omega
        · exact e
      exact (invForward_spec tiny ((ht 0).2 rfl) n P _ n 0 (by omega) 0 A (identityRows A) (inv_start n P A hA hb') ⟨hP, by simp [startOf, content_zero], .inl ⟨rfl, rfl⟩⟩).2
        (fun x hx => (ht x).1 hx) h
  · intro hd
    cases h : invHeat tiny n P A with
    | none => rfl
    | some B =>
      have := (inv_spec_partial tiny ((ht 0).2 rfl) n P A hA hb B h).2.1
      have e := congrArg Matrix.det this
      rw [Matrix.det_mul, hd, zero_mul, Matrix.det_one] at e
      exact absurd e zero_ne_one

end rows

/-- The matrix `diag(1e-9, 1)`, one row on each of two ranks. -/
def tinyMatrix : Nat → List (GRow Rat) := fun r => if r = 0 then [fun c => if c = 0 then 1 / 1000000000 else 0] else if r = 1 then [fun c => if c = 1 then 1 else 0] else []

/-- **C70 violated.**  `np.isclose(x, 0)` takes `1e-9` for 0: the determinant of `diag(1e-9, 1)` comes out as 0, and only if the matrix is distributed … -/
theorem det_isclose_violated : detHeat isCloseZero 2 2 tinyMatrix = 0 ∧ (matOf 2 2 tinyMatrix).det = 1 / 1000000000 := by
  constructor
  · decide +kernel
  · rw [Matrix.det_fin_two]
    simp [matOf, tinyMatrix, content_succ, content_zero]

/-- **C71 violated.**  … and `inv` says that it has no inverse. -/
theorem inv_isclose_violated : invHeat isCloseZero 2 2 tinyMatrix = none ∧ IsUnit (matOf 2 2 tinyMatrix) := by
  constructor
  · decide +kernel
  · rw [Matrix.isUnit_iff_isUnit_det, det_isclose_violated.2]
    simp

/-- `np.isclose` does take 0 for 0, as the theorems ask. -/
theorem isCloseZero_zero : isCloseZero 0 = true := by decide +kernel

/-- non-vacuity: three rows on two ranks, two exchanges -/
def exMatrix : Nat → List (GRow Rat) := fun r =>
  if r = 0 then [fun c => [0, 2, 1].getD c 0, fun c => [1, 1, 1].getD c 0] else if r = 1 then [fun c => [2, 2, 5].getD c 0] else []

example : detHeat isCloseZero 3 2 exMatrix = -6 := by decide +kernel

example : detHeat (fun x => decide (x = 0)) 3 2 exMatrix = -6 := by decide +kernel

example : Balanced 2 exMatrix ∧ (content 2 exMatrix).length = 3 := by
  constructor
  · intro r hr
    match r, hr with
    | 0, _ => simp [exMatrix, content_succ, content_zero, evenSize]
    | 1, _ => simp [exMatrix, content_succ, content_zero, evenSize]
  · simp [exMatrix, content_succ, content_zero]

example : (invHeat isCloseZero 3 2 exMatrix).map (fun B => (List.range 3).map fun i => (List.range 3).map fun j => rowAt 2 B i j) =
    some [[-1/2, 4/3, -1/6], [1/2, 1/3, -1/6], [0, -2/3, 1/3]] := by decide +kernel

end Heat
