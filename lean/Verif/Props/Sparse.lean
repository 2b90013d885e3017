import Verif.Model.Sparse
import Verif.Props.Matmul
import Verif.Props.BinaryOp
/-!
# C79-C81: sparse matrices
-/
namespace Heat

open Spec

variable {α : Type}

/-! ## Row pointers -/

theorem rowEnds_length {β : Type} (k : Nat) (rows : List (List β)) : (rowEnds k rows).length = rows.length + 1 := by
  induction rows generalizing k with
  | nil => rfl
  | cons r rs ih => rw [rowEnds, List.length_cons, ih, List.length_cons]

theorem rowEnds_get {β : Type} (k : Nat) (rows : List (List β)) (i : Nat) (hi : i ≤ rows.length) : (rowEnds k rows)[i]? = some (k + (rows.take i).flatten.length) := by
  induction rows generalizing k i with
  | nil => have : i = 0 := by simpa using hi
           subst this; rfl
  | cons r rs ih =>
    cases i with
    | zero => rfl
    | succ i =>
      rw [rowEnds, List.getElem?_cons_succ, ih _ _ (by simpa using hi), List.take_succ_cons, List.flatten_cons, List.length_append]
      congr 1; omega

theorem rowEnds_append {β : Type} (k : Nat) (A B : List (List β)) : rowEnds k (A ++ B) = (rowEnds k A).dropLast ++ rowEnds (k + A.flatten.length) B := by
  induction A generalizing k with
  | nil => rfl
  | cons r rs ih =>
    rw [List.cons_append, rowEnds, ih, rowEnds, List.dropLast_cons_of_ne_nil (by cases rs <;> simp [rowEnds]), List.cons_append, List.flatten_cons, List.length_append]
    congr 3; omega

theorem rowEnds_shift {β : Type} (k m : Nat) (A : List (List β)) : (rowEnds m A).map (· + k) = rowEnds (m + k) A := by
  induction A generalizing m with
  | nil => rfl
  | cons r rs ih =>
    rw [rowEnds, List.map_cons, ih, rowEnds]
    congr 2; omega

theorem rowEnds_unshift {β : Type} (k : Nat) (A : List (List β)) : (rowEnds k A).map (· - k) = rowEnds 0 A := by
  have := rowEnds_shift k 0 A
  rw [Nat.zero_add] at this
  rw [← this, List.map_map]
  conv_rhs => rw [← List.map_id (rowEnds 0 A)]
  apply List.map_congr_left
  intro x _
  simp

/-- The slice of row pointers. -/
theorem rowEnds_slice {β : Type} (rows : List (List β)) (lo hi : Nat) (h1 : lo ≤ hi) (h2 : hi ≤ rows.length) :
    ((rowEnds 0 rows).take (hi + 1)).drop lo = rowEnds ((rows.take lo).flatten.length) ((rows.take hi).drop lo) := by
  apply List.ext_getElem?
  intro i
  rw [List.getElem?_drop, List.getElem?_take]
  have hl : ((rows.take hi).drop lo).length = hi - lo := by rw [List.length_drop, List.length_take]; omega
  by_cases h : lo + i < hi + 1
  · rw [if_pos h, rowEnds_get _ _ _ (by omega), rowEnds_get _ _ _ (by omega)]
    congr 1
    have e : rows.take (lo + i) = rows.take lo ++ ((rows.take hi).drop lo).take i := by
      rw [List.take_add, List.drop_take, List.take_take, Nat.min_eq_left (by omega)]
    rw [e, List.flatten_append, List.length_append, Nat.zero_add]
  · rw [if_neg h, List.getElem?_eq_none (by rw [rowEnds_length]; omega)]

theorem flatten_slice {β : Type} (rows : List (List β)) (lo hi : Nat) (h1 : lo ≤ hi) :
    (rows.flatten.take (rows.take hi).flatten.length).drop (rows.take lo).flatten.length = ((rows.take hi).drop lo).flatten := by
  have e1 : rows.flatten = (rows.take hi).flatten ++ (rows.drop hi).flatten := by rw [← List.flatten_append, List.take_append_drop]
  have e2 : (rows.take hi).flatten = (rows.take lo).flatten ++ ((rows.take hi).drop lo).flatten := by
    rw [← List.flatten_append]
    congr 1
    have := List.take_append_drop lo (rows.take hi)
    rw [List.take_take, Nat.min_eq_left h1] at this
    exact this.symm
  rw [e1, List.take_left, e2, List.drop_left]

/-! ## C79: distribution and assembly -/

/-- The rows of rank `r`. -/
def rowsAt {β : Type} (rows : List β) (P r : Nat) : List β := (rows.take (chunkRange rows.length r P).2).drop (chunkRange rows.length r P).1

theorem rowsAt_prefix {β : Type} (rows : List β) (P : Nat) (hP : 0 < P) : ∀ k ≤ P, content k (rowsAt rows P) = rows.take (chunkRange rows.length k P).1 := by
  intro k hk
  induction k with
  | zero => rw [chunkRange_zero]; rfl
  | succ k ih =>
    rw [content_succ, ih (by omega), chunkRange_succ]
    have hle := chunk_le rows.length P k hP (by omega)
    have := List.take_append_drop (chunkRange rows.length k P).1 (rows.take (chunkRange rows.length k P).2)
    rw [List.take_take, Nat.min_eq_left hle.1] at this
    exact this

theorem rowsAt_content {β : Type} (rows : List β) (P : Nat) (hP : 0 < P) : content P (rowsAt rows P) = rows := by
  rw [rowsAt_prefix rows P hP P (Nat.le_refl _), chunkRange_at_P _ _ hP, List.take_length]

theorem rowsAt_length {β : Type} (rows : List β) (P r : Nat) (hP : 0 < P) (hr : r < P) : (rowsAt rows P r).length = evenSize rows.length P r := by
  have hle := chunk_le rows.length P r hP hr
  unfold rowsAt
  rw [List.length_drop, List.length_take, Nat.min_eq_left hle.2, chunkRange_len]

/-- **C79.**  `sparse_csr_matrix(obj, split=0)` (`sparse_csc_matrix(obj, split=1)`): every process holds the compressed form of its rows, which are the canonical share of the
matrix, and the processes together hold the matrix. -/
theorem sparse_split_spec (rows : List (List (Nat × α))) (P : Nat) (hP : 0 < P) :
    ∃ parts : Nat → List (List (Nat × α)), (∀ r < P, sparsePart (csrOf rows) P r = csrOf (parts r)) ∧ content P parts = rows ∧ Balanced P parts := by
  refine ⟨rowsAt rows P, ?_, rowsAt_content rows P hP, ?_⟩
  · intro r hr
    have hle := chunk_le rows.length P r hP hr
    unfold sparsePart csrOf rowsAt
    dsimp only
    rw [rowEnds_length, Nat.add_sub_cancel]
    have g1 := rowEnds_get 0 rows (chunkRange rows.length r P).1 (by omega)
    have g2 := rowEnds_get 0 rows (chunkRange rows.length r P).2 (by omega)
    rw [Nat.zero_add] at g1 g2
    have d1 : (rowEnds 0 rows).getD (chunkRange rows.length r P).1 0 = (rows.take (chunkRange rows.length r P).1).flatten.length := by
      rw [List.getD_eq_getElem?_getD, g1]; rfl
    have d2 : (rowEnds 0 rows).getD (chunkRange rows.length r P).2 0 = (rows.take (chunkRange rows.length r P).2).flatten.length := by
      rw [List.getD_eq_getElem?_getD, g2]; rfl
    rw [d1, d2, rowEnds_slice _ _ _ hle.1 hle.2]
    congr 1
    · have hh : ∀ (k : Nat) (A : List (List (Nat × α))), (rowEnds k A).headD 0 = k := by
        intro k A
        cases A <;> rfl
      rw [hh, rowEnds_unshift]
    · rw [← List.map_take, ← List.map_drop, flatten_slice _ _ _ hle.1]
    · rw [← List.map_take, ← List.map_drop, flatten_slice _ _ _ hle.1]
  · intro r hr
    rw [rowsAt_content rows P hP, rowsAt_length rows P r hP hr]

theorem data_length (rows : List (List (Nat × α))) : (csrOf rows).data.length = nnz rows := by unfold csrOf nnz; rw [List.length_map]

theorem nnz_append (A B : List (List (Nat × α))) : nnz (A ++ B) = nnz A + nnz B := by unfold nnz; rw [List.flatten_append, List.length_append]

theorem nnz_mono {P k : Nat} (parts : Nat → List (List (Nat × α))) (h : k ≤ P) : nnz (content k parts) ≤ nnz (content P parts) := by
  induction P with
  | zero => rw [Nat.le_zero.1 h]; exact Nat.le_refl _
  | succ P ih =>
    by_cases he : k = P + 1
    · rw [he]; exact Nat.le_refl _
    · rw [content_succ, nnz_append]
      have := ih (by omega)
      omega

theorem nnz_le {P r : Nat} (parts : Nat → List (List (Nat × α))) (h : r < P) : nnz (parts r) ≤ nnz (content P parts) := by
  have := nnz_mono parts (show r + 1 ≤ P by omega)
  rw [content_succ, nnz_append] at this
  omega

theorem nnzCount_exact {P : Nat} {parts : Nat → List (List (Nat × α))} (h : nnz (content P parts) ≤ 2 ^ 24) {r : Nat} (hr : r < P) :
    nnzCount (fun q => csrOf (parts q)) r = nnz (parts r) := by
  unfold nnzCount
  rw [data_length, f32_exact (Nat.le_trans (nnz_le parts hr) h)]

theorem nnzBefore_exact {P : Nat} {parts : Nat → List (List (Nat × α))} (h : nnz (content P parts) ≤ 2 ^ 24) {r : Nat} (hr : r ≤ P) :
    nnzBefore (fun q => csrOf (parts q)) r = nnz (content r parts) := by
  have hs : ((List.range r).map (nnzCount fun q => csrOf (parts q))).sum = nnz (content r parts) := by
    induction r with
    | zero => rfl
    | succ r ih =>
      rw [List.range_succ, List.map_append, List.sum_append, ih (by omega), content_succ, nnz_append, List.map_singleton, List.sum_singleton, nnzCount_exact h (by omega)]
  unfold nnzBefore
  rw [hs, f32_exact (Nat.le_trans (nnz_mono parts hr) h)]

theorem indptr_prefix {P : Nat} {parts : Nat → List (List (Nat × α))} (h : nnz (content P parts) ≤ 2 ^ 24) : ∀ k < P,
    content k (indptrPart P fun q => csrOf (parts q)) = (rowEnds 0 (content k parts)).dropLast := by
  intro k hk
  induction k with
  | zero => rfl
  | succ k ih =>
    rw [content_succ, content_succ, ih (by omega), rowEnds_append]
    unfold indptrPart
    dsimp only
    rw [if_pos (by omega), nnzBefore_exact h (by omega)]
    show _ ++ (List.map _ (rowEnds 0 (parts k))).dropLast = _
    rw [rowEnds_shift, List.dropLast_append_of_ne_nil (by cases parts k <;> simp [rowEnds])]
    rfl

/-- **C79.**  `indptr` of a distributed matrix: the row pointers of the whole matrix, for every distribution (up to `2^24` entries). -/
theorem sparse_indptr_spec {P : Nat} (hP : 0 < P) {parts : Nat → List (List (Nat × α))} (h : nnz (content P parts) ≤ 2 ^ 24) :
    gatheredIndptr P (fun q => csrOf (parts q)) = (csrOf (content P parts)).indptr := by
  obtain ⟨Q, rfl⟩ : ∃ Q, P = Q + 1 := ⟨P - 1, by omega⟩
  unfold gatheredIndptr
  rw [content_succ, indptr_prefix h Q (by omega)]
  unfold indptrPart
  dsimp only
  rw [if_neg (by omega), nnzBefore_exact h (by omega)]
  show _ ++ List.map _ (rowEnds 0 (parts Q)) = rowEnds 0 (content (Q + 1) parts)
  rw [rowEnds_shift, content_succ, rowEnds_append]
  rfl

theorem gatherAt_spec {β : Type} {P g : Nat} {zero : β} {counts displs : Nat → Nat} {loc : Nat → List β} (hc : ∀ r < P, counts r = (loc r).length)
    (hd : ∀ r < P, displs r = (content r loc).length) (hg : (content P loc).length = g) : gatherAt P g zero counts displs loc = some (content P loc) := by
  unfold gatherAt
  rw [if_pos (by rw [List.all_eq_true]; intro r hr; simpa using hc r (List.mem_range.1 hr))]
  have hpre : ∀ k ≤ P, (List.range k).foldl (fun b r => writeAt b (displs r) (loc r)) (List.replicate g zero) = content k loc ++ List.replicate (g - (content k loc).length) zero := by
    intro k hk
    induction k with
    | zero => simp [content_zero]
    | succ k ih =>
      rw [List.range_succ, List.foldl_append, ih (by omega)]
      show writeAt _ (displs k) (loc k) = _
      have hle : (content (k + 1) loc).length ≤ g := by rw [← hg]; exact content_length_mono loc hk
      rw [content_succ, List.length_append] at hle
      unfold writeAt
      rw [hd k (by omega), List.take_left, content_succ, List.length_append]
      congr 1
      rw [← List.drop_drop, List.drop_left, List.drop_replicate]
      congr 1; omega
  rw [hpre P (Nat.le_refl _), hg, Nat.sub_self]
  simp

/-- **C79.**  `indices` and `data` of a distributed matrix are those of the whole matrix, for every distribution (up to `2^24` entries). -/
theorem sparse_entries_spec {P : Nat} {parts : Nat → List (List (Nat × α))} (h : nnz (content P parts) ≤ 2 ^ 24) (zero : α) :
    gatheredIndices P (nnz (content P parts)) (fun q => csrOf (parts q)) = some (csrOf (content P parts)).indices ∧
    gatheredData P (nnz (content P parts)) zero (fun q => csrOf (parts q)) = some (csrOf (content P parts)).data := by
  have hflat : ∀ k, content k (fun r => (parts r).flatten) = (content k parts).flatten := by
    intro k
    induction k with
    | zero => rfl
    | succ k ih => rw [content_succ, content_succ, ih, List.flatten_append]
  have hidx : ∀ k, content k (fun r => (csrOf (parts r)).indices) = (csrOf (content k parts)).indices := by
    intro k
    show content k (fun r => ((parts r).flatten).map Prod.fst) = _
    rw [content_map, hflat]; rfl
  have hdat : ∀ k, content k (fun r => (csrOf (parts r)).data) = (csrOf (content k parts)).data := by
    intro k
    show content k (fun r => ((parts r).flatten).map Prod.snd) = _
    rw [content_map, hflat]; rfl
  have hil : ∀ rows : List (List (Nat × α)), (csrOf rows).indices.length = nnz rows := fun rows => by unfold csrOf nnz; rw [List.length_map]
  constructor
  · unfold gatheredIndices
    rw [gatherAt_spec, hidx]
    · intro r hr; rw [nnzCount_exact h hr, hil]
    · intro r hr; rw [nnzBefore_exact h (by omega), hidx, hil]
    · rw [hidx, hil]
  · unfold gatheredData
    rw [gatherAt_spec, hdat]
    · intro r hr; rw [nnzCount_exact h hr, data_length]
    · intro r hr; rw [nnzBefore_exact h (by omega), hdat, data_length]
    · rw [hdat, data_length]

/-- Three processes, the second without rows: the assembled matrix, computed. -/
example : gatheredIndptr 3 (fun q => csrOf ([[[(0, 5)], []], [], [[(1, 6), (2, 7)]]].getD q ([] : List (List (Nat × Nat))))) = [0, 1, 1, 3] ∧
    gatheredIndices 3 3 (fun q => csrOf ([[[(0, 5)], []], [], [[(1, 6), (2, 7)]]].getD q ([] : List (List (Nat × Nat))))) = some [0, 1, 2] := by decide +kernel

example : sparsePart (csrOf [[(0, 5)], [], [(1, 6), (2, 7)]]) 2 1 = csrOf [[(1, 6), (2, 7)]] := by decide +kernel

/-! ## `is_split` -/

theorem foldl_min_lt (l : List Nat) (f : Nat → Int) (a : Int) : l.foldl (fun m r => min m (f r)) a < 0 ↔ a < 0 ∨ ∃ r ∈ l, f r < 0 := by
  induction l generalizing a with
  | nil => simp
  | cons b t ih =>
    rw [List.foldl_cons, ih]
    constructor
    · rintro (h | ⟨r, hr, h⟩)
      · by_cases ha : a < 0
        · exact Or.inl ha
        · exact Or.inr ⟨b, List.mem_cons_self .., by omega⟩
      · exact Or.inr ⟨r, List.mem_cons_of_mem _ hr, h⟩
    · rintro (h | ⟨r, hr, h⟩)
      · exact Or.inl (by omega)
      · rcases List.mem_cons.1 hr with rfl | hr
        · exact Or.inl (by omega)
        · exact Or.inr ⟨r, hr, h⟩

/-- **C79.**  With `is_split` every process raises ValueError exactly if two neighbouring processes (hence any two) disagree on the other extent … -/
theorem sparse_is_split_raises (P : Nat) (hP : 0 < P) (rows cols : Nat → Nat) : isSplitRaises P rows cols = true ↔ ¬ ∀ r < P, cols r = cols 0 := by
  unfold isSplitRaises
  rw [decide_eq_true_iff, foldl_min_lt]
  have h0 : ¬ neighbourExtent rows cols 0 < 0 := by unfold neighbourExtent; rw [if_pos rfl]; omega
  have hn : ∀ r, neighbourExtent rows cols r < 0 ↔ r ≠ 0 ∧ cols r ≠ cols (r - 1) := by
    intro r
    unfold neighbourExtent
    by_cases hr : r = 0
    · rw [if_pos hr]; constructor
      · intro h; omega
      · intro h; exact absurd hr h.1
    · rw [if_neg hr]
      by_cases hc : cols r ≠ cols (r - 1)
      · rw [if_pos hc]; exact ⟨fun _ => ⟨hr, hc⟩, fun _ => by decide⟩
      · rw [if_neg hc]; constructor
        · intro h; omega
        · intro h; exact absurd h.2 hc
  constructor
  · rintro (h | ⟨r, hr, h⟩) hall
    · exact h0 h
    · rw [List.mem_range] at hr
      obtain ⟨h1, h2⟩ := (hn r).1 h
      exact h2 ((hall r hr).trans (hall (r - 1) (by omega)).symm)
  · intro h
    right
    by_contra hno
    apply h
    intro r
    induction r with
    | zero => intro _; rfl
    | succ r ih =>
      intro hr
      rw [← ih (by omega)]
      by_contra hc
      exact hno ⟨r + 1, List.mem_range.2 hr, (hn (r + 1)).2 ⟨by omega, by simpa using hc⟩⟩

/-- **C79.**  … and otherwise the number of rows and of entries are those of the whole matrix. -/
theorem sparse_is_split_spec (P : Nat) (hP : 0 < P) (parts : Nat → List (List (Nat × α))) (cols : Nat → Nat) (h : ∀ r < P, cols r = cols 0) :
    sparseIsSplit P (fun q => csrOf (parts q)) cols = some ((content P parts).length, nnz (content P parts)) := by
  unfold sparseIsSplit
  rw [if_neg (fun hr => (sparse_is_split_raises P hP _ cols).1 hr h)]
  congr 2
  · rw [content_length_sum]
    congr 1
    apply List.map_congr_left
    intro r _
    show (rowEnds 0 (parts r)).length - 1 = _
    rw [rowEnds_length]; omega
  · have : ∀ k, ((List.range k).map fun r => (csrOf (parts r)).data.length).sum = nnz (content k parts) := by
      intro k
      induction k with
      | zero => rfl
      | succ k ih => rw [List.range_succ, List.map_append, List.sum_append, ih, content_succ, nnz_append, List.map_singleton, List.sum_singleton, data_length]
    exact this P

/-- **C80, violated.**  A process with `2^24 + 1` entries: the count it announces is not the number of entries. -/
theorem sparse_counts_violated (rows : List (List (Nat × α))) (h : nnz rows = 2 ^ 24 + 1) : nnzCount (fun _ => csrOf rows) 0 ≠ (csrOf rows).data.length := by
  unfold nnzCount
  rw [data_length, h]
  decide +kernel

/-- Such a matrix exists. -/
example : nnz [List.replicate (2 ^ 24 + 1) (0, 1)] = 2 ^ 24 + 1 := by
  unfold nnz
  rw [List.flatten_singleton, List.length_replicate]

/-! ## C81: element-wise operations -/

theorem zipWith_nil_rows {f : List (Nat × α) → List (Nat × α) → List (Nat × α)} (hf : f [] [] = []) :
    ∀ (A B : List (List (Nat × α))), A.length = B.length → nnz A = 0 → nnz B = 0 → List.zipWith f A B = A
  | [], [], _, _, _ => rfl
  | a :: A, b :: B, hl, ha, hb => by
    unfold nnz at ha hb
    rw [List.flatten_cons, List.length_append] at ha hb
    have ea : a = [] := List.length_eq_zero_iff.1 (by omega)
    have eb : b = [] := List.length_eq_zero_iff.1 (by omega)
    subst ea eb
    rw [List.zipWith_cons_cons, hf, zipWith_nil_rows hf A B (by simpa using hl) (by unfold nnz; omega) (by unfold nnz; omega)]

/-- The matrix an operand stands for. -/
def SpMat.Holds {τ : Type} (P : Nat) (t : SpMat α τ) (rows : List (List (Nat × α))) : Prop :=
  t.n = rows.length ∧ if t.dist then content P t.loc = rows else ∀ r < P, t.loc r = rows

/-- The local rows after alignment. -/
theorem align_loc {τ : Type} {P : Nat} {t u : SpMat α τ} {rows : List (List (Nat × α))} (h : t.Holds P rows) (hd : t.dist = false) (hu : u.dist = true) (r : Nat) (hr : r < P) :
    (t.align P u).loc r = rowsAt rows P r := by
  unfold SpMat.align
  rw [hd, hu]
  show (SpMat.spread P t).loc r = _
  unfold SpMat.spread rowsAt
  obtain ⟨h1, h2⟩ := h
  rw [hd] at h2
  dsimp only
  rw [h2 r hr, h1]

theorem align_same {τ : Type} {P : Nat} {t u : SpMat α τ} (h : t.dist = true ∨ u.dist = false) : t.align P u = t := by
  unfold SpMat.align
  rcases h with h | h
  · rw [h]; simp
  · rw [h]; cases t.dist <;> simp

theorem sparseLocal_ok {τ : Type} {f : List (Nat × α) → List (Nat × α) → List (Nat × α)} (hf : f [] [] = []) (join : τ → τ → τ) {a b : SpMat α τ} {r : Nat}
    (h : (a.loc r).length = (b.loc r).length) : ∃ ty, sparseLocal f join a b r = .ok (List.zipWith f (a.loc r) (b.loc r), ty) := by
  unfold sparseLocal
  by_cases h0 : nnz (a.loc r) = 0 ∧ nnz (b.loc r) = 0
  · rw [if_pos h0, zipWith_nil_rows hf _ _ h h0.1 h0.2]; exact ⟨_, rfl⟩
  · rw [if_neg h0, if_pos h]; exact ⟨_, rfl⟩

/-- **C81.**  An element-wise operation `f` (acting row by row) on two matrices of which distributed ones are distributed alike, and canonically if the other one is
replicated: every process returns, and together they hold the result for the whole matrices. -/
theorem sparse_binary_spec {τ : Type} {f : List (Nat × α) → List (Nat × α) → List (Nat × α)} (hf : f [] [] = []) (join : τ → τ → τ) (P : Nat) (hP : 0 < P) {a b : SpMat α τ}
    {A B : List (List (Nat × α))} (ha : a.Holds P A) (hb : b.Holds P B) (hAB : A.length = B.length)
    (hsame : a.dist = true → b.dist = true → ∀ r < P, (a.loc r).length = (b.loc r).length)
    (hca : a.dist = true → b.dist = false → Balanced P a.loc) (hcb : b.dist = true → a.dist = false → Balanced P b.loc) :
    ∃ res : Nat → List (List (Nat × α)), (∀ r < P, ∃ ty, sparseBinary f join P a b r = .ok (res r, ty)) ∧
      if a.dist ∨ b.dist then content P res = List.zipWith f A B else ∀ r < P, res r = List.zipWith f A B := by
  have hn : ¬ a.n ≠ b.n := by rw [ha.1, hb.1]; exact fun h => h hAB
  have key : (∀ r < P, ((a.align P b).loc r).length = ((b.align P a).loc r).length) →
      ∀ r < P, ∃ ty, sparseBinary f join P a b r = .ok (List.zipWith f ((a.align P b).loc r) ((b.align P a).loc r), ty) := by
    intro hl r hr
    unfold sparseBinary
    rw [if_neg hn]
    exact sparseLocal_ok hf join (hl r hr)
  refine ⟨fun r => List.zipWith f ((a.align P b).loc r) ((b.align P a).loc r), ?_⟩
  have ha2 := ha.2
  have hb2 := hb.2
  cases hda : a.dist <;> cases hdb : b.dist
  · -- both replicated
    rw [align_same (Or.inr hdb), align_same (Or.inr hda)] at key ⊢
    rw [hda] at ha2
    rw [hdb] at hb2
    have hl : ∀ r < P, (a.loc r).length = (b.loc r).length := fun r hr => by rw [ha2 r hr, hb2 r hr, hAB]
    refine ⟨key hl, ?_⟩
    rw [if_neg (by simp)]
    intro r hr
    show List.zipWith f (a.loc r) (b.loc r) = _
    rw [ha2 r hr, hb2 r hr]
  · rw [hdb, if_pos rfl] at hb2
    have e1 : ∀ r < P, (a.align P b).loc r = rowsAt A P r := fun r hr => align_loc ha hda hdb r hr
    rw [align_same (t := b) (Or.inl hdb)] at key ⊢
    have hl : ∀ r < P, ((a.align P b).loc r).length = (b.loc r).length := fun r hr => by
      rw [e1 r hr, rowsAt_length _ _ _ hP hr, hcb hdb hda r hr, hb2, hAB]
    refine ⟨key hl, ?_⟩
    rw [if_pos (by simp), content_zipWith f P _ _ hl, content_congr e1, rowsAt_content A P hP, hb2]
  · rw [hda, if_pos rfl] at ha2
    have e1 : ∀ r < P, (b.align P a).loc r = rowsAt B P r := fun r hr => align_loc hb hdb hda r hr
    rw [align_same (t := a) (Or.inl hda)] at key ⊢
    have hl : ∀ r < P, (a.loc r).length = ((b.align P a).loc r).length := fun r hr => by
      rw [e1 r hr, rowsAt_length _ _ _ hP hr, hca hda hdb r hr, ha2, hAB]
    refine ⟨key hl, ?_⟩
    rw [if_pos (by simp), content_zipWith f P _ _ hl, content_congr e1, rowsAt_content B P hP, ha2]
  · rw [hda, if_pos rfl] at ha2
    rw [hdb, if_pos rfl] at hb2
    rw [align_same (t := a) (Or.inl hda), align_same (t := b) (Or.inl hdb)] at key ⊢
    have hl := hsame hda hdb
    refine ⟨key hl, ?_⟩
    rw [if_pos (by simp), content_zipWith f P _ _ hl, ha2, hb2]


/-- The hypotheses are met: a replicated matrix plus a distributed one on two processes, with addition as concatenation of the entries. -/
example : ∃ res : Nat → List (List (Nat × Int)), (∀ r < 2, ∃ ty, sparseBinary (· ++ ·) max 2 (⟨false, 3, fun _ => [[(0, 1)], [], [(1, 2)]], 0⟩ : SpMat Int Nat)
      ⟨true, 3, fun r => if r = 0 then [[(0, 5)], []] else [[(2, 7)]], 1⟩ r = .ok (res r, ty)) ∧
      content 2 res = [[(0, 1), (0, 5)], [], [(1, 2), (2, 7)]] := by
  have := sparse_binary_spec (f := (· ++ ·)) rfl max 2 (by omega) (a := (⟨false, 3, fun _ => [[(0, 1)], [], [(1, 2)]], 0⟩ : SpMat Int Nat))
    (b := ⟨true, 3, fun r => if r = 0 then [[(0, 5)], []] else [[(2, 7)]], 1⟩) (A := [[(0, 1)], [], [(1, 2)]]) (B := [[(0, 5)], [], [(2, 7)]])
    ⟨rfl, by simp⟩ ⟨rfl, by decide +kernel⟩ rfl (by simp) (by simp) (fun _ _ => by unfold Balanced; decide +kernel)
  simpa using this

/-- **C81, violated.**  Two matrices distributed by `is_split` with different numbers of local rows: the processes without entries skip the check of the shapes, so
every process returns, and the entry of row 1 of the second matrix is added to row 2 of the first. -/
theorem sparse_misaligned_violated :
    let a : SpMat Int Nat := ⟨true, 4, fun r => if r = 0 then [[], []] else if r = 1 then [[(0, 1)]] else [[]], 0⟩
    let b : SpMat Int Nat := ⟨true, 4, fun r => if r = 0 then [[]] else if r = 1 then [[(0, 1)]] else [[], []], 0⟩
    let res : Nat → List (List (Nat × Int)) := fun r => if r = 0 then [[], []] else if r = 1 then [[(0, 1), (0, 1)]] else [[]]
    a.Holds 3 [[], [], [(0, 1)], []] ∧ b.Holds 3 [[], [(0, 1)], [], []] ∧ (∀ r < 3, sparseBinary (· ++ ·) max 3 a b r = .ok (res r, 0)) ∧
      content 3 res ≠ List.zipWith (· ++ ·) [[], [], [(0, 1)], []] [[], [(0, 1)], [], []] := by
  refine ⟨⟨rfl, by decide +kernel⟩, ⟨rfl, by decide +kernel⟩, ?_, by decide +kernel⟩
  intro r hr
  have : r = 0 ∨ r = 1 ∨ r = 2 := by omega
  rcases this with rfl | rfl | rfl <;> rfl

/-- **C81.**  A process that holds an entry of the first (distributed) matrix, and returns, returns the promoted element type. -/
theorem sparse_type_spec {τ : Type} (f : List (Nat × α) → List (Nat × α) → List (Nat × α)) (join : τ → τ → τ) (P : Nat) {a b : SpMat α τ} (hd : a.dist = true) {r : Nat}
    (h : nnz (a.loc r) ≠ 0) {res : List (List (Nat × α))} {ty : τ} (hr : sparseBinary f join P a b r = .ok (res, ty)) : ty = join a.ty b.ty := by
  have hb : (b.align P a).ty = b.ty := by
    unfold SpMat.align
    split <;> rfl
  unfold sparseBinary at hr
  rw [align_same (Or.inl hd)] at hr
  unfold sparseLocal at hr
  split at hr
  · exact absurd hr (by simp)
  · rw [if_neg (fun h' => h h'.1), hb] at hr
    split at hr
    · injection hr with hr
      injection hr with _ hr
      exact hr.symm
    · exact absurd hr (by simp)

/-- **C81, violated.**  The processes need not agree on the element type of the result: one without entries returns that of its first operand (0: int32, 1: float32). -/
theorem sparse_type_violated :
    let a : SpMat Int Nat := ⟨true, 2, fun r => if r = 0 then [[(0, 1)]] else [[]], 0⟩
    let b : SpMat Int Nat := ⟨true, 2, fun r => if r = 0 then [[(0, 1)]] else [[]], 1⟩
    sparseBinary (· ++ ·) max 2 a b 0 = .ok ([[(0, 1), (0, 1)]], 1) ∧ sparseBinary (· ++ ·) max 2 a b 1 = .ok ([[]], 0) := ⟨rfl, rfl⟩

/-! ## C82: dense and sparse -/

/-- The value at position `j`. -/
theorem denseRow_get (n : Nat) (row : List (Nat × Int)) (j : Nat) (h : j < n) : (denseRow n row)[j]? = some ((row.filter fun e => e.1 == j).map Prod.snd).sum := by
  unfold denseRow
  rw [List.getElem?_map, List.getElem?_range h]; rfl

/-- What a dense row contributes to position `j`, counted from `k`. -/
theorem sparseRow_sum (row : List Int) (k j : Nat) :
    (((((row.zipIdx k).filter fun e => e.1 ≠ 0).map fun e => (e.2, e.1)).filter fun e : Nat × Int => e.1 == j).map Prod.snd).sum = if k ≤ j then row.getD (j - k) 0 else 0 := by
  induction row generalizing k with
  | nil => simp
  | cons x xs ih =>
    have ih' := ih (k + 1)
    rw [List.zipIdx_cons]
    by_cases hx : x = 0
    · rw [List.filter_cons_of_neg (by simp [hx]), ih']
      by_cases hk : k + 1 ≤ j
      · rw [if_pos hk, if_pos (by omega), show j - k = (j - (k + 1)) + 1 by omega, List.getD_cons_succ]
      · rw [if_neg hk]
        by_cases hj : k ≤ j
        · rw [if_pos hj, show j - k = 0 by omega, List.getD_cons_zero, hx]
        · rw [if_neg hj]
    · rw [List.filter_cons_of_pos (by simp [hx]), List.map_cons]
      by_cases hkj : k = j
      · rw [List.filter_cons_of_pos (by simp [hkj]), List.map_cons, List.sum_cons, ih', if_neg (by omega), if_pos (by omega), show j - k = 0 by omega, List.getD_cons_zero]
        simp
      · rw [List.filter_cons_of_neg (by simpa using hkj), ih']
        by_cases hk : k + 1 ≤ j
        · rw [if_pos hk, if_pos (by omega), show j - k = (j - (k + 1)) + 1 by omega, List.getD_cons_succ]
        · rw [if_neg hk, if_neg (by omega)]

/-- **C82.**  `to_dense(to_sparse(x))` is `x`. -/
theorem dense_of_sparse (row : List Int) : denseRow row.length (sparseRow row) = row := by
  apply List.ext_getElem?
  intro j
  by_cases h : j < row.length
  · rw [denseRow_get _ _ _ h]
    unfold sparseRow
    rw [sparseRow_sum row 0 j, if_pos (Nat.zero_le _), Nat.sub_zero, List.getElem?_eq_getElem h, List.getD_eq_getElem?_getD, List.getElem?_eq_getElem h]
    rfl
  · rw [List.getElem?_eq_none (by unfold denseRow; simpa using h), List.getElem?_eq_none (by omega)]

/-- **C82.**  Only entries that are not zero are stored, and no position twice or out of range. -/
theorem sparseRow_entries (row : List Int) (e : Nat × Int) : e ∈ sparseRow row ↔ row[e.1]? = some e.2 ∧ e.2 ≠ 0 := by
  unfold sparseRow
  rw [List.mem_map]
  constructor
  · rintro ⟨⟨x, i⟩, h, rfl⟩
    rw [List.mem_filter, List.mem_zipIdx_iff_getElem?] at h
    exact ⟨h.1, by simpa using h.2⟩
  · rintro ⟨h, h0⟩
    exact ⟨(e.2, e.1), List.mem_filter.2 ⟨List.mem_zipIdx_iff_getElem?.2 h, by simpa using h0⟩, rfl⟩

theorem sum_map_mul (k : Int) (l : List Int) : (l.map (k * ·)).sum = k * l.sum := by
  induction l with
  | nil => simp
  | cons a t ih => rw [List.map_cons, List.sum_cons, List.sum_cons, ih, Int.mul_add]

/-- **C82.**  A sparse matrix times a scalar is the dense matrix times the scalar. -/
theorem scalar_mul_dense (n : Nat) (k : Int) (rows : List (List (Nat × Int))) :
    (scalarRows (k * ·) rows).map (denseRow n) = (rows.map (denseRow n)).map fun row => row.map (k * ·) := by
  unfold scalarRows
  rw [List.map_map, List.map_map]
  apply List.map_congr_left
  intro row _
  show denseRow n (row.map fun e => (e.1, k * e.2)) = (denseRow n row).map (k * ·)
  unfold denseRow
  rw [List.map_map]
  apply List.map_congr_left
  intro j _
  show _ = k * _
  rw [List.filter_map, List.map_map, ← sum_map_mul, List.map_map]
  rfl

/-- **C82, violated.**  A sparse matrix plus a scalar is not the dense matrix plus the scalar: the elements that are not stored keep their zero. -/
theorem scalar_add_violated : (scalarRows (· + 1) [[(0, 5)]]).map (denseRow 2) ≠ ([[(0, 5)]].map (denseRow 2)).map fun row => row.map (· + (1 : Int)) := by decide +kernel

/-- **C82, violated.**  `A + 1` depends on how `A` is stored: two representations of the same matrix give different ones. -/
theorem scalar_add_representation_violated : [[(0, 0)]].map (denseRow 1) = [([] : List (Nat × Int))].map (denseRow 1) ∧
    (scalarRows (· + 1) [[(0, 0)]]).map (denseRow 1) ≠ (scalarRows (· + 1) [([] : List (Nat × Int))]).map (denseRow 1) := by decide +kernel

/-- **C82.**  If the operation `f` on compressed rows computes `g` element by element, then the distributed result, written out, is `g` of the operands written out. -/
theorem sparse_binary_dense {τ : Type} {f : List (Nat × Int) → List (Nat × Int) → List (Nat × Int)} {g : Int → Int → Int} (n : Nat) (hf : f [] [] = [])
    (hg : ∀ a b, denseRow n (f a b) = List.zipWith g (denseRow n a) (denseRow n b)) (join : τ → τ → τ) (P : Nat) {a b : SpMat Int τ}
    {A B : List (List (Nat × Int))} (ha : a.Holds P A) (hb : b.Holds P B) (hda : a.dist = true) (hdb : b.dist = true)
    (hsame : ∀ r < P, (a.loc r).length = (b.loc r).length) :
    ∃ res : Nat → List (List (Nat × Int)), (∀ r < P, ∃ ty, sparseBinary f join P a b r = .ok (res r, ty)) ∧
      (content P res).map (denseRow n) = List.zipWith (List.zipWith g) (A.map (denseRow n)) (B.map (denseRow n)) := by
  have hAB : A.length = B.length := by
    have h1 := ha.2
    have h2 := hb.2
    rw [hda, if_pos rfl] at h1
    rw [hdb, if_pos rfl] at h2
    rw [← h1, ← h2, content_length_sum, content_length_sum]
    congr 1
    apply List.map_congr_left
    intro r hr
    exact hsame r (List.mem_range.1 hr)
  by_cases hP : 0 < P
  · obtain ⟨res, h1, h2⟩ := sparse_binary_spec hf join P hP ha hb hAB (fun _ _ => hsame) (by simp [hdb]) (by simp [hda])
    rw [if_pos (Or.inl hda)] at h2
    refine ⟨res, h1, ?_⟩
    rw [h2, List.map_zipWith, List.zipWith_map]
    congr 1
    funext x y
    exact hg x y
  · have hP0 : P = 0 := by omega
    subst hP0
    have h1 := ha.2
    rw [hda, if_pos rfl] at h1
    refine ⟨fun _ => [], fun r hr => absurd hr (by omega), ?_⟩
    rw [← h1]; rfl

/-- Addition of compressed rows by concatenation meets the hypothesis. -/
theorem denseRow_append (n : Nat) (a b : List (Nat × Int)) : denseRow n (a ++ b) = List.zipWith (· + ·) (denseRow n a) (denseRow n b) := by
  unfold denseRow
  rw [List.zipWith_map, List.zipWith_self]
  apply List.map_congr_left
  intro j _
  rw [List.filter_append, List.map_append, List.sum_append]

end Heat
