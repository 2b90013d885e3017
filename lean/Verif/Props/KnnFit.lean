import Verif.Model.KnnFit
import Mathlib.Data.List.Basic
/-!
# C202 fitting a nearest neighbour classifier
-/
namespace Heat
variable {α : Type}

/-- `m` encodes the labels `l`: row `i` has as many entries as the largest label plus one, 1 at position `l[i]` and 0 elsewhere. -/
def Spec.Encodes (l : List Int) (m : List (List Int)) : Prop :=
  m.length = l.length ∧ ∃ big ∈ l, (∀ v ∈ l, v ≤ big) ∧ ∀ i (hi : i < l.length) (hm : i < m.length), (m[i].length : Int) = big + 1 ∧ ∀ j (hj : j < m[i].length), m[i][j] = if (j : Int) = l[i] then 1 else 0

/-- Samples and labels belong together: as many rows of labels as samples. -/
def Spec.Paired (s : KnnState α) : Prop := ∃ x y, s.x = some x ∧ s.y = some y ∧ x.length = y.length ∧ s.nFit = x.length

open Spec

theorem knn_foldl_max : ∀ (t : List Int) (a : Int), t.foldl max a ∈ a :: t ∧ ∀ v ∈ a :: t, v ≤ t.foldl max a
  | [], a => by simp
  | b :: t, a => by
    obtain ⟨h1, h2⟩ := knn_foldl_max t (max a b)
    rw [List.foldl_cons]
    constructor
    · rcases List.mem_cons.1 h1 with e | h
      · rw [e]
        rcases Int.le_total a b with hab | hab
        · rw [Int.max_eq_right hab]; simp
        · rw [Int.max_eq_left hab]; simp
      · exact List.mem_cons_of_mem _ (List.mem_cons_of_mem _ h)
    · intro v hv
      have h3 := h2 (max a b) List.mem_cons_self
      rcases List.mem_cons.1 hv with e | hv
      · omega
      · rcases List.mem_cons.1 hv with e | hv
        · omega
        · exact h2 v (List.mem_cons_of_mem _ hv)

theorem mapM_ok_get {β γ : Type} (f : β → Except Err γ) : ∀ (l : List β) (m : List γ), l.mapM f = .ok m → m.length = l.length ∧ ∀ i (hi : i < l.length) (hm : i < m.length), f l[i] = .ok m[i]
  | [], m, h => by
    rw [List.mapM_nil] at h
    cases h
    exact ⟨rfl, fun i hi => absurd hi (by simp)⟩
  | a :: l, m, h => by
    rw [List.mapM_cons] at h
    cases hf : f a with
    | error e => rw [hf] at h; cases h
    | ok b =>
      cases hr : l.mapM f with
      | error e => rw [hf, hr] at h; cases h
      | ok m' =>
        rw [hf, hr] at h
        cases h
        obtain ⟨h1, h2⟩ := mapM_ok_get f l m' hr
        refine ⟨by simp [h1], ?_⟩
        intro i hi hm
        cases i with
        | zero => exact hf
        | succ i => exact h2 i (by simpa using hi) (by simpa using hm)

theorem mapM_ok_of {β γ : Type} (f : β → Except Err γ) : ∀ l : List β, (∀ v ∈ l, ∃ m, f v = .ok m) → ∃ m, l.mapM f = .ok m
  | [], _ => ⟨[], rfl⟩
  | a :: l, h => by
    obtain ⟨b, hb⟩ := h a List.mem_cons_self
    obtain ⟨m, hm⟩ := mapM_ok_of f l fun v hv => h v (List.mem_cons_of_mem _ hv)
    exact ⟨b :: m, by rw [List.mapM_cons, hb, hm]; rfl⟩

theorem hotRow_ok (nf : Nat) (v : Int) (h0 : 0 ≤ v) (h1 : v < nf) : hotRow nf v = .ok ((List.replicate nf 0).set v.toNat 1) := by
  unfold hotRow
  simp only
  rw [if_neg (show ¬ v < 0 by omega), if_pos ⟨h0, h1⟩]

/-- Labels that are not negative are encoded. -/
theorem oneHotAll_spec (l : List Int) (hne : l ≠ []) (h0 : ∀ v ∈ l, 0 ≤ v) : ∃ m, oneHotAll l = .ok m ∧ Encodes l m := by
  cases l with
  | nil => exact absurd rfl hne
  | cons a t =>
    obtain ⟨hb, hle⟩ := knn_foldl_max t a
    have hb0 := h0 _ hb
    have e : oneHotAll (a :: t) = (a :: t).mapM (hotRow (t.foldl max a + 1).toNat) := by
      show (if t.foldl max a + 1 < 0 then _ else _) = _
      rw [if_neg (by omega)]
    rw [e]
    generalize t.foldl max a = big at *
    have hok : ∀ v ∈ a :: t, hotRow (big + 1).toNat v = .ok ((List.replicate (big + 1).toNat 0).set v.toNat 1) := by
      intro v hv
      have := hle v hv
      exact hotRow_ok _ _ (h0 v hv) (by omega)
    obtain ⟨m, hm⟩ := mapM_ok_of (hotRow (big + 1).toNat) (a :: t) fun v hv => ⟨_, hok v hv⟩
    obtain ⟨g1, g2⟩ := mapM_ok_get _ _ _ hm
    refine ⟨m, hm, g1, big, hb, hle, ?_⟩
    intro i hi him
    have hv := List.getElem_mem hi
    have hrow : m[i] = (List.replicate (big + 1).toNat 0).set ((a :: t)[i]).toNat 1 := by
      have := g2 i hi him
      rw [hok _ hv] at this
      exact (Except.ok.inj this).symm
    have hnn := h0 _ hv
    constructor
    · rw [hrow, List.length_set, List.length_replicate]
      omega
    · intro j hj
      simp only [hrow, List.getElem_set, List.getElem_replicate]
      generalize (a :: t)[i] = v at *
      by_cases hj2 : (j : Int) = v
      · rw [if_pos (by omega), if_pos hj2]
      · rw [if_neg (by omega), if_neg hj2]

theorem oneHotAll_length (l : List Int) (m : List (List Int)) (h : oneHotAll l = .ok m) : m.length = l.length := by
  cases l with
  | nil => cases h
  | cons a t =>
    unfold oneHotAll at h
    simp only at h
    split at h
    · cases h
    · exact (mapM_ok_get _ _ _ h).1

/-- **C202:** after a `fit` that does not raise, whatever was fitted before, samples and labels belong together; a matrix of labels is kept, label vectors without negative labels are encoded. -/
theorem fit_paired (s : KnnState α) (x : KnnX α) (y : KnnY) (s' : KnnState α) (h : knnFit s x y = (s', none)) :
    Paired s' ∧ (∃ rows, x = .mat rows ∧ s'.x = some rows) ∧ (∀ m, y = .mat m → s'.y = some m ∧ s'.out2d = true) ∧
      ∀ l, y = .vec l → s'.out2d = false ∧ ((∀ v ∈ l, 0 ≤ v) → ∃ m, s'.y = some m ∧ Encodes l m) := by
  unfold knnFit at h
  cases x with
  | other => simp at h
  | mat rows =>
    simp only at h
    by_cases hl : rows.length = y.samples
    · rw [if_neg (by simpa using hl)] at h
      cases y with
      | vec l =>
        simp only at h
        cases ho : oneHotAll l with
        | error e => rw [ho] at h; simp at h
        | ok m =>
          rw [ho] at h
          simp only [Prod.mk.injEq, and_true] at h
          subst h
          have hm := oneHotAll_length l m ho
          have hl' : rows.length = l.length := hl
          refine ⟨⟨rows, m, rfl, rfl, by omega, rfl⟩, ⟨rows, rfl, rfl⟩, fun m' e => by (cases e), ?_⟩
          intro l' e
          cases e
          refine ⟨rfl, fun h0 => ?_⟩
          have hne : l ≠ [] := by
            intro e
            subst e
            cases ho
          obtain ⟨m', h1, h2⟩ := oneHotAll_spec l hne h0
          rw [ho] at h1
          cases h1
          exact ⟨m, rfl, h2⟩
      | mat m =>
        simp only [Prod.mk.injEq, and_true] at h
        subst h
        refine ⟨⟨rows, m, rfl, rfl, hl, rfl⟩, ⟨rows, rfl, rfl⟩, fun m' e => ?_, fun l e => by cases e⟩
        cases e
        exact ⟨rfl, rfl⟩
      | high n => simp at h
    · rw [if_pos (by simpa using hl)] at h
      simp at h

/-- Valid arguments are accepted. -/
theorem fit_accepts (s : KnnState α) (rows : List (List α)) (l : List Int) (h : rows.length = l.length) (hne : l ≠ []) (h0 : ∀ v ∈ l, 0 ≤ v) : ∃ s', knnFit s (.mat rows) (.vec l) = (s', none) := by
  obtain ⟨m, hm, _⟩ := oneHotAll_spec l hne h0
  refine ⟨{ s with x := some rows, nFit := rows.length, y := some m, out2d := false }, ?_⟩
  unfold knnFit
  simp only
  rw [if_neg (by simpa [KnnY.samples] using h), hm]

/-- **C202 violated (failed fit):** a `fit` that raises because of the number of labels leaves a fitted classifier with the new samples and the old labels. -/
theorem fit_failed_violated (s : KnnState α) (x0 : List (List α)) (y0 : List (List Int)) (hx : s.x = some x0) (hy : s.y = some y0) (hp : x0.length = y0.length) (rows : List (List α)) (y : KnnY)
    (h : rows.length ≠ y.samples) (hne : rows.length ≠ x0.length) : ∃ s', knnFit s (.mat rows) y = (s', some .valueError) ∧ s'.x = some rows ∧ s'.y = some y0 ∧ ¬ Paired s' := by
  refine ⟨{ s with x := some rows, nFit := rows.length }, ?_, rfl, hy, ?_⟩
  · unfold knnFit
    simp only
    rw [if_pos h]
  · rintro ⟨x, y', e1, e2, e3, _⟩
    simp only [Option.some.injEq] at e1
    simp only [hy, Option.some.injEq] at e2
    subst e1 e2
    omega

/-- **C202 violated (negative labels):** the label -1 (common for "no class") is encoded as the largest label, without an error. -/
theorem fit_negative_violated (big : Int) (h : 0 ≤ big) : ∃ r, oneHotAll [big, -1] = .ok [r, r] := by
  have e : oneHotAll [big, -1] = [big, -1].mapM (hotRow (big + 1).toNat) := by
    show (if max big (-1) + 1 < 0 then _ else _) = _
    have e2 : List.foldl max big [-1] = big := Int.max_eq_left (by omega)
    rw [Int.max_eq_left (by omega), if_neg (by omega), e2]
  have r1 := hotRow_ok (big + 1).toNat big h (by omega)
  have r2 : hotRow (big + 1).toNat (-1) = .ok ((List.replicate (big + 1).toNat 0).set big.toNat 1) := by
    unfold hotRow
    simp only
    rw [if_pos (by omega), if_pos (by omega)]
    congr 3
    omega
  refine ⟨(List.replicate (big + 1).toNat 0).set big.toNat 1, ?_⟩
  rw [e, List.mapM_cons, List.mapM_cons, List.mapM_nil, r1, r2]
  rfl

example : (knnFit knnInit (.mat [[0.5], [1.5], [2.5]]) (.vec [0, 2, 1])).1.y = some [[1, 0, 0], [0, 0, 1], [0, 1, 0]] := by rfl
example : (knnFit (knnFit knnInit (.mat [[5], [6]]) (.vec [0, 1])).1 (.mat [[1], [2], [3]]) (.vec [0])).1.x = some [[1], [2], [3]] := by rfl

end Heat
