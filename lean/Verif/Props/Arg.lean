import Verif.Model.Arg
import Verif.Props.Dist
import Verif.Props.Indexing
import Verif.Props.Reshape
/-!
# C59: argmax and argmin
-/
namespace Heat
open Spec

/-- The value with the sign that makes "better" mean "greater". -/
def key (mx : Bool) (v : Int) : Int := if mx then v else -v

theorem beats_iff (mx : Bool) (b a : Int) : beats mx b a = true ↔ key mx a < key mx b := by
  cases mx <;> simp [beats, key]

/-- `a` is at least as good as `b`: greater value, or equal value and not later. -/
def LexGe (mx : Bool) (a b : Int × Nat) : Prop := key mx b.1 < key mx a.1 ∨ (a.1 = b.1 ∧ a.2 ≤ b.2)

theorem key_inj {mx : Bool} {a b : Int} (h : key mx a = key mx b) : a = b := by
  cases mx <;> simp only [key, Bool.false_eq_true, if_false, if_true] at h <;> omega

theorem LexGe.refl (mx : Bool) (a : Int × Nat) : LexGe mx a a := Or.inr ⟨rfl, Nat.le_refl _⟩

theorem LexGe.trans {mx : Bool} {a b c : Int × Nat} (h1 : LexGe mx a b) (h2 : LexGe mx b c) : LexGe mx a c := by
  rcases h1 with h1 | ⟨h1, h1'⟩ <;> rcases h2 with h2 | ⟨h2, h2'⟩
  · exact Or.inl (by omega)
  · exact Or.inl (by rw [← h2]; exact h1)
  · exact Or.inl (by rw [h1]; exact h2)
  · exact Or.inr ⟨h1.trans h2, by omega⟩

theorem pick_spec (mx : Bool) (a b : Int × Nat) (h : a.2 ≤ b.2) : (pick mx a b = a ∨ pick mx a b = b) ∧ LexGe mx (pick mx a b) a ∧ LexGe mx (pick mx a b) b := by
  unfold pick
  by_cases hb : beats mx b.1 a.1 = true
  · rw [if_pos hb]
    rw [beats_iff] at hb
    exact ⟨Or.inr rfl, Or.inl hb, LexGe.refl _ _⟩
  · rw [if_neg hb]
    rw [beats_iff] at hb
    refine ⟨Or.inl rfl, LexGe.refl _ _, ?_⟩
    by_cases he : key mx a.1 = key mx b.1
    · exact Or.inr ⟨key_inj he, h⟩
    · exact Or.inl (by omega)

/-- The local search finds the best pair. -/
theorem localArg_spec (mx : Bool) : ∀ (vs : List Int) (i : Nat) (best : Int × Nat), best.2 < i →
    LexGe mx (localArg mx vs i best) best ∧ (∀ j w, vs[j]? = some w → LexGe mx (localArg mx vs i best) (w, i + j)) ∧
    (localArg mx vs i best = best ∨ ∃ j w, vs[j]? = some w ∧ localArg mx vs i best = (w, i + j))
  | [], _, best, _ => ⟨LexGe.refl _ _, by simp, Or.inl rfl⟩
  | v :: vs, i, best, hb => by
    have hp := pick_spec mx best (v, i) (by show best.2 ≤ i; omega)
    have hlt : (pick mx best (v, i)).2 < i + 1 := by
      rcases hp.1 with h | h <;> rw [h]
      · omega
      · show i < i + 1; omega
    obtain ⟨a1, a2, a3⟩ := localArg_spec mx vs (i + 1) (pick mx best (v, i)) hlt
    unfold localArg
    refine ⟨a1.trans hp.2.1, ?_, ?_⟩
    · intro j w hj
      cases j with
      | zero =>
        simp only [List.getElem?_cons_zero, Option.some.injEq] at hj
        subst hj
        exact a1.trans hp.2.2
      | succ j =>
        have := a2 j w (by simpa using hj)
        rw [show i + (j + 1) = i + 1 + j by omega]; exact this
    · rcases a3 with h | ⟨j, w, h1, h2⟩
      · rcases hp.1 with h' | h'
        · exact Or.inl (h.trans h')
        · exact Or.inr ⟨0, v, by simp, by rw [h, h']; rfl⟩
      · exact Or.inr ⟨j + 1, w, by simpa using h1, by rw [h2, show i + 1 + j = i + (j + 1) by omega]⟩

/-- The conversion to float64 keeps the order of the values that occur. -/
def KeepsOrder (conv : Int → Int) (s : List Int) : Prop := ∀ a ∈ s, ∀ b ∈ s, a < b → conv a < conv b

theorem conv_lexGe {mx : Bool} {conv : Int → Int} {s : List Int} (h : KeepsOrder conv s) {a b : Int} {i j : Nat} (ha : a ∈ s) (hb : b ∈ s) :
    LexGe mx (conv a, i) (conv b, j) ↔ LexGe mx (a, i) (b, j) := by
  rcases Int.lt_trichotomy a b with hc | hc | hc
  · have := h a ha b hb hc
    cases mx <;> simp [LexGe, key] <;> omega
  · subst hc; cases mx <;> simp [LexGe, key]
  · have := h b hb a ha hc
    cases mx <;> simp [LexGe, key] <;> omega

/-- The partial result of a rank. -/
theorem argPartial_spec (mx : Bool) (conv : Int → Int) (neutral : Int) (off : Nat) (col : List Int) (h : KeepsOrder conv (neutral :: col)) (hne : col ≠ []) :
    (∃ j w, col[j]? = some w ∧ argPartial mx conv neutral off col = (conv w, off + j)) ∧
    ∀ j w, col[j]? = some w → LexGe mx (argPartial mx conv neutral off col) (conv w, off + j) := by
  cases col with
  | nil => exact absurd rfl hne
  | cons v vs =>
    obtain ⟨a1, a2, a3⟩ := localArg_spec mx vs 1 (v, 0) Nat.zero_lt_one
    have hex : ∃ j w, (v :: vs)[j]? = some w ∧ localArg mx vs 1 (v, 0) = (w, j) := by
      rcases a3 with h3 | ⟨j, w, h3, h4⟩
      · exact ⟨0, v, by simp, h3⟩
      · exact ⟨j + 1, w, by simpa using h3, by rw [h4, Nat.add_comm]⟩
    obtain ⟨j0, w0, e1, e2⟩ := hex
    have hP : argPartial mx conv neutral off (v :: vs) = (conv w0, off + j0) := by
      show (conv (localArg mx vs 1 (v, 0)).1, (localArg mx vs 1 (v, 0)).2 + off) = _
      rw [e2, Nat.add_comm off]
    refine ⟨⟨j0, w0, e1, hP⟩, ?_⟩
    intro j w hj
    have hm : ∀ {i u}, (v :: vs)[i]? = some u → u ∈ neutral :: v :: vs := fun hi => List.mem_cons_of_mem _ (List.mem_of_getElem? hi)
    rw [hP, conv_lexGe h (hm e1) (hm hj)]
    have : LexGe mx (w0, j0) (w, j) := by
      rw [← e2]
      cases j with
      | zero => simp only [List.getElem?_cons_zero, Option.some.injEq] at hj; subst hj; exact a1
      | succ j => have := a2 j w (by simpa using hj); rwa [Nat.add_comm 1 j] at this
    rcases this with h5 | ⟨h5, h6⟩
    · exact Or.inl h5
    · exact Or.inr ⟨h5, by show off + j0 ≤ off + j; have : j0 ≤ j := h6; omega⟩

/-- Position 0 of the operator: the better pair in every order. -/
theorem argOp_zero (mx : Bool) (l r : Nat → Int × Nat) : (argOp mx l r 0 = l 0 ∨ argOp mx l r 0 = r 0) ∧
    LexGe mx (argOp mx l r 0) (l 0) ∧ LexGe mx (argOp mx l r 0) (r 0) := by
  unfold argOp
  by_cases h : (l 0).2 < (r 0).2
  · rw [if_pos h]; exact pick_spec mx (l 0) (r 0) (by omega)
  · rw [if_neg h]
    obtain ⟨a, b, c⟩ := pick_spec mx (r 0) (l 0) (by omega)
    exact ⟨a.symm, c, b⟩

theorem combine_arg_zero (mx : Bool) {l : List (Nat → Int × Nat)} {v : Nat → Int × Nat} (h : Combine (argOp mx) l v) :
    (∃ p ∈ l, v 0 = p 0) ∧ ∀ p ∈ l, LexGe mx (v 0) (p 0) := by
  induction h with
  | one x => simp [LexGe.refl]
  | node ha hb hp iha ihb =>
    rename_i l₁ l₂ l a b
    obtain ⟨c1, c2, c3⟩ := argOp_zero mx a b
    refine ⟨?_, ?_⟩
    · rcases c1 with h | h
      · obtain ⟨p, hp', e⟩ := iha.1
        exact ⟨p, hp.mem_iff.2 (List.mem_append_left _ hp'), h.trans e⟩
      · obtain ⟨p, hp', e⟩ := ihb.1
        exact ⟨p, hp.mem_iff.2 (List.mem_append_right _ hp'), h.trans e⟩
    · intro p hp'
      rcases List.mem_append.1 (hp.mem_iff.1 hp') with h | h
      · exact c2.trans (iha.2 p h)
      · exact c3.trans (ihb.2 p h)

/-- The best pair among those of the elements is the first optimum. -/
theorem firstArg_of_best (mx : Bool) (l : List Int) (i : Nat) (w : Int) (hi : l[i]? = some w) (hb : ∀ j u, l[j]? = some u → LexGe mx (w, i) (u, j)) :
    IsFirstArg mx l i := by
  refine ⟨w, hi, ?_, ?_⟩
  · intro u hu
    obtain ⟨j, hj⟩ := List.mem_iff_getElem?.1 hu
    rcases hb j u hj with h | ⟨h, _⟩ <;> cases mx <;> simp [key] at h ⊢ <;> omega
  · intro j hj u hu
    rcases hb j u hu with h | ⟨h, h'⟩
    · cases mx <;> simp [key] at h ⊢ <;> omega
    · have : i ≤ j := h'
      omega

/-- A pair that is the contribution of a rank and at least as good as all contributions is the first optimum. -/
theorem arg_best (mx : Bool) (conv : Int → Int) (neutral : Int) (P : Nat) (off : Nat → Nat) (d : Nat → List Int)
    (hne : content P d ≠ []) (hoff : ∀ r < P, off r = startOf d r) (hconv : KeepsOrder conv (neutral :: content P d))
    (hneu : ∀ w ∈ content P d, key mx neutral ≤ key mx w)
    (hempty : ∀ r < P, d r = [] → off r = (content P d).length) (v : Int × Nat) (r0 : Nat) (hr0' : r0 < P)
    (hv : v = argPartial mx conv neutral (off r0) (d r0))
    (hbest' : ∀ r < P, LexGe mx v (argPartial mx conv neutral (off r) (d r))) : IsFirstArg mx (content P d) v.2 := by
  have hsub : ∀ r < P, KeepsOrder conv (neutral :: d r) := by
    intro r hr a ha b hb' hab
    have hm : ∀ a ∈ neutral :: d r, a ∈ neutral :: content P d := by
      intro a ha
      rcases List.mem_cons.1 ha with h | h
      · rw [h]; exact List.mem_cons_self
      · exact List.mem_cons_of_mem _ (List.mem_flatMap.2 ⟨r, List.mem_range.2 hr, h⟩)
    exact hconv a (hm a ha) b (hm b hb') hab
  -- all elements
  have hall : ∀ j u, (content P d)[j]? = some u → LexGe mx (v) (conv u, j) := by
    intro j u hj
    have hjl : j < startOf d P := by
      have := (List.getElem?_eq_some_iff.1 hj).1
      exact this
    obtain ⟨r, hr, hlo, hhi⟩ := startOf_owner d P j hjl
    rw [startOf_succ] at hhi
    have hjr : j - startOf d r < (d r).length := by omega
    have hget := content_get d P r (j - startOf d r) hr hjr
    rw [show startOf d r + (j - startOf d r) = j by omega, hj] at hget
    have hdr : (d r)[j - startOf d r]? = some u := by
      rw [List.getElem?_eq_getElem hjr]; exact hget.symm
    have hne' : d r ≠ [] := by intro he; rw [he] at hjr; simp at hjr
    have := (argPartial_spec mx conv neutral (off r) (d r) (hsub r hr) hne').2 _ u hdr
    rw [hoff r hr, show startOf d r + (j - startOf d r) = j by omega, ← hoff r hr] at this
    exact (hbest' r hr).trans this
  by_cases hd0 : d r0 = []
  · -- the winner would be a rank without data: contradiction
    exfalso
    have hv0 : v = (conv neutral, off r0) := by rw [hv]; simp only [hd0, argPartial]
    have hpos : 0 < (content P d).length := List.length_pos_iff.2 hne
    have h0 := hall 0 (content P d)[0] (List.getElem?_eq_getElem hpos)
    have hmem : (content P d)[0] ∈ neutral :: content P d := List.mem_cons_of_mem _ (List.getElem_mem hpos)
    rw [hv0, conv_lexGe hconv List.mem_cons_self hmem] at h0
    have hn := hneu _ (List.getElem_mem hpos)
    have ho := hempty r0 hr0' hd0
    rcases h0 with h0 | ⟨_, h0⟩
    · simp only at h0; omega
    · have : off r0 ≤ 0 := h0; omega
  · obtain ⟨⟨j, w, e1, e2⟩, _⟩ := argPartial_spec mx conv neutral (off r0) (d r0) (hsub r0 hr0') hd0
    have hv0 : v = (conv w, off r0 + j) := by rw [hv]; exact e2
    have hj : j < (d r0).length := (List.getElem?_eq_some_iff.1 e1).1
    have hget := content_get d P r0 j hr0' hj
    have hcw : (content P d)[off r0 + j]? = some w := by
      rw [hoff r0 hr0', hget, ← List.getElem?_eq_getElem hj]; exact e1
    rw [hv0]
    apply firstArg_of_best mx _ _ w hcw
    intro i u hi
    have := hall i u hi
    rw [hv0] at this
    exact (conv_lexGe hconv (List.mem_cons_of_mem _ (List.mem_of_getElem? hcw)) (List.mem_cons_of_mem _ (List.mem_of_getElem? hi))).1 this


/-- C59.  `argmax`/`argmin` of a one-dimensional array, or of a flattened one, with the offsets of the distribution: whatever order and
bracketing MPI chooses, the result is the position of the first optimum.  The conversion to float64 must keep the order of the values and no value
may be worse than `neutral`; ranks without data must come last. -/
theorem argmax_spec_partial (mx : Bool) (conv : Int → Int) (neutral : Int) (P : Nat) (off : Nat → Nat) (d : Nat → List Int)
    (hne : content P d ≠ []) (hoff : ∀ r < P, off r = startOf d r) (hconv : KeepsOrder conv (neutral :: content P d))
    (hneu : ∀ w ∈ content P d, if mx then neutral ≤ w else w ≤ neutral)
    (hempty : ∀ r < P, d r = [] → startOf d r = (content P d).length) (v : Nat → Int × Nat)
    (h : ArgResult mx conv neutral P off (fun r _ => d r) v) : IsFirstArg mx (content P d) (v 0).2 := by
  obtain ⟨⟨p, hp, hv⟩, hbest⟩ := combine_arg_zero mx h
  obtain ⟨r0, hr0, rfl⟩ := List.mem_map.1 hp
  exact arg_best mx conv neutral P off d hne hoff hconv (fun w hw => by have := hneu w hw; cases mx <;> simp [key] at this ⊢ <;> omega)
    (fun r hr he => (hoff r hr).trans (hempty r hr he)) (v 0) r0 (List.mem_range.1 hr0) hv
    fun r hr => hbest _ (List.mem_map.2 ⟨r, List.mem_range.2 hr, rfl⟩)

theorem balanced_empty {α : Type} {P : Nat} (hP : 0 < P) {d : Nat → List α} (hb : Balanced P d) (r : Nat) (hr : r < P) (he : d r = []) :
    startOf d r = (content P d).length := by
  rw [balanced_chunk_start hb r (by omega), chunkRange_fst]
  have h0 := hb r hr
  rw [he] at h0
  unfold evenSize at h0
  rw [List.length_nil] at h0
  have hq : (content P d).length / P = 0 := (Nat.add_eq_zero_iff.1 h0.symm).1
  have hlt : (content P d).length < P := (Nat.div_eq_zero_iff.1 hq).resolve_left (by omega)
  have hm : (content P d).length % P = (content P d).length := Nat.mod_eq_of_lt hlt
  rw [hm] at h0
  have : ¬ r < (content P d).length := by
    intro hc
    rw [if_pos hc] at h0; omega
  rw [hq, hm]; omega

/-- C59.  `argmax`/`argmin` of a one-dimensional array in its canonical distribution. -/
theorem argmax_1d_partial (mx : Bool) (conv : Int → Int) (neutral : Int) (P : Nat) (hP : 0 < P) (d : Nat → List Int) (hb : Balanced P d)
    (hne : content P d ≠ []) (hconv : KeepsOrder conv (neutral :: content P d)) (hneu : ∀ w ∈ content P d, if mx then neutral ≤ w else w ≤ neutral)
    (v : Nat → Int × Nat) (h : ArgResult mx conv neutral P (argOffset (content P d).length P) (fun r _ => d r) v) :
    IsFirstArg mx (content P d) (v 0).2 :=
  argmax_spec_partial mx conv neutral P _ d hne (fun r hr => (balanced_chunk_start hb r (by omega)).symm) hconv hneu (balanced_empty hP hb) v h

/-- C59.  `argmax`/`argmin` with `axis=None` of an array split along axis 0 whose number of rows is a multiple of the number of processes, in the canonical
distribution: `d r` is the flattened local tensor of rank `r` (`w` elements per row). -/
theorem argmax_flat_partial (mx : Bool) (conv : Int → Int) (neutral : Int) (P q w : Nat) (hP : 0 < P) (rest : List Nat) (hw : rest.prod = w) (d : Nat → List Int)
    (hl : ∀ r < P, (d r).length = q * w) (hne : content P d ≠ []) (hconv : KeepsOrder conv (neutral :: content P d))
    (hneu : ∀ w ∈ content P d, if mx then neutral ≤ w else w ≤ neutral) (v : Nat → Int × Nat)
    (h : ArgResult mx conv neutral P (argFlatOffset (P * q :: rest) 0 P) (fun r _ => d r) v) : IsFirstArg mx (content P d) (v 0).2 := by
  have hst : ∀ r ≤ P, startOf d r = r * (q * w) := by
    intro r
    induction r with
    | zero => intro _; simp [startOf_zero]
    | succ r ih => intro hr; rw [startOf_succ, ih (by omega), hl r (by omega), Nat.succ_mul]
  have hprod : (P * q :: rest).prod = P * (q * w) := by rw [List.prod_cons, hw, Nat.mul_assoc]
  refine argmax_spec_partial mx conv neutral P _ d hne ?_ hconv hneu ?_ v h
  · intro r hr
    rw [hst r (by omega)]
    unfold argFlatOffset
    rw [if_pos rfl, hprod, chunkRange_fst, Nat.mul_div_cancel_left _ hP, Nat.mul_mod_right]
    simp
  · intro r hr he
    have h0 := hl r hr
    rw [he] at h0
    have hz : q * w = 0 := by simpa using h0.symm
    have : (content P d).length = startOf d P := rfl
    rw [this, hst r (by omega), hst P (Nat.le_refl _), hz, Nat.mul_zero, Nat.mul_zero]

/-! ## Several positions -/

/-- If MPI combines the contributions in rank order, every position of the result is found independently. -/
theorem combineOrd_arg (mx : Bool) (part : Nat → Nat → Int × Nat) (P n : Nat) (start : Nat → Nat) (neu : Int) (hmono : ∀ i j, i ≤ j → j ≤ P → start i ≤ start j)
    (hfull : start P = n) (rows : Nat → Nat) (hrows : ∀ r < P, start (r + 1) = start r + rows r)
    (hne : ∀ r < P, rows r ≠ 0 → ∀ c, start r ≤ (part r c).2 ∧ (part r c).2 < start (r + 1) ∧ key mx neu ≤ key mx (part r c).1)
    (hem : ∀ r < P, rows r = 0 → start r = n ∧ ∀ c, part r c = (neu, n)) :
    ∀ {l v}, CombineOrd (argOp mx) l v → ∀ i m, l = (List.range m).map (fun k => part (i + k)) → i + m ≤ P →
      ∀ c, (∃ k < m, v c = part (i + k) c) ∧ ∀ k < m, LexGe mx (v c) (part (i + k) c) := by
  intro l v h
  induction h with
  | one x =>
    intro i m hl hm c
    have hm1 : m = 1 := by have := congrArg List.length hl; simpa using this.symm
    subst hm1
    simp only [List.range_one, List.map_cons, List.map_nil, Nat.add_zero, List.cons.injEq, and_true] at hl
    subst hl
    refine ⟨⟨0, by omega, rfl⟩, ?_⟩
    intro k hk
    have : k = 0 := by omega
    subst this; exact LexGe.refl _ _
  | node ha hb iha ihb =>
    rename_i l₁ l₂ a b
    intro i m hl hm c
    have hlen := congrArg List.length hl
    simp only [List.length_append, List.length_map, List.length_range] at hlen
    have h1 : l₁ = (List.range l₁.length).map (fun k => part (i + k)) := by
      have := congrArg (List.take l₁.length) hl
      rw [List.take_left, ← List.map_take, List.take_range, show min l₁.length m = l₁.length by omega] at this
      exact this
    have h2 : l₂ = (List.range l₂.length).map (fun k => part (i + l₁.length + k)) := by
      have := congrArg (List.drop l₁.length) hl
      rw [List.drop_left, ← List.map_drop] at this
      rw [this]
      rw [show (List.map (fun k => part (i + k)) (List.drop l₁.length (List.range m))).length = m - l₁.length by simp]
      rw [show m = l₁.length + (m - l₁.length) by omega, List.range_add, List.drop_left' (by simp), List.map_map, Nat.add_sub_cancel_left]
      apply List.map_congr_left
      intro k _
      simp [Nat.add_assoc]
    have ha' := iha i l₁.length h1 (by omega)
    have hb' := ihb (i + l₁.length) l₂.length h2 (by omega)
    -- indices of the first half are not greater than those of the second half
    have hpos : ∀ r < P, ∀ c, start r ≤ (part r c).2 ∧ (part r c).2 ≤ start (r + 1) := by
      intro r hr c
      by_cases h0 : rows r = 0
      · have := hem r hr h0
        rw [this.2 c]
        have h3 := hrows r hr
        exact ⟨by show start r ≤ n; omega, by show n ≤ _; omega⟩
      · have := hne r hr h0 c
        omega
    have hle : ∀ c, (a c).2 ≤ (b c).2 := by
      intro c
      obtain ⟨⟨p, hp, e1⟩, _⟩ := ha' c
      obtain ⟨⟨q, hq, e2⟩, _⟩ := hb' c
      rw [e1, e2]
      have x1 := (hpos (i + p) (by omega) c).2
      have x2 := (hpos (i + l₁.length + q) (by omega) c).1
      have x3 := hmono (i + p + 1) (i + l₁.length + q) (by omega) (by omega)
      omega
    have hsel : (argOp mx a b c = a c ∨ argOp mx a b c = b c) ∧ LexGe mx (argOp mx a b c) (a c) ∧ LexGe mx (argOp mx a b c) (b c) := by
      unfold argOp
      by_cases hlt : (a 0).2 < (b 0).2
      · rw [if_pos hlt]; exact pick_spec mx (a c) (b c) (hle c)
      · rw [if_neg hlt]
        -- both winners at position 0 are ranks without data, hence all ranks involved are
        have heq : (a 0).2 = (b 0).2 := by have := hle 0; omega
        obtain ⟨⟨p, hp, e1⟩, hbest⟩ := ha' 0
        obtain ⟨⟨q, hq, e2⟩, _⟩ := hb' 0
        have x2 := (hpos (i + l₁.length + q) (by omega) 0).1
        have x3 := hmono (i + p + 1) (i + l₁.length + q) (by omega) (by omega)
        have hp0 : rows (i + p) = 0 := by
          apply Classical.byContradiction
          intro hc
          have := (hne (i + p) (by omega) hc 0).2.1
          rw [← e1] at this
          rw [← e2] at x2
          omega
        have hap := (hem (i + p) (by omega) hp0).2 0
        have hall : ∀ k < l₁.length, rows (i + k) = 0 := by
          intro k hk
          apply Classical.byContradiction
          intro hc
          have h3 := hne (i + k) (by omega) hc 0
          have h4 := hbest k hk
          have h5 := hmono (i + k + 1) P (by omega) (Nat.le_refl _)
          rw [e1, hap] at h4
          rcases h4 with h4 | ⟨_, h4⟩
          · simp only at h4; omega
          · simp only at h4; omega
        have hac : (a c).2 = n := by
          obtain ⟨⟨k, hk, e⟩, _⟩ := ha' c
          rw [e, (hem (i + k) (by omega) (hall k hk)).2 c]
        have hbc : (b c).2 ≤ n := by
          obtain ⟨⟨k, hk, e⟩, _⟩ := hb' c
          rw [e, ← hfull]
          have y1 := (hpos (i + l₁.length + k) (by omega) c).2
          have y2 := hmono (i + l₁.length + k + 1) P (by omega) (Nat.le_refl _)
          omega
        obtain ⟨s1, s2, s3⟩ := pick_spec mx (b c) (a c) (by omega)
        exact ⟨s1.symm, s3, s2⟩
    obtain ⟨s1, s2, s3⟩ := hsel
    refine ⟨?_, ?_⟩
    · rcases s1 with h | h
      · obtain ⟨k, hk, e⟩ := (ha' c).1
        exact ⟨k, by omega, h.trans e⟩
      · obtain ⟨k, hk, e⟩ := (hb' c).1
        exact ⟨l₁.length + k, by omega, by rw [h, e, Nat.add_assoc]⟩
    · intro k hk
      by_cases hk1 : k < l₁.length
      · exact s2.trans ((ha' c).2 k hk1)
      · have := (hb' c).2 (k - l₁.length) (by omega)
        rw [show i + l₁.length + (k - l₁.length) = i + k by omega] at this
        exact s3.trans this

/-- C59.  `argmax`/`argmin` along the split axis of an array of any shape in canonical distribution (`cols r c` is the local column of rank `r` for
position `c` of the result), if MPI combines the contributions in rank order: every position holds the first optimum of its column. -/
theorem argmax_columns_partial (mx : Bool) (conv : Int → Int) (neutral : Int) (P : Nat) (hP : 0 < P) (cols : Nat → Nat → List Int)
    (hrect : ∀ r < P, ∀ c, (cols r c).length = (cols r 0).length) (hb : Balanced P fun r => cols r 0)
    (hne : content P (fun r => cols r 0) ≠ []) (hconv : ∀ c, KeepsOrder conv (neutral :: content P fun r => cols r c))
    (hneu : ∀ c, ∀ w ∈ content P (fun r => cols r c), if mx then neutral ≤ w else w ≤ neutral) (v : Nat → Int × Nat)
    (h : CombineOrd (argOp mx) ((List.range P).map fun r c => argPartial mx conv neutral (argOffset (content P fun r => cols r 0).length P r) (cols r c)) v) :
    ∀ c, IsFirstArg mx (content P fun r => cols r c) (v c).2 := by
  have hst : ∀ c, ∀ r ≤ P, startOf (fun r => cols r c) r = startOf (fun r => cols r 0) r := by
    intro c r
    induction r with
    | zero => intro _; rfl
    | succ r ih =>
      intro hr
      rw [startOf_succ, startOf_succ, ih (by omega), hrect r (by omega) c]
  have hoff : ∀ r ≤ P, argOffset (content P fun r => cols r 0).length P r = startOf (fun r => cols r 0) r :=
    fun r hr => (balanced_chunk_start hb r hr).symm
  have hkey : ∀ c, ∀ w ∈ content P (fun r => cols r c), key mx neutral ≤ key mx w := fun c w hw => by
    have := hneu c w hw; cases mx <;> simp [key] at this ⊢ <;> omega
  have hmem : ∀ r < P, ∀ c, ∀ w ∈ cols r c, w ∈ content P fun r => cols r c := fun r hr c w hw => List.mem_flatMap.2 ⟨r, List.mem_range.2 hr, hw⟩
  have hsub : ∀ r < P, ∀ c, KeepsOrder conv (neutral :: cols r c) := by
    intro r hr c a ha b hb' hab
    have hm : ∀ a ∈ neutral :: cols r c, a ∈ neutral :: content P fun r => cols r c := by
      intro a ha
      rcases List.mem_cons.1 ha with h | h
      · rw [h]; exact List.mem_cons_self
      · exact List.mem_cons_of_mem _ (hmem r hr c a h)
    exact hconv c a (hm a ha) b (hm b hb') hab
  have hck : ∀ c, ∀ w ∈ content P (fun r => cols r c), key mx (conv neutral) ≤ key mx (conv w) := by
    intro c w hw
    have h1 := hkey c w hw
    rcases Int.lt_trichotomy neutral w with h2 | h2 | h2
    · have := hconv c neutral List.mem_cons_self w (List.mem_cons_of_mem _ hw) h2
      cases mx <;> simp [key] at h1 ⊢ <;> omega
    · rw [h2]; exact Int.le_refl _
    · have := hconv c w (List.mem_cons_of_mem _ hw) neutral List.mem_cons_self h2
      cases mx <;> simp [key] at h1 ⊢ <;> omega
  have hemp := balanced_empty hP hb
  have hord := combineOrd_arg mx (fun r c => argPartial mx conv neutral (argOffset (content P fun r => cols r 0).length P r) (cols r c)) P
    (content P fun r => cols r 0).length (startOf fun r => cols r 0) (conv neutral) (fun i j hij _ => startOf_mono _ hij) rfl
    (fun r => (cols r 0).length) (fun r _ => startOf_succ _ r)
    (by
      intro r hr hrow c
      have hcne : cols r c ≠ [] := by
        intro he; apply hrow
        rw [← hrect r hr c, he]; rfl
      obtain ⟨⟨j, w, e1, e2⟩, _⟩ := argPartial_spec mx conv neutral (argOffset (content P fun r => cols r 0).length P r) (cols r c) (hsub r hr c) hcne
      have hj := (List.getElem?_eq_some_iff.1 e1).1
      rw [hrect r hr c] at hj
      simp only [e2]
      rw [hoff r (by omega), startOf_succ]
      exact ⟨by omega, by omega, hck c w (hmem r hr c w (List.mem_of_getElem? e1))⟩)
    (by
      intro r hr hrow
      have h0 : cols r 0 = [] := List.eq_nil_of_length_eq_zero hrow
      refine ⟨hemp r hr h0, fun c => ?_⟩
      have hc0 : cols r c = [] := List.eq_nil_of_length_eq_zero (by rw [hrect r hr c]; exact hrow)
      simp only [hc0, argPartial]
      rw [hoff r (by omega), hemp r hr h0])
    h 0 P (by simp) (by omega)
  intro c
  obtain ⟨⟨r0, hr0, hv⟩, hbest⟩ := hord c
  simp only [Nat.zero_add] at hv hbest
  have hlenc : (content P fun r => cols r c).length = (content P fun r => cols r 0).length := hst c P (Nat.le_refl _)
  refine arg_best mx conv neutral P _ (fun r => cols r c) ?_ ?_ (hconv c) (hkey c) ?_ (v c) r0 hr0 hv hbest
  · intro he
    apply hne
    apply List.eq_nil_of_length_eq_zero
    rw [← hlenc, he]; rfl
  · intro r hr
    rw [hoff r (by omega), hst c r (by omega)]
  · intro r hr he
    have h0 : cols r 0 = [] := List.eq_nil_of_length_eq_zero (by rw [← hrect r hr c, he]; rfl)
    rw [hoff r (by omega), hemp r hr h0, hlenc]

/-! ## Where it fails -/

/-- If MPI uses commutativity (the operator is declared commutative), ties at positions other than the first are not resolved to the first optimum: with the
columns (5, 1, 1) and (0, 7, 7) on three ranks and the order (0, 2), 1 the second argmax is 2 instead of 1. -/
theorem argmax_commute_violated : ∃ v, ArgResult true id (-1) 3 (argOffset 3 3)
    (fun r c => if c = 0 then [if r = 0 then 5 else 1] else [if r = 0 then 0 else 7]) v ∧ (v 1).2 = 2 ∧
    IsFirstArg true [0, 7, 7] 1 := by
  refine ⟨argOp true (argOp true (fun c => argPartial true id (-1) (argOffset 3 3 0) (if c = 0 then [if 0 = 0 then 5 else 1] else [if 0 = 0 then 0 else 7]))
      (fun c => argPartial true id (-1) (argOffset 3 3 2) (if c = 0 then [if 2 = 0 then 5 else 1] else [if 2 = 0 then 0 else 7])))
      (fun c => argPartial true id (-1) (argOffset 3 3 1) (if c = 0 then [if 1 = 0 then 5 else 1] else [if 1 = 0 then 0 else 7])), ?_, ?_, ?_⟩
  · refine Combine.node (Combine.node (Combine.one _) (Combine.one _) (List.Perm.refl _)) (Combine.one _) ?_
    exact (List.Perm.swap _ _ _).cons _ |>.symm
  · decide +kernel
  · refine ⟨7, rfl, by decide, ?_⟩
    intro j hj w hw
    have : j = 0 := by omega
    subst this
    simp at hw; subst hw; decide

/-- Result of the reduction over two ranks in rank order. -/
def argTwo (mx : Bool) (conv : Int → Int) (neutral : Int) (off : Nat → Nat) (a b : List Int) : Nat :=
  (argOp mx (fun _ => argPartial mx conv neutral (off 0) a) (fun _ => argPartial mx conv neutral (off 1) b) 0).2

theorem argTwo_result (mx : Bool) (conv : Int → Int) (neutral : Int) (off : Nat → Nat) (a b : List Int) :
    ∃ v, ArgResult mx conv neutral 2 off (fun r _ => if r = 0 then a else b) v ∧ (v 0).2 = argTwo mx conv neutral off a b :=
  ⟨_, Combine.node (Combine.one _) (Combine.one _) (List.Perm.refl _), rfl⟩

/-- Arrays that are not balanced: the maximum 9 of (1, 2, 3, 9) with the last three elements on rank 1 is at 3, reported is 4. -/
theorem argmax_unbalanced_violated : argTwo true id (-1) (argOffset 4 2) [1] [2, 3, 9] = 4 := by decide +kernel

/-- `axis=None` with split 0 and a number of rows that is not a multiple of the number of processes: the 3×3 matrix with rows (0 0 0), (0 0 0), (9 0 0) has its
maximum at 6, reported is 5. -/
theorem argmax_flat_violated : argTwo true id (-1) (argFlatOffset [3, 3] 0 2) [0, 0, 0, 0, 0, 0] [9, 0, 0] = 5 := by decide +kernel

/-- `axis=None` with split 1: the maximum of the 1×4 matrix (0 0 9 0) is at 2, reported is 0. -/
theorem argmax_split1_violated : argTwo true id (-1) (argFlatOffset [1, 4] 1 2) [0, 0] [9, 0] = 0 := by decide +kernel

/-- int64 values are compared as float64: of 2^53 and 2^53 + 1 on two ranks the first is taken for the maximum. -/
theorem argmax_int64_violated : argTwo true toDouble (-1) (argOffset 2 2) [2 ^ 53] [2 ^ 53 + 1] = 0 := by decide +kernel

/-- The value used for ranks without data is -127 for int8: the maximum of the one-element array (-128) on two processes is reported at position 1. -/
theorem argmax_neutral_violated : argTwo true id (-127) (argOffset 1 2) [-128] [] = 1 := by decide +kernel

example : argTwo true toDouble (-127) (argOffset 3 2) [4, 9] [9] = 1 ∧ argTwo false toDouble 127 (argOffset 3 2) [4, 9] [3] = 2 := by decide +kernel

example : KeepsOrder toDouble [-127, 4, 9, 9] := by
  intro a ha b hb hab
  simp only [List.mem_cons, List.not_mem_nil, or_false] at ha hb
  rcases ha with rfl | rfl | rfl | rfl <;> rcases hb with rfl | rfl | rfl | rfl <;> first | (exfalso; omega) | decide +kernel

end Heat
