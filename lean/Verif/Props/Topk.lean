import Verif.Model.Topk
import Verif.Props.Arg
import Verif.Props.Unique
import Mathlib.Data.List.Sort
/-!
# C85-C86: topk
-/
namespace Heat

open Spec

/-- The law of `torch.topk`: `k` of the entries, none of the others has a better value. -/
def Best (mx : Bool) (k : Nat) (l t : List (Int × Nat)) : Prop :=
  ∃ rest, (t ++ rest).Perm l ∧ t.length = k ∧ ∀ a ∈ t, ∀ b ∈ rest, key mx b.1 ≤ key mx a.1

/-- `torch.topk` with `sorted=True`. -/
def TopkLaw (mx : Bool) (T : Nat → List (Int × Nat) → List (Int × Nat)) : Prop :=
  ∀ k l, k ≤ l.length → Best mx k l (T k l) ∧ (T k l).Pairwise fun a b => key mx b.1 ≤ key mx a.1

/-- The best of the best. -/
theorem best_merge {mx : Bool} {k : Nat} {l₁ l₂ t₁ t₂ t : List (Int × Nat)} (h₁ : Best mx k l₁ t₁) (h₂ : Best mx k l₂ t₂) (h : Best mx k (t₁ ++ t₂) t) :
    Best mx k (l₁ ++ l₂) t := by
  obtain ⟨r₁, p₁, n₁, b₁⟩ := h₁
  obtain ⟨r₂, p₂, n₂, b₂⟩ := h₂
  obtain ⟨r, p, n, b⟩ := h
  have aux : ∀ (u : List (Int × Nat)), u.length = k → (∀ x ∈ u, x ∈ t₁ ++ t₂) → (∀ (q : Int × Nat → Bool), u.countP q ≤ (t₁ ++ t₂).countP q) →
      ∀ c : Int, (∀ x ∈ u, c ≤ key mx x.1) → ∀ a ∈ t, c ≤ key mx a.1 := by
    intro u hu _ hcnt c hc a ha
    by_contra hlt
    have hlt : key mx a.1 < c := by omega
    have c1 := hcnt (fun x => decide (c ≤ key mx x.1))
    rw [List.countP_eq_length.2 (fun x hx => by simpa using hc x hx), hu, ← p.countP_eq, List.countP_append] at c1
    have c2 : r.countP (fun x => decide (c ≤ key mx x.1)) = 0 := by
      rw [List.countP_eq_zero]
      intro x hx
      have := b a ha x hx
      simp
      omega
    have c3 : t.countP (fun x => decide (c ≤ key mx x.1)) = t.length := by
      have := List.countP_le_length (p := fun x : Int × Nat => decide (c ≤ key mx x.1)) (l := t)
      omega
    have := List.countP_eq_length.1 c3 a ha
    have : c ≤ key mx a.1 := by simpa using this
    omega
  refine ⟨r ++ (r₁ ++ r₂), ?_, n, ?_⟩
  · have e1 : (t ++ (r ++ (r₁ ++ r₂))).Perm ((t₁ ++ t₂) ++ (r₁ ++ r₂)) := by
      rw [← List.append_assoc]
      exact p.append_right _
    have e2 : ((t₁ ++ t₂) ++ (r₁ ++ r₂)).Perm ((t₁ ++ r₁) ++ (t₂ ++ r₂)) := by
      rw [List.append_assoc, List.append_assoc]
      apply List.Perm.append_left
      rw [← List.append_assoc, ← List.append_assoc]
      exact (List.perm_append_comm).append_right _
    exact e1.trans (e2.trans (p₁.append p₂))
  · intro a ha x hx
    rcases List.mem_append.1 hx with hx | hx
    · exact b a ha x hx
    · rcases List.mem_append.1 hx with hx | hx
      · exact aux t₁ n₁ (fun y hy => List.mem_append_left _ hy) (fun q => by rw [List.countP_append]; omega) _ (fun y hy => b₁ y hy x hx) a ha
      · exact aux t₂ n₂ (fun y hy => List.mem_append_right _ hy) (fun q => by rw [List.countP_append]; omega) _ (fun y hy => b₂ y hy x hx) a ha

theorem perm_map_lift {β γ : Type} (f : β → γ) {m₁ m₂ : List γ} (h : m₁.Perm m₂) : ∀ l : List β, l.map f = m₁ → ∃ l' : List β, l.Perm l' ∧ l'.map f = m₂ := by
  induction h with
  | nil => intro l hl; exact ⟨l, List.Perm.refl _, hl⟩
  | cons x _ ih =>
    intro l hl
    obtain ⟨a, t, rfl, rfl, ht⟩ := List.map_eq_cons_iff.1 hl
    obtain ⟨t', p, e⟩ := ih t ht
    exact ⟨a :: t', p.cons a, by rw [List.map_cons, e]⟩
  | swap x y l0 =>
    intro l hl
    obtain ⟨a, t, rfl, rfl, ht⟩ := List.map_eq_cons_iff.1 hl
    obtain ⟨b, t, rfl, rfl, ht⟩ := List.map_eq_cons_iff.1 ht
    exact ⟨b :: a :: t, List.Perm.swap .., by simp_all⟩
  | trans _ _ ih1 ih2 =>
    intro l hl
    obtain ⟨l', p, e⟩ := ih1 l hl
    obtain ⟨l'', p', e'⟩ := ih2 l' e
    exact ⟨l'', p.trans p', e'⟩

/-- Any order of combination. -/
theorem best_combine {mx : Bool} {T : Nat → List (Int × Nat) → List (Int × Nat)} (hT : TopkLaw mx T) {k : Nat} {m : List (List (Int × Nat))} {v : List (Int × Nat)}
    (h : Combine (topkOp T k) m v) : ∀ L : List (List (Int × Nat) × List (Int × Nat)), L.map Prod.snd = m → (∀ p ∈ L, Best mx k p.1 p.2) → Best mx k (L.map Prod.fst).flatten v := by
  induction h with
  | one x =>
    intro L hL hb
    obtain ⟨a, t, rfl, rfl, ht⟩ := List.map_eq_cons_iff.1 hL
    rw [List.map_eq_nil_iff.1 ht]
    simpa using hb a (List.mem_cons_self ..)
  | node h₁ h₂ hp ih₁ ih₂ =>
    intro L hL hb
    obtain ⟨L', p, e⟩ := perm_map_lift Prod.snd hp L hL
    obtain ⟨A, B, rfl, hA, hB⟩ := List.map_eq_append_iff.1 e
    have b1 := ih₁ A hA (fun q hq => hb q (p.mem_iff.2 (List.mem_append_left _ hq)))
    have b2 := ih₂ B hB (fun q hq => hb q (p.mem_iff.2 (List.mem_append_right _ hq)))
    obtain ⟨_, _, n1, _⟩ := id b1
    obtain ⟨_, _, n2, _⟩ := id b2
    have b3 := best_merge b1 b2 (hT k _ (by rw [List.length_append]; omega)).1
    obtain ⟨rest, q1, q2, q3⟩ := b3
    refine ⟨rest, q1.trans ?_, q2, q3⟩
    rw [← List.flatten_append, ← List.map_append]
    exact ((p.map Prod.fst).flatten).symm

/-! ## Values -/

/-- The order of the values. -/
def keyGe (mx : Bool) (a b : Int) : Prop := key mx b ≤ key mx a

theorem keyGe_iff (mx : Bool) (a b : Int) : (if mx then decide (b ≤ a) else decide (a ≤ b)) = true ↔ keyGe mx a b := by
  cases mx <;> simp [keyGe, key]

theorem sorted_bestValues (mx : Bool) (l : List Int) : (l.mergeSort fun a b => if mx then decide (b ≤ a) else decide (a ≤ b)).Pairwise (keyGe mx) := by
  have := List.pairwise_mergeSort (le := fun a b : Int => if mx then decide (b ≤ a) else decide (a ≤ b)) (fun a b c h1 h2 => by
    rw [keyGe_iff] at *; unfold keyGe at *; omega) (fun a b => by
    have h1 := keyGe_iff mx a b
    have h2 := keyGe_iff mx b a
    rw [Bool.or_eq_true, h1, h2]
    unfold keyGe; omega) l
  exact this.imp fun h => (keyGe_iff mx _ _).1 h

/-- Sorted lists with the same elements are equal. -/
theorem eq_of_keyGe {mx : Bool} {l m : List Int} (h1 : l.Pairwise (keyGe mx)) (h2 : m.Pairwise (keyGe mx)) (p : l.Perm m) : l = m := by
  refine p.eq_of_pairwise ?_ h1 h2
  intro a b _ _ hab hba
  unfold keyGe at hab hba
  exact key_inj (mx := mx) (by omega)

theorem bestValues_perm {mx : Bool} {k : Nat} {l m : List Int} (p : l.Perm m) : bestValues mx k l = bestValues mx k m := by
  unfold bestValues
  rw [eq_of_keyGe (sorted_bestValues mx l) (sorted_bestValues mx m) ((List.mergeSort_perm l _).trans (p.trans (List.mergeSort_perm m _).symm))]

theorem bestValues_of_split {mx : Bool} {l s r : List Int} (p : (s ++ r).Perm l) (hs : s.Pairwise (keyGe mx)) (hb : ∀ a ∈ s, ∀ b ∈ r, keyGe mx a b) :
    s = bestValues mx s.length l := by
  have e : s ++ (r.mergeSort fun a b => if mx then decide (b ≤ a) else decide (a ≤ b)) = l.mergeSort fun a b => if mx then decide (b ≤ a) else decide (a ≤ b) := by
    refine eq_of_keyGe ?_ (sorted_bestValues mx l) ?_
    · rw [List.pairwise_append]
      exact ⟨hs, sorted_bestValues mx r, fun a ha b hb' => hb a ha b ((List.mergeSort_perm r _).mem_iff.1 hb')⟩
    · exact ((List.mergeSort_perm r _).append_left s).trans (p.trans (List.mergeSort_perm l _).symm)
  unfold bestValues
  rw [← e, List.take_left]

/-- Filling up with a value that is not better changes nothing. -/
theorem bestValues_pad {mx : Bool} {k p : Nat} {l : List Int} {ν : Int} (hk : k ≤ l.length) (hν : ∀ a ∈ l, key mx ν ≤ key mx a) :
    bestValues mx k (l ++ List.replicate p ν) = bestValues mx k l := by
  have e : (l.mergeSort fun a b => if mx then decide (b ≤ a) else decide (a ≤ b)) ++ List.replicate p ν =
      (l ++ List.replicate p ν).mergeSort fun a b => if mx then decide (b ≤ a) else decide (a ≤ b) := by
    refine eq_of_keyGe ?_ (sorted_bestValues mx _) ?_
    · rw [List.pairwise_append]
      refine ⟨sorted_bestValues mx l, ?_, ?_⟩
      · rw [List.pairwise_replicate]; right; unfold keyGe; omega
      · intro a ha b hb
        rw [List.eq_of_mem_replicate hb]
        exact hν a ((List.mergeSort_perm l _).mem_iff.1 ha)
    · exact ((List.mergeSort_perm l _).append_right _).trans (List.mergeSort_perm _ _).symm
  unfold bestValues
  rw [← e, List.take_append_of_le_length (by rw [List.length_mergeSort]; exact hk)]

/-! ## Contributions -/

/-- What a rank chooses from: its elements, filled up. -/
def topkSource (neutral : Int) (k P r : Nat) (l : List Int) : List (Int × Nat) :=
  (l.zipIdx ++ List.replicate (k - l.length) (neutral, 0)).map fun e : Int × Nat => (e.1, e.2 + topkOffset l.length P r)

theorem best_map {mx : Bool} {k c : Nat} {l t : List (Int × Nat)} (h : Best mx k l t) : Best mx k (l.map fun e : Int × Nat => (e.1, e.2 + c)) (t.map fun e : Int × Nat => (e.1, e.2 + c)) := by
  obtain ⟨r, p, n, b⟩ := h
  refine ⟨r.map fun e : Int × Nat => (e.1, e.2 + c), ?_, by rw [List.length_map, n], ?_⟩
  · rw [← List.map_append]; exact p.map _
  · intro a ha x hx
    obtain ⟨a', ha', rfl⟩ := List.mem_map.1 ha
    obtain ⟨x', hx', rfl⟩ := List.mem_map.1 hx
    exact b a' ha' x' hx'

theorem topkLocal_best {mx : Bool} {T : Nat → List (Int × Nat) → List (Int × Nat)} (hT : TopkLaw mx T) {conv : Int → Int} {neutral : Int} {pads : Bool} {k P r : Nat} {l : List Int}
    (hc : ∀ v ∈ l, conv v = v) (hcn : l.length < k → conv neutral = neutral) {part : List (Int × Nat)} (h : topkLocal T conv neutral pads k P r l = .ok part) :
    Best mx k (topkSource neutral k P r l) part := by
  have hconv : ∀ (t : List (Int × Nat)), (∀ e ∈ t, conv e.1 = e.1) → (t.map fun e : Int × Nat => (conv e.1, e.2 + topkOffset l.length P r)) = t.map fun e : Int × Nat => (e.1, e.2 + topkOffset l.length P r) := by
    intro t ht
    apply List.map_congr_left
    intro e he
    rw [ht e he]
  have hz : ∀ e ∈ l.zipIdx, conv e.1 = e.1 := fun e he => hc _ (by
    have := List.mem_zipIdx_iff_getElem?.1 he
    exact List.mem_of_getElem? this)
  have hmem : ∀ j ≤ l.length, ∀ e ∈ T j l.zipIdx, conv e.1 = e.1 := by
    intro j hj e he
    obtain ⟨rest, p, _, _⟩ := (hT j l.zipIdx (by rw [List.length_zipIdx]; exact hj)).1
    exact hz e (p.mem_iff.1 (List.mem_append_left _ he))
  unfold topkLocal at h
  unfold topkSource
  by_cases hk : l.length < k
  · rw [if_pos hk] at h
    by_cases hp : pads
    · rw [if_pos hp] at h
      injection h with h
      rw [← h, hconv _ (fun e he => by
        rcases List.mem_append.1 he with he | he
        · exact hmem _ (Nat.le_refl _) e he
        · rw [List.eq_of_mem_replicate he]; exact hcn hk)]
      apply best_map
      obtain ⟨rest, p, n, _⟩ := (hT l.length l.zipIdx (by rw [List.length_zipIdx])).1
      have hrest : rest = [] := by
        have := p.length_eq
        rw [List.length_append, n, List.length_zipIdx] at this
        exact List.length_eq_zero_iff.1 (by omega)
      rw [hrest, List.append_nil] at p
      exact ⟨[], by rw [List.append_nil]; exact p.append_right _, by rw [List.length_append, n, List.length_replicate]; omega, by simp⟩
    · rw [if_neg hp] at h; exact absurd h (by simp)
  · rw [if_neg hk] at h
    injection h with h
    rw [← h, hconv _ (hmem k (by omega)), show k - l.length = 0 by omega, List.replicate_zero, List.append_nil]
    apply best_map
    exact (hT k l.zipIdx (by rw [List.length_zipIdx]; omega)).1

theorem topkLocal_sorted {mx : Bool} {T : Nat → List (Int × Nat) → List (Int × Nat)} (hT : TopkLaw mx T) {conv : Int → Int} {neutral : Int} {pads : Bool} {k P r : Nat} {l : List Int}
    (hc : ∀ v ∈ l, conv v = v) (hcn : l.length < k → conv neutral = neutral ∧ ∀ v ∈ l, key mx neutral ≤ key mx v) {part : List (Int × Nat)}
    (h : topkLocal T conv neutral pads k P r l = .ok part) : part.length = k ∧ part.Pairwise fun a b => key mx b.1 ≤ key mx a.1 := by
  refine ⟨(topkLocal_best hT hc (fun hk => (hcn hk).1) h).elim fun _ h' => h'.2.1, ?_⟩
  have hz : ∀ e ∈ l.zipIdx, e.1 ∈ l := fun e he => List.mem_of_getElem? (List.mem_zipIdx_iff_getElem?.1 he)
  have hmem : ∀ j ≤ l.length, ∀ e ∈ T j l.zipIdx, e.1 ∈ l := by
    intro j hj e he
    obtain ⟨rest, p, _, _⟩ := (hT j l.zipIdx (by rw [List.length_zipIdx]; exact hj)).1
    exact hz e (p.mem_iff.1 (List.mem_append_left _ he))
  unfold topkLocal at h
  by_cases hk : l.length < k
  · rw [if_pos hk] at h
    by_cases hp : pads
    · rw [if_pos hp] at h
      injection h with h
      rw [← h, List.pairwise_map]
      have hs := (hT l.length l.zipIdx (by rw [List.length_zipIdx])).2
      obtain ⟨hn, hle⟩ := hcn hk
      rw [List.pairwise_append]
      refine ⟨hs.imp_of_mem ?_, ?_, ?_⟩
      · intro a b ha hb hab
        dsimp only
        rw [hc _ (hmem _ (Nat.le_refl _) a ha), hc _ (hmem _ (Nat.le_refl _) b hb)]
        exact hab
      · rw [List.pairwise_replicate]; right; exact Int.le_refl _
      · intro a ha b hb
        rw [List.eq_of_mem_replicate hb]
        dsimp only
        rw [hc _ (hmem _ (Nat.le_refl _) a ha), hn]
        exact hle _ (hmem _ (Nat.le_refl _) a ha)
    · rw [if_neg hp] at h; exact absurd h (by simp)
  · rw [if_neg hk] at h
    injection h with h
    rw [← h, List.pairwise_map]
    have hs := (hT k l.zipIdx (by rw [List.length_zipIdx]; omega)).2
    refine hs.imp_of_mem ?_
    intro a b ha hb hab
    dsimp only
    rw [hc _ (hmem k (by omega) a ha), hc _ (hmem k (by omega) b hb)]
    exact hab

theorem topk_best {mx : Bool} {T : Nat → List (Int × Nat) → List (Int × Nat)} (hT : TopkLaw mx T) {conv : Int → Int} {neutral : Int} {pads : Bool} {k P : Nat} {d : Nat → List Int}
    (hc : ∀ v ∈ content P d, conv v = v) (hcn : (∃ r < P, (d r).length < k) → conv neutral = neutral) {v : List (Int × Nat)} (h : TopkResult T conv neutral pads k P d v) :
    Best mx k (content P fun r => topkSource neutral k P r (d r)) v := by
  obtain ⟨parts, hparts, hcomb⟩ := h
  have := best_combine hT hcomb ((List.range P).map fun r => (topkSource neutral k P r (d r), parts r)) (by rw [List.map_map]; rfl) (by
    intro p hp
    obtain ⟨r, hr, rfl⟩ := List.mem_map.1 hp
    have hr := List.mem_range.1 hr
    exact topkLocal_best hT (fun v hv => hc v (mem_content_iff.2 ⟨r, hr, hv⟩)) (fun hk => hcn ⟨r, hr, hk⟩) (hparts r hr))
  rw [List.map_map] at this
  unfold content
  rw [List.flatMap_def]
  exact this

theorem combine_sorted {mx : Bool} {T : Nat → List (Int × Nat) → List (Int × Nat)} (hT : TopkLaw mx T) {k : Nat} {m : List (List (Int × Nat))} {v : List (Int × Nat)}
    (h : Combine (topkOp T k) m v) (hm : ∀ x ∈ m, x.length = k ∧ x.Pairwise fun a b => key mx b.1 ≤ key mx a.1) : v.length = k ∧ v.Pairwise fun a b => key mx b.1 ≤ key mx a.1 := by
  induction h with
  | one x => exact hm x (List.mem_cons_self ..)
  | @node l₁ l₂ l a b h₁ h₂ hp ih₁ ih₂ =>
    obtain ⟨n1, _⟩ := ih₁ (fun x hx => hm x (hp.mem_iff.2 (List.mem_append_left _ hx)))
    obtain ⟨n2, _⟩ := ih₂ (fun x hx => hm x (hp.mem_iff.2 (List.mem_append_right _ hx)))
    have := hT k (a ++ b) (by rw [List.length_append]; omega)
    obtain ⟨⟨_, _, n, _⟩, hs⟩ := this
    exact ⟨n, hs⟩

theorem source_values (neutral : Int) (k P r : Nat) (l : List Int) : (topkSource neutral k P r l).map Prod.fst = l ++ List.replicate (k - l.length) neutral := by
  unfold topkSource
  rw [List.map_map, List.map_append, List.map_replicate]
  congr 1
  show l.zipIdx.map Prod.fst = l
  exact List.zipIdx_map_fst 0 l

theorem source_perm (neutral : Int) (k P : Nat) (d : Nat → List Int) : ∀ j, ∃ p, ((content j fun r => topkSource neutral k P r (d r)).map Prod.fst).Perm (content j d ++ List.replicate p neutral) := by
  intro j
  induction j with
  | zero => exact ⟨0, List.Perm.refl _⟩
  | succ j ih =>
    obtain ⟨p, h⟩ := ih
    refine ⟨p + (k - (d j).length), ?_⟩
    rw [content_succ, content_succ, List.map_append, source_values]
    refine (h.append_right _).trans ?_
    rw [List.append_assoc, List.append_assoc]
    apply List.Perm.append_left
    rw [← List.append_assoc, ← List.replicate_append_replicate, ← List.append_assoc]
    exact (List.perm_append_comm).append_right _

/-- **C85.**  `topk` along the split axis, `k` at most the extent, no element worse than the neutral value: the values are the `k` best, in order, whatever the distribution and
the order in which MPI combines the contributions (values exact in float64). -/
theorem topk_values_partial {mx : Bool} {T : Nat → List (Int × Nat) → List (Int × Nat)} (hT : TopkLaw mx T) {conv : Int → Int} {neutral : Int} {pads : Bool} {k P : Nat} {d : Nat → List Int}
    (hc : ∀ v ∈ content P d, conv v = v) (hk : k ≤ (content P d).length) (hcn : (∃ r < P, (d r).length < k) → conv neutral = neutral ∧ ∀ v ∈ content P d, key mx neutral ≤ key mx v)
    {v : List (Int × Nat)} (h : TopkResult T conv neutral pads k P d v) : v.map Prod.fst = bestValues mx k (content P d) := by
  have hsort : v.Pairwise fun a b => key mx b.1 ≤ key mx a.1 := by
    obtain ⟨parts, hparts, hcomb⟩ := id h
    refine (combine_sorted hT hcomb ?_).2
    intro x hx
    obtain ⟨r, hr, rfl⟩ := List.mem_map.1 hx
    have hr := List.mem_range.1 hr
    exact topkLocal_sorted hT (fun v hv => hc v (mem_content_iff.2 ⟨r, hr, hv⟩))
      (fun hk' => ⟨(hcn ⟨r, hr, hk'⟩).1, fun v hv => (hcn ⟨r, hr, hk'⟩).2 v (mem_content_iff.2 ⟨r, hr, hv⟩)⟩) (hparts r hr)
  obtain ⟨rest, p, n, b⟩ := topk_best hT hc (fun h => (hcn h).1) h
  obtain ⟨q, hq⟩ := source_perm neutral k P d P
  have e : v.map Prod.fst = bestValues mx (v.map Prod.fst).length (content P d ++ List.replicate q neutral) := by
    refine bestValues_of_split (r := rest.map Prod.fst) ?_ ?_ ?_
    · rw [← List.map_append]; exact (p.map Prod.fst).trans hq
    · rw [List.pairwise_map]; exact hsort
    · intro a ha c hc
      obtain ⟨a', ha', rfl⟩ := List.mem_map.1 ha
      obtain ⟨c', hc', rfl⟩ := List.mem_map.1 hc
      exact b a' ha' c' hc'
  rw [List.length_map, n] at e
  rw [e]
  by_cases hs : ∃ r < P, (d r).length < k
  · exact bestValues_pad hk (hcn hs).2
  · have hq0 : q = 0 := by
      have hl := hq.length_eq
      rw [List.length_map, List.length_append, List.length_replicate, content_length_sum, content_length_sum] at hl
      have : (List.range P).map (fun r => (topkSource neutral k P r (d r)).length) = (List.range P).map fun r => (d r).length := by
        apply List.map_congr_left
        intro r hr
        have h1 := congrArg List.length (source_values neutral k P r (d r))
        rw [List.length_map, List.length_append, List.length_replicate] at h1
        have : ¬ (d r).length < k := fun h' => hs ⟨r, List.mem_range.1 hr, h'⟩
        omega
      rw [this] at hl
      omega
    rw [hq0, List.replicate_zero, List.append_nil]


/-! ## Indices -/

theorem topk_zipIdx_content (P : Nat) (d : Nat → List Int) : (content P d).zipIdx = content P fun r => (d r).zipIdx (startOf d r) := by
  induction P with
  | zero => rfl
  | succ P ih => rw [content_succ, content_succ, List.zipIdx_append, ih, Nat.zero_add]; rfl

theorem source_split (neutral : Int) (k P Q : Nat) (d : Nat → List Int) (hoff : ∀ r < Q, d r ≠ [] → topkOffset (d r).length P r = startOf d r) : ∀ j ≤ Q,
    ∃ pads, (content j fun r => topkSource neutral k P r (d r)).Perm ((content j d).zipIdx ++ pads) ∧ (∀ e ∈ pads, e.1 = neutral) ∧ ((∀ r < j, k ≤ (d r).length) → pads = []) := by
  intro j hj
  induction j with
  | zero => exact ⟨[], List.Perm.refl _, by simp, fun _ => rfl⟩
  | succ j ih =>
    obtain ⟨pads, p, hp, hn⟩ := ih (by omega)
    have e : topkSource neutral k P j (d j) = (d j).zipIdx (startOf d j) ++ (List.replicate (k - (d j).length) (neutral, 0)).map fun e : Int × Nat => (e.1, e.2 + topkOffset (d j).length P j) := by
      unfold topkSource
      rw [List.map_append]
      congr 1
      by_cases hd : d j = []
      · rw [hd]; rfl
      · rw [hoff j (by omega) hd]
        apply List.ext_getElem?
        intro i
        rw [List.getElem?_map, List.getElem?_zipIdx, List.getElem?_zipIdx]
        cases (d j)[i]? <;> simp [Nat.add_comm]
    refine ⟨pads ++ (List.replicate (k - (d j).length) (neutral, 0)).map fun e : Int × Nat => (e.1, e.2 + topkOffset (d j).length P j), ?_, ?_, ?_⟩
    · rw [content_succ, e, topk_zipIdx_content, content_succ, ← topk_zipIdx_content]
      refine (p.append_right _).trans ?_
      rw [List.append_assoc, List.append_assoc]
      apply List.Perm.append_left
      rw [← List.append_assoc, ← List.append_assoc]
      exact (List.perm_append_comm).append_right _
    · intro e he
      rcases List.mem_append.1 he with he | he
      · exact hp e he
      · obtain ⟨e', he', rfl⟩ := List.mem_map.1 he
        rw [List.eq_of_mem_replicate he']
    · intro h
      rw [hn (fun r hr => h r (by omega)), show k - (d j).length = 0 by have := h j (by omega); omega]
      rfl

/-- **C86.**  If the offsets are right, the returned entries are elements of the array, different ones, with their positions. -/
theorem topk_indices_partial {mx : Bool} {T : Nat → List (Int × Nat) → List (Int × Nat)} (hT : TopkLaw mx T) {conv : Int → Int} {neutral : Int} {pads : Bool} {k P : Nat} {d : Nat → List Int}
    (hoff : ∀ r < P, d r ≠ [] → topkOffset (d r).length P r = startOf d r)
    (hc : ∀ v ∈ content P d, conv v = v) (hk : k ≤ (content P d).length) (hcn : (∃ r < P, (d r).length < k) → conv neutral = neutral ∧ ∀ v ∈ content P d, key mx neutral < key mx v)
    {v : List (Int × Nat)} (h : TopkResult T conv neutral pads k P d v) : EntriesOf (content P d) v := by
  obtain ⟨rest, p, n, b⟩ := topk_best hT hc (fun h => (hcn h).1) h
  obtain ⟨fill, hp, hf, hn⟩ := source_split neutral k P P d hoff P (Nat.le_refl _)
  have pp := p.trans hp
  have hsub : List.Subperm v (content P d).zipIdx := by
    have hs0 : List.Subperm v ((content P d).zipIdx ++ fill) := ((List.sublist_append_left v rest).subperm).trans pp.subperm
    by_cases hshort : ∃ r < P, (d r).length < k
    · obtain ⟨_, hlt⟩ := hcn hshort
      have hz : ∀ e ∈ (content P d).zipIdx, decide (key mx neutral < key mx e.1) = true := fun e he => by
        simpa using hlt e.1 (List.mem_of_getElem? (List.mem_zipIdx_iff_getElem?.1 he))
      have hfill : fill.filter (fun e => decide (key mx neutral < key mx e.1)) = [] := by
        rw [List.filter_eq_nil_iff]
        intro e he
        rw [hf e he]; simp
      have hall : ∀ e ∈ v, decide (key mx neutral < key mx e.1) = true := by
        intro e he
        by_contra hne
        have hne : key mx e.1 ≤ key mx neutral := by simpa using hne
        have c := pp.countP_eq (fun e => decide (key mx neutral < key mx e.1))
        rw [List.countP_append, List.countP_append, List.countP_eq_length.2 hz, List.length_zipIdx] at c
        have c2 : rest.countP (fun e => decide (key mx neutral < key mx e.1)) = 0 := by
          rw [List.countP_eq_zero]
          intro x hx
          have := b e he x hx
          simp
          omega
        have c3 : v.countP (fun e => decide (key mx neutral < key mx e.1)) = v.length := by
          have := List.countP_le_length (p := fun x : Int × Nat => decide (key mx neutral < key mx x.1)) (l := v)
          omega
        have := List.countP_eq_length.1 c3 e he
        simp at this
        omega
      have := hs0.filter (fun e => decide (key mx neutral < key mx e.1))
      rw [List.filter_eq_self.2 hall, List.filter_append, List.filter_eq_self.2 hz, hfill, List.append_nil] at this
      exact this
    · rw [hn (fun r hr => by have : ¬ (d r).length < k := fun h' => hshort ⟨r, hr, h'⟩
                             omega), List.append_nil] at hs0
      exact hs0
  refine ⟨fun e he => List.mem_zipIdx_iff_getElem?.1 (hsub.subset he), ?_⟩
  obtain ⟨l, hl1, hl2⟩ := hsub
  rw [← (hl1.map Prod.snd).nodup_iff]
  refine (hl2.map Prod.snd).nodup ?_
  rw [List.zipIdx_map_snd]
  exact List.nodup_range'

/-- The offsets are right if every process has one element. -/
theorem topkOffset_one (P r : Nat) (hr : r < P) : topkOffset 1 P r = r := by
  unfold topkOffset
  by_cases hr0 : r = 0
  · rw [hr0, Nat.mul_zero]
  · have h1 : 1 / P = 0 := Nat.div_eq_of_lt (by omega)
    have h2 : 1 % P = 1 := Nat.mod_eq_of_lt (by omega)
    unfold chunkRange
    dsimp only
    rw [h1, h2, if_neg (by omega), Nat.mul_zero, Nat.zero_add, Nat.one_mul]

/-- **C86.**  One column per process (the case in the test suite): the indices are right. -/
theorem topk_indices_one_partial {mx : Bool} {T : Nat → List (Int × Nat) → List (Int × Nat)} (hT : TopkLaw mx T) {neutral : Int} {k P : Nat} {d : Nat → List Int}
    (h1 : ∀ r < P, (d r).length = 1) (hk : k ≤ P) (hn : ∀ v ∈ content P d, key mx neutral < key mx v) {v : List (Int × Nat)} (h : TopkResult T id neutral true k P d v) :
    EntriesOf (content P d) v ∧ v.map Prod.fst = bestValues mx k (content P d) := by
  have hl : ∀ j ≤ P, (content j d).length = j := by
    intro j hj
    induction j with
    | zero => rfl
    | succ j ih => rw [content_succ, List.length_append, ih (by omega), h1 j (by omega)]
  refine ⟨topk_indices_partial hT (fun r hr _ => ?_) (fun _ _ => rfl) (by rw [hl P (Nat.le_refl _)]; exact hk) (fun _ => ⟨rfl, hn⟩) h,
    topk_values_partial hT (fun _ _ => rfl) (by rw [hl P (Nat.le_refl _)]; exact hk) (fun _ => ⟨rfl, fun v hv => Int.le_of_lt (hn v hv)⟩) h⟩
  rw [h1 r hr, topkOffset_one P r hr]
  exact (hl r (by omega)).symm

/-- **C86, violated.**  With two or more elements on process 1 of a canonically distributed array (`c` per process), its offset is not the global position of its first element,
for every number of processes. -/
theorem topk_offset_violated (c P : Nat) (hc : 2 ≤ c) (hP : 2 ≤ P) : topkOffset c P 1 ≠ c := by
  unfold topkOffset chunkRange
  dsimp only
  have hd : c / P * P + c % P = c := by rw [Nat.mul_comm]; exact Nat.div_add_mod c P
  have hm := Nat.mod_lt c (show 0 < P by omega)
  generalize c / P = q at *
  generalize c % P = m at *
  rcases Nat.lt_or_ge 1 m with h | h
  · rw [if_pos h]
    have : q * 3 ≤ q * P := Nat.mul_le_mul_left q (by omega)
    omega
  · rw [if_neg (by omega)]
    have : q * 2 ≤ q * P := Nat.mul_le_mul_left q hP
    by_cases hq : q = 1
    · subst hq; omega
    · omega

/-! ## An implementation of `torch.topk` -/

/-- The order of the entries. -/
def entryGe (mx : Bool) (a b : Int × Nat) : Prop := key mx b.1 ≤ key mx a.1

instance (mx : Bool) : DecidableRel (entryGe mx) := fun a b => inferInstanceAs (Decidable (key mx b.1 ≤ key mx a.1))
instance (mx : Bool) : Std.Total (entryGe mx) := ⟨fun a b => by unfold entryGe; omega⟩
instance (mx : Bool) : IsTrans _ (entryGe mx) := ⟨fun a b c h1 h2 => by unfold entryGe at *; omega⟩

/-- Sort, take. -/
def sortTopk (mx : Bool) (k : Nat) (l : List (Int × Nat)) : List (Int × Nat) := (l.insertionSort (entryGe mx)).take k

theorem sortTopk_law (mx : Bool) : TopkLaw mx (sortTopk mx) := by
  intro k l hk
  have hs : (l.insertionSort (entryGe mx)).Pairwise (entryGe mx) := List.pairwise_insertionSort _ l
  have hp := List.perm_insertionSort (entryGe mx) l
  have hl := List.length_insertionSort (entryGe mx) l
  unfold sortTopk
  generalize l.insertionSort (entryGe mx) = m at *
  have hsplit := List.take_append_drop k m
  rw [← hsplit, List.pairwise_append] at hs
  exact ⟨⟨m.drop k, by rw [hsplit]; exact hp, by rw [List.length_take]; omega, hs.2.2⟩, hs.1⟩

/-- Two processes combine in rank order. -/
theorem topk_two (T : Nat → List (Int × Nat) → List (Int × Nat)) (conv : Int → Int) (neutral : Int) (pads : Bool) (k : Nat) (d : Nat → List Int) (p q : List (Int × Nat))
    (h0 : topkLocal T conv neutral pads k 2 0 (d 0) = .ok p) (h1 : topkLocal T conv neutral pads k 2 1 (d 1) = .ok q) : TopkResult T conv neutral pads k 2 d (T k (p ++ q)) := by
  refine ⟨fun r => if r = 0 then p else q, ?_, ?_⟩
  · intro r hr
    have : r = 0 ∨ r = 1 := by omega
    rcases this with rfl | rfl
    · simpa using h0
    · simpa using h1
  · exact Combine.node (Combine.one p) (Combine.one q) (List.Perm.refl _)

/-- The hypotheses of the theorems are met: the two largest of 4, 9, 7 on two processes. -/
example : ∃ v, TopkResult (sortTopk true) id (-127) true 2 2 (fun r => if r = 0 then [4, 9] else [7]) v ∧ v.map Prod.fst = bestValues true 2 [4, 9, 7] ∧ v.map Prod.fst = [9, 7] := by
  refine ⟨_, topk_two _ _ _ _ _ _ _ _ rfl rfl, ?_, by decide +kernel⟩
  exact topk_values_partial (sortTopk_law true) (conv := id) (neutral := -127) (pads := true) (k := 2) (P := 2) (d := fun r => if r = 0 then [4, 9] else [7]) (fun _ _ => rfl)
    (by decide +kernel) (fun _ => ⟨rfl, by decide +kernel⟩) (topk_two _ _ _ _ _ _ _ _ rfl rfl)

/-- … and of the one about indices: three processes with one column each would do, here two. -/
example : ∃ v, TopkResult (sortTopk false) id 127 true 2 2 (fun r => if r = 0 then [4] else [3]) v ∧ EntriesOf [4, 3] v ∧ v = [(3, 1), (4, 0)] := by
  refine ⟨_, topk_two _ _ _ _ _ _ _ _ rfl rfl, ?_, by decide +kernel⟩
  exact (topk_indices_one_partial (sortTopk_law false) (neutral := 127) (k := 2) (P := 2) (d := fun r => if r = 0 then [4] else [3]) (by decide +kernel)
    (by omega) (by decide +kernel) (topk_two _ _ _ _ _ _ _ _ rfl rfl)).1

/-- **C86, violated.**  `topk([1, 2, 3, 9], 1)` on two processes: value 9, index 2, where the array has a 3. -/
theorem topk_index_violated : ∃ v, TopkResult (sortTopk true) id (-127) false 1 2 (fun r => if r = 0 then [1, 2] else [3, 9]) v ∧ v = [(9, 2)] :=
  ⟨_, topk_two _ _ _ _ _ _ _ _ rfl rfl, by decide +kernel⟩

/-- **C85, violated.**  A vector with fewer than `k` elements on a process: the process raises RuntimeError (the others wait for it), although the vector has `k` elements. -/
theorem topk_short_violated (T : Nat → List (Int × Nat) → List (Int × Nat)) (conv : Int → Int) (neutral : Int) (k P r : Nat) (l : List Int) (h : l.length < k) :
    topkLocal T conv neutral false k P r l = .error .runtimeError := by
  unfold topkLocal
  rw [if_pos h]; rfl

/-- **C85, violated.**  int8 (neutral value -127): the largest of -128, -128 (and a process without columns) is -127, which is not in the array. -/
theorem topk_neutral_violated : ∃ v, TopkResult (sortTopk true) id (-127) true 1 2 (fun r => if r = 0 then [-128, -128] else []) v ∧ v.map Prod.fst = [-127] :=
  ⟨_, topk_two _ _ _ _ _ _ _ _ rfl rfl, by decide +kernel⟩

/-- **C85, violated.**  `k` larger than the extent: no exception, but neutral values at index 0 (numpy and torch raise). -/
theorem topk_too_many_violated : ∃ v, TopkResult (sortTopk true) id (-127) true 3 2 (fun r => if r = 0 then [5] else [4]) v ∧ v.map Prod.fst = [5, 4, -127] :=
  ⟨_, topk_two _ _ _ _ _ _ _ _ rfl rfl, by decide +kernel⟩

/-- **C85, violated.**  Even on one process: int64 values travel as float64, the largest of [2^53 + 1] is 2^53. -/
theorem topk_int64_violated : TopkResult (sortTopk true) toDouble (-(2 ^ 63 - 1)) false 1 1 (fun _ => [2 ^ 53 + 1]) [(2 ^ 53, 0)] :=
  ⟨fun _ => [(2 ^ 53, 0)], fun r hr => by
    have : r = 0 := by omega
    subst this
    decide +kernel, Combine.one _⟩

end Heat
