import Verif.Proof.Dist
/-!
# C06-C10: ownership, is_balanced, redistribute_, balance_, collect_
-/
namespace Heat
open Heat.Spec
variable {α : Type}

theorem countsDispls_get (P : Nat) (lmap : Nat → Int) (r : Nat) (hr : r < P) :
    (countsDispls P lmap).1[r]? = some (lmap r) ∧ (countsDispls P lmap).2[r]? = some (cum lmap r) := by
  constructor
  · simp [countsDispls, hr]
  · cases r with
    | zero => rfl
    | succ r =>
      simp only [countsDispls, List.getElem?_cons_succ]
      rw [List.getElem?_dropLast]
      simp [show r < P by omega, show r < P - 1 by omega]

/-- C06.  For every distribution of an array over `P` ranks (empty ranks allowed), `counts_displs` computed
from the (forced) lshape map is such that every global index `g` lies in `[displs[r], displs[r] + counts[r])`
for exactly one rank `r`, and the slab with global index `g` is the local slab `g - displs[r]` of that rank. -/
theorem counts_displs_ownership (P : Nat) (parts : Nat → List α) (g : Nat)
    (hg : g < (content P parts).length) :
    let cd := countsDispls P (lshapeMapForced (content P parts).length P parts)
    ∃ r, (r < P ∧ ∃ c d : Nat, cd.1[r]? = some (c : Int) ∧ cd.2[r]? = some (d : Int) ∧ d ≤ g ∧ g < d + c ∧
            (content P parts)[g]? = (parts r)[g - d]?) ∧
      ∀ r', (r' < P ∧ ∃ c d : Nat, cd.1[r']? = some (c : Int) ∧ cd.2[r']? = some (d : Int) ∧ d ≤ g ∧ g < d + c) →
        r' = r := by
  intro cd
  have hget : ∀ r < P, cd.1[r]? = some (((parts r).length : Nat) : Int) ∧
      cd.2[r]? = some ((startOf parts r : Nat) : Int) := by
    intro r hr
    have := countsDispls_get P (lshapeMapForced (content P parts).length P parts) r hr
    rw [lshapeMapForced_eq _ _ _ _ hr,
      cum_eq_content _ parts r (fun i hi => lshapeMapForced_eq _ _ _ _ (by omega))] at this
    exact this
  obtain ⟨r, hr, h1, h2⟩ := startOf_owner parts P g hg
  rw [startOf_succ] at h2
  refine ⟨r, ⟨hr, _, _, (hget r hr).1, (hget r hr).2, h1, h2, ?_⟩, ?_⟩
  · have := content_get parts P r (g - startOf parts r) hr (by omega)
    rw [show startOf parts r + (g - startOf parts r) = g by omega] at this
    rw [this]; simp
  · rintro r' ⟨hr', c, d, h3, h4, h5, h6⟩
    rw [(hget r' hr').1] at h3
    rw [(hget r' hr').2] at h4
    have e3 : (parts r').length = c := by simp at h3; omega
    have e4 : startOf parts r' = d := by simp at h4; omega
    apply startOf_owner_unique parts g r' r
    · omega
    · rw [startOf_succ]; omega
    · exact h1
    · rw [startOf_succ]; exact h2

example : countsDispls 4 (lshapeMapForced 5 4 fun r => [[10, 11], [], [12, 13, 14], []].getD r []) =
    ([2, 0, 3, 0], [0, 2, 2, 5]) := by decide

/-- C07.  `is_balanced(force_check=True)` answers True exactly when every rank holds the share that `chunk`
assigns to it. The answer is computed from an allreduce, so it is one value for all ranks. -/
theorem is_balanced_iff (P : Nat) (parts : Nat → List α) :
    isBalancedCheck (content P parts).length P parts = true ↔
      ∀ r < P, ∃ c, chunk [(content P parts).length] (some 0) r P = .ok c ∧ c.lshape = [(parts r).length] := by
  rw [isBalancedCheck_iff]
  have hc : ∀ n r : Nat, chunk [n] (some 0) r P =
      .ok ⟨(chunkRange n r P).1, [(chunkRange n r P).2 - (chunkRange n r P).1], [chunkRange n r P]⟩ := by
    intro n r; rfl
  constructor
  · intro h r hr
    refine ⟨_, hc _ r, ?_⟩
    simp only [chunkRange_size]
    rw [h r hr]
  · intro h r hr
    obtain ⟨c, h1, h2⟩ := h r hr
    rw [hc] at h1
    cases h1
    simp only [chunkRange_size, List.cons.injEq, and_true] at h2
    exact h2.symm

/-- C07, in terms of the specification: `is_balanced` is `Balanced`. -/
theorem is_balanced_iff_spec (P : Nat) (parts : Nat → List α) :
    isBalancedCheck (content P parts).length P parts = true ↔ Balanced P parts :=
  isBalancedCheck_iff _ _ _

example : isBalancedCheck 5 2 (fun r => [[1, 2, 3], [4, 5]].getD r []) = true ∧
    isBalancedCheck 5 2 (fun r => [[1, 2], [3, 4, 5]].getD r []) = false := by decide

/-- C08.  For every current distribution on `P` ranks and every non-negative target map with matching sum,
`redistribute_` finishes with recursion depth at most two, every rank then holds exactly the requested number
of slabs, and the global array is unchanged. -/
theorem redistribute_spec (P : Nat) (hP : 1 < P) (parts : Nat → List α) (target : Nat → Nat)
    (hsum : ((List.range P).map target).sum = (content P parts).length) (fuel : Nat) (hfuel : 2 ≤ fuel) :
    ∃ parts', redistribute fuel (content P parts).length P (some fun r => (target r : Int)) parts = .ok parts' ∧
      content P parts' = content P parts ∧ ∀ r < P, (parts' r).length = target r := by
  have hcum : ∀ k, cum (fun r => (target r : Int)) k = (((List.range k).map target).sum : Nat) := by
    intro k
    induction k with
    | zero => rfl
    | succ k ih => rw [cum, ih, List.range_succ]; simp
  unfold redistribute
  rw [if_neg (by omega)]
  simp only
  rw [hcum, if_neg (by simp [hsum])]
  obtain ⟨p', h1, h2, h3⟩ := redistLoop_spec hP (target := fun r => (target r : Int))
    (lmap := lshapeMapForced (content P parts).length P parts) (parts := parts)
    (fun i _ => by simp) (by rw [hcum, hsum]) (fun i hi => lshapeMapForced_eq _ _ _ _ hi) fuel hfuel
  exact ⟨p', h1, h2, fun r hr => by have := h3 r hr; omega⟩

/-- C08, error branch: a target map with the wrong sum raises ValueError. -/
theorem redistribute_bad_sum (P : Nat) (hP : 1 < P) (parts : Nat → List α) (target : Nat → Int)
    (hsum : cum target P ≠ ((content P parts).length : Int)) (fuel : Nat) :
    redistribute fuel (content P parts).length P (some target) parts = .error .valueError := by
  unfold redistribute
  rw [if_neg (by omega)]
  simp [hsum]

/-- The second pass of C08 is really needed: one pass is not enough for this distribution. -/
theorem redistribute_needs_two_passes :
    let parts : Nat → List Nat := fun r => [[0, 1, 2], [], [3, 4, 5]].getD r []
    let target : Nat → Nat := fun r => [1, 4, 1].getD r 0
    redistribute 1 6 3 (some fun r => (target r : Int)) parts matches .error .recursionError := by
  decide

example : ∃ parts', redistribute 2 6 3 (some fun r => (([1, 4, 1].getD r 0 : Nat) : Int))
      (fun r => [[0, 1, 2], [], [3, 4, 5]].getD r []) = .ok parts' ∧
    (List.range 3).map parts' = [[0], [1, 2, 3, 4], [5]] := ⟨_, rfl, by decide⟩

/-- C09.  `balance_` leaves the array balanced (`is_balanced(force_check=True)`) and unchanged. -/
theorem balance_spec (P : Nat) (hP : 0 < P) (parts : Nat → List α) (fuel : Nat) (hfuel : 2 ≤ fuel) :
    ∃ parts', balance fuel (content P parts).length P parts = .ok parts' ∧
      content P parts' = content P parts ∧ Balanced P parts' ∧
      isBalancedCheck (content P parts').length P parts' = true := by
  suffices h : ∃ parts', balance fuel (content P parts).length P parts = .ok parts' ∧
      content P parts' = content P parts ∧ Balanced P parts' by
    obtain ⟨p, h1, h2, h3⟩ := h
    exact ⟨p, h1, h2, h3, (is_balanced_iff_spec P p).2 h3⟩
  unfold balance
  by_cases h : P ≤ 1 ∨ isBalancedCheck (content P parts).length P parts = true
  · rw [if_pos h]
    refine ⟨parts, rfl, rfl, ?_⟩
    rcases h with h | h
    · have : P = 1 := by omega
      subst this
      intro r hr
      have : r = 0 := by omega
      subst this
      simp [content, evenSize, Nat.mod_one]
    · exact (is_balanced_iff_spec P parts).1 h
  · rw [if_neg h]
    have hP1 : 1 < P := by omega
    unfold redistribute
    rw [if_neg (by omega)]
    simp only
    have hcum : ∀ k, k ≤ P → cum (fun r => (((chunkRange (content P parts).length r P).2 -
        (chunkRange (content P parts).length r P).1 : Nat) : Int)) k =
        ((chunkRange (content P parts).length k P).1 : Int) := by
      intro k
      induction k with
      | zero => intro _; simp [cum, chunkRange_zero]
      | succ k ih =>
        intro hk
        rw [cum, ih (by omega), chunkRange_succ, chunkRange_size, chunkRange_snd]; simp
    obtain ⟨p', h1, h2, h3⟩ := redistLoop_spec hP1
      (target := fun r => (((chunkRange (content P parts).length r P).2 -
        (chunkRange (content P parts).length r P).1 : Nat) : Int))
      (lmap := lshapeMapForced (content P parts).length P parts) (parts := parts)
      (fun i _ => by omega) (by rw [hcum P (Nat.le_refl _), chunkRange_at_P _ _ hP])
      (fun i hi => lshapeMapForced_eq _ _ _ _ hi) fuel hfuel
    refine ⟨p', h1, h2, ?_⟩
    intro r hr
    have := h3 r hr
    rw [chunkRange_size] at this
    rw [h2]; omega

/-- C09, idempotence: on a balanced array `balance_` moves nothing. -/
theorem balance_idem (P : Nat) (parts : Nat → List α) (fuel : Nat) (h : Balanced P parts) :
    balance fuel (content P parts).length P parts = .ok parts := by
  unfold balance
  rw [if_pos (Or.inr ((is_balanced_iff_spec P parts).2 h))]

example : ∃ parts', balance 2 7 3 (fun r => [[0], [1, 2, 3, 4, 5, 6], []].getD r []) = .ok parts' ∧
    (List.range 3).map parts' = [[0, 1, 2], [3, 4], [5, 6]] := ⟨_, rfl, by decide⟩

/-- C10.  `collect_(t)` with `0 ≤ t < P` puts the whole array, in order, on rank `t`; the others are empty. -/
theorem collect_spec (P t : Nat) (ht : t < P) (parts : Nat → List α) (fuel : Nat) (hfuel : 2 ≤ fuel) :
    ∃ parts', collect fuel (content P parts).length P (t : Int) parts = .ok parts' ∧
      parts' t = content P parts ∧ ∀ r < P, r ≠ t → parts' r = [] := by
  unfold collect
  rw [if_neg (by omega)]
  by_cases hP : P ≤ 1
  · rw [if_pos hP]
    have h1 : P = 1 := by omega
    have h0 : t = 0 := by omega
    subst h1; subst h0
    exact ⟨parts, rfl, by simp [content], fun r hr h => by omega⟩
  · rw [if_neg hP, if_neg (by omega)]
    simp only
    rw [if_neg (by omega)]
    simp only [Int.toNat_natCast]
    have hsum : ∀ k, ((List.range k).map fun r => if r = t then (content P parts).length else 0).sum =
        if t < k then (content P parts).length else 0 := by
      intro k
      induction k with
      | zero => simp
      | succ k ih =>
        rw [List.range_succ, List.map_append, List.sum_append, ih]
        simp only [List.map_cons, List.map_nil, List.sum_cons, List.sum_nil]
        by_cases h1 : t < k
        · simp [h1, show t < k + 1 by omega, show k ≠ t by omega]
        · by_cases h2 : k = t
          · simp [h2]
          · simp [h1, h2, show ¬ t < k + 1 by omega]
    have hfun : (fun r => if r = t then ((content P parts).length : Int) else 0) =
        fun r => (((if r = t then (content P parts).length else 0 : Nat)) : Int) := by
      funext r; split <;> simp
    rw [hfun]
    obtain ⟨p', h1, h2, h3⟩ := redistribute_spec P (by omega) parts
      (fun r => if r = t then (content P parts).length else 0) (by rw [hsum, if_pos ht]) fuel hfuel
    have hemp : ∀ r < P, r ≠ t → p' r = [] := by
      intro r hr hne
      apply List.eq_nil_of_length_eq_zero
      rw [h3 r hr, if_neg hne]
    refine ⟨p', h1, ?_, hemp⟩
    have e1 : content P p' = content (t + 1) p' :=
      content_all_empty p' (t + 1) P (by omega) (fun i h4 h5 => hemp i h5 (by omega))
    have e2 : content t p' = content 0 p' :=
      content_all_empty p' 0 t (by omega) (fun i h4 h5 => hemp i (by omega) (by omega))
    rw [← h2, e1, content_succ, e2]; simp [content_zero]

/-- C10, error branch. -/
theorem collect_out_of_bounds (P : Nat) (t : Int) (ht : (P : Int) ≤ t) (parts : Nat → List α) (fuel n : Nat) :
    collect fuel n P t parts = .error .valueError := by
  unfold collect; rw [if_pos ht]

/-- Observation beside C10: negative target ranks are *not* rejected; `collect_(-1)` collects on the last rank. -/
theorem collect_negative (P : Nat) (hP : 1 < P) (k : Nat) (hk : 0 < k) (hk2 : k ≤ P) (parts : Nat → List α)
    (fuel n : Nat) : collect fuel n P (-(k : Int)) parts = collect fuel n P ((P - k : Nat) : Int) parts := by
  have hk3 : (((P - k : Nat)) : Int) = P - k := by omega
  unfold collect
  rw [hk3]
  rw [if_neg (show ¬ (-(k : Int) ≥ P) by omega), if_neg (show ¬ P ≤ 1 by omega),
    if_neg (show ¬ (-(k : Int) < -(P : Int)) by omega), if_neg (show ¬ ((P : Int) - k ≥ P) by omega),
    if_neg (show ¬ P ≤ 1 by omega), if_neg (show ¬ ((P : Int) - k < -(P : Int)) by omega)]
  simp only
  rw [if_pos (show -(k : Int) < 0 by omega), if_neg (show ¬ ((P : Int) - k < 0) by omega)]
  rw [show (-(k : Int) + P) = P - k by omega]

example : ∃ parts', collect 2 5 3 1 (fun r => [[0, 1], [2], [3, 4]].getD r []) = .ok parts' ∧
    (List.range 3).map parts' = [[], [0, 1, 2, 3, 4], []] := ⟨_, rfl, by decide⟩

end Heat
