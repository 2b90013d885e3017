import Verif.Model.SplitOther
import Verif.Props.Split
/-!
# C201 `split` along an axis that is not distributed
-/
namespace Heat
open Heat.Spec
variable {α : Type}

/-- Entries `a` to `b` of every row. -/
def Spec.columns (a b : Nat) (rows : List (List α)) : List (List α) := rows.map fun row => (row.take b).drop a

theorem cutRows_spec (sizes : List Nat) (k : Nat) (f : Nat → Nat) (h0 : f 0 = 0) (hm : ∀ i, f i ≤ f (i + 1)) (hs : sizes = (List.range k).map fun i => f (i + 1) - f i) (rows : List (List α)) (i : Nat) (hi : i < k) :
    cutRows sizes rows i = columns (f i) (f (i + 1)) rows := by
  subst hs
  unfold cutRows columns
  have e1 : (((List.range k).map fun i => f (i + 1) - f i).take i).sum = f i := by
    rw [← List.map_take, List.take_range, Nat.min_eq_left (by omega), sum_telescope f h0 hm]
  have e2 : ((List.range k).map fun i => f (i + 1) - f i).getD i 0 = f (i + 1) - f i := by
    rw [List.getD_eq_getElem?_getD, List.getElem?_map, List.getElem?_range hi]; rfl
  rw [e1, e2]
  apply List.map_congr_left
  intro row _
  rw [List.drop_take]

/-- The sub-arrays for sizes that are the differences of `f`. -/
theorem splitOther_spec (fuel : Nat) (hfuel : 2 ≤ fuel) (P : Nat) (hP : 0 < P) (sizes : List Nat) (k : Nat) (f : Nat → Nat) (h0 : f 0 = 0) (hm : ∀ i, f i ≤ f (i + 1)) (hs : sizes = (List.range k).map fun i => f (i + 1) - f i)
    (d : Nat → List (List α)) :
    ∃ subs : Nat → Nat → List (List α), splitOther fuel P (.ok sizes) d = .ok ((List.range k).map subs) ∧ ∀ i < k, content P (subs i) = columns (f i) (f (i + 1)) (content P d) ∧ Balanced P (subs i) := by
  have hk : sizes.length = k := by subst hs; simp
  have h : ∀ i, ∃ sub : Nat → List (List α), i < k → (balance fuel (((List.range P).map fun r => (cutRows sizes (d r) i).length).sum) P (fun r => cutRows sizes (d r) i) = .ok sub ∧
      content P sub = columns (f i) (f (i + 1)) (content P d) ∧ Balanced P sub) := by
    intro i
    by_cases hi : i < k
    · obtain ⟨sub, h1, h2, h3, _⟩ := balance_spec P hP (fun r => cutRows sizes (d r) i) fuel hfuel
      refine ⟨sub, fun _ => ⟨by rw [← h1, content_length_sum], ?_, h3⟩⟩
      rw [h2]
      have : (fun r => cutRows sizes (d r) i) = fun r => columns (f i) (f (i + 1)) (d r) := funext fun r => cutRows_spec sizes k f h0 hm hs (d r) i hi
      rw [this]
      unfold columns
      rw [content_map]
    · exact ⟨fun _ => [], fun h => absurd h hi⟩
  choose subs hsub using h
  refine ⟨subs, ?_, fun i hi => (hsub i hi).2⟩
  unfold splitOther
  simp only
  rw [hk]
  exact mapM_range_eq _ _ k fun i hi => (hsub i hi).1

theorem splitReplicated_spec (sizes : List Nat) (k : Nat) (f : Nat → Nat) (h0 : f 0 = 0) (hm : ∀ i, f i ≤ f (i + 1)) (hs : sizes = (List.range k).map fun i => f (i + 1) - f i) (rows : List (List α)) :
    splitReplicated (.ok sizes) rows = .ok ((List.range k).map fun i => columns (f i) (f (i + 1)) rows) := by
  have hk : sizes.length = k := by subst hs; simp
  unfold splitReplicated
  simp only
  rw [hk]
  congr 1
  apply List.map_congr_left
  intro i hi
  exact cutRows_spec sizes k f h0 hm hs rows i (List.mem_range.1 hi)

/-! ## the sizes -/

theorem intSizes_eq (n s : Nat) (hn : 0 < n) (hs : 0 < s) (hd : n % s = 0) : intSizes n (s : Int) = .ok ((List.range s).map fun i => (i + 1) * (n / s) - i * (n / s)) := by
  have hq : n = s * (n / s) := (Nat.mul_div_cancel' (Nat.dvd_of_mod_eq_zero hd)).symm
  have hq0 : 0 < n / s := Nat.pos_of_ne_zero fun h => by rw [h] at hq; omega
  unfold intSizes
  rw [if_neg (by omega), if_neg (by
    rw [Int.fmod_eq_emod_of_nonneg _ (by omega)]
    simp only [ne_eq, not_not]
    exact_mod_cast hd)]
  rw [Int.fdiv_eq_ediv_of_nonneg _ (by omega)]
  have e : ((n : Int) / (s : Int)) = ((n / s : Nat) : Int) := by norm_cast
  rw [e]
  generalize n / s = q at *
  unfold chunkSizes
  rw [if_neg (by omega), if_neg (by omega), if_neg (by omega), Int.toNat_natCast]
  have e2 : (n + q - 1) / q = s := by
    rw [hq, show s * q + q - 1 = (q - 1) + q * s by rw [Nat.mul_comm]; omega, Nat.add_mul_div_left _ _ hq0, Nat.div_eq_of_lt (by omega), Nat.zero_add]
  rw [e2]
  congr 1
  apply List.map_congr_left
  intro i hi
  have hi := List.mem_range.1 hi
  have h1 : (i + 1) * q ≤ s * q := Nat.mul_le_mul_right q (by omega)
  rw [Nat.add_mul, Nat.one_mul] at h1 ⊢
  omega

theorem listSizes_eq (n : Nat) (inds : List Int) (hs : inds.Pairwise (· ≤ ·)) (h0 : ∀ v ∈ inds, 0 ≤ v) : listSizes n inds = .ok ((List.range (inds.length + 1)).map fun i => cuts inds n (i + 1) - cuts inds n i) := by
  have hB := cuts_mono inds n hs
  have hget : ∀ k ≤ inds.length + 1, ((0 : Int) :: (inds.map fun (v : Int) => if v ≤ (n : Int) then v else (n : Int)) ++ [(n : Int)]).getD k 0 = (cuts inds n k : Int) := by
    intro k hk
    unfold cuts
    rcases Nat.eq_zero_or_pos k with rfl | hpos
    · simp
    · obtain ⟨j, rfl⟩ : ∃ j, k = j + 1 := ⟨k - 1, by omega⟩
      rw [List.cons_append, List.getD_cons_succ, List.cons_append, List.getD_cons_succ]
      by_cases hj : j < inds.length
      · rw [List.getD_eq_getElem?_getD, List.getElem?_append_left (by simpa using hj), List.getElem?_map, List.getElem?_eq_getElem hj,
          List.getD_eq_getElem?_getD, List.getElem?_append_left hj, List.getElem?_eq_getElem hj]
        simp only [Option.map_some, Option.getD_some]
        have := h0 _ (List.getElem_mem hj)
        split <;> omega
      · have : j = inds.length := by omega
        subst this
        rw [List.getD_eq_getElem?_getD, List.getElem?_append_right (by simp), List.getD_eq_getElem?_getD, List.getElem?_append_right (by omega)]
        simp
  have hd : diffs ((0 : Int) :: (inds.map fun (v : Int) => if v ≤ (n : Int) then v else (n : Int)) ++ [(n : Int)]) = (List.range (inds.length + 1)).map fun i => ((cuts inds n (i + 1) - cuts inds n i : Nat) : Int) := by
    rw [diffs_eq]
    have hlen : ((0 : Int) :: (inds.map fun (v : Int) => if v ≤ (n : Int) then v else (n : Int)) ++ [(n : Int)]).length - 1 = inds.length + 1 := by simp
    rw [hlen]
    refine List.map_congr_left fun i hi => ?_
    have hi := List.mem_range.1 hi
    rw [hget i (by omega), hget (i + 1) (by omega)]
    have := hB i
    omega
  have hc0 : cuts inds n 0 = 0 := by unfold cuts; simp
  have hcn : cuts inds n (inds.length + 1) = n := by unfold cuts; simp
  have hsum : ((List.range (inds.length + 1)).map fun i => ((cuts inds n (i + 1) - cuts inds n i : Nat) : Int)).sum = n := by
    have cast : ∀ l : List Nat, (l.map fun (x : Nat) => (x : Int)).sum = (l.sum : Int) := by
      intro l
      induction l with
      | nil => rfl
      | cons x l ih => rw [List.map_cons, List.sum_cons, List.sum_cons, ih]; push_cast; rfl
    have := cast ((List.range (inds.length + 1)).map fun i => cuts inds n (i + 1) - cuts inds n i)
    rw [List.map_map, sum_telescope _ hc0 hB, hcn] at this
    exact this
  unfold listSizes givenSizes
  rw [hd, if_neg, if_pos hsum, List.map_map]
  · rfl
  · simp only [List.any_map, Bool.not_eq_true, List.any_eq_false, Function.comp]
    intro i _
    exact decide_eq_false (by omega)

/-! ## C201 -/

/-- **C201, integer:** for every distribution (even or not) of the rows, an axis of length `n > 0` that `s` divides gives `s` sub-arrays, number `i` holding the columns from `i * (n / s)` to `(i + 1) * (n / s)` of every row, evenly distributed. -/
theorem split_other_int_partial (fuel : Nat) (hfuel : 2 ≤ fuel) (P : Nat) (hP : 0 < P) (n s : Nat) (hn : 0 < n) (hs : 0 < s) (hd : n % s = 0) (d : Nat → List (List α)) :
    ∃ subs : Nat → Nat → List (List α), splitOther fuel P (intSizes n (s : Int)) d = .ok ((List.range s).map subs) ∧ ∀ i < s, content P (subs i) = columns (i * (n / s)) ((i + 1) * (n / s)) (content P d) ∧ Balanced P (subs i) := by
  rw [intSizes_eq n s hn hs hd]
  exact splitOther_spec fuel hfuel P hP _ s (fun i => i * (n / s)) (by simp) (fun i => Nat.mul_le_mul_right _ (by omega)) rfl d

theorem split_replicated_int_partial (n s : Nat) (hn : 0 < n) (hs : 0 < s) (hd : n % s = 0) (rows : List (List α)) :
    splitReplicated (intSizes n (s : Int)) rows = .ok ((List.range s).map fun i => columns (i * (n / s)) ((i + 1) * (n / s)) rows) := by
  rw [intSizes_eq n s hn hs hd]
  exact splitReplicated_spec _ s (fun i => i * (n / s)) (by simp) (fun i => Nat.mul_le_mul_right _ (by omega)) rfl rows

/-- A length that the number of parts does not divide is refused, as by numpy. -/
theorem split_other_refused (fuel P n s : Nat) (hs : 0 < s) (hd : n % s ≠ 0) (d : Nat → List (List α)) : splitOther fuel P (intSizes n (s : Int)) d = .error .valueError := by
  have : intSizes n (s : Int) = .error .valueError := by
    unfold intSizes
    rw [if_neg (by omega), if_pos (by
      rw [Int.fmod_eq_emod_of_nonneg _ (by omega)]
      exact_mod_cast hd)]
  rw [this]
  rfl

/-- **C201, indices:** increasing non-negative indices cut every row there; indices behind the end give empty parts. -/
theorem split_other_list_partial (fuel : Nat) (hfuel : 2 ≤ fuel) (P : Nat) (hP : 0 < P) (n : Nat) (inds : List Int) (hs : inds.Pairwise (· ≤ ·)) (h0 : ∀ v ∈ inds, 0 ≤ v) (d : Nat → List (List α)) :
    ∃ subs : Nat → Nat → List (List α), splitOther fuel P (listSizes n inds) d = .ok ((List.range (inds.length + 1)).map subs) ∧
      ∀ i < inds.length + 1, content P (subs i) = columns (cuts inds n i) (cuts inds n (i + 1)) (content P d) ∧ Balanced P (subs i) := by
  rw [listSizes_eq n inds hs h0]
  exact splitOther_spec fuel hfuel P hP _ (inds.length + 1) (cuts inds n) (by unfold cuts; simp) (cuts_mono inds n hs) rfl d

theorem split_replicated_list_partial (n : Nat) (inds : List Int) (hs : inds.Pairwise (· ≤ ·)) (h0 : ∀ v ∈ inds, 0 ≤ v) (rows : List (List α)) :
    splitReplicated (listSizes n inds) rows = .ok ((List.range (inds.length + 1)).map fun i => columns (cuts inds n i) (cuts inds n (i + 1)) rows) := by
  rw [listSizes_eq n inds hs h0]
  exact splitReplicated_spec _ (inds.length + 1) (cuts inds n) (by unfold cuts; simp) (cuts_mono inds n hs) rfl rows

/-- **C201 violated (length 0):** an empty axis is one sub-array, whatever the number of parts asked for (numpy returns that many). -/
theorem split_empty_violated (s : Int) (hs : s ≠ 0) (rows : List (List α)) : ∃ sub, splitReplicated (intSizes 0 s) rows = .ok [sub] := by
  have : intSizes 0 s = .ok [0] := by
    unfold intSizes chunkSizes
    simp [hs]
  rw [this]
  exact ⟨_, rfl⟩

theorem diffs_nonneg_le : ∀ (a : Int) (t : List Int), (diffs (a :: t)).any (· < 0) = false → ∀ x ∈ t, a ≤ x
  | _, [], _, x, hx => by simp at hx
  | a, b :: t, h, x, hx => by
    rw [diffs, List.any_cons, Bool.or_eq_false_iff] at h
    have h1 : ¬ (b - a < 0) := by simpa using h.1
    have ih := diffs_nonneg_le b t h.2
    rcases List.mem_cons.1 hx with e | hx
    · omega
    · have := ih x hx
      omega

/-- **C201 violated (negative indices):** numpy counts negative indices from the end; here any negative index is a RuntimeError of torch. -/
theorem split_negative_violated (fuel P n : Nat) (inds : List Int) (v : Int) (hv : v ∈ inds) (hneg : v < 0) (d : Nat → List (List α)) : splitOther fuel P (listSizes n inds) d = .error .runtimeError := by
  have : listSizes n inds = .error .runtimeError := by
    unfold listSizes givenSizes
    rw [if_pos]
    by_contra hc
    have hc' : (diffs ((0 : Int) :: ((inds.map fun (v : Int) => if v ≤ (n : Int) then v else (n : Int)) ++ [(n : Int)]))).any (· < 0) = false := by
      rw [← List.cons_append]
      exact Bool.eq_false_iff.2 hc
    have := diffs_nonneg_le 0 _ hc' v (by
      apply List.mem_append_left
      exact List.mem_map.2 ⟨v, hv, if_pos (by omega)⟩)
    omega
  rw [this]
  rfl

example : splitReplicated (listSizes 4 [1, 9]) [[1, 2, 3, 4], [5, 6, 7, 8]] = .ok [[[1], [5]], [[2, 3, 4], [6, 7, 8]], [[], []]] := by rfl
example : splitReplicated (intSizes 4 2) [[1, 2, 3, 4], [5, 6, 7, 8]] = .ok [[[1, 2], [5, 6]], [[3, 4], [7, 8]]] := by rfl
example : splitReplicated (intSizes 0 3) [([] : List Nat), []] = .ok [[[], []]] := by rfl

end Heat
