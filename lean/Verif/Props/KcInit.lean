import Verif.Model.KcInit
import Verif.Props.Indexing
/-!
# C151: initial cluster centres
-/
namespace Heat
open Heat.Spec
variable {α : Type}

/-- Adding an element in front of one part. -/
theorem content_insert_perm (P r0 : Nat) (h : r0 < P) (x : α) (d : Nat → List α) :
    (content P fun r => if r = r0 then x :: d r else d r).Perm (x :: content P d) := by
  induction P with
  | zero => omega
  | succ k ih =>
    rw [content_succ, content_succ]
    by_cases e : k = r0
    · rw [if_pos e]
      have : content k (fun r => if r = r0 then x :: d r else d r) = content k d := content_congr fun i hi => by rw [if_neg (by omega)]
      rw [this]
      exact List.perm_middle
    · rw [if_neg e]
      exact (ih (by omega)).append_right (d k)

theorem content_nils (P : Nat) : content P (fun _ => ([] : List α)) = [] := by
  induction P with
  | zero => rfl
  | succ k ih => rw [content_succ, ih]; rfl

/-- The local selections of all processes together are the selected slabs, each as often as its position occurs. -/
theorem local_select_perm (P : Nat) (d : Nat → List α) (inds : List Nat) (h : ∀ i ∈ inds, i < (content P d).length) :
    (content P fun r => ((inds.map Int.ofNat).filter fun i => offs d r ≤ i && i < offs d r + cnts d r).filterMap fun i => (d r)[(i - offs d r).toNat]?).Perm
      (inds.filterMap fun i => (content P d)[i]?) := by
  induction inds with
  | nil => exact List.Perm.of_eq (content_nils P)
  | cons i t ih =>
    have hi := h i List.mem_cons_self
    obtain ⟨r0, hr0, h1, h2⟩ := startOf_owner d P i hi
    have hlen := startOf_succ d r0
    have hget := content_get d P r0 (i - startOf d r0) hr0 (by omega)
    rw [show startOf d r0 + (i - startOf d r0) = i by omega] at hget
    obtain ⟨x, hx⟩ : ∃ x, (content P d)[i]? = some x := ⟨_, List.getElem?_eq_getElem hi⟩
    rw [List.filterMap_cons_some hx]
    refine List.Perm.trans ?_ ((ih fun j hj => h j (List.mem_cons_of_mem _ hj)).cons x)
    refine List.Perm.trans (List.Perm.of_eq ?_) (content_insert_perm P r0 hr0 x _)
    refine content_congr fun r hr => ?_
    rw [List.map_cons]
    by_cases e : r = r0
    · subst e
      rw [if_pos rfl, List.filter_cons_of_pos (by
        simp only [offs, cnts, Int.ofNat_eq_natCast, Bool.and_eq_true, decide_eq_true_eq]; omega)]
      rw [List.filterMap_cons_some (b := x)]
      rw [← hx, hget]
      show (d r)[(Int.ofNat i - offs d r).toNat]? = _
      rw [show (Int.ofNat i - offs d r).toNat = i - startOf d r by simp only [offs, Int.ofNat_eq_natCast]; omega]
      exact List.getElem?_eq_getElem _
    · rw [if_neg e, List.filter_cons_of_neg]
      intro hc
      simp only [offs, cnts, Int.ofNat_eq_natCast, Bool.and_eq_true, decide_eq_true_eq] at hc
      exact e (startOf_owner_unique d i r r0 (by omega) (by rw [startOf_succ]; omega) h1 h2)

theorem ofNat_in_range (n : Nat) (inds : List Nat) (h : ∀ i ∈ inds, i < n) :
    ((inds.map Int.ofNat).any fun i => decide (i < -(n : Int)) || decide (i ≥ (n : Int))) = false := by
  rw [List.any_eq_false]
  intro i hi
  obtain ⟨j, hj, rfl⟩ := List.mem_map.1 hi
  have := h j hj
  simp only [Int.ofNat_eq_natCast, Bool.or_eq_true, decide_eq_true_eq]
  omega

theorem kcIndexed_perm (P : Nat) (d : Nat → List α) (inds : List Nat) (h : ∀ i ∈ inds, i < (content P d).length) (h2 : 2 ≤ inds.length) :
    (kcIndexed P (content P d).length (offs d) (cnts d) d (inds.map Int.ofNat)).Perm (inds.filterMap fun i => (content P d)[i]?) := by
  refine List.Perm.trans (List.Perm.of_eq ?_) (local_select_perm P d inds h)
  unfold kcIndexed
  refine content_congr fun r _ => ?_
  have : getitemList (content P d).length (offs d) (cnts d) d (inds.map Int.ofNat) r =
      .ok (((inds.map Int.ofNat).filter fun i => offs d r ≤ i && i < offs d r + cnts d r).filterMap fun i => (d r)[(i - offs d r).toNat]?) := by
    unfold getitemList
    rw [ofNat_in_range _ inds h, if_neg (by simp), if_pos (by rw [List.length_map]; omega)]
  rw [this]

/-- An index list with fewer than two entries selects nothing. -/
theorem kcIndexed_short (P n : Nat) (starts counts : Nat → Int) (d : Nat → List α) (inds : List Int) (h2 : inds.length ≤ 1) :
    kcIndexed P n starts counts d inds = [] := by
  unfold kcIndexed
  have : ∀ r, (match getitemList n starts counts d inds r with | .ok l => l | .error _ => []) = [] := by
    intro r
    unfold getitemList
    by_cases hb : (inds.any fun i => decide (i < -(n : Int)) || decide (i ≥ (n : Int))) = true
    · rw [if_pos hb]
    · rw [if_neg hb, if_neg (by omega)]
  exact (content_congr (d' := fun _ => ([] : List α)) fun i _ => this i).trans (content_nils P)

/-- **C151 (partial), random initialisation.**  For at least two clusters and samples, in any distribution, the initial centres are the drawn
samples, as many as clusters (in the order of the processes).  Missing: one cluster (`kc_random_one_violated`), one sample
(`kc_random_single_violated`), and the last sample is never drawn (`kc_last_violated`). -/
theorem kc_random_partial (P : Nat) (d : Nat → List α) (draws : List Nat) (b : Nat) (hb : kcBound (content P d).length = .ok b)
    (hd : ∀ i ∈ draws, i < b) (h2 : 2 ≤ draws.length) :
    ∃ c, kcRandom P (content P d).length (offs d) (cnts d) d draws = .ok c ∧
      c.Perm (draws.filterMap fun i => (content P d)[i]?) ∧ c.length = draws.length := by
  have hb' : b ≤ (content P d).length := by
    unfold kcBound at hb
    split at hb
    · cases hb
    · cases hb; omega
  refine ⟨kcIndexed P (content P d).length (offs d) (cnts d) d (draws.map Int.ofNat), ?_, ?_, ?_⟩
  · unfold kcRandom; rw [hb]; rfl
  · exact kcIndexed_perm P d draws (fun i hi => by have := hd i hi; omega) h2
  · rw [(kcIndexed_perm P d draws (fun i hi => by have := hd i hi; omega) h2).length_eq]
    have : ∀ l : List Nat, (∀ i ∈ l, i < (content P d).length) → (l.filterMap fun i => (content P d)[i]?).length = l.length := by
      intro l
      induction l with
      | nil => intro _; rfl
      | cons i t ih =>
        intro h
        rw [List.filterMap_cons_some (List.getElem?_eq_getElem (h i List.mem_cons_self)), List.length_cons, List.length_cons,
          ih fun j hj => h j (List.mem_cons_of_mem _ hj)]
    exact this draws fun i hi => by have := hd i hi; omega

/-- One cluster: the index list has one entry and no process selects anything, so there is no centre. -/
theorem kc_random_one_violated (P : Nat) (d : Nat → List α) (i : Nat) (h : 2 ≤ (content P d).length) :
    kcRandom P (content P d).length (offs d) (cnts d) d [i] = .ok [] := by
  unfold kcRandom kcBound
  rw [if_neg (by omega)]
  show Except.ok _ = _
  rw [kcIndexed_short _ _ _ _ _ _ (by simp)]

/-- One sample: ValueError. -/
theorem kc_random_single_violated (P : Nat) (starts counts : Nat → Int) (d : Nat → List α) (draws : List Nat) :
    kcRandom P 1 starts counts d draws = .error .valueError := rfl

/-- The last sample can never become an initial centre: no admissible draw is its position. -/
theorem kc_last_violated (n b : Nat) (hb : kcBound n = .ok b) (draws : List Nat) (hd : ∀ i ∈ draws, i < b) : n - 1 ∉ draws := by
  intro h
  have := hd _ h
  unfold kcBound at hb
  split at hb
  · cases hb
  · cases hb; omega

/-- Every other one can. -/
theorem kc_others (n : Nat) (hn : 2 ≤ n) (i : Nat) (hi : i < n - 1) : ∃ b, kcBound n = .ok b ∧ i < b := by
  unfold kcBound
  rw [if_neg (by omega)]
  exact ⟨_, rfl, hi⟩

/-! ## k-means|| -/

theorem kcPositions_lt (n : Nat) (sel : Nat → Bool) : ∀ i ∈ kcPositions n sel, i < n := by
  intro i hi
  unfold kcPositions at hi
  exact List.mem_range.1 (List.mem_filter.1 hi).1

theorem filterMap_positions (l : List α) (sel : Nat → Bool) :
    (kcPositions l.length sel).filterMap (fun i => l[i]?) = (l.zipIdx.filter fun p => sel p.2).map Prod.fst := by
  unfold kcPositions
  have : ∀ (k : Nat), k ≤ l.length → ((List.range k).filter sel).filterMap (fun i => l[i]?) = ((l.take k).zipIdx.filter fun p => sel p.2).map Prod.fst := by
    intro k
    induction k with
    | zero => intro _; rfl
    | succ k ih =>
      intro hk
      rw [List.range_succ, List.filter_append, List.filterMap_append, ih (by omega), List.take_succ_eq_append_getElem (by omega),
        List.zipIdx_append, List.filter_append, List.map_append]
      congr 1
      have hlen : (l.take k).length = k := by rw [List.length_take]; omega
      rw [hlen]
      by_cases hs : sel k = true
      · simp [hs, List.getElem?_eq_getElem (show k < l.length by omega)]
      · simp [hs]
  have h := this l.length (Nat.le_refl _)
  rwa [List.take_length] at h

/-- **C151 (partial), candidates.**  Distributed samples: if a round selects none, or at least two samples, the gathered candidates are the
selected samples, each once.  Missing: a round that selects exactly one sample loses it (`kc_round_one_violated`). -/
theorem kc_round_split_partial (P : Nat) (d : Nat → List α) (sel : Nat → Bool) (h : (kcPositions (content P d).length sel).length ≠ 1) :
    (kcRoundSplit P (content P d).length (offs d) (cnts d) d sel).Perm (((content P d).zipIdx.filter fun p => sel p.2).map Prod.fst) := by
  unfold kcRoundSplit
  rw [← filterMap_positions]
  by_cases h2 : 2 ≤ (kcPositions (content P d).length sel).length
  · exact kcIndexed_perm P d _ (kcPositions_lt _ sel) h2
  · have : kcPositions (content P d).length sel = [] := List.eq_nil_of_length_eq_zero (by omega)
    rw [this, kcIndexed_short _ _ _ _ _ _ (by simp)]
    exact List.Perm.refl _

/-- Exactly one selected sample: it is lost. -/
theorem kc_round_one_violated (P : Nat) (d : Nat → List α) (sel : Nat → Bool) (h : (kcPositions (content P d).length sel).length = 1) :
    kcRoundSplit P (content P d).length (offs d) (cnts d) d sel = [] := by
  unfold kcRoundSplit
  exact kcIndexed_short _ _ _ _ _ _ (by rw [List.length_map]; omega)

/-- Replicated samples: every selected sample is gathered once per process. -/
theorem kc_round_repl_violated [DecidableEq α] (P : Nat) (x : List α) (sel : Nat → Bool) (a : α) :
    (kcRoundRepl P x sel).count a = P * ((x.zipIdx.filter fun p => sel p.2).map Prod.fst).count a := by
  unfold kcRoundRepl
  rw [filterMap_positions]
  induction P with
  | zero => rw [content_zero]; simp
  | succ k ih => rw [content_succ, List.count_append, ih]; rw [Nat.add_mul, Nat.one_mul]

theorem content_mem {P : Nat} {d : Nat → List α} {a : α} (h : a ∈ content P d) : ∃ r < P, a ∈ d r := by
  induction P with
  | zero => rw [content_zero] at h; cases h
  | succ k ih =>
    rw [content_succ, List.mem_append] at h
    rcases h with h | h
    · obtain ⟨r, hr, h'⟩ := ih h; exact ⟨r, by omega, h'⟩
    · exact ⟨k, by omega, h⟩

/-- **C151, all centroids are samples**, after any number of rounds with any selections. -/
theorem kc_sampling_subset (S : α → Prop) (round : (Nat → Bool) → List α) (first : List α) (hf : ∀ a ∈ first, S a)
    (hr : ∀ sel, ∀ a ∈ round sel, S a) (sels : List (Nat → Bool)) : ∀ a ∈ kcSampling round first sels, S a := by
  unfold kcSampling
  induction sels generalizing first with
  | nil => exact hf
  | cons s t ih =>
    rw [List.foldl_cons]
    apply ih
    intro a ha
    rcases List.mem_append.1 ha with h | h
    · exact hf a h
    · exact hr s a h

/-- Candidates are samples, and the receive buffer of `P * n` rows is large enough. -/
theorem kc_round_split_mem (P : Nat) (d : Nat → List α) (sel : Nat → Bool) :
    (∀ a ∈ kcRoundSplit P (content P d).length (offs d) (cnts d) d sel, a ∈ content P d) ∧
    (kcRoundSplit P (content P d).length (offs d) (cnts d) d sel).length ≤ (content P d).length := by
  by_cases h : (kcPositions (content P d).length sel).length = 1
  · rw [kc_round_one_violated P d sel h]; simp
  · have hp := kc_round_split_partial P d sel h
    constructor
    · intro a ha
      have := hp.mem_iff.1 ha
      obtain ⟨p, hp', rfl⟩ := List.mem_map.1 this
      exact List.fst_mem_of_mem_zipIdx (List.mem_filter.1 hp').1
    · rw [hp.length_eq, List.length_map]
      exact Nat.le_trans (List.length_filter_le _ _) (by rw [List.length_zipIdx]; exact Nat.le_refl _)

theorem kc_round_repl_mem (P : Nat) (x : List α) (sel : Nat → Bool) :
    (∀ a ∈ kcRoundRepl P x sel, a ∈ x) ∧ (kcRoundRepl P x sel).length ≤ P * x.length := by
  unfold kcRoundRepl
  constructor
  · intro a ha
    obtain ⟨r, _, h⟩ := content_mem ha
    obtain ⟨i, _, hi⟩ := List.mem_filterMap.1 h
    exact List.mem_of_getElem? hi
  · have hle : ((kcPositions x.length sel).filterMap fun i => x[i]?).length ≤ x.length := by
      refine Nat.le_trans (List.length_filterMap_le _ _) ?_
      unfold kcPositions
      exact Nat.le_trans (List.length_filter_le _ _) (by rw [List.length_range]; exact Nat.le_refl _)
    induction P with
    | zero => rw [content_zero]; simp
    | succ k ih =>
      rw [content_succ, List.length_append, Nat.add_mul]
      omega

/-- **C151, k-means||.**  For distributed samples: what is handed to the final clustering are more than `n_clusters` samples; otherwise
ValueError. -/
theorem kc_parallel_split (P : Nat) (d : Nat → List α) (first : List α) (hf : ∀ a ∈ first, a ∈ content P d) (k : Nat) (sels sels' : List (Nat → Bool)) :
    kcParallel (kcRoundSplit P (content P d).length (offs d) (cnts d) d) first k sels sels' = .error .valueError ∨
    ∃ c, kcParallel (kcRoundSplit P (content P d).length (offs d) (cnts d) d) first k sels sels' = .ok c ∧ k < c.length ∧ ∀ a ∈ c, a ∈ content P d := by
  have hs := fun s => kc_sampling_subset (· ∈ content P d) (kcRoundSplit P (content P d).length (offs d) (cnts d) d) first hf
    (fun sel => (kc_round_split_mem P d sel).1) s
  unfold kcParallel
  dsimp only
  generalize hA : kcSampling (kcRoundSplit P (content P d).length (offs d) (cnts d) d) first sels = A
  generalize hB : kcSampling (kcRoundSplit P (content P d).length (offs d) (cnts d) d) first sels' = B
  have sA := hs sels; rw [hA] at sA
  have sB := hs sels'; rw [hB] at sB
  by_cases h1 : A.length ≤ k
  · rw [if_pos h1]
    by_cases h2 : B.length ≤ k
    · left; rw [if_pos h2]
    · right; exact ⟨B, by rw [if_neg h2], by omega, sB⟩
  · rw [if_neg h1]
    right
    exact ⟨A, by rw [if_neg h1], by omega, sA⟩

/-- With replicated samples the check "more candidates than clusters" can be met by copies of fewer samples: the first centre and one
selected sample on two processes pass for two clusters. -/
theorem kc_parallel_repl_violated :
    kcParallel (kcRoundRepl 2 [10, 20]) [10] 2 [fun i => i == 1] [] = .ok [10, 20, 20] := by decide

/-- **C151, weights.**  If every sample has a nearest candidate, the weights sum to the number of samples. -/
theorem kc_weights_sum (c : Nat) (finalIdx : List Nat) (h : ∀ i ∈ finalIdx, i < c) : (kcWeights c finalIdx).sum = finalIdx.length := by
  unfold kcWeights
  induction finalIdx with
  | nil =>
    have : ∀ l : List Nat, (l.map fun i => ([] : List Nat).count i).sum = 0 := by
      intro l; induction l with
      | nil => rfl
      | cons a t ih => rw [List.map_cons, List.sum_cons, ih]; rfl
    exact this _
  | cons j t ih =>
    have hj := h j List.mem_cons_self
    rw [List.length_cons, ← ih fun i hi => h i (List.mem_cons_of_mem _ hi)]
    have : ∀ m, ((List.range m).map fun i => (j :: t).count i).sum = ((List.range m).map fun i => t.count i).sum + if j < m then 1 else 0 := by
      intro m
      induction m with
      | zero => rfl
      | succ m ihm =>
        rw [List.range_succ, List.map_append, List.map_append, List.sum_append, List.sum_append, ihm]
        simp only [List.map_cons, List.map_nil, List.sum_cons, List.sum_nil, List.count_cons]
        by_cases e : j = m
        · subst e; simp
          omega
        · have e1 : (j == m) = false := by simpa using e
          rw [e1]
          by_cases hlt : j < m
          · rw [if_pos hlt, if_pos (show j < m + 1 by omega)]; simp; omega
          · rw [if_neg hlt, if_neg (show ¬ j < m + 1 by omega)]; simp
    rw [this c, if_pos hj]

example : kcRandom 2 4 (offs fun r => ([[10, 20], [30, 40]] : List (List Nat)).getD r []) (cnts fun r => ([[10, 20], [30, 40]] : List (List Nat)).getD r [])
    (fun r => ([[10, 20], [30, 40]] : List (List Nat)).getD r []) [2, 0] = .ok [10, 30] := by decide

example : kcWeights 3 [0, 2, 2, 1] = [1, 1, 2] := by decide

end Heat
