import Verif.Model.Sampler
import Verif.Proof.Dist
import Verif.Proof.Chunk
import Verif.Props.Sort
import Verif.Props.Split
import Verif.Props.Hdf5
import Verif.Props.Dataset
/-!
# `DistributedSampler` (C120) and `create_train_val_split` (C121)
-/
namespace Heat
open Spec
variable {α β : Type}

/-! ## Rows by index -/

/-- The rows of `G` with the given indices. -/
def rowsPick (G : List α) (l : List Nat) : List α := l.filterMap (fun i => G[i]?)

theorem rowsPick_append (G : List α) (a b : List Nat) : rowsPick G (a ++ b) = rowsPick G a ++ rowsPick G b := List.filterMap_append

theorem rowsPick_cons {G : List α} {i : Nat} (h : i < G.length) (l : List Nat) : rowsPick G (i :: l) = G[i] :: rowsPick G l := by
  unfold rowsPick
  rw [List.filterMap_cons, List.getElem?_eq_getElem h]

theorem rowsPick_map_some {G : List α} {l : List Nat} (h : ∀ i ∈ l, i < G.length) : l.map (fun i => G[i]?) = (rowsPick G l).map some := by
  induction l with
  | nil => rfl
  | cons i l ih =>
    have hi := h i (by simp)
    rw [rowsPick_cons hi, List.map_cons, List.map_cons, ih (fun j hj => h j (List.mem_cons_of_mem _ hj)), List.getElem?_eq_getElem hi]

theorem pickRows_eq {G : List α} {l : List Nat} (h : ∀ i ∈ l, i < G.length) : pickRows l G = some (rowsPick G l) := by
  unfold pickRows
  rw [mapM_some_iff]
  exact rowsPick_map_some h

theorem rowsPick_length {G : List α} {l : List Nat} (h : ∀ i ∈ l, i < G.length) : (rowsPick G l).length = l.length := by
  have := congrArg List.length (rowsPick_map_some h)
  simpa using this.symm

theorem rowsPick_get {G : List α} {l : List Nat} (h : ∀ i ∈ l, i < G.length) {j : Nat} (hj : j < l.length) : (rowsPick G l)[j]? = G[l[j]]? := by
  have e := rowsPick_map_some h
  have e1 := congrArg (fun x => x[j]?) e
  simp only [List.getElem?_map, List.getElem?_eq_getElem hj, Option.map_some] at e1
  cases hr : (rowsPick G l)[j]? with
  | none => rw [hr] at e1; cases e1
  | some a => rw [hr] at e1; exact (Option.some.inj e1).symm

theorem rowsPick_content (G : List α) (P : Nat) (L : Nat → List Nat) : content P (fun r => rowsPick G (L r)) = rowsPick G (content P L) := by
  induction P with
  | zero => rfl
  | succ k ih => rw [content_succ, content_succ, rowsPick_append, ih]

theorem rowsPick_perm (G : List α) {a b : List Nat} (h : a.Perm b) : (rowsPick G a).Perm (rowsPick G b) := h.filterMap _

theorem rowsPick_range (G : List α) : rowsPick G (List.range G.length) = G := by
  have := pickRows_range G
  rw [pickRows_eq (fun i hi => List.mem_range.1 hi)] at this
  exact Option.some.inj this

/-! ## Buckets -/

theorem filter_split_sorted (key : Nat → Nat) (k : Nat) (m : List Nat) (hs : m.Pairwise (fun a b => key a ≤ key b)) :
    m.filter (fun a => decide (key a < k)) ++ m.filter (fun a => !decide (key a < k)) = m := by
  induction m with
  | nil => rfl
  | cons a m ih =>
    rw [List.pairwise_cons] at hs
    by_cases h : key a < k
    · rw [List.filter_cons_of_pos (by simpa using h), List.filter_cons_of_neg (by simpa using h), List.cons_append, ih hs.2]
    · have : m.filter (fun a => decide (key a < k)) = [] := by
        rw [List.filter_eq_nil_iff]
        intro b hb
        have := hs.1 b hb
        simp
        omega
      rw [List.filter_cons_of_neg (by simpa using h), List.filter_cons_of_pos (by simpa using h), this]
      rw [this] at ih
      rw [List.nil_append, show m.filter (fun a => !decide (key a < k)) = m by simpa using ih hs.2]

theorem buckets_step (key : Nat → Nat) (k : Nat) (m : List Nat) (hk : ∀ a ∈ m, key a < k + 1) :
    content (k + 1) (fun r => m.filter (fun a => decide (key a = r))) =
      content k (fun r => (m.filter (fun a => decide (key a < k))).filter (fun a => decide (key a = r))) ++ m.filter (fun a => !decide (key a < k)) := by
  rw [content_succ]
  congr 1
  · apply content_congr
    intro r hr
    rw [List.filter_filter]
    apply List.filter_congr
    intro a _
    by_cases h : key a = r
    · simp [h, hr]
    · simp [h]
  · apply List.filter_congr
    intro a ha
    have := hk a ha
    by_cases h : key a = k
    · simp [h]
    · simp [h]
      omega

theorem buckets_sorted (key : Nat → Nat) (P : Nat) (m : List Nat) (hs : m.Pairwise (fun a b => key a ≤ key b)) (hk : ∀ a ∈ m, key a < P) :
    content P (fun r => m.filter (fun a => decide (key a = r))) = m := by
  induction P generalizing m with
  | zero =>
    cases m with
    | nil => rfl
    | cons a m => have := hk a (by simp); omega
  | succ k ih =>
    rw [buckets_step key k m hk, ih _ (hs.filter _) (fun a ha => by simpa using (List.mem_filter.1 ha).2)]
    exact filter_split_sorted key k m hs

theorem buckets_perm (key : Nat → Nat) (P : Nat) (m : List Nat) (hk : ∀ a ∈ m, key a < P) :
    (content P (fun r => m.filter (fun a => decide (key a = r)))).Perm m := by
  induction P generalizing m with
  | zero =>
    cases m with
    | nil => exact List.Perm.refl _
    | cons a m => have := hk a (by simp); omega
  | succ k ih =>
    rw [buckets_step key k m hk]
    exact ((ih _ (fun a ha => by simpa using (List.mem_filter.1 ha).2)).append_right _).trans (List.filter_append_perm _ m)

/-- A stable sort by the key is the buckets one after the other. -/
theorem mergeSort_buckets (key : Nat → Nat) (P : Nat) (l : List Nat) (hk : ∀ a ∈ l, key a < P) :
    l.mergeSort (fun a b => decide (key a ≤ key b)) = content P (fun r => l.filter (fun a => decide (key a = r))) := by
  have tr : ∀ a b c : Nat, decide (key a ≤ key b) = true → decide (key b ≤ key c) = true → decide (key a ≤ key c) = true := by
    intro a b c h1 h2
    simp at h1 h2 ⊢
    omega
  have tot : ∀ a b : Nat, (decide (key a ≤ key b) || decide (key b ≤ key a)) = true := by
    intro a b
    simp
    omega
  have hp := List.mergeSort_perm l (fun a b => decide (key a ≤ key b))
  have hs := List.pairwise_mergeSort tr tot l
  rw [← buckets_sorted key P (l.mergeSort (fun a b => decide (key a ≤ key b))) (hs.imp (fun h => by simpa using h)) (fun a ha => hk a (hp.mem_iff.1 ha))]
  apply content_congr
  intro r _
  have sub : (l.filter (fun a => decide (key a = r))).Sublist (l.mergeSort (fun a b => decide (key a ≤ key b))) := by
    refine List.sublist_mergeSort tr tot ?_ List.filter_sublist
    rw [List.pairwise_iff_forall_sublist]
    intro a b h
    have ha := h.subset (show a ∈ [a, b] by simp)
    have hb := h.subset (show b ∈ [a, b] by simp)
    simp at ha hb
    simp
    omega
  have sub2 := sub.filter (fun a => decide (key a = r))
  rw [List.filter_filter] at sub2
  simp only [Bool.and_self] at sub2
  refine (sub2.eq_of_length ?_).symm
  exact ((hp.filter (fun a => decide (key a = r))).length_eq).symm

/-! ## Owners and slices -/

theorem smpOwner_spec {N P i : Nat} (hP : 0 < P) (hi : i < N) : smpOwner N P i < P ∧ smpIn i (chunkRange N (smpOwner N P i) P) = true ∧ (List.range P).find? (fun r => smpIn i (chunkRange N r P)) = some (smpOwner N P i) := by
  have ex : ∃ r < P, smpIn i (chunkRange N r P) = true := by
    by_contra hc
    push Not at hc
    have : ∀ k ≤ P, (chunkRange N k P).1 ≤ i := by
      intro k
      induction k with
      | zero => intro _; rw [chunkRange_zero]; omega
      | succ k ih =>
        intro hk
        have h1 := ih (by omega)
        have h2 := hc k (by omega)
        unfold smpIn at h2
        simp at h2
        rw [chunkRange_succ]
        exact h2 h1
    have := this P (Nat.le_refl _)
    rw [chunkRange_at_P _ _ hP] at this
    omega
  unfold smpOwner
  cases hf : (List.range P).find? (fun r => smpIn i (chunkRange N r P)) with
  | none =>
    rw [List.find?_eq_none] at hf
    obtain ⟨r, hr, h⟩ := ex
    exact absurd h (hf r (List.mem_range.2 hr))
  | some r =>
    rw [Option.getD_some]
    have h1 := List.find?_some hf
    have h2 := List.mem_of_find?_eq_some hf
    exact ⟨List.mem_range.1 h2, h1, rfl⟩

theorem smpIn_unique {N P i r s : Nat} (h1 : smpIn i (chunkRange N r P) = true) (h2 : smpIn i (chunkRange N s P) = true) : r = s := by
  unfold smpIn at h1 h2
  simp at h1 h2
  rcases Nat.lt_trichotomy r s with h | h | h
  · have := chunkRange_mono N P (show r + 1 ≤ s by omega)
    rw [chunkRange_succ] at this
    omega
  · exact h
  · have := chunkRange_mono N P (show s + 1 ≤ r by omega)
    rw [chunkRange_succ] at this
    omega

theorem smpOwner_iff {N P i r : Nat} (hP : 0 < P) (hi : i < N) : smpOwner N P i = r ↔ smpIn i (chunkRange N r P) = true := by
  constructor
  · rintro rfl
    exact (smpOwner_spec hP hi).2.1
  · intro h
    exact smpIn_unique (smpOwner_spec hP hi).2.1 h

theorem zipIdx_slice (l : List Nat) (s a b : Nat) :
    ((l.zipIdx s).filter (fun p => decide (a ≤ p.2) && decide (p.2 < b))).map Prod.fst = (l.take (b - s)).drop (a - s) := by
  induction l generalizing s with
  | nil => simp
  | cons x l ih =>
    rw [List.zipIdx_cons]
    by_cases h1 : a ≤ s
    · by_cases h2 : s < b
      · rw [List.filter_cons_of_pos (by simp [h1, h2]), List.map_cons, ih]
        obtain ⟨k, hk⟩ : ∃ k, b - s = k + 1 := ⟨b - s - 1, by omega⟩
        rw [hk, List.take_succ_cons, show a - s = 0 by omega, show a - (s + 1) = 0 by omega, show b - (s + 1) = k by omega]
        rfl
      · rw [List.filter_cons_of_neg (by simp [h2]), ih, show b - s = 0 by omega, show b - (s + 1) = 0 by omega]
        simp
    · rw [List.filter_cons_of_neg (by simp [h1]), ih]
      obtain ⟨k, hk⟩ : ∃ k, a - s = k + 1 := ⟨a - s - 1, by omega⟩
      rw [hk, show a - (s + 1) = k by omega]
      by_cases hb : b - s = 0
      · rw [hb, show b - (s + 1) = 0 by omega]
        simp
      · obtain ⟨j, hj⟩ : ∃ j, b - s = j + 1 := ⟨b - s - 1, by omega⟩
        rw [hj, show b - (s + 1) = j by omega, List.take_succ_cons, List.drop_succ_cons]

variable {N P : Nat} {indices : List Nat}

theorem zipIdx_lt (hlen : indices.length = N) {p : Nat × Nat} (hp : p ∈ indices.zipIdx) : p.2 < N := by
  have := List.snd_lt_of_mem_zipIdx hp
  omega

theorem smpSlice_eq_filter (hP : 0 < P) (hlen : indices.length = N) (q : Nat) :
    (indices.zipIdx.filter (fun p => decide (smpOwner N P p.2 = q))).map Prod.fst = smpSlice N P indices q := by
  have := zipIdx_slice indices 0 (chunkRange N q P).1 (chunkRange N q P).2
  unfold smpSlice
  rw [Nat.sub_zero, Nat.sub_zero] at this
  rw [← this]
  congr 1
  apply List.filter_congr
  intro p hp
  have hlt := zipIdx_lt hlen hp
  rw [Bool.eq_iff_iff]
  rw [decide_eq_true_iff, smpOwner_iff hP hlt]
  rfl

theorem smpSlice_mem {q i : Nat} (h : i ∈ smpSlice N P indices q) : i ∈ indices := List.mem_of_mem_take (List.mem_of_mem_drop h)

theorem smpBuffer_self (hP : 0 < P) (hlen : indices.length = N) (q : Nat) : smpBuffer N P indices q q = smpSlice N P indices q := by
  rw [← smpSlice_eq_filter hP hlen, smpBuffer]
  congr 1
  apply List.filter_congr
  intro p _
  by_cases h : smpOwner N P p.2 = q
  · simp [h]
  · simp [h]

/-- What process `r` sends to `q`: the rows of `r` among the slice of `q`, in the order of the slice. -/
theorem smpSendIdx_eq (hP : 0 < P) (hp : indices.Perm (List.range N)) (r q : Nat) :
    smpSendIdx N P indices r q = (smpSlice N P indices q).filter (fun i => decide (smpOwner N P i = r)) := by
  have hlen : indices.length = N := by rw [hp.length_eq, List.length_range]
  have hlt : ∀ i ∈ indices, i < N := fun i hi => List.mem_range.1 (hp.mem_iff.1 hi)
  unfold smpSendIdx
  by_cases hq : q = r
  · subst hq
    rw [if_pos rfl, smpBuffer_self hP hlen]
    apply List.filter_congr
    intro i hi
    rw [Bool.eq_iff_iff, decide_eq_true_iff, smpOwner_iff hP (hlt i (smpSlice_mem hi))]
  · rw [if_neg hq, ← smpSlice_eq_filter hP hlen, smpBuffer, List.filter_map, List.filter_filter]
    congr 1
    apply List.filter_congr
    intro p _
    by_cases h : smpOwner N P p.2 = r
    · have : ¬ r = q := fun e => hq e.symm
      simp [h, hq, this]
    · simp [h]

theorem smpSlice_lt (hp : indices.Perm (List.range N)) {q i : Nat} (h : i ∈ smpSlice N P indices q) : i < N :=
  List.mem_range.1 (hp.mem_iff.1 (smpSlice_mem h))

theorem smpSlice_length (hlen : indices.length = N) {q : Nat} (hq : q < P) : (smpSlice N P indices q).length = evenSize N P q := by
  have h1 := chunkRange_mono N P (show q + 1 ≤ P by omega)
  rw [chunkRange_at_P _ _ (by omega), chunkRange_succ] at h1
  unfold smpSlice
  rw [List.length_drop, List.length_take, hlen, Nat.min_eq_left h1]
  exact chunkRange_size N q P

theorem smpSlice_content (hP : 0 < P) (hlen : indices.length = N) : content P (smpSlice N P indices) = indices := by
  have := content_chunkParts indices P hP P (Nat.le_refl _)
  rw [hlen, chunkRange_at_P _ _ hP, List.take_of_length_le hlen.le] at this
  exact this

theorem smpSent_eq (d : Nat → List α) (hP : 0 < P) (hb : Balanced P d) (hn : (content P d).length = N) (hp : indices.Perm (List.range N)) {r : Nat} (hr : r < P) (q : Nat) :
    smpSent N P indices d r q = some (rowsPick (content P d) ((smpSlice N P indices q).filter (fun i => decide (smpOwner N P i = r)))) := by
  unfold smpSent
  rw [smpSendIdx_eq hP hp, mapM_some_iff, ← rowsPick_map_some]
  · apply List.map_congr_left
    intro i hi
    rw [List.mem_filter] at hi
    have hlt := smpSlice_lt hp hi.1
    have ho := hi.2
    rw [decide_eq_true_iff, smpOwner_iff hP hlt] at ho
    have hs := startOf_balanced d P hb r (by omega)
    rw [hn] at hs
    have hs2 := startOf_balanced d P hb (r + 1) (by omega)
    rw [hn, chunkRange_succ, startOf_succ] at hs2
    unfold smpIn at ho
    simp only [Bool.and_eq_true, decide_eq_true_eq] at ho
    rw [← hs, ← hs2] at ho
    rw [if_pos ho.1]
    have := content_get d P r (i - startOf d r) hr (by omega)
    rw [show startOf d r + (i - startOf d r) = i by omega] at this
    rw [this, List.getElem?_eq_getElem]
  · intro i hi
    rw [hn]
    exact smpSlice_lt hp (List.mem_filter.1 hi).1

/-- The order of the rows received by process `q` without correction: the slice of the permutation, grouped by the process the rows come from. -/
def smpGrouped (N P : Nat) (indices : List Nat) (q : Nat) : List Nat :=
  content P (fun src => (smpSlice N P indices q).filter (fun i => decide (smpOwner N P i = src)))

theorem smpGrouped_perm (hP : 0 < P) (hp : indices.Perm (List.range N)) (q : Nat) : (smpGrouped N P indices q).Perm (smpSlice N P indices q) :=
  buckets_perm _ _ _ (fun _ ha => (smpOwner_spec hP (smpSlice_lt hp ha)).1)

theorem smpGrouped_lt (hP : 0 < P) (hp : indices.Perm (List.range N)) {q i : Nat} (h : i ∈ smpGrouped N P indices q) : i < N :=
  smpSlice_lt hp ((smpGrouped_perm hP hp q).mem_iff.1 h)

theorem smpRecv_eq (d : Nat → List α) (hP : 0 < P) (hb : Balanced P d) (hn : (content P d).length = N) (hp : indices.Perm (List.range N)) {q : Nat} (hq : q < P) :
    smpRecv N P indices d q = some (rowsPick (content P d) (smpGrouped N P indices q)) := by
  have hlen : indices.length = N := by rw [hp.length_eq, List.length_range]
  unfold smpRecv
  have e : (List.range P).mapM (fun src => smpSent N P indices d src q) = some ((List.range P).map (fun src => rowsPick (content P d) ((smpSlice N P indices q).filter (fun i => decide (smpOwner N P i = src))))) := by
    rw [mapM_some_iff, List.map_map]
    apply List.map_congr_left
    intro r hr
    exact smpSent_eq d hP hb hn hp (List.mem_range.1 hr) q
  have ef : ((List.range P).map (fun src => rowsPick (content P d) ((smpSlice N P indices q).filter (fun i => decide (smpOwner N P i = src))))).flatten = rowsPick (content P d) (smpGrouped N P indices q) := by
    rw [← List.flatMap_def]
    exact rowsPick_content (content P d) P _
  rw [e, Option.bind_some, if_pos]
  · rw [ef]
  · constructor
    · rw [List.map_map]
      apply List.map_congr_left
      intro r _
      show (rowsPick _ _).length = _
      rw [rowsPick_length (fun i hi => by rw [hn]; exact smpSlice_lt hp (List.mem_filter.1 hi).1), smpRecvCount, smpBuffer_self hP hlen]
      congr 1
      apply List.filter_congr
      intro i hi
      rw [(smpOwner_spec hP (smpSlice_lt hp hi)).2.2]
      simp
    · rw [ef, rowsPick_length (fun i hi => by rw [hn]; exact smpGrouped_lt hP hp hi), (smpGrouped_perm hP hp q).length_eq, smpSlice_length hlen hq, hb q hq, hn]

/-- **C120**: without correction every process gets the rows of its slice of the permutation, grouped by their old process. Which rows is decided by the permutation alone: two arrays of the same length shuffled with the same permutation (samples and labels) stay together. -/
theorem sampler_shuffle (d : Nat → List α) (hP : 0 < P) (hb : Balanced P d) (hn : (content P d).length = N) (hp : indices.Perm (List.range N)) (q : Nat) (hq : q < P) :
    smpShuffle N P indices false d q = pickRows (smpGrouped N P indices q) (content P d) := by
  rw [pickRows_eq (fun i hi => by rw [hn]; exact smpGrouped_lt hP hp hi)]
  unfold smpShuffle
  rw [smpRecv_eq d hP hb hn hp hq]
  rfl

/-- Placing rows at the positions of their indices. -/
theorem smpPut_fold (G : List α) (slice : List Nat) (hG : ∀ i ∈ slice, i < G.length) (hnd : slice.Nodup) (ks : List Nat) (hks : ∀ k ∈ ks, k ∈ slice) (l : List α) (hl : l.length = slice.length) :
    ∃ l', (ks.zip (rowsPick G ks)).foldlM (smpPut slice) l = some l' ∧ l'.length = slice.length ∧ ∀ j (hj : j < slice.length), l'[j]? = if slice[j] ∈ ks then G[slice[j]]? else l[j]? := by
  induction ks generalizing l with
  | nil => exact ⟨l, rfl, hl, fun j hj => by simp⟩
  | cons k ks ih =>
    have hk := hks k (by simp)
    have hkG := hG k hk
    have hi : slice.idxOf k < slice.length := List.idxOf_lt_length_iff.2 hk
    rw [rowsPick_cons hkG, List.zip_cons_cons, List.foldlM_cons]
    have e : smpPut slice l (k, G[k]) = some (l.set (slice.idxOf k) G[k]) := by
      rw [smpPut, if_pos ⟨by rw [hl]; exact hi, hi⟩]
    rw [e]
    obtain ⟨l', e1, e2, e3⟩ := ih (fun k' hk' => hks k' (List.mem_cons_of_mem _ hk')) (l.set (slice.idxOf k) G[k]) (by rw [List.length_set]; exact hl)
    refine ⟨l', e1, e2, ?_⟩
    intro j hj
    rw [e3 j hj]
    by_cases h1 : slice[j] ∈ ks
    · rw [if_pos h1, if_pos (List.mem_cons_of_mem _ h1)]
    · rw [if_neg h1]
      by_cases h2 : slice[j] = k
      · rw [if_pos (by rw [h2]; simp)]
        have : slice.idxOf k = j := by
          rw [← h2]
          exact hnd.idxOf_getElem j hj
        rw [this, List.getElem?_set_self (by omega), h2, List.getElem?_eq_getElem hkG]
      · rw [if_neg (by simp only [List.mem_cons, not_or]; exact ⟨h2, h1⟩)]
        apply List.getElem?_set_ne
        intro hc
        apply h2
        have := List.getElem_idxOf hi
        simp only [hc] at this
        exact this

theorem smpSlice_nodup (hp : indices.Perm (List.range N)) (q : Nat) : (smpSlice N P indices q).Nodup := by
  have : indices.Nodup := hp.nodup_iff.2 List.nodup_range
  unfold smpSlice
  exact (this.sublist (List.take_sublist _ _)).sublist (List.drop_sublist _ _)

/-- **C120**: with correction every process gets exactly the rows of its slice of the permutation, in order. -/
theorem sampler_shuffle_corrected (d : Nat → List α) (hP : 0 < P) (hb : Balanced P d) (hn : (content P d).length = N) (hp : indices.Perm (List.range N)) (q : Nat) (hq : q < P) :
    smpShuffle N P indices true d q = pickRows (smpSlice N P indices q) (content P d) := by
  have hlen : indices.length = N := by rw [hp.length_eq, List.length_range]
  have hG : ∀ i ∈ smpSlice N P indices q, i < (content P d).length := fun i hi => by rw [hn]; exact smpSlice_lt hp hi
  have hGg : ∀ i ∈ smpGrouped N P indices q, i < (content P d).length := fun i hi => by rw [hn]; exact smpGrouped_lt hP hp hi
  have hs : smpSorted N P indices q = smpGrouped N P indices q :=
    mergeSort_buckets (smpOwner N P) P _ (fun a ha => (smpOwner_spec hP (smpSlice_lt hp ha)).1)
  rw [pickRows_eq hG]
  unfold smpShuffle
  rw [smpRecv_eq d hP hb hn hp hq, Option.bind_some, if_pos rfl, hs, if_pos (by rw [rowsPick_length hGg])]
  have hl : (d q).length = (smpSlice N P indices q).length := by rw [smpSlice_length hlen hq, hb q hq, hn]
  obtain ⟨l', e1, e2, e3⟩ := smpPut_fold (content P d) (smpSlice N P indices q) hG (smpSlice_nodup hp q) (smpGrouped N P indices q) (fun k hk => (smpGrouped_perm hP hp q).mem_iff.1 hk) (d q) hl
  rw [e1]
  congr 1
  apply List.ext_getElem?
  intro j
  by_cases hj : j < (smpSlice N P indices q).length
  · rw [e3 j hj, if_pos ((smpGrouped_perm hP hp q).mem_iff.2 (List.getElem_mem hj)), rowsPick_get hG hj]
  · rw [List.getElem?_eq_none (by omega), List.getElem?_eq_none (by rw [rowsPick_length hG]; omega)]

/-- **C120**: a global shuffle loses and duplicates no row and leaves the array balanced; with correction the new array is the old array indexed by the permutation, `A[indices]`, for any number of processes. -/
theorem sampler_shuffle_global (c : Bool) (d : Nat → List α) (hP : 0 < P) (hb : Balanced P d) (hn : (content P d).length = N) (hp : indices.Perm (List.range N)) :
    ∃ d' : Nat → List α, (∀ q < P, smpShuffle N P indices c d q = some (d' q)) ∧ (content P d').Perm (content P d) ∧ Balanced P d' ∧
      (c = true → pickRows indices (content P d) = some (content P d')) := by
  have hlen : indices.length = N := by rw [hp.length_eq, List.length_range]
  have hGi : ∀ i ∈ indices, i < (content P d).length := fun i hi => by rw [hn]; exact List.mem_range.1 (hp.mem_iff.1 hi)
  have hG : ∀ q, ∀ i ∈ smpSlice N P indices q, i < (content P d).length := fun q i hi => by rw [hn]; exact smpSlice_lt hp hi
  have hGg : ∀ q, ∀ i ∈ smpGrouped N P indices q, i < (content P d).length := fun q i hi => by rw [hn]; exact smpGrouped_lt hP hp hi
  have hall : (rowsPick (content P d) indices).Perm (content P d) := by
    have := rowsPick_perm (content P d) hp
    rwa [← hn, rowsPick_range] at this
  cases c with
  | true =>
    have hc : content P (fun q => rowsPick (content P d) (smpSlice N P indices q)) = rowsPick (content P d) indices := by
      rw [rowsPick_content, smpSlice_content hP hlen]
    refine ⟨fun q => rowsPick (content P d) (smpSlice N P indices q), ?_, ?_, ?_, ?_⟩
    · intro q hq
      rw [sampler_shuffle_corrected d hP hb hn hp q hq, pickRows_eq (hG q)]
    · rw [hc]; exact hall
    · intro q hq
      rw [hc, rowsPick_length (hG q), smpSlice_length hlen hq, rowsPick_length hGi, hlen]
    · intro _
      rw [hc, pickRows_eq hGi]
  | false =>
    have hc : (content P (fun q => rowsPick (content P d) (smpGrouped N P indices q))).Perm (rowsPick (content P d) indices) := by
      rw [rowsPick_content]
      refine rowsPick_perm _ ?_
      have := content_perm (P := P) (a := smpGrouped N P indices) (b := smpSlice N P indices) (fun q _ => smpGrouped_perm hP hp q)
      rwa [smpSlice_content hP hlen] at this
    refine ⟨fun q => rowsPick (content P d) (smpGrouped N P indices q), ?_, hc.trans hall, ?_, ?_⟩
    · intro q hq
      rw [sampler_shuffle d hP hb hn hp q hq, pickRows_eq (hGg q)]
    · intro q hq
      rw [hc.length_eq, rowsPick_length (hGg q), (smpGrouped_perm hP hp q).length_eq, smpSlice_length hlen hq, rowsPick_length hGi, hlen]
    · intro h; cases h

/-- **C120** is violated for an array that is not balanced: the slices are those of a balanced array, process 0 is told to send a row it does not have. -/
theorem sampler_unbalanced_violated : (List.range 2).map (smpShuffle 4 2 [0, 1, 2, 3] false (fun r => if r = 0 then [10, 11, 12] else [13])) = [none, none] := by decide +kernel

example : (List.range 2).map (smpShuffle 5 2 [4, 0, 3, 2, 1] false (fun r => if r = 0 then [10, 11, 12] else [13, 14])) = [some [10, 14, 13], some [12, 11]] := by decide +kernel
example : smpShuffle 5 2 [4, 0, 3, 2, 1] true (fun r => if r = 0 then [10, 11, 12] else [13, 14]) 0 = some [14, 10, 13] := by
  rw [sampler_shuffle_corrected _ (by decide) (by unfold Balanced; decide) (by decide) (by decide) 0 (by decide)]
  decide +kernel
example : Balanced 2 (fun r => if r = 0 then [10, 11, 12] else [13, 14]) := by unfold Balanced; decide
example : ([4, 0, 3, 2, 1] : List Nat).Perm (List.range 5) := by decide

/-! ## Local shuffle -/

/-- **C120**: a local shuffle permutes the rows of every process. -/
theorem sampler_local (prm : List Nat) (l : List α) (h : prm.Perm (List.range l.length)) : ∃ l', smpLocal prm l = some l' ∧ l'.Perm l := pickRows_perm h

/-! ## Train / validation split -/

theorem tvSplit_rows (train : Nat) (perm : List Nat) (l : List α) (hp : perm.Perm (List.range l.length)) (ht : train < l.length ∨ l = []) :
    ∃ a b, tvSplit train perm l = some (a, b) ∧ (a ++ b).Perm l ∧ a.length = min train l.length ∧ b.length = l.length - train := by
  rcases ht with ht | rfl
  · have hlen : perm.length = l.length := by rw [hp.length_eq, List.length_range]
    have hlt : ∀ i ∈ perm, i < l.length := fun i hi => List.mem_range.1 (hp.mem_iff.1 hi)
    have h1 : ∀ i ∈ perm.take train, i < l.length := fun i hi => hlt i (List.mem_of_mem_take hi)
    have h2 : ∀ i ∈ perm.drop train, i < l.length := fun i hi => hlt i (List.mem_of_mem_drop hi)
    refine ⟨rowsPick l (perm.take train), rowsPick l (perm.drop train), ?_, ?_, ?_, ?_⟩
    · unfold tvSplit
      dsimp only
      rw [if_neg (show ¬ l.length - train = 0 by omega), show perm.length - (l.length - train) = train by omega,
        if_pos (by rw [List.length_take, List.length_drop]; omega), pickRows_eq h1, pickRows_eq h2]
      rfl
    · rw [← rowsPick_append, List.take_append_drop]
      have := rowsPick_perm l hp
      rwa [rowsPick_range] at this
    · rw [rowsPick_length h1, List.length_take]; omega
    · rw [rowsPick_length h2, List.length_drop]; omega
  · have : perm = [] := by simpa using hp
    subst this
    refine ⟨[], [], ?_, List.Perm.refl _, by simp, by simp⟩
    simp [tvSplit, pickRows]

theorem tvTrain_lt {p : Rat} (h1 : p < 1) {n : Nat} (hn : 0 < n) : tvTrain p n < n := by
  unfold tvTrain
  rw [Nat.floor_lt' (by omega)]
  have : (0 : Rat) < n := by exact_mod_cast hn
  nlinarith

theorem tvTrain_step {p : Rat} (h0 : 0 ≤ p) (h1 : p ≤ 1) (n : Nat) : tvTrain p n ≤ tvTrain p (n + 1) ∧ tvTrain p (n + 1) ≤ tvTrain p n + 1 := by
  unfold tvTrain
  have hn : (0 : Rat) ≤ n := Nat.cast_nonneg n
  constructor
  · apply Nat.floor_mono
    push_cast
    nlinarith
  · have : (n + 1 : Nat) * p ≤ (n : Rat) * p + 1 := by push_cast; nlinarith
    refine (Nat.floor_mono this).trans ?_
    rw [Nat.floor_add_one (by positivity)]

/-- **C121**: for `0 <= p < 1`, on every process the training and the validation rows together are the local rows, each exactly once; `int(n * p)` are training rows. -/
theorem train_val_split {p : Rat} (h0 : 0 ≤ p) (h1 : p < 1) (perm : List Nat) (l : List α) (hp : perm.Perm (List.range l.length)) :
    ∃ a b, tvSplit (tvTrain p l.length) perm l = some (a, b) ∧ (a ++ b).Perm l ∧ a.length = tvTrain p l.length ∧ b.length = l.length - tvTrain p l.length := by
  have hlt : tvTrain p l.length < l.length ∨ l = [] := by
    rcases l.eq_nil_or_concat with h | ⟨_, _, h⟩
    · exact Or.inr h
    · refine Or.inl (tvTrain_lt h1 ?_)
      rw [h]
      simp
  obtain ⟨a, b, e, p1, p2, p3⟩ := tvSplit_rows _ perm l hp hlt
  refine ⟨a, b, e, p1, ?_, p3⟩
  rcases hlt with hlt | rfl
  · omega
  · rw [p2]
    simp [tvTrain]

/-- The shares of a balanced array, mapped by a function that grows by at most one per row, are balanced. -/
theorem evenSize_of_step (t : Nat → Nat) (ht : ∀ n, t n ≤ t (n + 1) ∧ t (n + 1) ≤ t n + 1) (n P : Nat) (r : Nat) (hr : r < P) :
    t (evenSize n P r) = evenSize ((List.range P).map (fun q => t (evenSize n P q))).sum P r := by
  obtain ⟨e, he, he1⟩ : ∃ e, t (n / P + 1) = t (n / P) + e ∧ e ≤ 1 := ⟨t (n / P + 1) - t (n / P), by have := ht (n / P); omega, by have := ht (n / P); omega⟩
  have each : ∀ q, t (evenSize n P q) = t (n / P) + if q < n % P then e else 0 := by
    intro q
    unfold evenSize
    split
    · exact he
    · rfl
  have sum : ∀ m, ((List.range m).map (fun q => t (evenSize n P q))).sum = m * t (n / P) + e * min m (n % P) := by
    intro m
    induction m with
    | zero => simp
    | succ m ih =>
      rw [List.range_succ, List.map_append, List.sum_append, ih, List.map_singleton, List.sum_singleton, each m, Nat.succ_mul]
      by_cases h : m < n % P
      · rw [if_pos h, Nat.min_eq_left (by omega), Nat.min_eq_left (by omega), Nat.mul_succ]
        omega
      · rw [if_neg h, Nat.min_eq_right (by omega), Nat.min_eq_right (by omega)]
        omega
  have hk : n % P < P := Nat.mod_lt _ (by omega)
  rw [sum P, each r, Nat.min_eq_right (by omega)]
  unfold evenSize
  have h : e = 0 ∨ e = 1 := by omega
  rcases h with rfl | rfl
  · rw [Nat.zero_mul, Nat.add_zero, Nat.mul_div_cancel_left _ (by omega), Nat.mul_mod_right]
    simp
  · rw [Nat.one_mul, Nat.add_comm (P * t (n / P)), Nat.add_mul_div_left _ _ (by omega), Nat.add_mul_mod_self_left, Nat.div_eq_of_lt hk, Nat.mod_eq_of_lt hk]
    omega

/-- **C121**: the training and the validation arrays of a balanced array are balanced (they are declared so). -/
theorem train_val_split_balanced {p : Rat} (h0 : 0 ≤ p) (h1 : p < 1) (P : Nat) (d : Nat → List α) (hb : Balanced P d) (perm : Nat → List Nat) (hp : ∀ r < P, (perm r).Perm (List.range (d r).length))
    (a b : Nat → List α) (hab : ∀ r < P, tvSplit (tvTrain p (d r).length) (perm r) (d r) = some (a r, b r)) :
    Balanced P a ∧ Balanced P b ∧ (content P a ++ content P b).Perm (content P d) := by
  have each : ∀ r < P, ((a r) ++ (b r)).Perm (d r) ∧ (a r).length = tvTrain p (d r).length ∧ (b r).length = (d r).length - tvTrain p (d r).length := by
    intro r hr
    obtain ⟨a', b', e, p1, p2, p3⟩ := train_val_split h0 h1 (perm r) (d r) (hp r hr)
    rw [hab r hr] at e
    cases e
    exact ⟨p1, p2, p3⟩
  have bal : ∀ (c : Nat → List α) (t : Nat → Nat), (∀ n, t n ≤ t (n + 1) ∧ t (n + 1) ≤ t n + 1) → (∀ r < P, (c r).length = t (d r).length) → Balanced P c := by
    intro c t ht hc r hr
    rw [hc r hr, hb r hr, evenSize_of_step t ht _ P r hr, content_length_sum P c]
    congr 2
    apply List.map_congr_left
    intro q hq
    rw [hc q (List.mem_range.1 hq), hb q (List.mem_range.1 hq)]
  have hs := fun n => tvTrain_step h0 h1.le n
  refine ⟨bal a _ hs (fun r hr => (each r hr).2.1), bal b (fun n => n - tvTrain p n) (fun n => ?_) (fun r hr => (each r hr).2.2), ?_⟩
  · have h2 := hs n
    have h3 : tvTrain p n ≤ n := by
      rcases Nat.eq_zero_or_pos n with rfl | hn
      · simp [tvTrain]
      · exact (tvTrain_lt h1 hn).le
    omega
  · exact (content_append_perm P a b).symm.trans (content_perm (fun r hr => (each r hr).1))

example : tvTrain (3 / 4) 5 = 3 := by
  unfold tvTrain
  rw [Nat.floor_eq_iff (by norm_num)]
  norm_num

/-- **C121**: samples and labels stay together: the rows are chosen by the permutation alone. -/
theorem train_val_split_pairs (f : α → β) (train : Nat) (perm : List Nat) (l : List α) : tvSplit train perm (l.map f) = (tvSplit train perm l).map (fun p => (p.1.map f, p.2.map f)) := by
  unfold tvSplit
  dsimp only
  rw [List.length_map]
  generalize (if l.length - train = 0 then perm else perm.drop (perm.length - (l.length - train))) = v
  split
  · rw [pickRows_map, pickRows_map]
    cases pickRows (perm.take train) l with
    | none => rfl
    | some a =>
      simp only [Option.map_some, Option.bind_some]
      cases pickRows v l <;> rfl
  · rfl

/-- **C121** is violated when a process has no validation row (`p = 1`): `perm[-0:]` is everything, the assertion fails. -/
theorem train_val_split_all_violated (perm : List Nat) (l : List α) (hp : perm.Perm (List.range l.length)) (hl : l ≠ []) : tvSplit l.length perm l = none := by
  have hlen : perm.length = l.length := by rw [hp.length_eq, List.length_range]
  unfold tvSplit
  dsimp only
  rw [if_pos (Nat.sub_self _), if_neg]
  rw [List.length_take, hlen, Nat.min_self]
  have := List.length_pos_iff.2 hl
  omega

example : tvSplit 2 [2, 0, 1] [10, 11, 12] = some ([12, 10], [11]) := by decide +kernel

end Heat
