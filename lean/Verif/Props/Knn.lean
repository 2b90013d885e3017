import Verif.Model.Knn
import Verif.Props.Indexing
/-!
# C145: the k nearest neighbours vote
-/
namespace Heat
open Heat.Spec

namespace Spec
/-- The votes of the neighbours `nb` for class `c` when training sample `i` has label `labels[i]`. -/
def votes (labels : List Nat) (nb : List Nat) (c : Nat) : Nat := nb.countP fun i => labels[i]? == some c

/-- `c` is the class with the most votes among the classes below `w`, the smallest one in a tie. -/
def Winner (w : Nat) (f : Nat → Nat) (c : Nat) : Prop := c < w ∧ (∀ c' < w, f c' ≤ f c) ∧ ∀ c' < c, f c' < f c
end Spec

theorem knnArgmax_spec (f : Nat → Nat) (w : Nat) (hw : 0 < w) : Winner w f (knnArgmax f w) := by
  induction w with
  | zero => omega
  | succ w ih =>
    by_cases h0 : w = 0
    · subst h0
      have e : knnArgmax f 1 = 0 := by unfold knnArgmax knnArgmax; simp
      rw [e]
      refine ⟨by omega, fun c hc => ?_, fun c hc => by omega⟩
      rw [show c = 0 by omega]
      exact Nat.le_refl _
    · obtain ⟨h1, h2, h3⟩ := ih (by omega)
      unfold knnArgmax
      simp only
      by_cases h : f (knnArgmax f w) < f w
      · rw [if_pos h]
        refine ⟨by omega, fun c hc => ?_, fun c hc => ?_⟩
        · by_cases hcw : c = w
          · rw [hcw]; exact Nat.le_refl _
          · have := h2 c (by omega); omega
        · have := h2 c hc; omega
      · rw [if_neg h]
        refine ⟨by omega, fun c hc => ?_, h3⟩
        by_cases hcw : c = w
        · rw [hcw]; omega
        · exact h2 c (by omega)

theorem winner_unique (w : Nat) (f : Nat → Nat) (a b : Nat) (ha : Winner w f a) (hb : Winner w f b) : a = b := by
  rcases Nat.lt_trichotomy a b with h | h | h
  · have := hb.2.2 a h; have := ha.2.1 b hb.1; omega
  · exact h
  · have := ha.2.2 b h; have := hb.2.1 a ha.1; omega

theorem oneHotRow_get (nf l c : Nat) (hc : c < nf) : (oneHotRow nf l).getD c 0 = if c = l then 1 else 0 := by
  unfold oneHotRow
  rw [List.getD_eq_getElem?_getD, List.getElem?_map, List.getElem?_range hc]
  rfl

/-- Every label is below the width of the one-hot encoding. -/
theorem oneHotWidth_spec (labels : List Nat) : ∀ l ∈ labels, l < oneHotWidth labels := by
  have key : ∀ (t : List Nat) (a : Nat), a ≤ t.foldl max a ∧ ∀ l ∈ t, l ≤ t.foldl max a := by
    intro t
    induction t with
    | nil => intro a; simp
    | cons x t ih =>
      intro a
      obtain ⟨h1, h2⟩ := ih (max a x)
      rw [List.foldl_cons]
      refine ⟨by omega, fun l hl => ?_⟩
      rcases List.mem_cons.1 hl with rfl | hl
      · omega
      · exact h2 l hl
  intro l hl
  have := (key labels 0).2 l hl
  unfold oneHotWidth; omega

/-- **C145, encoding.**  On balanced labels the one-hot encoding succeeds on every process and is the encoding of the labels in order. -/
theorem oneHot_spec (P : Nat) (y : Nat → List Nat) (hb : Balanced P y) (nf : Nat) :
    ∃ e : Nat → List (List Nat), (∀ r < P, oneHotPart (content P y).length P nf y r = .ok (e r)) ∧
      content P e = (content P y).map (oneHotRow nf) := by
  refine ⟨fun r => (y r).map (oneHotRow nf), fun r hr => ?_, ?_⟩
  · unfold oneHotPart
    simp only
    rw [if_pos (by rw [chunkRange_size, hb r hr])]
  · induction P with
    | zero => rfl
    | succ P ih =>
      clear hb ih
      generalize P + 1 = Q
      induction Q with
      | zero => rfl
      | succ Q ih => rw [content_succ, content_succ, ih, List.map_append]

/-- Unbalanced labels cannot be encoded. -/
theorem oneHot_unbalanced_violated :
    oneHotPart 4 2 2 (fun r => ([[0, 1, 1], [0]] : List (List Nat)).getD r []) 0 = .error .indexError := by decide

theorem score_eq (nf k : Nat) (labels : List Nat) (nbrs : List (List Nat)) (hk : ∀ nb ∈ nbrs, nb.length = k)
    (hin : ∀ nb ∈ nbrs, ∀ i ∈ nb, i < labels.length) (i : Nat) (hi : i < nbrs.length) (c : Nat) (hc : c < nf) :
    knnScore k (nbrs.flatten.filterMap fun j => (labels.map (oneHotRow nf))[j]?) i c = votes labels nbrs[i] c := by
  have hflat : (nbrs.flatten.filterMap fun j => (labels.map (oneHotRow nf))[j]?) =
      nbrs.flatten.map fun j => oneHotRow nf (labels.getD j 0) := by
    have : ∀ (l : List Nat), (∀ j ∈ l, j < labels.length) → (l.filterMap fun j => (labels.map (oneHotRow nf))[j]?) =
        l.map fun j => oneHotRow nf (labels.getD j 0) := by
      intro l hl
      induction l with
      | nil => rfl
      | cons x t ih =>
        have hx := hl x List.mem_cons_self
        rw [List.filterMap_cons_some (b := oneHotRow nf (labels.getD x 0)), List.map_cons, ih fun j hj => hl j (List.mem_cons_of_mem _ hj)]
        rw [List.getElem?_map, List.getElem?_eq_getElem hx, Option.map_some, List.getD_eq_getElem?_getD, List.getElem?_eq_getElem hx]
        rfl
    apply this
    intro j hj
    obtain ⟨nb, h1, h2⟩ := List.mem_flatten.1 hj
    exact hin nb h1 j h2
  have hgrp : knnGroup k (nbrs.flatten.map fun j => oneHotRow nf (labels.getD j 0)) i = nbrs[i].map fun j => oneHotRow nf (labels.getD j 0) := by
    unfold knnGroup
    rw [← List.map_drop, ← List.map_take]
    congr 1
    clear hflat hin
    induction nbrs generalizing i with
    | nil => simp at hi
    | cons nb t ih =>
      have hnb := hk nb List.mem_cons_self
      rw [List.flatten_cons]
      cases i with
      | zero => rw [Nat.mul_zero, List.drop_zero, List.getElem_cons_zero, List.take_append_of_le_length (by omega), List.take_of_length_le (by omega)]
      | succ i =>
        have h := ih (fun nb h => hk nb (List.mem_cons_of_mem _ h)) i (by simpa using hi)
        rw [show k * (i + 1) = nb.length + k * i by rw [hnb, Nat.mul_succ, Nat.add_comm], List.drop_append, show nb.length + k * i - nb.length = k * i by omega,
          List.drop_eq_nil_of_le (by omega), List.nil_append, h, List.getElem_cons_succ]
  unfold knnScore
  rw [hflat, hgrp, List.map_map]
  unfold votes
  have hmem := hin _ (List.getElem_mem hi)
  generalize nbrs[i] = nb at hmem
  clear hgrp hflat hin hk hi
  induction nb with
  | nil => rfl
  | cons x t ih =>
    have hx := hmem x List.mem_cons_self
    rw [List.map_cons, List.sum_cons, ih fun j hj => hmem j (List.mem_cons_of_mem _ hj), List.countP_cons, Function.comp_apply, oneHotRow_get _ _ _ hc,
      List.getD_eq_getElem?_getD, List.getElem?_eq_getElem hx, Option.getD_some]
    by_cases h : c = labels[x]
    · rw [if_pos h, if_pos (by simp [h])]; omega
    · rw [if_neg h, if_neg (by simpa using fun h' => h h'.symm)]; omega

theorem knn_flat_length (k : Nat) (nbrs : List (List Nat)) (hk : ∀ nb ∈ nbrs, nb.length = k) : nbrs.flatten.length = nbrs.length * k := by
  induction nbrs with
  | nil => simp
  | cons nb t ih =>
    rw [List.flatten_cons, List.length_append, ih fun x hx => hk x (List.mem_cons_of_mem _ hx), hk nb List.mem_cons_self, List.length_cons, Nat.succ_mul,
      Nat.add_comm]

theorem rows_length (l : List Nat) (rows : List (List Nat)) (h : ∀ j ∈ l, j < rows.length) : (l.filterMap fun j => rows[j]?).length = l.length := by
  induction l with
  | nil => rfl
  | cons x t ih =>
    rw [List.filterMap_cons_some (b := rows[x]'(h x List.mem_cons_self)) (List.getElem?_eq_getElem _), List.length_cons, List.length_cons,
      ih fun j hj => h j (List.mem_cons_of_mem _ hj)]

/-- **C145, replicated labels.**  With the training labels on every process, `predict` returns for every test sample the class with the most
votes among its `k` neighbours (the smallest such class). -/
theorem knn_repl (k : Nat) (labels : List Nat) (nbrs : List (List Nat)) (hk : ∀ nb ∈ nbrs, nb.length = k)
    (hin : ∀ nb ∈ nbrs, ∀ i ∈ nb, i < labels.length) :
    ∃ res, knnPredictRepl (oneHotWidth labels) k (labels.map (oneHotRow (oneHotWidth labels))) nbrs = .ok res ∧ res.length = nbrs.length ∧
      ∀ (i : Nat) (h1 : i < res.length) (h2 : i < nbrs.length), Winner (oneHotWidth labels) (votes labels nbrs[i]) res[i] := by
  unfold knnPredictRepl knnVote
  rw [if_pos ?_]
  · refine ⟨_, rfl, by simp, fun i h1 h2 => ?_⟩
    rw [List.getElem_map, List.getElem_range]
    have hw : 0 < oneHotWidth labels := by unfold oneHotWidth; omega
    obtain ⟨a, b, c⟩ := knnArgmax_spec (knnScore k (nbrs.flatten.filterMap fun j => (labels.map (oneHotRow (oneHotWidth labels)))[j]?) i) _ hw
    have e := fun c hc => score_eq (oneHotWidth labels) k labels nbrs hk hin i h2 c hc
    refine ⟨a, fun c' hc' => ?_, fun c' hc' => ?_⟩
    · rw [← e _ hc', ← e _ a]; exact b c' hc'
    · rw [← e _ (by omega), ← e _ a]; exact c c' hc'
  · rw [rows_length, knn_flat_length k nbrs hk]
    intro j hj
    obtain ⟨nb, h1, h2⟩ := List.mem_flatten.1 hj
    rw [List.length_map]
    exact hin nb h1 j h2

example : knnPredictRepl 3 3 ([0, 2, 2, 1].map (oneHotRow 3)) [[0, 1, 2], [0, 3, 1], [3, 3, 0]] = .ok [2, 0, 1] := by decide

/-- **C145 (partial), distributed labels.**  With the training labels distributed, `predict` gives the same result if the neighbours of all
test samples, one after the other, are in the order of the processes that hold them, and there are at least two.  Missing: any other
order, for which it is false (`knn_split_violated`). -/
theorem knn_split_partial (P w k : Nat) (y : Nat → List (List Nat)) (nbrs : List (List Nat))
    (hin : ∀ i ∈ nbrs.flatten, i < (content P y).length) (h2 : 2 ≤ nbrs.flatten.length)
    (hord : nbrs.flatten.Pairwise fun a b => ∀ r, b < startOf y r → a < startOf y r) :
    knnPredictSplit P w k (content P y).length (offs y) (cnts y) y nbrs = knnPredictRepl w k (content P y) nbrs := by
  obtain ⟨res, h1, h3⟩ := getitemList_partial P y (nbrs.flatten.map Int.ofNat)
    (by
      intro i hi
      obtain ⟨j, hj, rfl⟩ := List.mem_map.1 hi
      have := hin j hj
      exact ⟨Int.natCast_nonneg _, Int.ofNat_lt.2 this⟩) (by rw [List.length_map]; exact h2)
    (by
      rw [List.pairwise_map]
      refine hord.imp fun {a b} h r hr => ?_
      have : b < startOf y r := Int.ofNat_lt.1 hr
      exact Int.ofNat_lt.2 (h r this))
  have hm : ∀ (l : List Nat), (∀ r ∈ l, r < P) →
      (l.mapM fun r => getitemList (content P y).length (offs y) (cnts y) y (nbrs.flatten.map Int.ofNat) r) = .ok (l.map res) := by
    intro l hl
    induction l with
    | nil => rfl
    | cons a t ih =>
      rw [List.mapM_cons, h1 a (hl a List.mem_cons_self), ih fun r hr => hl r (List.mem_cons_of_mem _ hr)]
      rfl
  unfold knnPredictSplit knnPredictRepl
  rw [hm _ fun r hr => List.mem_range.1 hr]
  simp only [Except.bind]
  congr 1
  have : content P res = ((List.range P).map res).flatten := by unfold content; rw [List.flatMap]
  rw [← this, h3]
  unfold takeList
  rw [List.filterMap_map]
  apply filterMap_congr'
  intro j hj
  rw [Function.comp_apply, show Int.ofNat j = (j : Int) from rfl, if_neg (by omega), Int.toNat_natCast]

example : knnPredictSplit 2 2 2 4 (offs (fun r => ([[[1, 0], [0, 1]], [[0, 1], [1, 0]]] : List (List (List Nat))).getD r []))
      (cnts (fun r => ([[[1, 0], [0, 1]], [[0, 1], [1, 0]]] : List (List (List Nat))).getD r []))
      (fun r => ([[[1, 0], [0, 1]], [[0, 1], [1, 0]]] : List (List (List Nat))).getD r []) [[1, 1], [2, 3]] = .ok [1, 0] := by decide

/-- Labels `0, 0 | 1, 1` on two processes, one neighbour each: the test samples next to training samples 3 and 0 are labelled 0 and 1 instead
of 1 and 0, because the gathered rows come back in the order of the processes. -/
theorem knn_split_violated :
    let y : Nat → List (List Nat) := fun r => ([[[1, 0], [1, 0]], [[0, 1], [0, 1]]] : List (List (List Nat))).getD r []
    knnPredictSplit 2 2 1 4 (offs y) (cnts y) y [[3], [0]] = .ok [0, 1] ∧ knnPredictRepl 2 1 (content 2 y) [[3], [0]] = .ok [1, 0] := by
  decide

/-- A single test sample with one neighbour raises: the gathered rows are empty. -/
theorem knn_single_violated :
    let y : Nat → List (List Nat) := fun r => ([[[1, 0], [1, 0]], [[0, 1], [0, 1]]] : List (List (List Nat))).getD r []
    knnPredictSplit 2 2 1 4 (offs y) (cnts y) y [[3]] = .error .valueError := by
  decide

end Heat
