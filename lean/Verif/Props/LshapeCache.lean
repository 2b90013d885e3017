import Verif.Model.LshapeCache
import Verif.Props.Dist
/-!
# C11: the reported lshape_map
The full property ("after any history, `lshape_map` reports the actual local shapes") is FALSE of the code; two
counterexamples are proved.  `lshape_map_fresh_partial` proves it for all histories of the remaining operations.
-/
namespace Heat
open Heat.Spec

/-- What the user reads after a history. -/
def reported (P : Nat) (a : CArr) (h : List COp) (r : Nat) : List Int :=
  ((h.foldl (CArr.step P) a).lshapeMap P false).2 r

/-- C11 is violated: assigning local data of another size through `larray` leaves the old map in the cache. -/
theorem lshape_map_stale_after_larray :
    ∃ (a : CArr) (h : List COp), a.cache = none ∧
      reported 2 a h 0 ≠ (h.foldl (CArr.step 2) a).actualRow 0 := by
  refine ⟨⟨[4], 0, fun r => [[(), ()], [(), ()]].getD r [], none⟩,
    [.read, .setLarray fun r => [1, 3].getD r 0], rfl, ?_⟩
  decide

/-- C11 is violated: a target map with zeros in the non-split columns (as in the docstring example of
`redistribute_`) is reported verbatim. -/
theorem lshape_map_wrong_after_padded_target :
    ∃ (a : CArr) (h : List COp), a.cache = none ∧
      reported 2 a h 0 ≠ (h.foldl (CArr.step 2) a).actualRow 0 := by
  refine ⟨⟨[4, 3], 0, fun r => [[(), ()], [(), ()]].getD r [], none⟩,
    [.redistribute fun r => [[1, 0], [3, 0]].getD r []], rfl, ?_⟩
  decide

/-- Operations whose arguments respect the array: target maps carry the global sizes in the other columns,
have non-negative entries and the right sum (otherwise nothing happens, but the docs forbid them);
`larray` assignments keep the local sizes. -/
def OpOk (P : Nat) (a : CArr) : COp → Prop
  | .read => True
  | .redistribute m => ∃ t : Nat → Nat, ((List.range P).map t).sum = a.n ∧
      ∀ r < P, m r = (a.gshape.map fun (k : Nat) => (k : Int)).set a.split (t r)
  | .balance => True
  | .collect t => t < P
  | .resplit axis => axis < a.gshape.length
  | .setLarray k => ∀ r < P, k r = (a.parts r).length

def HistOk (P : Nat) : CArr → List COp → Prop
  | _, [] => True
  | a, op :: h => OpOk P a op ∧ HistOk P (a.step P op) h

/-- A consistent array. -/
structure CArr.Ok (P : Nat) (a : CArr) : Prop where
  split : a.split < a.gshape.length
  total : (content P a.parts).length = a.n
  cache : ∀ m, a.cache = some m → ∀ r < P, m r = a.actualRow r

theorem row_eq (a : CArr) (k : Nat) :
    (a.gshape.map fun (k : Nat) => (k : Int)).set a.split (k : Int) =
      (a.gshape.set a.split k).map fun (k : Nat) => (k : Int) := by
  rw [List.map_set]

theorem lshapeMap_ok {P : Nat} {a : CArr} (h : a.Ok P) (f : Bool) :
    (a.lshapeMap P f).1.Ok P ∧ (∀ r < P, (a.lshapeMap P f).2 r = a.actualRow r) ∧
    (a.lshapeMap P f).1.gshape = a.gshape ∧ (a.lshapeMap P f).1.split = a.split ∧
    (a.lshapeMap P f).1.parts = a.parts := by
  have key : ∀ r < P, ((a.gshape.map fun (k : Nat) => (k : Int)).set a.split
      (lshapeMapForced a.n P a.parts r)) = a.actualRow r := by
    intro r hr
    rw [lshapeMapForced_eq _ _ _ _ hr, row_eq]; rfl
  unfold CArr.lshapeMap
  split
  · rename_i m hm
    exact ⟨h, h.cache m hm, rfl, rfl, rfl⟩
  · refine ⟨⟨h.split, h.total, ?_⟩, key, rfl, rfl, rfl⟩
    intro m hm r hr
    cases hm
    exact key r hr

theorem col_set (a : CArr) (hs : a.split < a.gshape.length) (v : Int) :
    ((a.gshape.map fun (k : Nat) => (k : Int)).set a.split v).getD a.split 0 = v := by
  simp [List.getD, hs]

theorem redistribute_congr {α : Type} (n P : Nat) (t t' : Nat → Int) (h : ∀ r < P, t r = t' r) (fuel : Nat)
    (parts : Nat → List α) : redistribute fuel n P (some t) parts = redistribute fuel n P (some t') parts := by
  have hpull : ∀ k ≤ P, cum t k = cum t' k := fun k hk => cum_congr fun i hi => h i (by omega)
  have hrcv : ∀ (s : RState α) rcv, rcv < P → redistRcv P t s rcv = redistRcv P t' s rcv := by
    intro s rcv hr
    unfold redistRcv senderRange
    rw [h rcv hr, hpull rcv (by omega), hpull (rcv + 1) (by omega)]
  have hfold : ∀ (l : List Nat) (s : RState α), (∀ x ∈ l, x < P) →
      l.foldlM (redistRcv P t) s = l.foldlM (redistRcv P t') s := by
    intro l
    induction l with
    | nil => intro s _; rfl
    | cons x l ih =>
      intro s hl
      rw [List.foldlM_cons, List.foldlM_cons, hrcv s x (hl x (by simp))]
      congr 1
      funext s'
      exact ih s' fun y hy => hl y (by simp [hy])
  have hpass : ∀ (p : Nat → List α) l, redistPass P t p l = redistPass P t' p l := by
    intro p l
    exact hfold _ _ fun x hx => by simp at hx; omega
  have hloop : ∀ fuel (p : Nat → List α) l, redistLoop P t fuel p l = redistLoop P t' fuel p l := by
    intro fuel
    induction fuel with
    | zero => intro p l; rfl
    | succ f ih =>
      intro p l
      rw [redistLoop, redistLoop, hpass]
      split
      · rfl
      · rename_i s _
        have : (List.range P).any (fun i => s.lmap i != t i) = (List.range P).any (fun i => s.lmap i != t' i) := by
          rw [Bool.eq_iff_iff]
          simp only [List.any_eq_true, List.mem_range]
          constructor
          · rintro ⟨i, hi, h2⟩; exact ⟨i, hi, by rwa [h i hi] at h2⟩
          · rintro ⟨i, hi, h2⟩; exact ⟨i, hi, by rwa [← h i hi] at h2⟩
        rw [this, ih]
  unfold redistribute
  simp only
  rw [hpull P (Nat.le_refl _), hloop]

/-- redistributing to `t` and caching the matching map keeps the array consistent -/
theorem redist_ok {P : Nat} (hP : 1 < P) {a : CArr} (h : a.Ok P) (m : Nat → List Int) (t : Nat → Nat)
    (hsum : ((List.range P).map t).sum = a.n)
    (hm : ∀ r < P, m r = (a.gshape.map fun (k : Nat) => (k : Int)).set a.split (t r)) :
    ∃ p, Heat.redistribute 2 a.n P (some (col a.split m)) a.parts = .ok p ∧
      ({ a with parts := p, cache := some m } : CArr).Ok P := by
  have hcol : ∀ r < P, col a.split m r = (t r : Int) := by
    intro r hr; unfold col; rw [hm r hr, col_set a h.split]
  rw [redistribute_congr _ _ _ _ hcol]
  obtain ⟨p, h1, h2, h3⟩ := redistribute_spec P hP a.parts t (by rw [hsum, h.total]) 2 (Nat.le_refl _)
  rw [h.total] at h1
  refine ⟨p, h1, h.split, ?_, ?_⟩
  · simp only; rw [h2]; exact h.total
  · intro m' hm' r hr
    cases hm'
    rw [hm r hr, row_eq]
    simp [CArr.actualRow, h3 r hr]

theorem balance_redist {α : Type} (P : Nat) (hP : 1 < P) (parts : Nat → List α)
    (h : ¬ isBalancedCheck (content P parts).length P parts = true) :
    ∃ p, redistribute 2 (content P parts).length P none parts = .ok p ∧
      content P p = content P parts ∧ ∀ r < P, (p r).length = evenSize (content P parts).length P r := by
  obtain ⟨p, h1, h2, h3, _⟩ := balance_spec P (by omega) parts 2 (Nat.le_refl _)
  unfold balance at h1
  rw [if_neg (by simp [h]; omega)] at h1
  exact ⟨p, h1, h2, fun r hr => by rw [h3 r hr, h2]⟩

theorem step_ok {P : Nat} (hP : 1 < P) {a : CArr} (h : a.Ok P) (op : COp) (hop : OpOk P a op) :
    (a.step P op).Ok P := by
  cases op with
  | read => exact (lshapeMap_ok h false).1
  | redistribute m =>
    obtain ⟨t, hsum, hm⟩ := hop
    obtain ⟨g1, _, g3, g4, g5⟩ := lshapeMap_ok h true
    have hn : (a.lshapeMap P true).1.n = a.n := by unfold CArr.n; rw [g3, g4]
    obtain ⟨p, e, hok⟩ := redist_ok hP g1 m t (by rw [hn]; exact hsum) (by rw [g3, g4]; exact hm)
    unfold CArr.step
    simp only [e]
    exact hok
  | balance =>
    unfold CArr.step
    simp only
    split
    · exact h
    · rename_i hb
      rw [← h.total] at hb
      obtain ⟨p, e, h2, h3⟩ := balance_redist P hP a.parts hb
      rw [h.total] at e
      rw [e]
      obtain ⟨g1, g2, g3, g4, g5⟩ := lshapeMap_ok h true
      refine ⟨g1.split, ?_, ?_⟩
      · simp only; rw [h2, h.total]; unfold CArr.n; rw [g3, g4]
      · intro m' hm' r hr
        cases hm'
        simp only [chunkRange_size]
        rw [g2 r hr]
        simp only [CArr.actualRow, List.map_set, List.set_set, g3, g4]
        rw [h3 r hr, h.total]
  | collect t =>
    obtain ⟨g1, g2, g3, g4, g5⟩ := lshapeMap_ok h false
    obtain ⟨k1, k2, k3, k4, k5⟩ := lshapeMap_ok g1 true
    have hn : ((a.lshapeMap P false).1.lshapeMap P true).1.n = a.n := by
      unfold CArr.n; rw [k3, k4, g3, g4]
    have hsum : ((List.range P).map fun r => if r = t then a.n else 0).sum = a.n := by
      have : ∀ k, ((List.range k).map fun r => if r = t then a.n else 0).sum = if t < k then a.n else 0 := by
        intro k
        induction k with
        | zero => simp
        | succ k ih =>
          rw [List.range_succ, List.map_append, List.sum_append, ih]
          simp only [List.map_cons, List.map_nil, List.sum_cons, List.sum_nil]
          by_cases h1 : t < k
          · simp [h1, show t < k + 1 by omega, show k ≠ t by omega]
          · by_cases h2 : k = t
            · simp [h2]
            · simp [h1, h2, show ¬ t < k + 1 by omega]
      rw [this, if_pos (show t < P from hop)]
    obtain ⟨p, e, hok⟩ := redist_ok hP k1
      (fun r => ((a.lshapeMap P false).2 r).set a.split (if r = t then (a.n : Int) else 0))
      (fun r => if r = t then a.n else 0) (by rw [hn]; exact hsum) (by
        intro r hr
        rw [g2 r hr, k3, k4, g3, g4]
        simp only [CArr.actualRow, List.map_set, List.set_set]
        congr 1; split <;> rfl)
    unfold CArr.step
    simp only [e]
    exact hok
  | resplit axis =>
    simp only [CArr.step]
    split
    · exact h
    · refine ⟨hop, ?_, fun m hm => by simp at hm⟩
      simp only [CArr.n, chunkRange_size]
      have : ∀ n k, k ≤ P → (content k fun r => List.replicate (evenSize n P r) ()).length =
          (chunkRange n k P).1 := by
        intro n k
        induction k with
        | zero => intro _; simp [content_zero, chunkRange_zero]
        | succ k ih => intro hk; rw [content_succ, chunkRange_succ, chunkRange_snd, ← ih (by omega)]; simp
      rw [this _ P (Nat.le_refl _), chunkRange_at_P _ _ (by omega)]
  | setLarray k =>
    unfold CArr.step
    have hop' : ∀ r < P, k r = (a.parts r).length := hop
    refine ⟨h.split, ?_, ?_⟩
    · simp only [CArr.n]
      have hh := h.total
      have : ∀ j, j ≤ P → (content j fun r => List.replicate (k r) ()).length = (content j a.parts).length := by
        intro j
        induction j with
        | zero => intro _; rfl
        | succ j ih => intro hj; rw [content_succ, content_succ]; simp [ih (by omega), hop' j (by omega)]
      rw [this P (Nat.le_refl _), hh]; rfl
    · intro m hm r hr
      have := h.cache m hm r hr
      rw [this]
      simp [CArr.actualRow, hop' r hr]

/-- C11 (partial).  For every history of reads, `redistribute_` with well-formed target maps, `balance_`,
`collect_`, `resplit_` and size-preserving `larray` assignments, starting from a freshly made array (no cache) or
any consistent one, the reported map is the actual one on all ranks.
Missing with respect to C11: size-changing `larray` assignments and target maps whose non-split columns are not the
global sizes — for those the property is false (`lshape_map_stale_after_larray`, `lshape_map_wrong_after_padded_target`). -/
theorem lshape_map_fresh_partial (P : Nat) (hP : 1 < P) (a : CArr) (ha : a.Ok P) (h : List COp)
    (hh : HistOk P a h) (r : Nat) (hr : r < P) :
    reported P a h r = (h.foldl (CArr.step P) a).actualRow r := by
  have hok : ∀ (h : List COp) (a : CArr), a.Ok P → HistOk P a h → (h.foldl (CArr.step P) a).Ok P := by
    intro h
    induction h with
    | nil => intro a ha _; exact ha
    | cons op h ih => intro a ha hh; exact ih _ (step_ok hP ha op hh.1) hh.2
  exact (lshapeMap_ok (hok h a ha hh) false).2.1 r hr

example : (⟨[4, 3], 0, fun r => [[(), ()], [(), ()]].getD r [], none⟩ : CArr).Ok 2 :=
  ⟨by decide, by decide, fun m hm => by simp at hm⟩

example : HistOk 2 ⟨[4, 3], 0, fun r => [[(), ()], [(), ()]].getD r [], none⟩
    [.read, .redistribute (fun r => [[1, 3], [3, 3]].getD r []), .balance, .resplit 1, .collect 0] := by
  refine ⟨trivial, ⟨fun r => [1, 3].getD r 0, by decide, by decide⟩, trivial, ?_, ?_, trivial⟩
  · show 1 < _; decide
  · show 0 < 2; decide

end Heat
