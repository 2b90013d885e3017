import Verif.Model.Dataset
import Verif.Proof.Dist
import Verif.Props.Sort
/-!
# Shuffling between epochs (C119)
-/
namespace Heat
open Spec
variable {α β : Type}

theorem mapM_some_iff {γ δ : Type} (f : γ → Option δ) (l : List γ) (x : List δ) : l.mapM f = some x ↔ l.map f = x.map some := by
  induction l generalizing x with
  | nil =>
    cases x <;> simp
  | cons a l ih =>
    rw [List.mapM_cons, List.map_cons]
    cases ha : f a with
    | none =>
      cases x <;> simp
    | some b =>
      cases x with
      | nil =>
        simp
        cases l.mapM f <;> simp
      | cons y x =>
        rw [List.map_cons]
        cases hl : l.mapM f with
        | none =>
          simp only [List.cons.injEq]
          constructor
          · intro h; cases h
          · rintro ⟨_, h⟩
            rw [← ih, hl] at h
            cases h
        | some z =>
          have := (ih z).1 hl
          simp only [List.cons.injEq]
          rw [this]
          constructor
          · intro h
            have h' : some (b :: z) = some (y :: x) := h
            cases h'
            exact ⟨rfl, rfl⟩
          · rintro ⟨h1, h2⟩
            cases h1
            have : z = x := by
              have := (ih x).2 (by rw [‹l.map f = _›, h2])
              rw [hl] at this
              exact Option.some.inj this
            rw [this]
            rfl

theorem pickRows_range (l : List α) : pickRows (List.range l.length) l = some l := by
  unfold pickRows
  rw [mapM_some_iff]
  apply List.ext_getElem
  · simp
  · intro i h1 h2
    simp at h1
    simp [h1]

/-- A permutation of the rows. -/
theorem pickRows_perm {prm : List Nat} {l : List α} (h : prm.Perm (List.range l.length)) : ∃ l', pickRows prm l = some l' ∧ l'.Perm l := by
  have hr := pickRows_range l
  unfold pickRows at hr ⊢
  refine ⟨prm.filterMap (fun i => l[i]?), ?_, ?_⟩
  · rw [mapM_some_iff]
    have : ∀ i ∈ prm, ∃ a, l[i]? = some a := by
      intro i hi
      have := h.mem_iff.1 hi
      rw [List.mem_range] at this
      exact ⟨l[i], List.getElem?_eq_getElem this⟩
    clear h
    induction prm with
    | nil => rfl
    | cons i prm ih =>
      obtain ⟨a, ha⟩ := this i (by simp)
      rw [List.map_cons, List.filterMap_cons, ha, List.map_cons, ih (fun j hj => this j (List.mem_cons_of_mem _ hj))]
  · have e : (List.range l.length).filterMap (fun i => l[i]?) = l := by
      rw [mapM_some_iff] at hr
      have := congrArg (List.filterMap id) hr
      simpa [List.filterMap_map] using this
    have := h.filterMap (fun i => l[i]?)
    rwa [e] at this

theorem pickRows_map (f : α → β) (prm : List Nat) (l : List α) : pickRows prm (l.map f) = (pickRows prm l).map (List.map f) := by
  unfold pickRows
  induction prm with
  | nil => rfl
  | cons i prm ih =>
    rw [List.mapM_cons, List.mapM_cons, ih, List.getElem?_map]
    cases l[i]? with
    | none => rfl
    | some a =>
      cases prm.mapM (fun i => l[i]?) <;> rfl

/-- What all processes receive is what all processes send. -/
theorem dsReceived_content (P h : Nat) (data : Nat → List α) : (content P (dsReceived P h data)).Perm (content P (fun r => (data r).take h)) := by
  cases P with
  | zero => exact List.Perm.refl _
  | succ k =>
    have e : content (k + 1) (dsReceived (k + 1) h data) = (data k).take h ++ content k (fun r => (data r).take h) := by
      unfold content
      rw [List.range_succ_eq_map, List.flatMap_cons, List.flatMap_map]
      rfl
    rw [e, content_succ]
    exact List.perm_append_comm

/-- The data set is in order: `data` is the part of `htdata` that all processes have. -/
structure DsGood (P m : Nat) (s : DsState α) : Prop where
  long : ∀ r < P, m ≤ (s.ht r).length
  data : ∀ r < P, s.data r = (s.ht r).take m

/-- A balanced array gives a data set in order (`m = n // P`). -/
theorem dsInit_good (P : Nat) (ht : Nat → List α) (hb : Balanced P ht) : DsGood P ((content P ht).length / P) (dsInit ((content P ht).length / P) ht) :=
  ⟨fun r hr => by
    show _ ≤ (ht r).length
    rw [hb r hr]
    unfold evenSize
    omega, fun _ _ => rfl⟩

theorem received_length {P m : Nat} {s : DsState α} (h : DsGood P m s) {r : Nat} (hr : r < P) : (dsReceived P (m / 2) s.data r).length = m / 2 := by
  unfold dsReceived
  have hp : (if r ≠ 0 then r - 1 else P - 1) < P := by split <;> omega
  rw [h.data _ hp, List.length_take, List.length_take]
  have := h.long _ hp
  omega

theorem dsOverwrite_content {P m : Nat} {s : DsState α} (h : DsGood P m s) : (content P (fun r => dsOverwrite (m / 2) (dsReceived P (m / 2) s.data r) (s.ht r))).Perm (content P s.ht) := by
  unfold dsOverwrite
  have e : content P (fun r => (s.data r).take (m / 2)) = content P (fun r => (s.ht r).take (m / 2)) := by
    apply content_congr
    intro r hr
    rw [h.data r hr, List.take_take]
    congr 1
    omega
  refine (content_append_perm P _ _).trans ?_
  refine ((dsReceived_content P (m / 2) s.data).append_right _).trans ?_
  rw [e]
  refine (content_append_perm P _ _).symm.trans ?_
  simp only [List.take_append_drop]
  exact List.Perm.refl _

theorem dsOverwrite_length {P m : Nat} {s : DsState α} (h : DsGood P m s) {r : Nat} (hr : r < P) : (dsOverwrite (m / 2) (dsReceived P (m / 2) s.data r) (s.ht r)).length = (s.ht r).length := by
  unfold dsOverwrite
  rw [List.length_append, received_length h hr, List.length_drop]
  have := h.long r hr
  omega

/-- **C119**: a shuffle keeps every row exactly once on the processes, keeps the number of rows of every process, and `data` stays the common part. No process raises. -/
theorem dataset_shuffle (P m : Nat) (prm : Nat → List Nat) (s : DsState α) (h : DsGood P m s) (hp : ∀ r < P, (prm r).Perm (List.range (s.ht r).length)) :
    ∃ s', dsShuffleAll P m prm s = some s' ∧ DsGood P m s' ∧ (content P s'.ht).Perm (content P s.ht) ∧ ∀ r < P, (s'.ht r).length = (s.ht r).length := by
  have each : ∀ r < P, ∃ l, dsShuffle P m (prm r) s r = some (l.take m, l) ∧ l.Perm (dsOverwrite (m / 2) (dsReceived P (m / 2) s.data r) (s.ht r)) := by
    intro r hr
    obtain ⟨l, e, p⟩ := pickRows_perm (prm := prm r) (l := dsOverwrite (m / 2) (dsReceived P (m / 2) s.data r) (s.ht r)) (by rw [dsOverwrite_length h hr]; exact hp r hr)
    exact ⟨l, by rw [dsShuffle, e]; rfl, p⟩
  unfold dsShuffleAll
  rw [if_pos (fun r hr => by obtain ⟨l, e, _⟩ := each r hr; rw [e]; rfl)]
  refine ⟨_, rfl, ⟨?_, ?_⟩, ?_, ?_⟩
  · intro r hr
    obtain ⟨l, e, p⟩ := each r hr
    dsimp only
    rw [e]
    show m ≤ l.length
    rw [p.length_eq, dsOverwrite_length h hr]
    exact h.long r hr
  · intro r hr
    obtain ⟨l, e, p⟩ := each r hr
    dsimp only
    rw [e]
    rfl
  · refine List.Perm.trans (content_perm (b := fun r => dsOverwrite (m / 2) (dsReceived P (m / 2) s.data r) (s.ht r)) ?_) (dsOverwrite_content h)
    intro r hr
    obtain ⟨l, e, p⟩ := each r hr
    dsimp only
    rw [e]
    exact p
  · intro r hr
    obtain ⟨l, e, p⟩ := each r hr
    dsimp only
    rw [e]
    show l.length = _
    rw [p.length_eq, dsOverwrite_length h hr]

/-- **C119**: several attributes shuffled with the same permutation stay together: shuffling the projection of rows is the projection of the shuffled rows (take rows that are pairs of a sample and its target, `f` the two projections). -/
theorem dataset_shuffle_pairs (f : α → β) (P m : Nat) (prm : List Nat) (s : DsState α) (r : Nat) :
    dsShuffle P m prm ⟨fun q => (s.data q).map f, fun q => (s.ht q).map f⟩ r = (dsShuffle P m prm s r).map (fun p => (p.1.map f, p.2.map f)) := by
  unfold dsShuffle dsReceived dsOverwrite
  dsimp only
  rw [← List.map_take, ← List.map_drop, ← List.map_append, pickRows_map]
  cases pickRows prm ((s.data (if r ≠ 0 then r - 1 else P - 1)).take (m / 2) ++ (s.ht r).drop (m / 2)) with
  | none => rfl
  | some l => simp [List.map_take]

/-- **C119**: an attribute without a DNDarray: its rows stay on the processes, each exactly once. -/
theorem dataset_shuffle_plain (P m : Nat) (prm : Nat → List Nat) (data : Nat → List α) (hm : ∀ r < P, (data r).length = m) (hp : ∀ r < P, (prm r).Perm (List.range m)) :
    ∃ d' : Nat → List α, (∀ r < P, dsShufflePlain P m (prm r) data r = some (d' r)) ∧ (content P d').Perm (content P data) ∧ ∀ r < P, (d' r).length = m := by
  have hg : DsGood P m ⟨data, data⟩ := ⟨fun r hr => (hm r hr).ge, fun r hr => by dsimp only; rw [List.take_of_length_le (hm r hr).le]⟩
  have each : ∀ r < P, ∃ l, dsShufflePlain P m (prm r) data r = some l ∧ l.Perm (dsOverwrite (m / 2) (dsReceived P (m / 2) data r) (data r)) ∧ l.length = m := by
    intro r hr
    have hl := dsOverwrite_length hg hr
    dsimp only at hl
    rw [hm r hr] at hl
    obtain ⟨l, e, p⟩ := pickRows_perm (prm := prm r) (l := dsOverwrite (m / 2) (dsReceived P (m / 2) data r) (data r)) (by rw [hl]; exact hp r hr)
    have ll : l.length = m := by rw [p.length_eq, hl]
    exact ⟨l, by rw [dsShufflePlain, e, Option.map_some, List.take_of_length_le ll.le], p, ll⟩
  classical
  refine ⟨fun r => if hr : r < P then (each r hr).choose else [], ?_, ?_, ?_⟩
  · intro r hr
    dsimp only
    rw [dif_pos hr]
    exact (each r hr).choose_spec.1
  · refine List.Perm.trans (content_perm (b := fun r => dsOverwrite (m / 2) (dsReceived P (m / 2) data r) (data r)) ?_) (dsOverwrite_content hg)
    intro r hr
    rw [dif_pos hr]
    exact (each r hr).choose_spec.2.1
  · intro r hr
    dsimp only
    rw [dif_pos hr]
    exact (each r hr).choose_spec.2.2

/-- **C119**: any number of epochs with blocking shuffles loses and duplicates nothing. -/
theorem loader_epochs (P m : Nat) (ps : List (Nat → List Nat)) (s : DsLoader α) (h : DsGood P m s.ds) (hp : ∀ p ∈ ps, ∀ r < P, (p r).Perm (List.range (s.ds.ht r).length)) :
    ∃ s', loaderEpochs P m ps s = some s' ∧ DsGood P m s'.ds ∧ (content P s'.ds.ht).Perm (content P s.ds.ht) ∧ ∀ r < P, (s'.ds.ht r).length = (s.ds.ht r).length := by
  induction ps generalizing s with
  | nil => exact ⟨s, rfl, h, List.Perm.refl _, fun _ _ => rfl⟩
  | cons p ps ih =>
    rw [loaderEpochs, loaderIter]
    by_cases hf : s.first = true
    · rw [if_pos hf]
      exact ih { s with first := false } h (fun q hq => hp q (List.mem_cons_of_mem _ hq))
    · rw [if_neg hf]
      obtain ⟨d, e, g, c, l⟩ := dataset_shuffle P m p s.ds h (hp p (by simp))
      rw [e]
      obtain ⟨s', e', g', c', l'⟩ := ih { s with ds := d } g (fun q hq r hr => by
        dsimp only
        rw [l r hr]
        exact hp q (List.mem_cons_of_mem _ hq) r hr)
      exact ⟨s', e', g', c'.trans c, fun r hr => (l' r hr).trans (l r hr)⟩

/-- **C119** (`_partial`: every process has the same number of rows; `last_epoch` is not set): any number of epochs with non-blocking shuffles loses and duplicates nothing. -/
theorem loader_iepochs_partial (P m : Nat) (ps : List (Nat → List Nat)) (s : DsLoader α) (h : DsGood P m s.ds) (heq : ∀ r < P, (s.ds.ht r).length = m) (hp : ∀ p ∈ ps, ∀ r < P, (p r).Perm (List.range m)) :
    ∃ s', loaderIepochs P m ps s = some s' ∧ DsGood P m s'.ds ∧ (content P s'.ds.ht).Perm (content P s.ds.ht) ∧ ∀ r < P, (s'.ds.ht r).length = m := by
  induction ps generalizing s with
  | nil => exact ⟨s, rfl, h, List.Perm.refl _, heq⟩
  | cons p ps ih =>
    rw [loaderIepochs, loaderIiter]
    simp only [Bool.false_eq_true, or_self, if_false]
    by_cases hf : s.first = true
    · rw [if_pos hf]
      exact ih { s with first := false, received := some (fun r => dsReceived P (m / 2) s.ds.data r) } h heq (fun q hq => hp q (List.mem_cons_of_mem _ hq))
    · rw [if_neg hf]
      obtain ⟨d, e, g, c, l⟩ := dataset_shuffle P m p s.ds h (fun r hr => by rw [heq r hr]; exact hp p (by simp) r hr)
      unfold dsShuffleAll at e
      have same : ∀ r, dsIrecv m (p r) (dsReceived P (m / 2) s.ds.data r) s.ds r = dsShuffle P m (p r) s.ds r := fun _ => rfl
      simp only [same]
      split at e
      · rename_i hc
        rw [if_pos hc]
        cases e
        obtain ⟨s', e', g', c', l'⟩ := ih { s with received := some (fun r => dsReceived P (m / 2) s.ds.data r), ds := ⟨fun r => ((dsShuffle P m (p r) s.ds r).getD ([], [])).1, fun r => ((dsShuffle P m (p r) s.ds r).getD ([], [])).2⟩ } g
          (fun r hr => (l r hr).trans (heq r hr)) (fun q hq => hp q (List.mem_cons_of_mem _ hq))
        exact ⟨s', e', g', c'.trans c, l'⟩
      · cases e

/-- What a loader holds, as lists. -/
def loaderRows (P : Nat) (s : Option (DsLoader Nat)) : Option (List Nat) := s.map (fun s => content P s.ds.ht)

/-- **C119** is violated by non-blocking shuffles when the rows do not divide evenly: the permutation has the length of `data`, and the last row of a longer process is dropped from `htdata` for good. -/
theorem loader_iepochs_violated : loaderRows 2 (loaderIepochs 2 2 [fun _ => [0, 1], fun _ => [0, 1]] ⟨true, none, dsInit 2 (fun r => if r = 0 then [0, 1, 2] else [3, 4])⟩) = some [3, 1, 0, 4] := by decide +kernel

/-- **C119** is violated when `last_epoch` is set: no new rows are sent, the rows of the epoch before are inserted again, and others are lost. -/
theorem loader_last_epoch_violated :
    loaderRows 2 ((loaderIepochs 2 2 [fun _ => [0, 1], fun _ => [1, 0]] ⟨true, none, dsInit 2 (fun r => if r = 0 then [0, 1] else [2, 3])⟩).bind (loaderIiter 2 2 true false (fun _ => [0, 1]))) = some [2, 2, 0, 0] := by decide +kernel

/-- **C119** is violated for a test set with `ishuffle=True`: the second epoch raises (no receive list). -/
theorem loader_test_set_violated :
    loaderRows 2 ((loaderIiter 2 2 false true (fun _ => [0, 1]) ⟨true, none, dsInit 2 (fun r => if r = 0 then [0, 1] else [2, 3])⟩).bind (loaderIiter 2 2 false true (fun _ => [0, 1]))) = none := by decide +kernel

example : loaderRows 2 (loaderEpochs 2 2 [fun _ => [0, 1], fun r => if r = 0 then [2, 0, 1] else [1, 0]] ⟨true, none, dsInit 2 (fun r => if r = 0 then [0, 1, 2] else [3, 4])⟩) = some [2, 3, 1, 4, 0] := by decide +kernel
example : loaderRows 2 (loaderIepochs 2 2 [fun _ => [0, 1], fun _ => [1, 0]] ⟨true, none, dsInit 2 (fun r => if r = 0 then [0, 1] else [2, 3])⟩) = some [1, 2, 3, 0] := by decide +kernel

end Heat
