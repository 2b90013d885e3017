import Verif.Model.Mpi
import Verif.Proof.Mpi
/-!
# C48, C49: schedule independence of heat's point-to-point communication
-/
namespace Heat

/-! ## C48: non-blocking exchanges -/

/-- The exchange is well matched: every receive has a send and every send a receive with the same
(source, destination, tag), no two operations of the same type share an envelope, and no two
receives of a rank share a buffer. -/
structure Spec.WellMatched {α : Type} (prog : XProg α) : Prop where
  send_has_recv : ∀ (i src dst tag : Nat) (v : α), prog[i]? = some (src, XOp.isend dst tag v) →
    ∃ j slot : Nat, prog[j]? = some (dst, XOp.irecv src tag slot)
  recv_has_send : ∀ j src dst tag slot : Nat, prog[j]? = some (dst, XOp.irecv src tag slot) →
    ∃ (i : Nat) (v : α), prog[i]? = some (src, XOp.isend dst tag v)
  send_unique : ∀ (i i' src dst tag : Nat) (v v' : α), prog[i]? = some (src, XOp.isend dst tag v) →
    prog[i']? = some (src, XOp.isend dst tag v') → i = i'
  recv_unique : ∀ j j' src dst tag s s' : Nat, prog[j]? = some (dst, XOp.irecv src tag s) →
    prog[j']? = some (dst, XOp.irecv src tag s') → j = j'
  slot_unique : ∀ j j' r src src' tag tag' s : Nat, prog[j]? = some (r, XOp.irecv src tag s) →
    prog[j']? = some (r, XOp.irecv src' tag' s) → j = j'

/-- No step is possible any more. -/
def Spec.Stuck {σ : Type} (step : σ → σ → Prop) (s : σ) : Prop := ∀ t, ¬ step s t

variable {α : Type}

structure XInv (prog : XProg α) (s : XState α) : Prop where
  done_pair : ∀ i j v dst slot, XMatch prog i j v dst slot → (s.status i = .done ↔ s.status j = .done)
  stored : ∀ i j v dst slot, XMatch prog i j v dst slot → s.status j = .done → s.store dst slot = some v
  empty : ∀ dst slot : Nat, (∀ j src tag : Nat, prog[j]? = some (dst, XOp.irecv src tag slot) →
    s.status j ≠ .done) → s.store dst slot = none

theorem XMatch.inj {prog : XProg α} (W : Spec.WellMatched prog) {i j i' j' : Nat} {v v' : α}
    {d d' s s' : Nat} (h : XMatch prog i j v d s) (h' : XMatch prog i' j' v' d' s') :
    (i = i' ↔ j = j') ∧ i ≠ j' ∧ (i = i' → v = v') ∧ (d = d' → s = s' → j = j') := by
  obtain ⟨a, t, h1, h2⟩ := h
  obtain ⟨a', t', h1', h2'⟩ := h'
  refine ⟨⟨?_, ?_⟩, ?_, ?_, ?_⟩
  · rintro rfl
    rw [h1] at h1'; cases h1'
    exact W.recv_unique _ _ _ _ _ _ _ h2 h2'
  · rintro rfl
    rw [h2] at h2'; cases h2'
    exact W.send_unique _ _ _ _ _ _ _ h1 h1'
  · rintro rfl; rw [h1] at h2'; cases h2'
  · rintro rfl; rw [h1] at h1'; cases h1'; rfl
  · rintro rfl rfl; exact W.slot_unique _ _ _ _ _ _ _ _ h2 h2'

theorem xinv_step {prog : XProg α} (W : Spec.WellMatched prog) {s t : XState α} (h : XStep prog s t)
    (inv : XInv prog s) : XInv prog t := by
  cases h with
  | post k r op hk hs hprev =>
    have hd : ∀ i, (if i = k then XStatus.posted else s.status i) = .done ↔ s.status i = .done := by
      intro i
      by_cases h : i = k
      · subst h; simp [hs]
      · simp [h]
    refine ⟨?_, ?_, ?_⟩
    · intro i j v d sl hm; simp only [hd]; exact inv.done_pair i j v d sl hm
    · intro i j v d sl hm hj; simp only [hd] at hj; exact inv.stored i j v d sl hm hj
    · intro d sl h; simp only [ne_eq, hd] at h; exact inv.empty d sl h
  | complete i j v d sl hm hi hj =>
    refine ⟨?_, ?_, ?_⟩
    · intro i' j' v' d' sl' hm'
      have a := hm'.inj W hm
      have b := hm.inj W hm'
      have hp := inv.done_pair i' j' v' d' sl' hm'
      by_cases e : i' = i
      · simp [e, a.1.1 e]
      · have e2 : j' ≠ j := fun h => e (a.1.2 h)
        simp only [e, e2, a.2.1, Ne.symm b.2.1, or_self, if_false]; exact hp
    · intro i' j' v' d' sl' hm' hj'
      have a := hm'.inj W hm
      have b := hm.inj W hm'
      by_cases e : j' = j
      · have ei := a.1.2 e
        obtain ⟨x, y, h1, h2⟩ := hm'
        obtain ⟨x', y', h1', h2'⟩ := hm
        subst ei; subst e
        rw [h1] at h1'; rw [h2] at h2'
        cases h1'; cases h2'
        simp
      · simp only [e, Ne.symm b.2.1, or_self, if_false] at hj'
        have hne : ¬ (d' = d ∧ sl' = sl) := fun h => e (a.2.2.2 h.1 h.2)
        show (if d' = d ∧ sl' = sl then some v else s.store d' sl') = some v'
        rw [if_neg hne]; exact inv.stored i' j' v' d' sl' hm' hj'
    · intro d' sl' h
      have hne : ¬ (d' = d ∧ sl' = sl) := by
        rintro ⟨rfl, rfl⟩
        obtain ⟨x, y, h1, h2⟩ := hm
        exact h j x y h2 (by simp)
      show (if d' = d ∧ sl' = sl then some v else s.store d' sl') = none
      rw [if_neg hne]
      refine inv.empty d' sl' fun j' src tag hj' hd => ?_
      refine h j' src tag hj' ?_
      show (if j' = i ∨ j' = j then XStatus.done else s.status j') = .done
      split
      · rfl
      · exact hd

theorem xinv_steps {prog : XProg α} (W : Spec.WellMatched prog) {n : Nat} {s : XState α}
    (h : Steps (XStep prog) n XState.init s) : XInv prog s := by
  generalize hi : (XState.init : XState α) = s0 at h
  induction h with
  | refl =>
    subst hi
    exact ⟨by intros; simp [XState.init], by intro i j v d sl _ h; simp [XState.init] at h,
      by intros; rfl⟩
  | tail _ h2 ih => exact xinv_step W h2 (ih hi)

/-- Number of status changes still to come. -/
def XStatus.left : XStatus → Nat
  | .unposted => 2 | .posted => 1 | .done => 0

def XState.left (n : Nat) (s : XState α) : Nat :=
  ((List.range n).map fun i => (s.status i).left).sum

theorem sum_map_lt {n : Nat} {f g : Nat → Nat} (h : ∀ i < n, f i ≤ g i) (k : Nat) (hk : k < n)
    (hlt : f k < g k) : ((List.range n).map f).sum < ((List.range n).map g).sum := by
  induction n with
  | zero => omega
  | succ n ih =>
    simp only [List.range_succ, List.map_append, List.map_cons, List.map_nil, List.sum_append,
      List.sum_cons, List.sum_nil]
    have hle : ((List.range n).map f).sum ≤ ((List.range n).map g).sum := by
      clear ih hk hlt
      induction n with
      | zero => simp
      | succ n ih =>
        simp only [List.range_succ, List.map_append, List.map_cons, List.map_nil, List.sum_append,
          List.sum_cons, List.sum_nil]
        have := ih (fun i hi => h i (by omega))
        have := h n (by omega)
        omega
    by_cases hkn : k = n
    · subst hkn; omega
    · have := ih (fun i hi => h i (by omega)) (by omega)
      have := h n (by omega)
      omega

theorem getElem?_lt {β : Type} {l : List β} {i : Nat} {x : β} (h : l[i]? = some x) : i < l.length := by
  rcases List.getElem?_eq_some_iff.1 h with ⟨h, -⟩; exact h

theorem xstep_left {prog : XProg α} {s t : XState α} (h : XStep prog s t) :
    t.left prog.length < s.left prog.length := by
  cases h with
  | post k r op hk hs _ =>
    refine sum_map_lt ?_ k (getElem?_lt hk) ?_
    · intro i _
      by_cases e : i = k
      · subst e; simp [hs, XStatus.left]
      · simp [e]
    · simp [hs, XStatus.left]
  | complete i j v d sl hm hi hj =>
    obtain ⟨x, y, h1, h2⟩ := hm
    refine sum_map_lt ?_ i (getElem?_lt h1) ?_
    · intro k _
      show (if k = i ∨ k = j then XStatus.done else s.status k).left ≤ _
      split
      · simp [XStatus.left]
      · exact Nat.le_refl _
    · simp [hi, XStatus.left]

/-- C48: no execution of an exchange is longer than twice its number of operations, whatever the
schedule. -/
theorem exchange_terminates (prog : XProg α) {n : Nat} {s : XState α}
    (h : Steps (XStep prog) n XState.init s) : n ≤ 2 * prog.length := by
  have key : ∀ {n s}, Steps (XStep prog) n XState.init s →
      n + s.left prog.length ≤ 2 * prog.length := by
    intro n s h
    generalize hi : (XState.init : XState α) = s0 at h
    induction h with
    | refl =>
      subst hi
      have : ∀ m, ((List.range m).map fun i => ((XState.init : XState α).status i).left).sum = 2 * m := by
        intro m
        induction m with
        | zero => rfl
        | succ m ih => simp only [List.range_succ, List.map_append, List.sum_append, ih]; simp [XState.init, XStatus.left]; omega
      simp [XState.left, this]
    | tail h1 h2 ih =>
      have := xstep_left h2
      have := ih hi
      omega
  have := key h
  omega

/-- C48: an execution of a well matched exchange can only stop when every operation has completed,
and then every receive buffer contains exactly what the sender of the same envelope sent; no other
buffer has been written.  Together with `exchange_terminates`: every schedule ends, in the same
result. -/
theorem exchange_schedule_independent (prog : XProg α) (W : Spec.WellMatched prog) {n : Nat}
    {s : XState α} (h : Steps (XStep prog) n XState.init s) (hstuck : Spec.Stuck (XStep prog) s) :
    (∀ k < prog.length, s.status k = .done) ∧
    (∀ (i j src dst tag : Nat) (v : α) (slot : Nat), prog[i]? = some (src, XOp.isend dst tag v) →
      prog[j]? = some (dst, XOp.irecv src tag slot) → s.store dst slot = some v) ∧
    (∀ dst slot : Nat, (∀ j src tag : Nat, prog[j]? ≠ some (dst, XOp.irecv src tag slot)) →
      s.store dst slot = none) := by
  have inv := xinv_steps W h
  -- everything is posted: take the first unposted operation
  have posted : ∀ k, k < prog.length → s.status k ≠ .unposted := by
    intro k
    induction k using Nat.strongRecOn with
    | ind k ih =>
      intro hk hs
      refine hstuck _ (XStep.post s k prog[k].1 prog[k].2 (by simp [hk]) hs ?_)
      intro i hi op' _
      exact ih i hi (by omega)
  have pair_done : ∀ i j v dst slot, XMatch prog i j v dst slot →
      s.status i = .done ∧ s.status j = .done := by
    intro i j v dst slot hm
    have hm' := hm
    obtain ⟨src, tag, h1, h2⟩ := hm'
    have p1 := posted i (getElem?_lt h1)
    have p2 := posted j (getElem?_lt h2)
    have hd := inv.done_pair i j v dst slot hm
    cases e1 : s.status i with
    | unposted => exact absurd e1 p1
    | done => exact ⟨rfl, hd.1 e1⟩
    | posted =>
      cases e2 : s.status j with
      | unposted => exact absurd e2 p2
      | done => rw [e1] at hd; exact absurd (hd.2 e2) (by simp)
      | posted => exact absurd (XStep.complete s i j v dst slot hm e1 e2) (hstuck _)
  refine ⟨?_, ?_, ?_⟩
  · intro k hk
    have hk' : prog[k]? = some prog[k] := by simp [hk]
    rcases hop : prog[k] with ⟨r, op⟩
    rw [hop] at hk'
    cases op with
    | isend dst tag v =>
      obtain ⟨j, slot, hj⟩ := W.send_has_recv k r dst tag v hk'
      exact (pair_done k j v dst slot ⟨r, tag, hk', hj⟩).1
    | irecv src tag slot =>
      obtain ⟨i, v, hi⟩ := W.recv_has_send k src r tag slot hk'
      exact (pair_done i k v r slot ⟨src, tag, hi, hk'⟩).2
  · intro i j src dst tag v slot h1 h2
    exact inv.stored i j v dst slot ⟨src, tag, h1, h2⟩ (pair_done i j v dst slot ⟨src, tag, h1, h2⟩).2
  · intro dst slot hno
    exact inv.empty dst slot fun j src tag hj => absurd hj (hno j src tag)

/-- Two ranks exchanging one value each: a well matched exchange. -/
example : Spec.WellMatched [(0, XOp.irecv 1 7 0), (0, XOp.isend 1 7 'a'), (1, XOp.isend 0 7 'b'),
    (1, XOp.irecv 0 7 3)] := by
  have get : ∀ (i : Nat) (x : Nat × XOp Char), [(0, XOp.irecv 1 7 0), (0, XOp.isend 1 7 'a'),
      (1, XOp.isend 0 7 'b'), (1, XOp.irecv 0 7 3)][i]? = some x →
      (i = 0 ∧ x = (0, XOp.irecv 1 7 0)) ∨ (i = 1 ∧ x = (0, XOp.isend 1 7 'a')) ∨
      (i = 2 ∧ x = (1, XOp.isend 0 7 'b')) ∨ (i = 3 ∧ x = (1, XOp.irecv 0 7 3)) := by
    intro i x h
    rcases i with _ | _ | _ | _ | i <;> simp at h <;> simp [h]
  refine ⟨?_, ?_, ?_, ?_, ?_⟩
  · intro i src dst tag v h
    rcases get _ _ h with ⟨rfl, h⟩ | ⟨rfl, h⟩ | ⟨rfl, h⟩ | ⟨rfl, h⟩ <;> cases h
    · exact ⟨3, 3, rfl⟩
    · exact ⟨0, 0, rfl⟩
  · intro i src dst tag v h
    rcases get _ _ h with ⟨rfl, h⟩ | ⟨rfl, h⟩ | ⟨rfl, h⟩ | ⟨rfl, h⟩ <;> cases h
    · exact ⟨2, 'b', rfl⟩
    · exact ⟨1, 'a', rfl⟩
  all_goals
    intros
    rename_i h h'
    rcases get _ _ h with ⟨rfl, h⟩ | ⟨rfl, h⟩ | ⟨rfl, h⟩ | ⟨rfl, h⟩ <;> cases h <;>
      rcases get _ _ h' with ⟨rfl, h'⟩ | ⟨rfl, h'⟩ | ⟨rfl, h'⟩ | ⟨rfl, h'⟩ <;> cases h' <;> rfl

/-! ## C49: ordered blocking transfers -/

/-- C49: if all ranks run through one common list of blocking transfers, every execution (MPI buffering
sends or not, as it likes, any interleaving of ranks)
* can always continue without relying on buffering as long as some rank is not finished (no deadlock);
* when all ranks are finished has had exactly the effect of executing the transfers one after the
  other, and no message is left over. -/
theorem ordered_transfers {S M : Type} (T : List (Xfer S M)) (hne : ∀ x ∈ T, x.src ≠ x.dst)
    (loc : Nat → S) {n : Nat} {st : BState S M} (h : Steps BStep n (scheduleInit T loc) st) :
    (∀ r, st.prog r ≠ [] → MustStep st) ∧
    ((∀ r, st.prog r = []) → st.loc = runSeq T loc ∧ ∀ s d t, st.chan s d t = []) := by
  obtain ⟨pos, inv⟩ := binv_steps hne h
  exact ⟨fun r hr => binv_progress hne inv r hr,
    fun hf => ⟨funext (binv_final inv hf).1, (binv_final inv hf).2⟩⟩

/-- C49: every execution ends: it has at most two steps (one send, one receive) per transfer. -/
theorem ordered_transfers_terminate {S M : Type} (T : List (Xfer S M)) (loc : Nat → S) {n : Nat}
    {st : BState S M} (h : Steps BStep n (scheduleInit T loc) st) : n ≤ 2 * T.length := by
  -- a bound on all ranks that occur
  obtain ⟨P, hP⟩ : ∃ P, ∀ x ∈ T, x.src < P ∧ x.dst < P := by
    clear h
    induction T with
    | nil => exact ⟨0, by simp⟩
    | cons x T ih =>
      obtain ⟨P, hP⟩ := ih
      refine ⟨max P (max x.src x.dst + 1), ?_⟩
      intro y hy
      rcases List.mem_cons.1 hy with rfl | hy
      · omega
      · have := hP y hy; omega
  have hinit : (scheduleInit T loc).left P ≤ 2 * T.length := by
    clear h
    induction T with
    | nil =>
      have : ∀ Q, ((List.range Q).map fun r => ((scheduleInit ([] : List (Xfer S M)) loc).prog r).length).sum = 0 := by
        intro Q; induction Q with
        | zero => rfl
        | succ Q ih => simp only [List.range_succ, List.map_append, List.sum_append, ih]; simp [scheduleInit]
      unfold BState.left; rw [this]; simp
    | cons x T ih =>
      have ih := ih (fun y hy => hP y (by simp [hy]))
      have key : ∀ Q, ((List.range Q).map fun r => ((scheduleInit (x :: T) loc).prog r).length).sum ≤
          ((List.range Q).map fun r => ((scheduleInit T loc).prog r).length).sum +
            (if x.src < Q then 1 else 0) + (if x.dst < Q then 1 else 0) := by
        intro Q
        induction Q with
        | zero => simp
        | succ Q ih =>
          simp only [List.range_succ, List.map_append, List.map_cons, List.map_nil, List.sum_append,
            List.sum_cons, List.sum_nil]
          have h1 : ((scheduleInit (x :: T) loc).prog Q).length ≤ ((scheduleInit T loc).prog Q).length +
              (if x.src = Q ∨ x.dst = Q then 1 else 0) := by
            simp only [scheduleInit]
            cases hx : x.proj Q with
            | none => rw [List.filterMap_cons_none hx]; omega
            | some y =>
              rw [List.filterMap_cons_some hx]
              have : x.src = Q ∨ x.dst = Q := by
                have := (not_congr Xfer.proj_none).1 (show ¬ x.proj Q = none by rw [hx]; simp)
                exact Classical.not_not.1 this
              rw [if_pos this]; simp
          repeat' split at ih
          all_goals repeat' split at h1
          all_goals repeat' split
          all_goals omega
      have := key P
      unfold BState.left at *
      have hx := hP x (by simp)
      simp only [hx.1, hx.2, if_true] at this
      simp only [List.length_cons]
      omega
  have hstep : ∀ {n st}, Steps BStep n (scheduleInit T loc) st →
      n + st.left P ≤ 2 * T.length ∧ ∀ r, P ≤ r → st.prog r = [] := by
    intro n st h
    generalize hi : scheduleInit T loc = s0 at h
    induction h with
    | refl =>
      subst hi
      refine ⟨by omega, ?_⟩
      intro r hr
      show T.filterMap (Xfer.proj r) = []
      rw [List.filterMap_eq_nil_iff]
      intro x hx
      have := hP x hx
      rw [Xfer.proj_none]; rintro (h | h) <;> omega
    | tail h1 h2 ih =>
      rename_i s0' t u
      obtain ⟨ih1, ih2⟩ := ih hi
      have dec : ∀ (r : Nat) (op : BOp S M) (rest : List (BOp S M)) , t.prog r = op :: rest →
          u.prog = set1 t.prog r rest → u.left P + 1 = t.left P ∧ ∀ r, P ≤ r → u.prog r = [] := by
        intro r op rest ht hu
        have hr : r < P := by
          rcases Nat.lt_or_ge r P with h | h
          · exact h
          · rw [ih2 r h] at ht; cases ht
        refine ⟨?_, ?_⟩
        · unfold BState.left
          apply sum_map_set P r hr
          · intro i hi; rw [hu, set1_ne _ _ hi]
          · rw [hu, set1_same, ht]; rfl
        · intro i hi; rw [hu, set1_ne _ _ (by omega)]; exact ih2 i hi
      cases h2 with
      | send r d tg msg after rest hp =>
        have := dec r _ rest hp rfl
        exact ⟨by omega, this.2⟩
      | recv r s tg take rest m ms hp hc =>
        have := dec r _ rest hp rfl
        exact ⟨by omega, this.2⟩
  have := (hstep h).1
  omega

/-- A schedule with two transfers 0 → 1 → 2 and its sequential effect. -/
example : ∀ x ∈ [(⟨0, 1, 685, id, fun _ => 0, fun m s => m + s⟩ : Xfer Nat Nat),
    ⟨1, 2, 685, id, fun _ => 0, fun m s => m + s⟩], x.src ≠ x.dst := by decide

example : runSeq [(⟨0, 1, 685, id, fun _ => 0, fun m s => m + s⟩ : Xfer Nat Nat),
    ⟨1, 2, 685, id, fun _ => 0, fun m s => m + s⟩] (fun r => r + 5) 2 = 18 := by decide

end Heat
