import Verif.Model.Pds
import Mathlib.Tactic.Ring
import Mathlib.Data.Nat.ModEq
/-!
# The partial data set and its iterator: C138, C139, C140
-/
namespace Heat

/-! ## Every batch is complete and in order -/

/-- What holds in every state reached within an epoch. -/
structure PdsInv (c : PdsCfg) (s : PdsSt) : Prop where
  len : ∀ b ∈ s.out ++ s.ready, b.length = c.batch
  order : ((s.out ++ s.ready).flatten ++ s.cur).map PdsItem.slot ++ s.todo = s.plan
  curItem : s.cpc = .item → s.cur.length < c.batch
  curMark : ∀ i, s.cpc = .mark i → s.cur.length ≤ c.batch
  curFull : s.cpc = .check ∨ s.cpc = .notify ∨ s.cpc = .emit → s.cur.length = c.batch

theorem pdsLoad_same {c : PdsCfg} {s s' : PdsSt} (h : pdsLoad c s = some s') : s'.plan = s.plan ∧ s'.todo = s.todo ∧ s'.cur = s.cur ∧ s'.cpc = s.cpc ∧ s'.ready = s.ready ∧ s'.out = s.out := by
  unfold pdsLoad at h
  rcases hl : s.lpc with _ | k | k | k | k | ⟨k, d⟩ | k
  · rw [hl] at h
    dsimp only at h
    split at h
    · rw [← Option.some.inj h]; simp
    · simp at h
  · rcases k with _ | k <;> rw [hl] at h <;> dsimp only at h <;> rw [← Option.some.inj h] <;> simp
  · rw [hl] at h; dsimp only at h; rw [← Option.some.inj h]; simp
  · rw [hl] at h; simp at h
  · rw [hl] at h; dsimp only at h; rw [← Option.some.inj h]; simp
  · rw [hl] at h
    dsimp only at h
    split at h <;> rw [← Option.some.inj h] <;> simp
  · rw [hl] at h; dsimp only at h; rw [← Option.some.inj h]; simp

theorem PdsInv.step {c : PdsCfg} (hb : 0 < c.batch) {s s' : PdsSt} (inv : PdsInv c s) {a : PdsAct} (h : pdsStep c s a = some s') : PdsInv c s' := by
  rcases a with _ | _ | _ | idx
  · obtain ⟨e1, e2, e3, e4, e5, e6⟩ := pdsLoad_same h
    constructor
    · rw [e5, e6]; exact inv.len
    · rw [e1, e2, e3, e5, e6]; exact inv.order
    · rw [e3, e4]; exact inv.curItem
    · rw [e3, e4]; exact inv.curMark
    · rw [e3, e4]; exact inv.curFull
  · unfold pdsStep pdsConv at h
    dsimp only at h
    rcases hc : s.cpc with _ | i | _ | _ | _
    · rw [hc] at h
      dsimp only at h
      rcases ht : s.todo with _ | ⟨i, rest⟩
      · rw [ht] at h; simp at h
      · rw [ht] at h
        dsimp only at h
        rw [← Option.some.inj h]
        have hl := inv.curItem hc
        refine ⟨inv.len, ?_, by simp, ?_, by simp⟩
        · have := inv.order
          rw [ht] at this
          rw [← this]
          simp
        · intro j _
          dsimp only
          rw [List.length_append, List.length_singleton]
          omega
    · rw [hc] at h
      dsimp only at h
      rw [← Option.some.inj h]
      have hl := inv.curMark i hc
      refine ⟨inv.len, inv.order, ?_, ?_, ?_⟩
      · dsimp only
        intro h1
        split at h1
        · simp at h1
        · omega
      · dsimp only
        intro j h1
        split at h1 <;> simp at h1
      · dsimp only
        intro h1
        split at h1
        · assumption
        · simp at h1
    · rw [hc] at h
      dsimp only at h
      rw [← Option.some.inj h]
      have hl := inv.curFull (Or.inl hc)
      refine ⟨inv.len, inv.order, ?_, ?_, fun _ => hl⟩
      · dsimp only
        intro h1
        split at h1 <;> simp at h1
      · dsimp only
        intro j h1
        split at h1 <;> simp at h1
    · rw [hc] at h
      dsimp only at h
      split at h
      · simp at h
      · rw [← Option.some.inj h]
        have hl := inv.curFull (Or.inr (Or.inl hc))
        exact ⟨inv.len, inv.order, by simp, by simp, fun _ => hl⟩
    · rw [hc] at h
      dsimp only at h
      rw [← Option.some.inj h]
      have hl := inv.curFull (Or.inr (Or.inr hc))
      refine ⟨?_, ?_, fun _ => hb, by simp, by simp⟩
      · intro b hbm
        dsimp only at hbm
        rw [← List.append_assoc] at hbm
        rcases List.mem_append.1 hbm with h1 | h1
        · exact inv.len b h1
        · rw [List.mem_singleton.1 h1]; exact hl
      · have := inv.order
        rw [← this]
        simp
  · unfold pdsStep pdsTake at h
    dsimp only at h
    split at h
    · simp at h
    · rcases hr : s.ready with _ | ⟨b, r⟩
      · rw [hr] at h; simp at h
      · rw [hr] at h
        dsimp only at h
        rw [← Option.some.inj h]
        have h1 : s.out ++ [b] ++ r = s.out ++ s.ready := by rw [hr]; simp
        refine ⟨?_, ?_, inv.curItem, inv.curMark, inv.curFull⟩
        · dsimp only; rw [h1]; exact inv.len
        · dsimp only; rw [h1]; exact inv.order
  · unfold pdsStep pdsEpoch at h
    dsimp only at h
    split at h
    · next hc =>
      rw [← Option.some.inj h]
      exact ⟨by simp, by simp, fun _ => hb, by simp [hc.1], by simp [hc.1]⟩
    · simp at h

theorem pdsRun_ind {c : PdsCfg} {Q : PdsSt → Prop} (hs : ∀ s s' a, Q s → pdsStep c s a = some s' → Q s') : ∀ (acts : List PdsAct) (s s' : PdsSt), Q s → pdsRun c s acts = some s' → Q s' := by
  intro acts
  induction acts with
  | nil => intro s s' h e; rw [← Option.some.inj e]; exact h
  | cons a acts ih =>
    intro s s' h e
    unfold pdsRun at e
    obtain ⟨t, h1, h2⟩ := Option.bind_eq_some_iff.1 e
    exact ih t s' (hs s t a h h1) h2

/-- **C138, batches**: in every state that any interleaving of the two threads and the consumer can reach, every batch handed out has exactly `batch_size` items, and the items handed out are those of the index list, in its order, without gap or repetition. -/
theorem pds_batches {c : PdsCfg} (hb : 0 < c.batch) {s0 : PdsSt} (h0 : PdsInv c s0) {acts : List PdsAct} {s : PdsSt} (hr : pdsRun c s0 acts = some s) :
    (∀ b ∈ s.out, b.length = c.batch) ∧ ∃ rest, s.out.flatten.map PdsItem.slot ++ rest = s.plan := by
  have inv := pdsRun_ind (Q := PdsInv c) (fun _ _ _ h e => h.step hb e) acts s0 s h0 hr
  refine ⟨fun b h => inv.len b (List.mem_append_left _ h), (s.ready.flatten ++ s.cur).map PdsItem.slot ++ s.todo, ?_⟩
  rw [← inv.order]
  simp

theorem pdsInit_inv {c : PdsCfg} (hb : 0 < c.batch) (total procs rank batch initial loadLength : Nat) (idx : List Nat) : PdsInv c (pdsInit total procs rank batch initial loadLength idx) :=
  ⟨by simp [pdsInit], by simp [pdsInit], fun _ => by simpa [pdsInit] using hb, by simp [pdsInit], by simp [pdsInit]⟩

/-! ## Termination -/

/-- Weight of what the converting thread still has to do. -/
def convWeight : ConvPc → Nat
  | .item => 0
  | .mark _ => 6
  | .check => 5
  | .notify => 4
  | .emit => 3

/-- Weight of what the loading thread still has to do. -/
def loadWeight (n : Nat) : LoadPc → Nat
  | .idle => 0
  | .load k => k * (n + 10) + 1
  | .pre k => k * (n + 10) + n + 8
  | .wait k => k * (n + 10) + n + 7
  | .woken k => k * (n + 10) + n + 6
  | .repl k d => k * (n + 10) + (n - d) + 4
  | .dec k => k * (n + 10) + 2

def pdsWeight (c : PdsCfg) (s : PdsSt) : Nat := 8 * s.todo.length + convWeight s.cpc + s.ready.length + loadWeight c.nsets s.lpc + s.tasks * (c.loadsNeeded * (c.nsets + 10) + 2)

/-- Every step within an epoch brings the end nearer. -/
theorem pdsWeight_lt {c : PdsCfg} {s s' : PdsSt} {a : PdsAct} (ha : ∀ idx, a ≠ .epoch idx) (h : pdsStep c s a = some s') : pdsWeight c s' < pdsWeight c s := by
  rcases a with _ | _ | _ | idx
  · obtain ⟨-, e2, -, e4, e5, -⟩ := pdsLoad_same h
    have hw : loadWeight c.nsets s'.lpc + s'.tasks * (c.loadsNeeded * (c.nsets + 10) + 2) < loadWeight c.nsets s.lpc + s.tasks * (c.loadsNeeded * (c.nsets + 10) + 2) := by
      unfold pdsStep pdsLoad at h
      dsimp only at h
      rcases hl : s.lpc with _ | k | k | k | k | ⟨k, d⟩ | k
      · rw [hl] at h
        dsimp only at h
        split at h
        · next ht =>
          rw [← Option.some.inj h]
          dsimp only [loadWeight]
          obtain ⟨t, ht'⟩ := Nat.exists_eq_succ_of_ne_zero (by omega : s.tasks ≠ 0)
          rw [ht', Nat.succ_sub_one, Nat.succ_mul]
          omega
        · simp at h
      · rcases k with _ | k <;> rw [hl] at h <;> dsimp only at h <;> rw [← Option.some.inj h] <;> dsimp only [loadWeight]
        · omega
        · rw [Nat.succ_mul]; omega
      · rw [hl] at h; dsimp only at h; rw [← Option.some.inj h]; dsimp only [loadWeight]; omega
      · rw [hl] at h; simp at h
      · rw [hl] at h; dsimp only at h; rw [← Option.some.inj h]; dsimp only [loadWeight]; omega
      · rw [hl] at h
        dsimp only at h
        split at h <;> rw [← Option.some.inj h] <;> dsimp only [loadWeight] <;> omega
      · rw [hl] at h; dsimp only at h; rw [← Option.some.inj h]; dsimp only [loadWeight]; omega
    unfold pdsWeight
    rw [e2, e4, e5]
    omega
  · unfold pdsStep pdsConv at h
    dsimp only at h
    unfold pdsWeight
    rcases hc : s.cpc with _ | i | _ | _ | _
    · rw [hc] at h
      dsimp only at h
      rcases ht : s.todo with _ | ⟨i, rest⟩
      · rw [ht] at h; simp at h
      · rw [ht] at h
        dsimp only at h
        rw [← Option.some.inj h]
        simp only [convWeight, List.length_cons]
        omega
    · rw [hc] at h
      dsimp only at h
      rw [← Option.some.inj h]
      dsimp only
      split <;> simp only [convWeight] <;> omega
    · rw [hc] at h
      dsimp only at h
      rw [← Option.some.inj h]
      dsimp only
      split <;> simp only [convWeight] <;> omega
    · rw [hc] at h
      dsimp only at h
      split at h
      · simp at h
      · rw [← Option.some.inj h]
        dsimp only
        have : loadWeight c.nsets s.lpc.wake ≤ loadWeight c.nsets s.lpc := by
          rcases s.lpc with _ | k | k | k | k | ⟨k, d⟩ | k <;> simp only [LoadPc.wake, loadWeight] <;> omega
        simp only [convWeight]
        omega
    · rw [hc] at h
      dsimp only at h
      rw [← Option.some.inj h]
      simp only [convWeight, List.length_append, List.length_singleton]
      omega
  · unfold pdsStep pdsTake at h
    dsimp only at h
    split at h
    · simp at h
    · rcases hr : s.ready with _ | ⟨b, r⟩
      · rw [hr] at h; simp at h
      · rw [hr] at h
        dsimp only at h
        rw [← Option.some.inj h]
        unfold pdsWeight
        dsimp only
        rw [hr, List.length_cons]
        omega
  · exact absurd rfl (ha idx)

/-- **C138, no run is infinite.** -/
theorem pds_terminates {c : PdsCfg} : ∀ (acts : List PdsAct) (s s' : PdsSt), (∀ a ∈ acts, ∀ idx, a ≠ .epoch idx) → pdsRun c s acts = some s' → acts.length ≤ pdsWeight c s := by
  intro acts
  induction acts with
  | nil => intro s s' _ _; simp
  | cons a acts ih =>
    intro s s' ha e
    unfold pdsRun at e
    obtain ⟨t, h1, h2⟩ := Option.bind_eq_some_iff.1 e
    have := pdsWeight_lt (ha a (by simp)) h1
    have := ih t s' (fun b hb => ha b (List.mem_cons_of_mem _ hb)) h2
    rw [List.length_cons]
    omega

/-- **C138, the consumer always gets all batches**: whatever the interleaving, when no thread can move any more, `len(index_list) // batch_size` batches have been handed out. -/
theorem pds_complete {c : PdsCfg} (hb : 0 < c.batch) {s0 : PdsSt} (h0 : PdsInv c s0) {acts : List PdsAct} {s : PdsSt} (hr : pdsRun c s0 acts = some s) (hend : pdsStep c s .load = none ∧ pdsStep c s .conv = none ∧ pdsStep c s .take = none) :
    s.out.length = s.plan.length / c.batch := by
  have inv := pdsRun_ind (Q := PdsInv c) (fun _ _ _ h e => h.step hb e) acts s0 s h0 hr
  obtain ⟨hl, hc, ht⟩ := hend
  by_contra hne
  -- the converting thread has finished
  have hconv : s.cpc = .item ∧ s.todo = [] := by
    unfold pdsStep pdsConv at hc
    dsimp only at hc
    rcases hcpc : s.cpc with _ | i | _ | _ | _
    · rw [hcpc] at hc
      dsimp only at hc
      rcases htd : s.todo with _ | ⟨i, rest⟩
      · exact ⟨rfl, rfl⟩
      · rw [htd] at hc; simp at hc
    · rw [hcpc] at hc; simp at hc
    · rw [hcpc] at hc; simp at hc
    · rw [hcpc] at hc
      dsimp only at hc
      split at hc
      · next hlk =>
        exfalso
        unfold pdsStep pdsLoad at hl
        dsimp only at hl
        rcases hlp : s.lpc with _ | k | k | k | k | ⟨k, d⟩ | k <;> rw [hlp] at hlk <;> simp [LoadPc.locked] at hlk
        rw [hlp] at hl
        dsimp only at hl
        split at hl <;> simp at hl
      · simp at hc
    · rw [hcpc] at hc; simp at hc
  have hready : s.ready = [] := by
    unfold pdsStep pdsTake at ht
    dsimp only at ht
    rw [if_neg hne] at ht
    rcases hrd : s.ready with _ | ⟨b, r⟩
    · rfl
    · rw [hrd] at ht; simp at ht
  have ho := congrArg List.length inv.order
  have hcur := inv.curItem hconv.1
  rw [hready, List.append_nil, hconv.2, List.append_nil, List.length_map, List.length_append] at ho
  have hfl : s.out.flatten.length = s.out.length * c.batch := by
    have hlen : ∀ b ∈ s.out, b.length = c.batch := fun b hbm => inv.len b (List.mem_append_left _ hbm)
    generalize s.out = l at hlen
    induction l with
    | nil => simp
    | cons b l ih =>
      rw [List.flatten_cons, List.length_append, hlen b (by simp), ih fun b hb => hlen b (List.mem_cons_of_mem _ hb), List.length_cons, Nat.succ_mul]
      omega
  apply hne
  rw [← ho, hfl, Nat.add_comm, Nat.add_mul_div_right _ _ hb, Nat.div_eq_of_lt hcur, Nat.zero_add]

/-! ## What is handed out -/

theorem pdsWrite_cases (d : Nat) : ∀ (is rs : List Nat) (f : Nat → Nat → Nat) (e j : Nat), pdsWrite d is rs f e j = f e j ∨ pdsWrite d is rs f e j ∈ rs := by
  intro is
  induction is with
  | nil => intro rs f e j; left; rfl
  | cons i is ih =>
    intro rs f e j
    rcases rs with _ | ⟨r, rs⟩
    · left; rfl
    · unfold pdsWrite
      rcases ih rs (fun e j => if e = d ∧ j = i then r else f e j) e j with h | h
      · rw [h]
        split
        · right; simp
        · left; rfl
      · right; exact List.mem_cons_of_mem _ h

/-- All rows in the arrays (up to index `n`), loaded, or in items are rows of the file, and every item has one per array. -/
structure PdsRowsOk (c : PdsCfg) (n : Nat) (s : PdsSt) : Prop where
  slots : ∀ d, ∀ i < n, s.slots d i < c.total
  hold : ∀ r ∈ s.hold, r < c.total
  todo : ∀ i ∈ s.todo, i < n
  items : ∀ x, x ∈ s.cur ∨ x ∈ (s.out ++ s.ready).flatten → x.rows.length = c.nsets ∧ ∀ r ∈ x.rows, r < c.total

theorem pdsRows_lt {total a b r : Nat} (h : r ∈ pdsRows total a b) : r < total := by
  unfold pdsRows at h
  obtain ⟨k, hk, rfl⟩ := List.mem_map.1 h
  have := List.mem_range.1 hk
  omega

theorem PdsRowsOk.step {c : PdsCfg} {n : Nat} {s s' : PdsSt} (ok : PdsRowsOk c n s) {a : PdsAct} (ha : ∀ idx, a = .epoch idx → ∀ i ∈ idx, i < n) (h : pdsStep c s a = some s') : PdsRowsOk c n s' := by
  rcases a with _ | _ | _ | idx
  · obtain ⟨-, e2, e3, -, e5, e6⟩ := pdsLoad_same h
    have hsh : (∀ d, ∀ i < n, s'.slots d i < c.total) ∧ ∀ r ∈ s'.hold, r < c.total := by
      unfold pdsStep pdsLoad at h
      dsimp only at h
      rcases hl : s.lpc with _ | k | k | k | k | ⟨k, d⟩ | k
      · rw [hl] at h
        dsimp only at h
        split at h
        · rw [← Option.some.inj h]; exact ⟨ok.slots, ok.hold⟩
        · simp at h
      · rcases k with _ | k <;> rw [hl] at h <;> dsimp only at h <;> rw [← Option.some.inj h]
        · exact ⟨ok.slots, ok.hold⟩
        · exact ⟨ok.slots, fun r hr => pdsRows_lt hr⟩
      · rw [hl] at h; dsimp only at h; rw [← Option.some.inj h]; exact ⟨ok.slots, ok.hold⟩
      · rw [hl] at h; simp at h
      · rw [hl] at h; dsimp only at h; rw [← Option.some.inj h]; exact ⟨ok.slots, ok.hold⟩
      · rw [hl] at h
        dsimp only at h
        split at h <;> rw [← Option.some.inj h]
        · refine ⟨?_, ok.hold⟩
          intro e i hi
          dsimp only
          rcases pdsWrite_cases d s.used (s.hold.take s.used.length) s.slots e i with h1 | h1
          · rw [h1]; exact ok.slots e i hi
          · exact ok.hold _ (List.mem_of_mem_take h1)
        · exact ⟨ok.slots, ok.hold⟩
      · rw [hl] at h; dsimp only at h; rw [← Option.some.inj h]; exact ⟨ok.slots, ok.hold⟩
    exact ⟨hsh.1, hsh.2, by rw [e2]; exact ok.todo, by rw [e3, e5, e6]; exact ok.items⟩
  · unfold pdsStep pdsConv at h
    dsimp only at h
    rcases hc : s.cpc with _ | i | _ | _ | _
    · rw [hc] at h
      dsimp only at h
      rcases ht : s.todo with _ | ⟨i, rest⟩
      · rw [ht] at h; simp at h
      · rw [ht] at h
        dsimp only at h
        rw [← Option.some.inj h]
        have hi : i < n := ok.todo i (by rw [ht]; simp)
        refine ⟨ok.slots, ok.hold, fun j hj => ok.todo j (by rw [ht]; exact List.mem_cons_of_mem _ hj), ?_⟩
        intro x hx
        rcases hx with hx | hx
        · rcases List.mem_append.1 hx with h1 | h1
          · exact ok.items x (Or.inl h1)
          · rw [List.mem_singleton.1 h1]
            refine ⟨by simp, ?_⟩
            intro r hr
            obtain ⟨d, _, rfl⟩ := List.mem_map.1 hr
            exact ok.slots d i hi
        · exact ok.items x (Or.inr hx)
    · rw [hc] at h; dsimp only at h; rw [← Option.some.inj h]; exact ⟨ok.slots, ok.hold, ok.todo, ok.items⟩
    · rw [hc] at h; dsimp only at h; rw [← Option.some.inj h]; exact ⟨ok.slots, ok.hold, ok.todo, ok.items⟩
    · rw [hc] at h
      dsimp only at h
      split at h
      · simp at h
      · rw [← Option.some.inj h]; exact ⟨ok.slots, ok.hold, ok.todo, ok.items⟩
    · rw [hc] at h
      dsimp only at h
      rw [← Option.some.inj h]
      refine ⟨ok.slots, ok.hold, ok.todo, ?_⟩
      intro x hx
      dsimp only at hx
      rcases hx with hx | hx
      · simp at hx
      · rw [← List.append_assoc, List.flatten_append, List.mem_append] at hx
        rcases hx with hx | hx
        · exact ok.items x (Or.inr hx)
        · exact ok.items x (Or.inl (by simpa using hx))
  · unfold pdsStep pdsTake at h
    dsimp only at h
    split at h
    · simp at h
    · rcases hr : s.ready with _ | ⟨b, r⟩
      · rw [hr] at h; simp at h
      · rw [hr] at h
        dsimp only at h
        rw [← Option.some.inj h]
        have h1 : s.out ++ [b] ++ r = s.out ++ s.ready := by rw [hr]; simp
        refine ⟨ok.slots, ok.hold, ok.todo, ?_⟩
        dsimp only
        rw [h1]
        exact ok.items
  · unfold pdsStep pdsEpoch at h
    dsimp only at h
    split at h
    · rw [← Option.some.inj h]
      exact ⟨ok.slots, ok.hold, ha idx rfl, by simp⟩
    · simp at h

theorem pdsRun_ind' {c : PdsCfg} {Q : PdsSt → Prop} {A : PdsAct → Prop} (hs : ∀ s s' a, A a → Q s → pdsStep c s a = some s' → Q s') : ∀ (acts : List PdsAct) (s s' : PdsSt), (∀ a ∈ acts, A a) → Q s → pdsRun c s acts = some s' → Q s' := by
  intro acts
  induction acts with
  | nil => intro s s' _ h e; rw [← Option.some.inj e]; exact h
  | cons a acts ih =>
    intro s s' ha h e
    unfold pdsRun at e
    obtain ⟨t, h1, h2⟩ := Option.bind_eq_some_iff.1 e
    exact ih t s' (fun b hb => ha b (List.mem_cons_of_mem _ hb)) (hs s t a (ha a (by simp)) h h1) h2

/-- **C138, contents**: from the state after the constructors, over any number of epochs with index lists below `initial_load` and any interleaving, every item handed out consists of one row of the file per array. -/
theorem pds_rows {total procs rank batch initial loadLength nsets : Nat} (hrk : rank < procs) (hin : initial ≤ total / procs) {idx : List Nat} (hidx : ∀ i ∈ idx, i < initial) {acts : List PdsAct} (ha : ∀ a ∈ acts, ∀ idx, a = .epoch idx → ∀ i ∈ idx, i < initial)
    {s : PdsSt} (hr : pdsRun (pdsCfg total procs batch loadLength nsets) (pdsInit total procs rank batch initial loadLength idx) acts = some s) :
    ∀ b ∈ s.out, ∀ x ∈ b, x.rows.length = nsets ∧ ∀ r ∈ x.rows, r < total := by
  have h0 : PdsRowsOk (pdsCfg total procs batch loadLength nsets) initial (pdsInit total procs rank batch initial loadLength idx) := by
    refine ⟨?_, by simp [pdsInit], hidx, by simp [pdsInit]⟩
    intro d i hi
    show rank * (total / procs) + i < total
    have h1 : (rank + 1) * (total / procs) ≤ procs * (total / procs) := Nat.mul_le_mul_right _ hrk
    have h2 : procs * (total / procs) ≤ total := Nat.mul_div_le total procs
    rw [Nat.succ_mul] at h1
    omega
  have ok := pdsRun_ind' (Q := PdsRowsOk (pdsCfg total procs batch loadLength nsets) initial) (fun _ _ _ hA h e => h.step hA e) acts _ s ha h0 hr
  intro b hb x hx
  exact ok.items x (Or.inr (List.mem_flatten.2 ⟨b, List.mem_append_left _ hb, hx⟩))

/-! ## The arrays agree with each other -/

theorem pdsWrite_other {d e : Nat} (h : e ≠ d) : ∀ (is rs : List Nat) (f : Nat → Nat → Nat) (j : Nat), pdsWrite d is rs f e j = f e j := by
  intro is
  induction is with
  | nil => intro rs f j; rfl
  | cons i is ih =>
    intro rs f j
    rcases rs with _ | ⟨r, rs⟩
    · rfl
    · unfold pdsWrite
      rw [ih, if_neg fun h' => h h'.1]

/-- The effect of a write on the array it goes to. -/
def pdsPut : List Nat → List Nat → (Nat → Nat) → Nat → Nat
  | i :: is, r :: rs, f => pdsPut is rs fun j => if j = i then r else f j
  | _, _, f => f

theorem pdsWrite_self (d : Nat) : ∀ (is rs : List Nat) (f : Nat → Nat → Nat) (j : Nat), pdsWrite d is rs f d j = pdsPut is rs (f d) j := by
  intro is
  induction is with
  | nil => intro rs f j; rfl
  | cons i is ih =>
    intro rs f j
    rcases rs with _ | ⟨r, rs⟩
    · rfl
    · unfold pdsWrite pdsPut
      rw [ih]
      simp

theorem pdsPut_append : ∀ (is x rs : List Nat) (f : Nat → Nat), rs.length ≤ is.length → pdsPut (is ++ x) rs f = pdsPut is rs f := by
  intro is
  induction is with
  | nil =>
    intro x rs f h
    have hrs : rs = [] := List.eq_nil_of_length_eq_zero (by simpa using h)
    subst hrs
    rcases x with _ | ⟨i, x⟩ <;> rfl
  | cons i is ih =>
    intro x rs f h
    rcases rs with _ | ⟨r, rs⟩
    · rfl
    · rw [List.cons_append]
      unfold pdsPut
      exact ih x rs _ (by simpa using h)

/-- The loading thread has been woken up and has not finished. -/
def LoadPc.awake : LoadPc → Prop
  | .woken _ => True
  | .repl _ _ => True
  | _ => False

/-- What keeps the arrays together. -/
structure PdsAgree (c : PdsCfg) (s : PdsSt) : Prop where
  range : s.loadEnd = s.loadStart + c.loadLen
  hold : s.hold.length ≤ c.loadLen
  notify : s.cpc = .notify → s.used.length = c.loadLen ∧ ¬ s.lpc.awake
  awake : s.lpc.awake → c.loadLen ≤ s.used.length ∧ (s.cpc = .check → c.loadLen < s.used.length)
  same : ∃ f : Nat → Nat, ∀ e < c.nsets, ∀ j, s.slots e j =
    match s.lpc with
    | .repl _ d => if e < d then pdsPut s.used s.hold f j else f j
    | _ => f j

theorem pdsRows_length (total a b : Nat) : (pdsRows total a b).length ≤ b - a := by
  unfold pdsRows
  rw [List.length_map, List.length_range]
  omega

theorem pdsAgree_same_of {c : PdsCfg} {s s' : PdsSt} (h : ∃ f : Nat → Nat, ∀ e < c.nsets, ∀ j, s.slots e j = f j) (hs : s'.slots = s.slots) (hl : ∀ k d, s'.lpc = .repl k d → d = 0) : ∃ f : Nat → Nat, ∀ e < c.nsets, ∀ j, s'.slots e j =
    match s'.lpc with
    | .repl _ d => if e < d then pdsPut s'.used s'.hold f j else f j
    | _ => f j := by
  obtain ⟨f, hf⟩ := h
  refine ⟨f, fun e he j => ?_⟩
  rw [hs, hf e he j]
  rcases h : s'.lpc with _ | k | k | k | k | ⟨k, d⟩ | k
  all_goals try rfl
  dsimp only
  rw [hl k d h, if_neg (Nat.not_lt_zero e)]

theorem PdsAgree.flat {c : PdsCfg} {s : PdsSt} (a : PdsAgree c s) (h : ∀ k d, s.lpc ≠ .repl k d) : ∃ f : Nat → Nat, ∀ e < c.nsets, ∀ j, s.slots e j = f j := by
  obtain ⟨f, hf⟩ := a.same
  refine ⟨f, fun e he j => ?_⟩
  rw [hf e he j]
  rcases hl : s.lpc with _ | k | k | k | k | ⟨k, d⟩ | k
  all_goals try rfl
  exact absurd hl (h k d)

theorem PdsAgree.step {c : PdsCfg} {s s' : PdsSt} (ag : PdsAgree c s) {a : PdsAct} (h : pdsStep c s a = some s') : PdsAgree c s' := by
  rcases a with _ | _ | _ | idx
  · unfold pdsStep pdsLoad at h
    dsimp only at h
    rcases hl : s.lpc with _ | k | k | k | k | ⟨k, d⟩ | k
    · have hflat := ag.flat (by rw [hl]; simp)
      rw [hl] at h
      dsimp only at h
      split at h
      · rw [← Option.some.inj h]
        exact ⟨ag.range, ag.hold, fun hc => ⟨(ag.notify hc).1, id⟩, False.elim, pdsAgree_same_of hflat rfl (by simp)⟩
      · simp at h
    · have hflat := ag.flat (by rw [hl]; simp)
      rcases k with _ | k <;> rw [hl] at h <;> dsimp only at h <;> rw [← Option.some.inj h]
      · exact ⟨ag.range, ag.hold, fun hc => ⟨(ag.notify hc).1, id⟩, False.elim, pdsAgree_same_of hflat rfl (by simp)⟩
      · refine ⟨rfl, ?_, fun hc => ⟨(ag.notify hc).1, id⟩, False.elim, pdsAgree_same_of hflat rfl (by simp)⟩
        have := pdsRows_length c.total s.loadStart s.loadEnd
        have := ag.range
        dsimp only
        omega
    · have hflat := ag.flat (by rw [hl]; simp)
      rw [hl] at h; dsimp only at h; rw [← Option.some.inj h]
      exact ⟨ag.range, ag.hold, fun hc => ⟨(ag.notify hc).1, id⟩, False.elim, pdsAgree_same_of hflat rfl (by simp)⟩
    · rw [hl] at h; simp at h
    · have hflat := ag.flat (by rw [hl]; simp)
      have haw : s.lpc.awake := by rw [hl]; trivial
      rw [hl] at h; dsimp only at h; rw [← Option.some.inj h]
      refine ⟨ag.range, ag.hold, fun hc => absurd haw (ag.notify hc).2, fun _ => ag.awake haw, pdsAgree_same_of hflat rfl ?_⟩
      intro k' d' h'
      injection h' with _ h2
      exact h2.symm
    · have haw : s.lpc.awake := by rw [hl]; trivial
      obtain ⟨f, hf⟩ := ag.same
      rw [hl] at h hf
      dsimp only at h hf
      split at h <;> rw [← Option.some.inj h]
      · refine ⟨ag.range, ag.hold, fun hc => absurd haw (ag.notify hc).2, fun _ => ag.awake haw, f, ?_⟩
        intro e he j
        dsimp only
        have htake : s.hold.take s.used.length = s.hold := List.take_of_length_le (by have := ag.hold; have := (ag.awake haw).1; omega)
        rw [htake]
        by_cases hed : e = d
        · subst hed
          rw [pdsWrite_self, if_pos (by omega)]
          congr 1
          funext j
          rw [hf e he j, if_neg (by omega)]
        · rw [pdsWrite_other hed, hf e he j]
          by_cases h1 : e < d
          · rw [if_pos h1, if_pos (by omega)]
          · rw [if_neg h1, if_neg (by omega)]
      · refine ⟨ag.range, ag.hold, fun hc => absurd haw (ag.notify hc).2, False.elim, pdsPut s.used s.hold f, ?_⟩
        intro e he j
        dsimp only
        rw [hf e he j, if_pos (by omega)]
    · have hflat := ag.flat (by rw [hl]; simp)
      rw [hl] at h; dsimp only at h; rw [← Option.some.inj h]
      exact ⟨ag.range, ag.hold, fun hc => ⟨(ag.notify hc).1, id⟩, False.elim, pdsAgree_same_of hflat rfl (by simp)⟩
  · unfold pdsStep pdsConv at h
    dsimp only at h
    rcases hc : s.cpc with _ | i | _ | _ | _
    · rw [hc] at h
      dsimp only at h
      rcases ht : s.todo with _ | ⟨i, rest⟩
      · rw [ht] at h; simp at h
      · rw [ht] at h
        dsimp only at h
        rw [← Option.some.inj h]
        exact ⟨ag.range, ag.hold, by simp, fun h1 => ⟨(ag.awake h1).1, by simp⟩, ag.same⟩
    · rw [hc] at h
      dsimp only at h
      rw [← Option.some.inj h]
      refine ⟨ag.range, ag.hold, ?_, ?_, ?_⟩
      · dsimp only
        intro h1
        split at h1 <;> simp at h1
      · intro h1
        have := (ag.awake h1).1
        dsimp only
        rw [List.length_append, List.length_singleton]
        exact ⟨by omega, fun _ => by omega⟩
      · obtain ⟨f, hf⟩ := ag.same
        refine ⟨f, fun e he j => ?_⟩
        have := hf e he j
        dsimp only
        rcases hl : s.lpc with _ | k | k | k | k | ⟨k, d⟩ | k <;> rw [hl] at this <;> dsimp only at this ⊢
        all_goals try exact this
        have haw : s.lpc.awake := by rw [hl]; trivial
        rw [pdsPut_append _ _ _ _ (by have := ag.hold; have := (ag.awake haw).1; omega)]
        exact this
    · rw [hc] at h
      dsimp only at h
      rw [← Option.some.inj h]
      refine ⟨ag.range, ag.hold, ?_, ?_, ag.same⟩
      · dsimp only
        intro h1
        split at h1
        · next h2 =>
          refine ⟨h2.1, fun h3 => ?_⟩
          have := (ag.awake h3).2 hc
          omega
        · simp at h1
      · intro h1
        refine ⟨(ag.awake h1).1, ?_⟩
        dsimp only
        intro h2
        split at h2 <;> simp at h2
    · rw [hc] at h
      dsimp only at h
      split at h
      · simp at h
      · rw [← Option.some.inj h]
        obtain ⟨hu, hna⟩ := ag.notify hc
        have hflat := ag.flat (by intro k d hk; rw [hk] at hna; exact hna trivial)
        refine ⟨ag.range, ag.hold, by simp, fun _ => ⟨hu.ge, by simp⟩, pdsAgree_same_of hflat rfl ?_⟩
        dsimp only
        intro k d hk
        rcases hl : s.lpc with _ | k' | k' | k' | k' | ⟨k', d'⟩ | k' <;> rw [hl] at hk hna <;> simp [LoadPc.wake] at hk
        exact absurd trivial hna
    · rw [hc] at h
      dsimp only at h
      rw [← Option.some.inj h]
      exact ⟨ag.range, ag.hold, by simp, fun h1 => ⟨(ag.awake h1).1, by simp⟩, ag.same⟩
  · unfold pdsStep pdsTake at h
    dsimp only at h
    split at h
    · simp at h
    · rcases hr : s.ready with _ | ⟨b, r⟩
      · rw [hr] at h; simp at h
      · rw [hr] at h
        dsimp only at h
        rw [← Option.some.inj h]
        exact ⟨ag.range, ag.hold, ag.notify, ag.awake, ag.same⟩
  · unfold pdsStep pdsEpoch at h
    dsimp only at h
    split at h
    · rw [← Option.some.inj h]
      exact ⟨ag.range, ag.hold, ag.notify, ag.awake, ag.same⟩
    · simp at h

/-- **C140, the part that holds**: in every state that any interleaving can reach, over any number of epochs, the arrays agree (`slots d i = slots e i`: sample and label at an index come from the same row) unless the loading thread is in the middle of overwriting them; and the converting thread is never kept waiting when it notifies the loading thread. -/
theorem pds_consistent_partial {total procs rank batch initial loadLength nsets : Nat} {idx : List Nat} {acts : List PdsAct} {s : PdsSt} (hr : pdsRun (pdsCfg total procs batch loadLength nsets) (pdsInit total procs rank batch initial loadLength idx) acts = some s) :
    ((∀ k d, s.lpc ≠ .repl k d) → ∀ d < nsets, ∀ e < nsets, ∀ i, s.slots d i = s.slots e i) ∧ (s.cpc = .notify → s.lpc.locked = false) := by
  have h0 : PdsAgree (pdsCfg total procs batch loadLength nsets) (pdsInit total procs rank batch initial loadLength idx) :=
    ⟨rfl, by simp [pdsInit], by simp [pdsInit], False.elim, fun i => rank * (total / procs) + i, fun _ _ _ => rfl⟩
  have ag := pdsRun_ind (Q := PdsAgree _) (fun _ _ _ h e => h.step e) acts _ s h0 hr
  constructor
  · intro hn d hd e he i
    obtain ⟨f, hf⟩ := ag.flat hn
    rw [hf d hd i, hf e he i]
  · intro hc
    have := (ag.notify hc).2
    rcases hl : s.lpc with _ | k | k | k | k | ⟨k, d⟩ | k <;> rw [hl] at this <;> first | rfl | exact absurd trivial this

/-- An item read while the loading thread is not overwriting the arrays has the same row in every array. -/
theorem pds_untorn_partial {total procs rank batch initial loadLength nsets : Nat} {idx : List Nat} {acts : List PdsAct} {s s' : PdsSt} (hr : pdsRun (pdsCfg total procs batch loadLength nsets) (pdsInit total procs rank batch initial loadLength idx) acts = some s) (hn : ∀ k d, s.lpc ≠ .repl k d) (hi : s.cpc = .item)
    (hs : pdsStep (pdsCfg total procs batch loadLength nsets) s .conv = some s') : ∃ x, s'.cur = s.cur ++ [x] ∧ ∀ r ∈ x.rows, ∀ r' ∈ x.rows, r = r' := by
  unfold pdsStep pdsConv at hs
  dsimp only at hs
  rw [hi] at hs
  dsimp only at hs
  rcases ht : s.todo with _ | ⟨i, rest⟩
  · rw [ht] at hs; simp at hs
  · rw [ht] at hs
    dsimp only at hs
    rw [← Option.some.inj hs]
    refine ⟨_, rfl, ?_⟩
    intro r h1 r' h2
    obtain ⟨d, hd, rfl⟩ := List.mem_map.1 h1
    obtain ⟨e, he, rfl⟩ := List.mem_map.1 h2
    exact (pds_consistent_partial hr).1 hn d (List.mem_range.1 hd) e (List.mem_range.1 he) i

/-! ## Loading stops for good -/

/-- The loading thread waits although the number of used indices has passed `load_len`. -/
def PdsStuck (c : PdsCfg) (k : Nat) (f : Nat → Nat → Nat) (s : PdsSt) : Prop := s.lpc = .wait k ∧ c.loadLen < s.used.length ∧ s.cpc ≠ .notify ∧ s.slots = f

theorem PdsStuck.step {c : PdsCfg} {k : Nat} {f : Nat → Nat → Nat} {s s' : PdsSt} (st : PdsStuck c k f s) {a : PdsAct} (h : pdsStep c s a = some s') : PdsStuck c k f s' := by
  obtain ⟨hl, hu, hn, hf⟩ := st
  rcases a with _ | _ | _ | idx
  · unfold pdsStep pdsLoad at h
    dsimp only at h
    rw [hl] at h
    simp at h
  · unfold pdsStep pdsConv at h
    dsimp only at h
    rcases hc : s.cpc with _ | i | _ | _ | _
    · rw [hc] at h
      dsimp only at h
      rcases ht : s.todo with _ | ⟨i, rest⟩
      · rw [ht] at h; simp at h
      · rw [ht] at h
        dsimp only at h
        rw [← Option.some.inj h]
        exact ⟨hl, hu, by simp, hf⟩
    · rw [hc] at h
      dsimp only at h
      rw [← Option.some.inj h]
      refine ⟨hl, ?_, ?_, hf⟩
      · dsimp only; rw [List.length_append]; omega
      · dsimp only; split <;> simp
    · rw [hc] at h
      dsimp only at h
      rw [← Option.some.inj h]
      refine ⟨hl, hu, ?_, hf⟩
      dsimp only
      rw [if_neg (by omega)]
      simp
    · exact absurd hc hn
    · rw [hc] at h
      dsimp only at h
      rw [← Option.some.inj h]
      exact ⟨hl, hu, by simp, hf⟩
  · unfold pdsStep pdsTake at h
    dsimp only at h
    split at h
    · simp at h
    · rcases hr : s.ready with _ | ⟨b, r⟩
      · rw [hr] at h; simp at h
      · rw [hr] at h
        dsimp only at h
        rw [← Option.some.inj h]
        exact ⟨hl, hu, hn, hf⟩
  · unfold pdsStep pdsEpoch at h
    dsimp only at h
    split at h
    · rw [← Option.some.inj h]
      exact ⟨hl, hu, hn, hf⟩
    · simp at h

/-- **C139, how it fails**: once the loading thread waits while more than `load_len` indices have been used, it waits for ever, in this epoch and all later ones, and the data in memory never changes again. -/
theorem pds_stuck {c : PdsCfg} {k : Nat} {s : PdsSt} (hl : s.lpc = .wait k) (hu : c.loadLen < s.used.length) (hn : s.cpc ≠ .notify) {acts : List PdsAct} {s' : PdsSt} (hr : pdsRun c s acts = some s') : s'.lpc = .wait k ∧ s'.slots = s.slots := by
  have := pdsRun_ind (Q := PdsStuck c k s.slots) (fun _ _ _ h e => h.step e) acts s s' ⟨hl, hu, hn, rfl⟩ hr
  exact ⟨this.1, this.2.2.2⟩

/-- The number of items converted since the last reset of `used_indices`, counting one that is being converted. -/
def pdsUsedOrMark (s : PdsSt) : Nat := match s.cpc with | .mark _ => s.used.length + 1 | _ => s.used.length

def PdsShift (c : PdsCfg) (k : Nat) (f : Nat → Nat → Nat) (s : PdsSt) : Prop := s.lpc = .wait k ∧ pdsUsedOrMark s % c.batch ≠ s.cur.length % c.batch ∧ s.cpc ≠ .notify ∧ s.slots = f ∧ PdsInv c s

theorem PdsShift.step {c : PdsCfg} (hb : 0 < c.batch) (hd : c.loadLen % c.batch = 0) {k : Nat} {f : Nat → Nat → Nat} {s s' : PdsSt} (st : PdsShift c k f s) {a : PdsAct} (ha : ∀ idx, a ≠ .epoch idx) (h : pdsStep c s a = some s') : PdsShift c k f s' := by
  obtain ⟨hl, hu, hn, hf, inv⟩ := st
  have inv' := inv.step hb h
  rcases a with _ | _ | _ | idx
  · unfold pdsStep pdsLoad at h
    dsimp only at h
    rw [hl] at h
    simp at h
  · unfold pdsStep pdsConv at h
    dsimp only at h
    unfold pdsUsedOrMark at hu
    rcases hc : s.cpc with _ | i | _ | _ | _
    · rw [hc] at h hu
      dsimp only at h hu
      rcases ht : s.todo with _ | ⟨i, rest⟩
      · rw [ht] at h; simp at h
      · rw [ht] at h
        dsimp only at h
        have h2 := Option.some.inj h
        refine ⟨by rw [← h2]; exact hl, ?_, by rw [← h2]; simp, by rw [← h2]; exact hf, inv'⟩
        rw [← h2]
        unfold pdsUsedOrMark
        dsimp only
        rw [List.length_append, List.length_singleton]
        intro h1
        exact hu (Nat.ModEq.add_right_cancel' 1 h1)
    · rw [hc] at h hu
      dsimp only at h hu
      have h2 := Option.some.inj h
      refine ⟨by rw [← h2]; exact hl, ?_, ?_, by rw [← h2]; exact hf, inv'⟩
      · rw [← h2]
        unfold pdsUsedOrMark
        dsimp only
        rw [List.length_append, List.length_singleton]
        split
        · next h3 => split at h3 <;> simp at h3
        · exact hu
      · rw [← h2]; dsimp only; split <;> simp
    · rw [hc] at h hu
      dsimp only at h hu
      have h2 := Option.some.inj h
      have hcur := inv.curFull (Or.inl hc)
      have hne : ¬ (s.used.length = c.loadLen ∧ 0 < s.loadsLeft) := by
        rintro ⟨h3, -⟩
        apply hu
        rw [h3, hcur, hd, Nat.mod_self]
      rw [if_neg hne] at h2
      refine ⟨by rw [← h2]; exact hl, ?_, by rw [← h2]; simp, by rw [← h2]; exact hf, inv'⟩
      rw [← h2]
      exact hu
    · exact absurd hc hn
    · rw [hc] at h hu
      dsimp only at h hu
      have h2 := Option.some.inj h
      have hcur := inv.curFull (Or.inr (Or.inr hc))
      refine ⟨by rw [← h2]; exact hl, ?_, by rw [← h2]; simp, by rw [← h2]; exact hf, inv'⟩
      rw [← h2]
      unfold pdsUsedOrMark
      dsimp only [List.length_nil]
      rw [hcur, Nat.mod_self] at hu
      rw [Nat.zero_mod]
      exact hu
  · unfold pdsStep pdsTake at h
    dsimp only at h
    split at h
    · simp at h
    · rcases hr : s.ready with _ | ⟨b, r⟩
      · rw [hr] at h; simp at h
      · rw [hr] at h
        dsimp only at h
        have h2 := Option.some.inj h
        exact ⟨by rw [← h2]; exact hl, by rw [← h2]; exact hu, by rw [← h2]; exact hn, by rw [← h2]; exact hf, inv'⟩
  · exact absurd rfl (ha idx)

/-- **C139, a second way it fails**: if the loading thread has emptied the list of used indices while a batch was under way, so that their number is no longer a multiple of the batch size when a batch is complete, it is not woken up again in this epoch. -/
theorem pds_shifted {c : PdsCfg} (hb : 0 < c.batch) (hd : c.loadLen % c.batch = 0) {k : Nat} {s : PdsSt} (inv : PdsInv c s) (hl : s.lpc = .wait k) (hc : s.cpc = .item) (hu : s.used.length % c.batch ≠ s.cur.length % c.batch) {acts : List PdsAct} (ha : ∀ a ∈ acts, ∀ idx, a ≠ .epoch idx) {s' : PdsSt} (hr : pdsRun c s acts = some s') : s'.lpc = .wait k ∧ s'.slots = s.slots := by
  have h0 : PdsShift c k s.slots s := ⟨hl, by unfold pdsUsedOrMark; rw [hc]; exact hu, by rw [hc]; simp, rfl, inv⟩
  have := pdsRun_ind' (Q := PdsShift c k s.slots) (A := fun a => ∀ idx, a ≠ .epoch idx) (fun _ _ _ hA h e => h.step hb hd hA e) acts s s' ha h0 hr
  exact ⟨this.1, this.2.2.2.1⟩

theorem pdsLoadLen_mod {loadLen batch : Nat} (hb : 0 < batch) : pdsLoadLen loadLen batch % batch = 0 ∧ loadLen ≤ pdsLoadLen loadLen batch ∧ pdsLoadLen loadLen batch < loadLen + batch := by
  unfold pdsLoadLen
  have h1 := Nat.div_add_mod loadLen batch
  have h2 := Nat.mod_lt loadLen hb
  split
  · refine ⟨?_, by omega, by omega⟩
    have : loadLen + (batch - loadLen % batch) = batch * (loadLen / batch + 1) := by rw [Nat.mul_add, Nat.mul_one]; omega
    rw [this, Nat.mul_mod_right]
  · next h => exact ⟨by omega, le_refl _, by omega⟩

/-! ## Counterexamples -/

/-- `n` steps of the converting thread. -/
def pdsC (n : Nat) : List PdsAct := List.replicate n .conv

/-- `n` steps of the loading thread. -/
def pdsL (n : Nat) : List PdsAct := List.replicate n .load

/-- **C139 is violated (lost wake-up)**: one process, 4 rows in the file, 2 in memory, batch size 1, `load_length` 1. If the converting thread has converted the first batch before the loading thread waits, the notification is lost, and rows 2 and 3 of the file are never loaded, in this epoch or any later one: however the threads go on, the data in memory stays rows 0 and 1. -/
theorem pds_lost_wakeup_violated : ∃ acts s, pdsRun (pdsCfg 4 1 1 1 1) (pdsInit 4 1 0 1 2 1 [0, 1, 1, 0]) acts = some s ∧ ∀ acts' s', pdsRun (pdsCfg 4 1 1 1 1) s acts' = some s' → s'.slots = fun _ i => i := by
  have hex : ((pdsRun (pdsCfg 4 1 1 1 1) (pdsInit 4 1 0 1 2 1 [0, 1, 1, 0]) (pdsC 5 ++ pdsL 3 ++ pdsC 2)).map fun s => (s.lpc, s.used, s.cpc)) = some (.wait 3, [0, 1], .check) := by decide +kernel
  obtain ⟨s, hs, he⟩ := Option.map_eq_some_iff.1 hex
  obtain ⟨h1, h2, h3⟩ : s.lpc = .wait 3 ∧ s.used = [0, 1] ∧ s.cpc = .check := by simpa using he
  refine ⟨_, s, hs, ?_⟩
  intro acts' s' hr
  have := (pds_stuck h1 (by rw [h2]; decide) (by rw [h3]; simp) hr).2
  rw [this]
  -- the loading thread has not written anything so far
  have hsl : ((pdsRun (pdsCfg 4 1 1 1 1) (pdsInit 4 1 0 1 2 1 [0, 1, 1, 0]) (pdsC 5 ++ pdsL 3 ++ pdsC 2)).map fun s => s.slots) = some fun _ i => 0 * (4 / 1) + i := rfl
  rw [hs] at hsl
  have hsl' : s.slots = fun _ i => 0 * (4 / 1) + i := Option.some.inj hsl
  rw [hsl']
  funext _ i
  simp

/-- **C140 is violated (torn items)**: with two arrays (samples and labels), a converting thread that reads an index while the loading thread has replaced the samples and not yet the labels hands out the sample of row 2 with the label of row 0. -/
theorem pds_torn_violated : ((pdsRun (pdsCfg 4 1 1 1 2) (pdsInit 4 1 0 1 2 1 [0, 1, 0, 1]) (pdsL 3 ++ pdsC 5 ++ pdsL 2 ++ pdsC 8 ++ [.take, .take, .take])).map fun s => s.out) = some [[⟨0, [0, 0]⟩], [⟨1, [1, 1]⟩], [⟨0, [2, 0]⟩]] := by
  decide +kernel

/-- **C140 is violated (rows of other processes)**: with 8 rows on two processes, rank 0 owns rows 0 to 3; it hands out rows 4 and 5 in its second epoch. -/
theorem pds_foreign_violated : ((pdsRun (pdsCfg 8 2 2 2 1) (pdsInit 8 2 0 2 2 2 [0, 1, 1, 0])
      (pdsL 3 ++ pdsC 7 ++ pdsL 6 ++ pdsC 7 ++ [.take, .take] ++ pdsL 5 ++ [.epoch [0, 1, 0, 1]] ++ pdsC 6 ++ [.take])).map fun s => s.out) = some [[⟨0, [5]⟩, ⟨1, [4]⟩]] := by
  decide +kernel

/-- **C139 is violated (reset in the middle of a batch)**: batch size 2; the loading thread empties the list of used indices when one item of the next batch has been converted; from then on it is not woken up again in the epoch. -/
theorem pds_shift_violated : ∃ acts s, pdsRun (pdsCfg 12 1 2 2 1) (pdsInit 12 1 0 2 4 2 [0, 1, 2, 3, 3, 2, 1, 0, 0, 1, 2, 3]) acts = some s ∧ s.loadsLeft = 5 ∧ ∀ acts' s', (∀ a ∈ acts', ∀ idx, a ≠ PdsAct.epoch idx) → pdsRun (pdsCfg 12 1 2 2 1) s acts' = some s' → s'.slots = s.slots := by
  have hex : ((pdsRun (pdsCfg 12 1 2 2 1) (pdsInit 12 1 0 2 4 2 [0, 1, 2, 3, 3, 2, 1, 0, 0, 1, 2, 3]) (pdsL 3 ++ pdsC 7 ++ pdsC 2 ++ pdsL 6)).map fun s => (s.lpc, s.used, s.cpc, s.cur.length, s.loadsLeft)) = some (.wait 4, [], .item, 1, 5) := by decide +kernel
  obtain ⟨s, hs, he⟩ := Option.map_eq_some_iff.1 hex
  obtain ⟨h1, h2, h3, h4, h5⟩ : s.lpc = .wait 4 ∧ s.used = [] ∧ s.cpc = .item ∧ s.cur.length = 1 ∧ s.loadsLeft = 5 := by simpa using he
  have inv := pdsRun_ind (Q := PdsInv (pdsCfg 12 1 2 2 1)) (fun _ _ _ h e => h.step (by decide) e) _ _ _ (pdsInit_inv (by decide) 12 1 0 2 4 2 _) hs
  refine ⟨_, s, hs, h5, ?_⟩
  intro acts' s' ha hr
  exact (pds_shifted (by decide) (by decide) inv h1 h3 (by rw [h2, h4]; decide) ha hr).2

/-- A run in which everything is loaded: all batches come out, with the rows of the file in turn. -/
example : ((pdsRun (pdsCfg 8 1 2 2 2) (pdsInit 8 1 0 2 2 2 [0, 1, 1, 0, 0, 1, 1, 0]) (pdsL 3 ++ pdsC 7 ++ pdsL 7 ++ pdsC 7 ++ pdsL 7 ++ pdsC 7 ++ pdsL 7 ++ pdsC 7 ++ [.take, .take, .take, .take])).map fun s => s.out) =
    some [[⟨0, [0, 0]⟩, ⟨1, [1, 1]⟩], [⟨1, [3, 3]⟩, ⟨0, [2, 2]⟩], [⟨0, [5, 5]⟩, ⟨1, [4, 4]⟩], [⟨1, [7, 7]⟩, ⟨0, [6, 6]⟩]] := by
  decide +kernel

/-- The hypotheses of the termination, completeness and content theorems are met: the run above, continued until no thread can move. -/
example : ((pdsRun (pdsCfg 8 1 2 2 2) (pdsInit 8 1 0 2 2 2 [0, 1, 1, 0, 0, 1, 1, 0]) (pdsL 3 ++ pdsC 7 ++ pdsL 7 ++ pdsC 7 ++ pdsL 7 ++ pdsC 7 ++ pdsL 7 ++ pdsC 7 ++ [.take, .take, .take, .take] ++ pdsL 6)).map fun s =>
    ((pdsStep (pdsCfg 8 1 2 2 2) s .load).isNone, (pdsStep (pdsCfg 8 1 2 2 2) s .conv).isNone, (pdsStep (pdsCfg 8 1 2 2 2) s .take).isNone, s.out.length)) = some (true, true, true, 4) := by
  decide +kernel
end Heat
