import Verif.Spec.Daso
import Verif.Model.Daso
import Mathlib.Algebra.Order.Field.Basic
import Mathlib.Algebra.Order.BigOperators.Group.Finset
import Mathlib.Tactic.Linarith
import Mathlib.Tactic.Ring
import Mathlib.Tactic.FieldSimp
import Mathlib.Tactic.Positivity
/-!
# DASO: no run raises, nothing is lost at the end of an epoch, all processes agree (C116)
-/
namespace Heat
variable {𝕜 : Type} [Field 𝕜]

/-- The invariant of the schedule. -/
structure DasoInv (s : Daso 𝕜) : Prop where
  send_lt : s.sendMod < s.gpus
  prev : ∀ g, s.sendModM1 = some g → g ≠ s.sendMod ∧ g < s.gpus
  pending : ∀ k l, s.pend k l ≠ [] → s.batchesToWait ≠ 0 ∧ s.sendModM1 = some l
  short : ∀ k l, (s.pend k l).length ≤ 1

theorem dasoInit_inv (nodes gpus lastBatch : Nat) (x : Nat → Nat → 𝕜) (hg : 0 < gpus) : DasoInv (dasoInit nodes gpus lastBatch x) := by
  refine ⟨hg, ?_, ?_, ?_⟩ <;> simp [dasoInit]

theorem dasoReset_inv (s : Daso 𝕜) (h : DasoInv s) : DasoInv (dasoReset s) := by
  refine ⟨h.send_lt, h.prev, ?_, ?_⟩ <;> simp [dasoReset]

/-- The group that sends is idle. -/
theorem DasoInv.idle {s : Daso 𝕜} (h : DasoInv s) (k : Nat) : s.pend k s.sendMod = [] := by
  by_contra hc
  exact (h.prev _ (h.pending k _ hc).2).1 rfl

/-- What `_gs_rcv_update_params` leaves pending. -/
theorem dasoReceive_pend {s : Daso 𝕜} (h : DasoInv s) (k l : Nat) : (dasoReceive s).pend k l = [] := by
  unfold dasoReceive
  split
  · rename_i h0
    by_contra hc
    have := (h.pending k l hc).2
    rw [h0] at this
    cases this
  · rename_i g h0
    dsimp only
    split
    · have := h.short k l
      match hp : s.pend k l with
      | [] => rfl
      | [_] => rfl
      | _ :: _ :: _ => rw [hp] at this; simp at this
    · rename_i hl
      by_contra hc
      have := (h.pending k l hc).2
      rw [h0] at this
      exact hl (Option.some.inj this).symm

theorem dasoReceive_fields (s : Daso 𝕜) : (dasoReceive s).nodes = s.nodes ∧ (dasoReceive s).gpus = s.gpus ∧ (dasoReceive s).lastBatch = s.lastBatch ∧ (dasoReceive s).batch = s.batch ∧
    (dasoReceive s).epoch = s.epoch ∧ (dasoReceive s).sendMod = s.sendMod ∧ (dasoReceive s).sendModM1 = s.sendModM1 ∧ (dasoReceive s).globalSkip = s.globalSkip ∧
    (dasoReceive s).localSkip = s.localSkip ∧ (dasoReceive s).batchesToWait = s.batchesToWait := by
  unfold dasoReceive
  split <;> simp

theorem dasoLocal_fields (s : Daso 𝕜) (o : Option Nat) : (dasoLocal s o).nodes = s.nodes ∧ (dasoLocal s o).gpus = s.gpus ∧ (dasoLocal s o).lastBatch = s.lastBatch ∧ (dasoLocal s o).batch = s.batch ∧
    (dasoLocal s o).epoch = s.epoch ∧ (dasoLocal s o).sendMod = s.sendMod ∧ (dasoLocal s o).sendModM1 = s.sendModM1 ∧ (dasoLocal s o).globalSkip = s.globalSkip ∧
    (dasoLocal s o).localSkip = s.localSkip ∧ (dasoLocal s o).batchesToWait = s.batchesToWait ∧ (dasoLocal s o).pend = s.pend := by
  unfold dasoLocal
  split <;> simp

/-- The state in the middle of `_global_sync`: only the new send is pending. -/
def dasoMid (s : Daso 𝕜) (btw : Int) : Daso 𝕜 :=
  if s.batchesToWait ≠ 0 then dasoLocal (dasoReceive (dasoSend s btw)) s.sendModM1 else dasoSend s btw

theorem dasoMid_pend {s : Daso 𝕜} (h : DasoInv s) (btw : Int) (k l : Nat) :
    (dasoMid s btw).pend k l = if l = s.sendMod then [(∑ i ∈ Finset.range s.nodes, s.x i s.sendMod, btw)] else [] := by
  unfold dasoMid
  split
  · rw [(dasoLocal_fields _ _).2.2.2.2.2.2.2.2.2.2]
    unfold dasoReceive
    have hsm : (dasoSend s btw).sendModM1 = s.sendModM1 := rfl
    rw [hsm]
    cases h0 : s.sendModM1 with
    | none =>
      have e : ∀ k l, s.pend k l = [] := by
        intro k l
        by_contra hc
        have := (h.pending k l hc).2
        rw [h0] at this
        cases this
      simp [dasoSend, e]
    | some g =>
      have hg := h.prev g h0
      simp only [dasoSend]
      by_cases hl : l = g
      · have : l ≠ s.sendMod := by rw [hl]; exact hg.1
        rw [if_pos hl, if_neg this, if_neg this]
        have := h.short k l
        match hp : s.pend k l with
        | [] => rfl
        | [_] => rfl
        | _ :: _ :: _ => rw [hp] at this; simp at this
      · rw [if_neg hl]
        have e : s.pend k l = [] := by
          by_contra hc
          have := (h.pending k l hc).2
          rw [h0] at this
          exact hl (Option.some.inj this).symm
        simp [e]
  · rename_i hw
    have e : ∀ k l, s.pend k l = [] := by
      intro k l
      by_contra hc
      exact hw (h.pending k l hc).1
    simp [dasoSend, e]

theorem dasoMid_fields (s : Daso 𝕜) (btw : Int) : (dasoMid s btw).nodes = s.nodes ∧ (dasoMid s btw).gpus = s.gpus ∧ (dasoMid s btw).lastBatch = s.lastBatch ∧
    (dasoMid s btw).sendMod = s.sendMod ∧ (dasoMid s btw).globalSkip = s.globalSkip ∧ (dasoMid s btw).localSkip = s.localSkip ∧ (dasoMid s btw).batchesToWait = s.batchesToWait ∧ (dasoMid s btw).epoch = s.epoch := by
  unfold dasoMid
  split
  · have a := dasoLocal_fields (dasoReceive (dasoSend s btw)) s.sendModM1
    have b := dasoReceive_fields (dasoSend s btw)
    simp only [a, b]
    simp [dasoSend]
  · simp [dasoSend]

theorem dasoNext_spec {s : Daso 𝕜} (h : s.sendMod < s.gpus) (hg : 2 ≤ s.gpus) : dasoNext s ≠ s.sendMod ∧ dasoNext s < s.gpus := by
  unfold dasoNext
  split <;> omega

theorem dasoReceiveLast_mid {s : Daso 𝕜} (h : DasoInv s) (btw : Int) :
    ∃ s', dasoReceiveLast (dasoMid s btw) = .ok s' ∧ (∀ k l, s'.pend k l = []) ∧ (∀ k, s'.x k s.sendMod = nodeMean s.nodes (fun i => s.x i s.sendMod)) ∧
      s'.nodes = s.nodes ∧ s'.gpus = s.gpus ∧ s'.lastBatch = s.lastBatch ∧ s'.globalSkip = s.globalSkip ∧ s'.localSkip = s.localSkip ∧ s'.batchesToWait = s.batchesToWait ∧ s'.epoch = s.epoch := by
  have hp := dasoMid_pend h btw
  obtain ⟨f1, f2, f3, f4, f5, f6, f7, f8⟩ := dasoMid_fields s btw
  unfold dasoReceiveLast
  rw [if_neg, if_neg, if_neg]
  · refine ⟨_, rfl, ?_, ?_, f1, f2, f3, f5, f6, f7, f8⟩
    · intro k l
      dsimp only
      rw [hp, f4]
      split <;> simp
    · intro k
      dsimp only
      rw [hp, f4, f1]
      simp [nodeMean]
  · rintro ⟨k, hk, hc⟩
    rw [hp, f4] at hc
    simp at hc
  · rintro ⟨k, hk, hc⟩
    rw [hp, f4] at hc
    simp at hc
  · rintro ⟨k, hk, l, hl, hn, hc⟩
    rw [hp, f4] at *
    simp [hn] at hc

theorem dasoSync_eq (s : Daso 𝕜) (btw : Int) : dasoSync s btw =
    if s.batch = s.lastBatch ∨ s.batchesToWait = 0 then
      match dasoReceiveLast (dasoMid s btw) with
      | .error e => .error e
      | .ok s3 =>
        .ok (if s.batch = s.lastBatch then { dasoLocal s3 (some s.sendMod) with sendModM1 := none, sendMod := 0, epoch := s.epoch + 1, batch := 0 }
          else { dasoLocal s3 (some s.sendMod) with sendModM1 := none, batch := s.batch + 1, sendMod := dasoNext s })
    else .ok { dasoMid s btw with batch := s.batch + 1, sendModM1 := some s.sendMod, sendMod := dasoNext s } := rfl

/-- The effect of a global synchronisation. -/
theorem dasoSync_inv (s : Daso 𝕜) (h : DasoInv s) (hg : 2 ≤ s.gpus) (btw : Int) :
    ∃ s', dasoSync s btw = .ok s' ∧ DasoInv s' ∧
      s'.nodes = s.nodes ∧ s'.gpus = s.gpus ∧ s'.lastBatch = s.lastBatch ∧ s'.globalSkip = s.globalSkip ∧ s'.localSkip = s.localSkip ∧ s'.batchesToWait = s.batchesToWait ∧
      (s.batch ≠ s.lastBatch → s'.batch = s.batch + 1 ∧ s'.epoch = s.epoch) ∧
      (s.batch = s.lastBatch → s'.batch = 0 ∧ s'.epoch = s.epoch + 1 ∧ s'.sendMod = 0 ∧ s'.sendModM1 = none) ∧
      (s.batch = s.lastBatch ∨ s.batchesToWait = 0 → (∀ k l, s'.pend k l = []) ∧ AllHold s'.x (nodeMean s.nodes (fun i => s.x i s.sendMod))) := by
  obtain ⟨s3, e3, p3, x3, f1, f2, f3, f4, f5, f6, f7⟩ := dasoReceiveLast_mid h btw
  have nx := dasoNext_spec h.send_lt hg
  rw [dasoSync_eq]
  by_cases hc : s.batch = s.lastBatch ∨ s.batchesToWait = 0
  · rw [if_pos hc, e3]
    dsimp only
    by_cases hl : s.batch = s.lastBatch
    · rw [if_pos hl]
      refine ⟨_, rfl, ⟨?_, ?_, ?_, ?_⟩, f1, f2, f3, f4, f5, f6, fun hh => absurd hl hh, fun _ => ⟨rfl, rfl, rfl, rfl⟩, fun _ => ⟨?_, ?_⟩⟩
      · simp only [dasoLocal, f2]; omega
      · intro g hgg; cases hgg
      · intro k l hh; exact absurd (p3 k l) hh
      · intro k l; simp [dasoLocal, p3]
      · intro k l; exact p3 k l
      · intro k l; exact x3 k
    · rw [if_neg hl]
      refine ⟨_, rfl, ⟨?_, ?_, ?_, ?_⟩, f1, f2, f3, f4, f5, f6, fun _ => ⟨rfl, f7⟩, fun hh => absurd hh hl, fun _ => ⟨?_, ?_⟩⟩
      · simp only [dasoLocal, f2]; exact nx.2
      · intro g hgg; cases hgg
      · intro k l hh; exact absurd (p3 k l) hh
      · intro k l; simp [dasoLocal, p3]
      · intro k l; exact p3 k l
      · intro k l; exact x3 k
  · rw [if_neg hc]
    obtain ⟨m1, m2, m3, m4, m5, m6, m7, m8⟩ := dasoMid_fields s btw
    have mp := dasoMid_pend h btw
    refine ⟨_, rfl, ⟨?_, ?_, ?_, ?_⟩, m1, m2, m3, m5, m6, m7, fun _ => ⟨rfl, m8⟩, fun hh => absurd (Or.inl hh) hc, fun hh => absurd hh hc⟩
    · dsimp only; rw [m2]; exact nx.2
    · intro g hgg
      dsimp only at *
      cases hgg
      rw [m2]
      exact ⟨fun e => nx.1 e.symm, h.send_lt⟩
    · intro k l hh
      dsimp only at *
      rw [mp] at hh
      rw [m7]
      refine ⟨fun e => hc (Or.inr e), ?_⟩
      by_contra hn
      rw [if_neg (fun e => hn (by rw [e]))] at hh
      exact hh rfl
    · intro k l
      dsimp only
      rw [mp]
      split <;> simp

/-- One batch never raises and keeps the invariant; the last one and every one in blocking mode leave all processes with the mean of what the GPUs `sendMod` of the nodes had. -/
theorem dasoStep_inv (s : Daso 𝕜) (h : DasoInv s) (hg : 2 ≤ s.gpus) (u : Nat → Nat → 𝕜 → 𝕜) :
    ∃ s', dasoStep u s = .ok s' ∧ DasoInv s' ∧
      s'.nodes = s.nodes ∧ s'.gpus = s.gpus ∧ s'.lastBatch = s.lastBatch ∧ s'.globalSkip = s.globalSkip ∧ s'.localSkip = s.localSkip ∧ s'.batchesToWait = s.batchesToWait ∧
      (s.batch ≠ s.lastBatch → s'.batch = s.batch + 1 ∧ s'.epoch = s.epoch) ∧
      (s.batch = s.lastBatch → s'.batch = 0 ∧ s'.epoch = s.epoch + 1 ∧ s'.sendMod = 0 ∧ s'.sendModM1 = none) ∧
      (s.batch = s.lastBatch ∨ (s.batchesToWait = 0 ∧ s.globalSkip = 0) → (∀ k l, s'.pend k l = []) ∧ AllHold s'.x (nodeMean s.nodes (fun i => u i s.sendMod (s.x i s.sendMod)))) := by
  have hu : DasoInv { s with x := fun k l => u k l (s.x k l) } := ⟨h.send_lt, h.prev, h.pending, h.short⟩
  unfold dasoStep
  dsimp only
  generalize hbtw : (if s.batchesToWait + (s.batch : Int) ≤ (s.lastBatch : Int) then s.batchesToWait else (s.lastBatch : Int) - (s.batch : Int)) = btw
  by_cases hsync : s.batch = s.lastBatch ∨ (if 0 < s.globalSkip then s.batch % s.globalSkip else 0) = 0
  · rw [if_pos hsync]
    obtain ⟨s', e, i, r1, r2, r3, r4, r5, r6, r7, r8, r9⟩ := dasoSync_inv _ hu hg btw
    exact ⟨s', e, i, r1, r2, r3, r4, r5, r6, r7, r8, fun hh => r9 (hh.imp id (fun a => a.1))⟩
  · rw [if_neg hsync]
    push Not at hsync
    have hgs : ¬ (s.batch = s.lastBatch ∨ (s.batchesToWait = 0 ∧ s.globalSkip = 0)) := by
      rintro (a | ⟨_, a⟩)
      · exact hsync.1 a
      · apply hsync.2
        rw [a]
        rfl
    have plain : ∃ s', (Except.ok { s with x := fun k l => u k l (s.x k l), batch := s.batch + 1 } : Except Err (Daso 𝕜)) = .ok s' ∧ DasoInv s' ∧
      s'.nodes = s.nodes ∧ s'.gpus = s.gpus ∧ s'.lastBatch = s.lastBatch ∧ s'.globalSkip = s.globalSkip ∧ s'.localSkip = s.localSkip ∧ s'.batchesToWait = s.batchesToWait ∧
      (s.batch ≠ s.lastBatch → s'.batch = s.batch + 1 ∧ s'.epoch = s.epoch) ∧
      (s.batch = s.lastBatch → s'.batch = 0 ∧ s'.epoch = s.epoch + 1 ∧ s'.sendMod = 0 ∧ s'.sendModM1 = none) ∧
      (s.batch = s.lastBatch ∨ (s.batchesToWait = 0 ∧ s.globalSkip = 0) → (∀ k l, s'.pend k l = []) ∧ AllHold s'.x (nodeMean s.nodes (fun i => u i s.sendMod (s.x i s.sendMod)))) :=
      ⟨_, rfl, ⟨h.send_lt, h.prev, h.pending, h.short⟩, rfl, rfl, rfl, rfl, rfl, rfl, fun _ => ⟨rfl, rfl⟩, fun a => absurd a hsync.1, fun a => absurd a hgs⟩
    by_cases h1 : (s.batch + 1) % s.globalSkip = 0
    · rw [if_pos h1]; exact plain
    · rw [if_neg h1]
      by_cases h2 : (((if 0 < s.globalSkip then s.batch % s.globalSkip else 0 : Nat)) : Int) < btw
      · rw [if_pos h2]; exact plain
      · rw [if_neg h2]
        by_cases h3 : (((if 0 < s.globalSkip then s.batch % s.globalSkip else 0 : Nat)) : Int) = btw
        · rw [if_pos h3]
          obtain ⟨l1, l2, l3, l4, l5, l6, l7, l8, l9, l10, l11⟩ := dasoLocal_fields (dasoReceive { s with x := fun k l => u k l (s.x k l) }) s.sendModM1
          obtain ⟨r1, r2, r3, r4, r5, r6, r7, r8, r9, r10⟩ := dasoReceive_fields { s with x := fun k l => u k l (s.x k l) }
          have rp := dasoReceive_pend hu
          refine ⟨_, rfl, ⟨?_, ?_, ?_, ?_⟩, l1.trans r1, l2.trans r2, l3.trans r3, l8.trans r8, l9.trans r9, l10.trans r10, fun _ => ⟨rfl, l5.trans r5⟩, fun a => absurd a hsync.1, fun a => absurd a hgs⟩
          · dsimp only; rw [l6, r6, l2, r2]; exact h.send_lt
          · intro g hh
            dsimp only at hh ⊢
            rw [l7, r7] at hh
            rw [l6, r6, l2, r2]
            exact h.prev g hh
          · intro k l hh
            dsimp only at hh
            rw [l11, rp] at hh
            exact absurd rfl hh
          · intro k l
            dsimp only
            rw [l11, rp]
            simp
        · rw [if_neg h3]; exact plain

/-- **C116**: no batch raises (from a new or reset optimizer, or any later state). -/
theorem daso_steps (us : List (Nat → Nat → 𝕜 → 𝕜)) (s : Daso 𝕜) (h : DasoInv s) (hg : 2 ≤ s.gpus) (hb : s.batch + us.length ≤ s.lastBatch) :
    ∃ s', dasoSteps us s = .ok s' ∧ DasoInv s' ∧ s'.nodes = s.nodes ∧ s'.gpus = s.gpus ∧ s'.lastBatch = s.lastBatch ∧ s'.globalSkip = s.globalSkip ∧ s'.localSkip = s.localSkip ∧
      s'.batchesToWait = s.batchesToWait ∧ s'.batch = s.batch + us.length ∧ s'.epoch = s.epoch := by
  induction us generalizing s with
  | nil => exact ⟨s, rfl, h, rfl, rfl, rfl, rfl, rfl, rfl, rfl, rfl⟩
  | cons u us ih =>
    simp only [List.length_cons] at hb
    obtain ⟨s1, e1, i1, a1, a2, a3, a4, a5, a6, a7, a8, a9⟩ := dasoStep_inv s h hg u
    have b1 := a7 (by omega)
    obtain ⟨s2, e2, i2, c1, c2, c3, c4, c5, c6, c7, c8⟩ := ih s1 i1 (by omega) (by omega)
    refine ⟨s2, ?_, i2, c1.trans a1, c2.trans a2, c3.trans a3, c4.trans a4, c5.trans a5, c6.trans a6, ?_, c8.trans b1.2⟩
    · rw [dasoSteps, e1]; exact e2
    · rw [c7, b1.1, List.length_cons]; omega

theorem dasoSteps_append (us vs : List (Nat → Nat → 𝕜 → 𝕜)) (s : Daso 𝕜) : dasoSteps (us ++ vs) s = (dasoSteps us s).bind (dasoSteps vs) := by
  induction us generalizing s with
  | nil => rfl
  | cons u us ih =>
    rw [List.cons_append, dasoSteps, dasoSteps]
    cases dasoStep u s with
    | error e => rfl
    | ok s1 => exact ih s1

/-- **C116**: an epoch of `last_batch + 1` batches from a state between epochs raises nothing, leaves nothing pending, counts the epoch, and leaves every process with the same parameters:
the mean over the nodes of what one GPU per node has after the last local update. -/
theorem daso_epoch (us : List (Nat → Nat → 𝕜 → 𝕜)) (u : Nat → Nat → 𝕜 → 𝕜) (s : Daso 𝕜) (h : DasoInv s) (hg : 2 ≤ s.gpus) (h0 : s.batch = 0) (hl : us.length = s.lastBatch) :
    ∃ s1 s2, dasoSteps us s = .ok s1 ∧ dasoSteps (us ++ [u]) s = .ok s2 ∧ DasoInv s2 ∧ (∀ k l, s2.pend k l = []) ∧ s2.epoch = s.epoch + 1 ∧ s2.batch = 0 ∧
      (∃ g < s.gpus, AllHold s2.x (nodeMean s.nodes (fun i => u i g (s1.x i g)))) ∧
      s2.nodes = s.nodes ∧ s2.gpus = s.gpus ∧ s2.lastBatch = s.lastBatch ∧ s2.globalSkip = s.globalSkip ∧ s2.localSkip = s.localSkip ∧ s2.batchesToWait = s.batchesToWait ∧ s2.sendModM1 = none := by
  obtain ⟨s1, e1, i1, c1, c2, c3, c4, c5, c6, c7, c8⟩ := daso_steps us s h hg (by omega)
  obtain ⟨s2, e2, i2, a1, a2, a3, a4, a5, a6, a7, a8, a9⟩ := dasoStep_inv s1 i1 (by omega) u
  have hlast : s1.batch = s1.lastBatch := by omega
  have b := a8 hlast
  have d := a9 (Or.inl hlast)
  refine ⟨s1, s2, e1, ?_, i2, d.1, ?_, b.1, ⟨s1.sendMod, by rw [← c2]; exact i1.send_lt, ?_⟩, a1.trans c1, a2.trans c2, a3.trans c3, a4.trans c4, a5.trans c5, a6.trans c6, b.2.2.2⟩
  · rw [dasoSteps_append, e1]
    show dasoSteps [u] s1 = _
    rw [dasoSteps, e2]
    rfl
  · rw [b.2.1, c8]
  · rw [← c1]; exact d.2

theorem dasoEpoch_fields (o : DasoOptions) (b : Bool) (s : Daso 𝕜) : (dasoEpoch o b s).nodes = s.nodes ∧ (dasoEpoch o b s).gpus = s.gpus ∧ (dasoEpoch o b s).lastBatch = s.lastBatch ∧
    (dasoEpoch o b s).batch = s.batch ∧ (dasoEpoch o b s).epoch = s.epoch ∧ (dasoEpoch o b s).sendMod = s.sendMod ∧ (dasoEpoch o b s).sendModM1 = s.sendModM1 ∧ (dasoEpoch o b s).x = s.x ∧ (dasoEpoch o b s).pend = s.pend := by
  unfold dasoEpoch dasoAdapt
  dsimp only
  split_ifs <;> simp

theorem dasoEpoch_inv (o : DasoOptions) (b : Bool) (s : Daso 𝕜) (h : DasoInv s) (hp : ∀ k l, s.pend k l = []) : DasoInv (dasoEpoch o b s) := by
  obtain ⟨a1, a2, a3, a4, a5, a6, a7, a8, a9⟩ := dasoEpoch_fields o b s
  refine ⟨?_, ?_, ?_, ?_⟩
  · rw [a6, a2]; exact h.send_lt
  · rw [a6, a2, a7]; exact h.prev
  · rw [a9]; intro k l hh; exact absurd (hp k l) hh
  · rw [a9]; exact h.short

/-- **C116**: a whole training raises nothing: any number of epochs of `last_batch + 1` batches each, any local optimizers, any losses, any options. After it the epochs are counted, nothing is pending and all processes hold the same parameters. -/
theorem daso_train (o : DasoOptions) (es : List (List (Nat → Nat → 𝕜 → 𝕜) × Bool)) (s : Daso 𝕜) (h : DasoInv s) (hg : 2 ≤ s.gpus) (h0 : s.batch = 0) (hp : ∀ k l, s.pend k l = [])
    (hl : ∀ e ∈ es, e.1.length = s.lastBatch + 1) :
    ∃ s', dasoTrain o es s = .ok s' ∧ DasoInv s' ∧ s'.batch = 0 ∧ s'.epoch = s.epoch + es.length ∧ (∀ k l, s'.pend k l = []) ∧ (es ≠ [] → ∃ v, AllHold s'.x v) := by
  induction es generalizing s with
  | nil => exact ⟨s, rfl, h, h0, rfl, hp, fun hh => absurd rfl hh⟩
  | cons e es ih =>
    obtain ⟨us, b⟩ := e
    have hlen := hl (us, b) (by simp)
    dsimp only at hlen
    obtain ⟨us', u, rfl⟩ : ∃ us' u, us = us' ++ [u] := by
      rcases List.eq_nil_or_concat us with rfl | ⟨L, b, rfl⟩
      · simp at hlen
      · exact ⟨L, b, by simp⟩
    obtain ⟨s1, s2, e1, e2, i2, p2, q1, q2, ⟨g, _, q3⟩, r1, r2, r3, r4, r5, r6, r7⟩ := daso_epoch us' u s h hg h0 (by simpa using hlen)
    obtain ⟨a1, a2, a3, a4, a5, a6, a7, a8, a9⟩ := dasoEpoch_fields o b s2
    obtain ⟨s3, e3, i3, c1, c2, c3, c4⟩ := ih (dasoEpoch o b s2) (dasoEpoch_inv o b s2 i2 p2) (by omega) (by omega) (by rw [a9]; exact p2) (by
      intro e he
      rw [a3, r3]
      exact hl e (List.mem_cons_of_mem _ he))
    refine ⟨s3, ?_, i3, c1, ?_, c3, fun _ => ?_⟩
    · rw [dasoTrain, e2]; exact e3
    · rw [c2, a5, q1, List.length_cons]; omega
    · by_cases hes : es = []
      · subst hes
        rw [dasoTrain] at e3
        cases e3
        rw [a8]
        exact ⟨_, q3⟩
      · exact c4 hes

/-- **C116**, from the constructor: with at least two GPUs per node and epochs of `last_batch + 1` batches a training never raises, whatever the options, the local optimizers, the losses and the number of epochs. -/
theorem daso_training (o : DasoOptions) (nodes gpus lastBatch : Nat) (hg : 2 ≤ gpus) (x : Nat → Nat → 𝕜) (es : List (List (Nat → Nat → 𝕜 → 𝕜) × Bool))
    (hl : ∀ e ∈ es, e.1.length = lastBatch + 1) :
    ∃ s', dasoTrain o es (dasoInit nodes gpus lastBatch x) = .ok s' ∧ s'.batch = 0 ∧ s'.epoch = es.length ∧ (∀ k l, s'.pend k l = []) ∧ (es ≠ [] → ∃ v, AllHold s'.x v) := by
  obtain ⟨s', a, _, b, c, d, e⟩ := daso_train o es _ (dasoInit_inv nodes gpus lastBatch x (by omega)) hg rfl (fun _ _ => rfl) hl
  refine ⟨s', a, b, ?_, d, e⟩
  rw [c]
  simp [dasoInit]

/-- **C116**: after `reset` at any point of a training, a new training never raises. -/
theorem daso_reset (o : DasoOptions) (s : Daso 𝕜) (h : DasoInv s) (hg : 2 ≤ s.gpus) (es : List (List (Nat → Nat → 𝕜 → 𝕜) × Bool)) (hl : ∀ e ∈ es, e.1.length = s.lastBatch + 1) :
    ∃ s', dasoTrain o es (dasoReset s) = .ok s' ∧ s'.batch = 0 ∧ s'.epoch = es.length ∧ (∀ k l, s'.pend k l = []) ∧ (es ≠ [] → ∃ v, AllHold s'.x v) := by
  obtain ⟨s', a, _, b, c, d, e⟩ := daso_train o es _ (dasoReset_inv s h) hg rfl (fun _ _ => rfl) hl
  refine ⟨s', a, b, ?_, d, e⟩
  rw [c]
  simp [dasoReset]

/-- **C116**: in the blocking phases (`global_skip = 0`, `batches_to_wait = 0`: warm-up and cool-down) all processes hold the mean over the nodes after every batch. -/
theorem daso_blocking (s : Daso 𝕜) (h : DasoInv s) (hg : 2 ≤ s.gpus) (hw : s.batchesToWait = 0) (hgs : s.globalSkip = 0) (u : Nat → Nat → 𝕜 → 𝕜) :
    ∃ s', dasoStep u s = .ok s' ∧ (∀ k l, s'.pend k l = []) ∧ AllHold s'.x (nodeMean s.nodes (fun i => u i s.sendMod (s.x i s.sendMod))) ∧ s'.batchesToWait = 0 ∧ s'.globalSkip = 0 := by
  obtain ⟨s', e, i, r1, r2, r3, r4, r5, r6, r7, r8, r9⟩ := dasoStep_inv s h hg u
  have := r9 (Or.inr ⟨hw, hgs⟩)
  exact ⟨s', e, this.1, this.2, by rw [r6, hw], by rw [r4, hgs]⟩

/-- **C116**: warm-up and cool-down are blocking. -/
theorem daso_phases (o : DasoOptions) (b : Bool) (s : Daso 𝕜) (h : s.epoch < o.warmup ∨ (o.total : Int) - o.cooldown ≤ s.epoch) :
    (dasoEpoch o b s).globalSkip = 0 ∧ (dasoEpoch o b s).localSkip = 0 ∧ (dasoEpoch o b s).batchesToWait = 0 := by
  unfold dasoEpoch
  by_cases h1 : s.epoch < o.warmup
  · rw [if_pos h1]
    exact ⟨rfl, rfl, rfl⟩
  · rw [if_neg h1]
    dsimp only
    rw [if_pos (h.resolve_left h1)]
    exact ⟨rfl, rfl, rfl⟩

/-- What `global_skip` and `batches_to_wait` satisfy between epochs. -/
structure DasoLimits (o : DasoOptions) (s : Daso 𝕜) : Prop where
  skip_le : s.globalSkip ≤ o.maxGlobalSkips
  wait_nonneg : 0 ≤ s.batchesToWait
  wait_pos : 0 < s.globalSkip → 0 < s.batchesToWait
  wait_le : 0 < s.globalSkip → s.batchesToWait ≤ max 1 (o.maxGlobalSkips / o.localFactor : Nat)

/-- **C116** (`_partial`: for `max_global_skips >= 4` and `0 < local_skip_factor <= max_global_skips`; the documented maximum holds for any value): `global_skip` never exceeds `max_global_skips`, and `batches_to_wait` stays between 1 and `max_global_skips // local_skip_factor` while syncs are asynchronous. -/
theorem daso_limits_partial (o : DasoOptions) (b : Bool) (s : Daso 𝕜) (h : DasoLimits o s) (h4 : 4 ≤ o.maxGlobalSkips) (hf : 0 < o.localFactor) (hm : o.localFactor ≤ o.maxGlobalSkips) : DasoLimits o (dasoEpoch o b s) := by
  have hq : 1 ≤ o.maxGlobalSkips / o.localFactor := (Nat.one_le_div_iff hf).2 hm
  have zero : ∀ t : Daso 𝕜, DasoLimits o { t with globalSkip := 0, localSkip := 0, batchesToWait := 0 } := by
    intro t
    refine ⟨Nat.zero_le _, le_refl _, ?_, ?_⟩ <;> intro h <;> exact absurd h (Nat.lt_irrefl 0)
  have adapt : ∀ t : Daso 𝕜, DasoLimits o t → DasoLimits o (dasoAdapt o b t) := by
    intro t ht
    obtain ⟨t1, t2, t3, t4⟩ := ht
    unfold dasoAdapt
    dsimp only
    by_cases h1 : (b : Prop) ∧ 1 < t.globalSkip
    · rw [if_pos h1]
      have hle : t.globalSkip / o.reduction ≤ t.globalSkip := Nat.div_le_self _ _
      have p := t3 (by omega)
      have q := t4 (by omega)
      by_cases h2 : 0 < t.globalSkip / o.reduction
      · rw [if_pos h2]
        refine ⟨hle.trans t1, ?_, ?_, ?_⟩ <;> dsimp only <;> (try intro _) <;> split_ifs <;> omega
      · rw [if_neg h2]
        refine ⟨hle.trans t1, ?_, ?_, ?_⟩ <;> dsimp only
        · omega
        · intro h; omega
        · intro h; omega
    · rw [if_neg h1]
      by_cases h2 : t.globalSkip = 1 ∧ (b : Prop)
      · rw [if_pos h2]
        refine ⟨le_refl _, ?_, ?_, ?_⟩ <;> dsimp only <;> (try intro _) <;> omega
      · rw [if_neg h2]
        exact ⟨t1, t2, t3, t4⟩
  unfold dasoEpoch
  by_cases h1 : s.epoch < o.warmup
  · rw [if_pos h1]; exact zero s
  · rw [if_neg h1]
    dsimp only
    by_cases h2 : (o.total : Int) - o.cooldown ≤ s.epoch
    · rw [if_pos h2]
      exact zero _
    · rw [if_neg h2]
      apply adapt
      by_cases h3 : o.warmup = s.epoch
      · rw [if_pos h3]
        refine ⟨h4, ?_, ?_, ?_⟩ <;> dsimp only <;> (try intro _) <;> omega
      · rw [if_neg h3]; exact h

/-- **C116** is violated for smaller `max_global_skips`: after the warm-up 4 batches are skipped, whatever the maximum is. -/
theorem daso_skip_violated : ∃ (o : DasoOptions) (s : Daso ℚ), s.globalSkip ≤ o.maxGlobalSkips ∧ o.maxGlobalSkips < (dasoEpoch o false s).globalSkip :=
  ⟨⟨9, 0, 1, 2, 2, 2⟩, dasoInit 2 2 5 (fun _ _ => 0), by decide +kernel, by decide +kernel⟩

/-- **C116** is violated for `max_global_skips < local_skip_factor`: `batches_to_wait` becomes negative. -/
theorem daso_wait_violated : ∃ (o : DasoOptions) (s : Daso ℚ), 4 ≤ o.maxGlobalSkips ∧ s.globalSkip = 4 ∧ s.batchesToWait = 1 ∧
    (dasoEpoch o true (dasoEpoch o true (dasoEpoch o true (dasoEpoch o true s)))).batchesToWait < 0 :=
  ⟨⟨9, 0, 1, 4, 2, 5⟩, { dasoInit 2 2 5 (fun _ _ => 0) with globalSkip := 4, batchesToWait := 1, epoch := 1 }, by decide +kernel, by decide +kernel, by decide +kernel, by decide +kernel⟩

/-- What a run did, without the functions. -/
def dasoOutcome (r : Except Err (Daso ℚ)) : Except Err (Nat × Nat) :=
  match r with
  | .error e => .error e
  | .ok s => .ok (s.epoch, s.batch)

/-- **C116** is violated with the documented setting `last_batch = number_of_batches` (the example sets one less): 6 batches do not finish the epoch, and the blocking phase later finds a pending send and raises. -/
theorem daso_last_batch_violated :
    dasoOutcome (dasoTrain ⟨2, 0, 1, 8, 2, 4⟩ [(List.replicate 6 (fun _ _ v => v), false)] (dasoInit 2 2 6 (fun k _ => (k : ℚ)))) = .ok (0, 6) ∧
    dasoOutcome (dasoTrain ⟨2, 0, 1, 8, 2, 4⟩ (List.replicate 3 (List.replicate 6 (fun _ _ v => v), false)) (dasoInit 2 2 6 (fun k _ => (k : ℚ)))) = .error .valueError := by
  constructor <;> decide +kernel

/-- An asynchronous epoch and two blocking ones, with `last_batch` one less than the number of batches: no error, three epochs. -/
example : dasoOutcome (dasoTrain ⟨3, 1, 1, 8, 2, 4⟩ (List.replicate 3 (List.replicate 6 (fun k _ v => v + k), false)) (dasoInit 2 2 5 (fun k _ => (k : ℚ)))) = .ok (3, 0) := by decide +kernel

example : DasoLimits ⟨9, 1, 1, 8, 2, 4⟩ (dasoInit 2 2 5 (fun k _ => (k : ℚ))) := by
  refine ⟨by decide, by decide, ?_, ?_⟩ <;> intro h <;> exact absurd h (by decide)

section Bounds
variable [LinearOrder 𝕜] [IsStrictOrderedRing 𝕜]

/-- All parameters, and the means of what is under way, are in `[a, b]`. -/
structure DasoWithin (a b : 𝕜) (s : Daso 𝕜) : Prop where
  here : ∀ k l, a ≤ s.x k l ∧ s.x k l ≤ b
  sent : ∀ k l, ∀ p ∈ s.pend k l, (s.nodes : 𝕜) * a ≤ p.1 ∧ p.1 ≤ (s.nodes : 𝕜) * b

theorem dasoSend_within {a b : 𝕜} {s : Daso 𝕜} (h : DasoWithin a b s) (btw : Int) : DasoWithin a b (dasoSend s btw) := by
  refine ⟨h.here, ?_⟩
  intro k l p hp
  unfold dasoSend at *
  dsimp only at *
  split at hp
  · rw [List.mem_append] at hp
    rcases hp with hp | hp
    · exact h.sent k l p hp
    · rw [List.mem_singleton] at hp
      subst hp
      dsimp only
      constructor
      · have := Finset.card_nsmul_le_sum (Finset.range s.nodes) (fun i => s.x i s.sendMod) a (fun i _ => (h.here i _).1)
        simpa using this
      · have := Finset.sum_le_card_nsmul (Finset.range s.nodes) (fun i => s.x i s.sendMod) b (fun i _ => (h.here i _).2)
        simpa using this
  · exact h.sent k l p hp

theorem dasoNumer_pos (n : Int) : (0 : 𝕜) < dasoNumer n := by
  unfold dasoNumer
  split
  · rename_i h
    have : (0 : 𝕜) < (n : 𝕜) := by exact_mod_cast h
    linarith
  · exact one_pos

theorem dasoReceive_within {a b : 𝕜} {s : Daso 𝕜} (h : DasoWithin a b s) : DasoWithin a b (dasoReceive s) := by
  unfold dasoReceive
  split
  · exact h
  · rename_i g hg
    refine ⟨?_, ?_⟩
    · intro k l
      dsimp only
      split
      · split
        · exact h.here k l
        · rename_i sum between tl hp
          have hs := h.sent k l (sum, between) (by rw [hp]; simp)
          have hx := h.here k l
          have hn := dasoNumer_pos (𝕜 := 𝕜) between
          have hN : (0 : 𝕜) ≤ (s.nodes : 𝕜) := Nat.cast_nonneg _
          have hd : (0 : 𝕜) < (s.nodes : 𝕜) + dasoNumer between := by linarith
          dsimp only at hs
          have e : s.x k l * (dasoNumer between / ((s.nodes : 𝕜) + dasoNumer between)) + sum / ((s.nodes : 𝕜) + dasoNumer between) =
              (s.x k l * dasoNumer between + sum) / ((s.nodes : 𝕜) + dasoNumer between) := by ring
          rw [e, le_div_iff₀ hd, div_le_iff₀ hd]
          constructor <;> nlinarith
      · exact h.here k l
    · intro k l p hp
      dsimp only at *
      split at hp
      · exact h.sent k l p (List.mem_of_mem_tail hp)
      · exact h.sent k l p hp

theorem dasoLocal_within {a b : 𝕜} {s : Daso 𝕜} (h : DasoWithin a b s) (o : Option Nat) : DasoWithin a b (dasoLocal s o) := by
  unfold dasoLocal
  split
  · exact h
  · exact ⟨fun k l => h.here k _, h.sent⟩

theorem dasoReceiveLast_within {a b : 𝕜} {s s' : Daso 𝕜} (h : DasoWithin a b s) (hn : 0 < s.nodes) (hs : ∀ k, s.pend k s.sendMod ≠ []) (e : dasoReceiveLast s = .ok s') : DasoWithin a b s' := by
  unfold dasoReceiveLast at e
  split_ifs at e
  cases e
  refine ⟨?_, ?_⟩
  · intro k l
    dsimp only
    split
    · rename_i hl
      subst hl
      have := hs k
      match hp : s.pend k s.sendMod with
      | [] => exact absurd hp this
      | q :: tl =>
        have hq := h.sent k s.sendMod q (by rw [hp]; simp)
        simp only [List.head?_cons, Option.map_some, Option.getD_some]
        have hd : (0 : 𝕜) < (s.nodes : 𝕜) := by exact_mod_cast hn
        rw [le_div_iff₀ hd, div_le_iff₀ hd]
        constructor <;> linarith [hq.1, hq.2]
    · exact h.here k l
  · intro k l p hp
    dsimp only at *
    split at hp
    · exact h.sent k l p (List.mem_of_mem_tail hp)
    · exact h.sent k l p hp

/-- **C116**: if the local optimizers keep the parameters in `[a, b]`, so do the synchronisations (every update is a weighted mean). -/
theorem daso_within (a b : 𝕜) (s : Daso 𝕜) (h : DasoInv s) (hn : 0 < s.nodes) (hw : DasoWithin a b s) (u : Nat → Nat → 𝕜 → 𝕜)
    (hu : ∀ k l v, a ≤ v → v ≤ b → a ≤ u k l v ∧ u k l v ≤ b) (s' : Daso 𝕜) (e : dasoStep u s = .ok s') : DasoWithin a b s' := by
  have hu' : DasoInv { s with x := fun k l => u k l (s.x k l) } := ⟨h.send_lt, h.prev, h.pending, h.short⟩
  have hw' : DasoWithin a b { s with x := fun k l => u k l (s.x k l) } := ⟨fun k l => hu k l _ (hw.here k l).1 (hw.here k l).2, hw.sent⟩
  have plain : ∀ n, DasoWithin a b { s with x := fun k l => u k l (s.x k l), batch := n } := fun n => ⟨hw'.here, hw'.sent⟩
  unfold dasoStep at e
  dsimp only at e
  generalize hbtw : (if s.batchesToWait + (s.batch : Int) ≤ (s.lastBatch : Int) then s.batchesToWait else (s.lastBatch : Int) - (s.batch : Int)) = btw at e
  by_cases hsync : s.batch = s.lastBatch ∨ (if 0 < s.globalSkip then s.batch % s.globalSkip else 0) = 0
  · rw [if_pos hsync, dasoSync_eq] at e
    generalize ht : ({ s with x := fun k l => u k l (s.x k l) } : Daso 𝕜) = t at *
    have htn : t.nodes = s.nodes := by rw [← ht]
    have mid : DasoWithin a b (dasoMid t btw) := by
      unfold dasoMid
      split
      · exact dasoLocal_within (dasoReceive_within (dasoSend_within hw' btw)) _
      · exact dasoSend_within hw' btw
    have mf := dasoMid_fields t btw
    split at e
    · split at e
      · cases e
      · rename_i s3 e3
        have w3 := dasoReceiveLast_within mid (by rw [mf.1, htn]; exact hn) (by
          intro k
          rw [dasoMid_pend hu', mf.2.2.2.1]
          simp) e3
        have w4 := dasoLocal_within w3 (some t.sendMod)
        cases e
        split
        · exact ⟨w4.here, w4.sent⟩
        · exact ⟨w4.here, w4.sent⟩
    · cases e
      exact ⟨mid.here, mid.sent⟩
  · rw [if_neg hsync] at e
    by_cases h1 : (s.batch + 1) % s.globalSkip = 0
    · rw [if_pos h1] at e; cases e; exact plain _
    · rw [if_neg h1] at e
      by_cases h2 : (((if 0 < s.globalSkip then s.batch % s.globalSkip else 0 : Nat)) : Int) < btw
      · rw [if_pos h2] at e; cases e; exact plain _
      · rw [if_neg h2] at e
        by_cases h3 : (((if 0 < s.globalSkip then s.batch % s.globalSkip else 0 : Nat)) : Int) = btw
        · rw [if_pos h3] at e; cases e
          have := dasoLocal_within (dasoReceive_within hw') s.sendModM1
          exact ⟨this.here, this.sent⟩
        · rw [if_neg h3] at e; cases e; exact plain _

/-- **C116**: on receipt the own parameters weigh `2 w` (1 when `w = 0`) against the `nodes` received ones, `w` being the number of batches waited; with equal parameters everywhere nothing changes. -/
theorem daso_receive_value (s : Daso 𝕜) (g : Nat) (hm : s.sendModM1 = some g) (k : Nat) (sum : 𝕜) (w : Int) (tl : List (𝕜 × Int)) (hp : s.pend k g = (sum, w) :: tl) :
    (dasoReceive s).x k g = ((if 0 < w then 2 * (w : 𝕜) else 1) * s.x k g + sum) / ((s.nodes : 𝕜) + (if 0 < w then 2 * (w : 𝕜) else 1)) := by
  unfold dasoReceive
  rw [hm]
  dsimp only
  rw [if_pos rfl, hp]
  dsimp only
  have : (dasoNumer w : 𝕜) = if 0 < w then 2 * (w : 𝕜) else 1 := by
    unfold dasoNumer
    split
    · ring
    · rfl
  rw [this]
  ring

end Bounds
end Heat
