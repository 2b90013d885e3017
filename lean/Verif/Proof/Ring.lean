import Verif.Proof.Kahn
/-!
# One synchronous round of a ring: everybody sends, then everybody receives
-/
namespace Heat

variable {S M : Type}

/-- After the first `k` ranks have sent. -/
def sentState (P : Nat) (nx pv : Nat → Nat) (msg : S → M) (take : Nat → M → S → S) (rest : Nat → List (BOp S M)) (loc : Nat → S) (k : Nat) : BState S M :=
  { prog := fun r => if r < k then .recv (pv r) 0 (take r) :: rest r
                     else if r < P then .send (nx r) 0 msg id :: .recv (pv r) 0 (take r) :: rest r else rest r
    loc := loc
    chan := fun s d t => if s < k ∧ d = nx s ∧ t = 0 then [msg (loc s)] else [] }

/-- After the first `k` ranks have received. -/
def rcvdState (P : Nat) (nx pv : Nat → Nat) (msg : S → M) (take : Nat → M → S → S) (rest : Nat → List (BOp S M)) (loc : Nat → S) (k : Nat) : BState S M :=
  { prog := fun r => if r < k then rest r else if r < P then .recv (pv r) 0 (take r) :: rest r else rest r
    loc := fun r => if r < k then take r (msg (loc (pv r))) (loc r) else loc r
    chan := fun s d t => if s < P ∧ d = nx s ∧ k ≤ d ∧ t = 0 then [msg (loc s)] else [] }

theorem bstate_ext {a b : BState S M} (h1 : ∀ r, a.prog r = b.prog r) (h2 : ∀ r, a.loc r = b.loc r) (h3 : ∀ s d t, a.chan s d t = b.chan s d t) : a = b := by
  cases a; cases b
  simp only [BState.mk.injEq]
  exact ⟨funext h1, funext h2, funext fun s => funext fun d => funext fun t => h3 s d t⟩

theorem sent_step (P : Nat) (nx pv : Nat → Nat) (msg : S → M) (take : Nat → M → S → S) (rest : Nat → List (BOp S M)) (loc : Nat → S) (k : Nat) (hk : k < P) :
    BStep (sentState P nx pv msg take rest loc k) (sentState P nx pv msg take rest loc (k + 1)) := by
  have h : (sentState P nx pv msg take rest loc k).prog k = .send (nx k) 0 msg id :: .recv (pv k) 0 (take k) :: rest k := by
    simp [sentState, hk]
  have := BStep.send _ k (nx k) 0 msg id _ h
  convert this using 1
  apply bstate_ext
  · intro r
    simp only [sentState, set1]
    by_cases e : r = k
    · subst e; simp
    · have : r < k + 1 ↔ r < k := by omega
      simp [e, this]
  · intro r
    simp only [sentState, set1]
    by_cases e : r = k <;> simp [e]
  · intro s d t
    simp only [sentState, setChan]
    by_cases e : s = k
    · subst e; simp
    · have : s < k + 1 ↔ s < k := by omega
      simp [e, this]

theorem rcvd_step (P : Nat) (nx pv : Nat → Nat) (hpv : ∀ r < P, pv r < P ∧ nx (pv r) = r) (hnx : ∀ r < P, pv (nx r) = r) (msg : S → M) (take : Nat → M → S → S) (rest : Nat → List (BOp S M)) (loc : Nat → S) (k : Nat) (hk : k < P) :
    BStep (rcvdState P nx pv msg take rest loc k) (rcvdState P nx pv msg take rest loc (k + 1)) := by
  have h : (rcvdState P nx pv msg take rest loc k).prog k = .recv (pv k) 0 (take k) :: rest k := by
    simp [rcvdState, hk]
  have hc : (rcvdState P nx pv msg take rest loc k).chan (pv k) k 0 = [msg (loc (pv k))] := by
    simp [rcvdState, hpv k hk]
  have := BStep.recv _ k (pv k) 0 (take k) _ _ _ h hc
  convert this using 1
  apply bstate_ext
  · intro r
    simp only [rcvdState, set1]
    by_cases e : r = k
    · subst e; simp
    · have : r < k + 1 ↔ r < k := by omega
      simp [e, this]
  · intro r
    simp only [rcvdState, set1]
    by_cases e : r = k
    · subst e; simp
    · have : r < k + 1 ↔ r < k := by omega
      simp [e, this]
  · intro s d t
    simp only [rcvdState, setChan]
    by_cases e : d = k
    · subst e
      by_cases e1 : s = pv d ∧ t = 0
      · obtain ⟨rfl, rfl⟩ := e1
        simp
      · have hn : ¬ (s < P ∧ d = nx s ∧ d + 1 ≤ d ∧ t = 0) := by omega
        have hn2 : ¬ (s < P ∧ d = nx s ∧ d ≤ d ∧ t = 0) := by
          rintro ⟨a, b, -, c⟩
          exact e1 ⟨by rw [b, hnx s a], c⟩
        have hn3 : ¬ (s = pv d ∧ d = d ∧ t = 0) := fun hh => e1 ⟨hh.1, hh.2.2⟩
        rw [if_neg hn, if_neg hn3, if_neg hn2]
    · have : k + 1 ≤ d ↔ k ≤ d := by omega
      simp [e, this]

/-- One round takes every rank from its state to the state with the previous rank's message. -/
theorem ring_round (P : Nat) (nx pv : Nat → Nat) (hpv : ∀ r < P, pv r < P ∧ nx (pv r) = r) (hnx : ∀ r < P, nx r < P ∧ pv (nx r) = r) (msg : S → M) (take : Nat → M → S → S)
    (rest : Nat → List (BOp S M)) (loc : Nat → S) :
    Steps BStep (P + P)
      { prog := fun r => if r < P then .send (nx r) 0 msg id :: .recv (pv r) 0 (take r) :: rest r else rest r, loc := loc, chan := fun _ _ _ => [] }
      { prog := rest, loc := fun r => if r < P then take r (msg (loc (pv r))) (loc r) else loc r, chan := fun _ _ _ => [] } := by
  have h1 : ∀ k ≤ P, Steps BStep k (sentState P nx pv msg take rest loc 0) (sentState P nx pv msg take rest loc k) := by
    intro k
    induction k with
    | zero => intro _; exact .refl _
    | succ k ih => intro hk; exact .tail (ih (by omega)) (sent_step P nx pv msg take rest loc k (by omega))
  have h2 : ∀ k ≤ P, Steps BStep k (rcvdState P nx pv msg take rest loc 0) (rcvdState P nx pv msg take rest loc k) := by
    intro k
    induction k with
    | zero => intro _; exact .refl _
    | succ k ih => intro hk; exact .tail (ih (by omega)) (rcvd_step P nx pv hpv (fun r hr => (hnx r hr).2) msg take rest loc k (by omega))
  have e0 : sentState P nx pv msg take rest loc 0 =
      { prog := fun r => if r < P then .send (nx r) 0 msg id :: .recv (pv r) 0 (take r) :: rest r else rest r, loc := loc, chan := fun _ _ _ => [] } := by
    apply bstate_ext <;> intros <;> simp [sentState]
  have e1 : sentState P nx pv msg take rest loc P = rcvdState P nx pv msg take rest loc 0 := by
    apply bstate_ext
    · intro r; simp only [sentState, rcvdState]; by_cases h : r < P <;> simp [h]
    · intro r; simp [sentState, rcvdState]
    · intro s d t; simp [sentState, rcvdState]
  have e2 : rcvdState P nx pv msg take rest loc P =
      { prog := rest, loc := fun r => if r < P then take r (msg (loc (pv r))) (loc r) else loc r, chan := fun _ _ _ => [] } := by
    apply bstate_ext
    · intro r; simp only [rcvdState]; by_cases h : r < P <;> simp [h]
    · intro r; simp [rcvdState]
    · intro s d t
      simp only [rcvdState]
      rw [if_neg]
      rintro ⟨a, b, c, -⟩
      have := (hnx s a).1
      omega
  have a := h1 P (Nat.le_refl _)
  have b := h2 P (Nat.le_refl _)
  rw [e0, e1] at a
  rw [e2] at b
  exact a.trans b

/-- The states of all ranks after `k` rounds, the first of which is round `p0`. -/
def ringRounds (P : Nat) (pv : Nat → Nat) (msg : S → M) (take : Nat → Nat → M → S → S) : Nat → Nat → (Nat → S) → Nat → S
  | _, 0, loc => loc
  | p0, k + 1, loc => ringRounds P pv msg take (p0 + 1) k fun r => if r < P then take r p0 (msg (loc (pv r))) (loc r) else loc r

theorem ringRounds_succ (P : Nat) (pv : Nat → Nat) (msg : S → M) (take : Nat → Nat → M → S → S) : ∀ (k p0 : Nat) (loc : Nat → S),
    ringRounds P pv msg take p0 (k + 1) loc = fun r => if r < P then take r (p0 + k) (msg (ringRounds P pv msg take p0 k loc (pv r))) (ringRounds P pv msg take p0 k loc r)
      else ringRounds P pv msg take p0 k loc r
  | 0, p0, loc => by simp [ringRounds]
  | k + 1, p0, loc => by
    rw [ringRounds, ringRounds_succ P pv msg take k (p0 + 1)]
    funext r
    simp only [ringRounds, Nat.add_assoc p0 1 k, Nat.add_comm 1 k]

theorem ring_exec (P : Nat) (nx pv : Nat → Nat) (hpv : ∀ r < P, pv r < P ∧ nx (pv r) = r) (hnx : ∀ r < P, nx r < P ∧ pv (nx r) = r) (msg : S → M) (take : Nat → Nat → M → S → S) :
    ∀ (k p0 : Nat) (loc : Nat → S),
      Steps BStep (k * (P + P))
        { prog := fun r => if r < P then (List.range' p0 k).flatMap fun p => [.send (nx r) 0 msg id, .recv (pv r) 0 (take r p)] else [], loc := loc, chan := fun _ _ _ => [] }
        { prog := fun _ => [], loc := ringRounds P pv msg take p0 k loc, chan := fun _ _ _ => [] }
  | 0, p0, loc => by
    simp only [List.range'_zero, List.flatMap_nil, ite_self, Nat.zero_mul, ringRounds]
    exact .refl _
  | k + 1, p0, loc => by
    have h1 := ring_round P nx pv hpv hnx msg (fun r => take r p0)
      (fun r => if r < P then (List.range' (p0 + 1) k).flatMap fun p => [.send (nx r) 0 msg id, .recv (pv r) 0 (take r p)] else []) loc
    have h2 := ring_exec P nx pv hpv hnx msg take k (p0 + 1) fun r => if r < P then take r p0 (msg (loc (pv r))) (loc r) else loc r
    have h3 := h1.trans h2
    rw [Nat.add_mul, Nat.one_mul, Nat.add_comm]
    refine (congrArg (fun st => Steps BStep (P + P + k * (P + P)) st _) (bstate_ext ?_ ?_ ?_)).mpr h3
    · intro r
      by_cases h : r < P <;> simp [h, List.range'_succ]
    · intro r; rfl
    · intros; rfl

theorem empty_stuck (loc : Nat → S) (c : Nat → Nat → Nat → List M) : ∀ u, ¬ BStep { prog := fun _ => [], loc := loc, chan := c } u := by
  intro u h
  cases h with
  | send r d t msg after rest h => simp at h
  | recv r s t take rest m ms h hc => simp at h

end Heat
