import Verif.Model.Mpi
import Verif.Proof.Mpi
import Mathlib.Tactic.Convert
/-!
# Programs of blocking `Send`s and `Recv`s are deterministic

Every (source, destination, tag) has one writer and one reader, so steps of different ranks commute, whatever heat's programs are.  If one execution
finishes, all do, in the same state.
-/
namespace Heat

variable {S M : Type}

theorem set1_comm {β : Type} (f : Nat → β) {i j : Nat} (v w : β) (h : i ≠ j) : set1 (set1 f i v) j w = set1 (set1 f j w) i v := by
  funext k; unfold set1; by_cases h1 : k = i
  · subst h1; simp [h]
  · simp [h1]

theorem setChan_same (c : Nat → Nat → Nat → List M) (s d t : Nat) (v : List M) : setChan c s d t v s d t = v := by simp [setChan]

theorem setChan_ne (c : Nat → Nat → Nat → List M) (s d t s' d' t' : Nat) (v : List M) (h : ¬ (s' = s ∧ d' = d ∧ t' = t)) : setChan c s d t v s' d' t' = c s' d' t' := by
  simp only [setChan]; rw [if_neg h]

theorem setChan_comm (c : Nat → Nat → Nat → List M) (s d t s' d' t' : Nat) (v w : List M) (h : ¬ (s' = s ∧ d' = d ∧ t' = t)) :
    setChan (setChan c s d t v) s' d' t' w = setChan (setChan c s' d' t' w) s d t v := by
  funext a b e; unfold setChan
  by_cases h1 : a = s ∧ b = d ∧ e = t
  · obtain ⟨rfl, rfl, rfl⟩ := h1
    rw [if_neg (fun hh => h ⟨hh.1.symm, hh.2.1.symm, hh.2.2.symm⟩)]; simp
  · simp [h1]

theorem setChan_setChan (c : Nat → Nat → Nat → List M) (s d t : Nat) (v w : List M) : setChan (setChan c s d t v) s d t w = setChan c s d t w := by
  funext a b e; unfold setChan; by_cases h1 : a = s ∧ b = d ∧ e = t <;> simp [h1]

/-- Two steps from the same state are the same step, or they commute. -/
theorem bstep_diamond {s t u : BState S M} (h1 : BStep s t) (h2 : BStep s u) : t = u ∨ ∃ v, BStep t v ∧ BStep u v := by
  cases h1 with
  | send r d tg msg after rest h =>
    cases h2 with
    | send r' d' tg' msg' after' rest' h' =>
      by_cases e : r = r'
      · subst e; rw [h] at h'; cases h'; exact Or.inl rfl
      · refine Or.inr ⟨_, BStep.send _ r' d' tg' msg' after' rest' (by simp only [set1_ne _ _ (Ne.symm e)]; exact h'), ?_⟩
        have := BStep.send { prog := set1 s.prog r' rest', loc := set1 s.loc r' (after' (s.loc r')), chan := setChan s.chan r' d' tg' (s.chan r' d' tg' ++ [msg' (s.loc r')]) }
          r d tg msg after rest (by simp only [set1_ne _ _ e]; exact h)
        convert this using 2
        · rw [set1_comm _ _ _ e]
        · simp only [set1_ne _ _ (Ne.symm e), set1_ne _ _ e]; rw [set1_comm _ _ _ e]
        · simp only [set1_ne _ _ (Ne.symm e), set1_ne _ _ e]
          rw [setChan_ne _ _ _ _ _ _ _ _ (fun hh => e hh.1.symm), setChan_ne _ _ _ _ _ _ _ _ (fun hh => e hh.1), setChan_comm _ _ _ _ _ _ _ _ _ (fun hh => e hh.1.symm)]
    | recv r' s' tg' take' rest' m' ms' h' hc' =>
      by_cases e : r = r'
      · subst e; rw [h] at h'; cases h'
      · by_cases ec : s' = r ∧ r' = d ∧ tg' = tg
        · obtain ⟨rfl, rfl, rfl⟩ := ec
          refine Or.inr ⟨_, BStep.recv _ r' s' tg' take' rest' m' (ms' ++ [msg (s.loc s')]) (by simp only [set1_ne _ _ (Ne.symm e)]; exact h') (by simp [setChan_same, hc']), ?_⟩
          have := BStep.send { prog := set1 s.prog r' rest', loc := set1 s.loc r' (take' m' (s.loc r')), chan := setChan s.chan s' r' tg' ms' }
            s' r' tg' msg after rest (by simp only [set1_ne _ _ e]; exact h)
          convert this using 2
          · rw [set1_comm _ _ _ e]
          · simp only [set1_ne _ _ (Ne.symm e), set1_ne _ _ e]; rw [set1_comm _ _ _ e]
          · simp only [set1_ne _ _ e, setChan_same, setChan_setChan]
        · refine Or.inr ⟨_, BStep.recv _ r' s' tg' take' rest' m' ms' (by simp only [set1_ne _ _ (Ne.symm e)]; exact h') (by simp only [setChan_ne _ _ _ _ _ _ _ _ ec]; exact hc'), ?_⟩
          have := BStep.send { prog := set1 s.prog r' rest', loc := set1 s.loc r' (take' m' (s.loc r')), chan := setChan s.chan s' r' tg' ms' }
            r d tg msg after rest (by simp only [set1_ne _ _ e]; exact h)
          convert this using 2
          · rw [set1_comm _ _ _ e]
          · simp only [set1_ne _ _ (Ne.symm e), set1_ne _ _ e]; rw [set1_comm _ _ _ e]
          · simp only [set1_ne _ _ e]
            rw [setChan_ne _ _ _ _ _ _ _ _ (fun hh => ec ⟨hh.1.symm, hh.2.1.symm, hh.2.2.symm⟩), setChan_comm _ _ _ _ _ _ _ _ _ ec]
  | recv r s' tg take rest m ms h hc =>
    cases h2 with
    | send r' d' tg' msg' after' rest' h' =>
      by_cases e : r = r'
      · subst e; rw [h] at h'; cases h'
      · by_cases ec : s' = r' ∧ r = d' ∧ tg = tg'
        · obtain ⟨rfl, rfl, rfl⟩ := ec
          refine Or.inr ⟨_, BStep.send _ s' r tg msg' after' rest' (by simp only [set1_ne _ _ (Ne.symm e)]; exact h'), ?_⟩
          have := BStep.recv { prog := set1 s.prog s' rest', loc := set1 s.loc s' (after' (s.loc s')), chan := setChan s.chan s' r tg (s.chan s' r tg ++ [msg' (s.loc s')]) }
            r s' tg take rest m (ms ++ [msg' (s.loc s')]) (by simp only [set1_ne _ _ e]; exact h) (by simp [setChan_same, hc])
          convert this using 2
          · rw [set1_comm _ _ _ e]
          · simp only [set1_ne _ _ (Ne.symm e), set1_ne _ _ e]; rw [set1_comm _ _ _ e]
          · simp only [set1_ne _ _ (Ne.symm e), setChan_same, setChan_setChan]
        · refine Or.inr ⟨_, BStep.send _ r' d' tg' msg' after' rest' (by simp only [set1_ne _ _ (Ne.symm e)]; exact h'), ?_⟩
          have := BStep.recv { prog := set1 s.prog r' rest', loc := set1 s.loc r' (after' (s.loc r')), chan := setChan s.chan r' d' tg' (s.chan r' d' tg' ++ [msg' (s.loc r')]) }
            r s' tg take rest m ms (by simp only [set1_ne _ _ e]; exact h) (by simp only [setChan_ne _ _ _ _ _ _ _ _ ec]; exact hc)
          convert this using 2
          · rw [set1_comm _ _ _ e]
          · simp only [set1_ne _ _ (Ne.symm e), set1_ne _ _ e]; rw [set1_comm _ _ _ e]
          · simp only [set1_ne _ _ (Ne.symm e)]
            rw [setChan_ne _ _ _ _ _ _ _ _ (fun hh => ec ⟨hh.1.symm, hh.2.1.symm, hh.2.2.symm⟩), setChan_comm _ _ _ _ _ _ _ _ _ (fun hh => ec ⟨hh.1.symm, hh.2.1.symm, hh.2.2.symm⟩)]
    | recv r' s'' tg' take' rest' m' ms' h' hc' =>
      by_cases e : r = r'
      · subst e; rw [h] at h'; cases h'; rw [hc] at hc'; cases hc'; exact Or.inl rfl
      · refine Or.inr ⟨_, BStep.recv _ r' s'' tg' take' rest' m' ms' (by simp only [set1_ne _ _ (Ne.symm e)]; exact h')
          (by simp only [setChan_ne _ _ _ _ _ _ _ _ (fun hh : s'' = s' ∧ r' = r ∧ tg' = tg => e hh.2.1.symm)]; exact hc'), ?_⟩
        have := BStep.recv { prog := set1 s.prog r' rest', loc := set1 s.loc r' (take' m' (s.loc r')), chan := setChan s.chan s'' r' tg' ms' }
          r s' tg take rest m ms (by simp only [set1_ne _ _ e]; exact h)
          (by simp only [setChan_ne _ _ _ _ _ _ _ _ (fun hh : s' = s'' ∧ r = r' ∧ tg = tg' => e hh.2.1)]; exact hc)
        convert this using 2
        · rw [set1_comm _ _ _ e]
        · simp only [set1_ne _ _ (Ne.symm e), set1_ne _ _ e]; rw [set1_comm _ _ _ e]
        · rw [setChan_comm _ _ _ _ _ _ _ _ _ (fun hh => e hh.2.1.symm)]

theorem Steps.head {σ : Type} {step : σ → σ → Prop} {n : Nat} {s t u : σ} (h : step s t) (h' : Steps step n t u) : Steps step (n + 1) s u := by
  induction h' with
  | refl => exact .tail (.refl _) h
  | tail _ h2 ih => exact .tail (ih h) h2

theorem Steps.trans {σ : Type} {step : σ → σ → Prop} {n m : Nat} {s t u : σ} (h : Steps step n s t) (h' : Steps step m t u) : Steps step (n + m) s u := by
  induction h' with
  | refl => exact h
  | tail _ h2 ih => exact .tail (ih h) h2

theorem Steps.cases_head {σ : Type} {step : σ → σ → Prop} {n : Nat} {s u : σ} (h : Steps step n s u) : (n = 0 ∧ s = u) ∨ ∃ m t, n = m + 1 ∧ step s t ∧ Steps step m t u := by
  induction h with
  | refl => exact Or.inl ⟨rfl, rfl⟩
  | tail h1 h2 ih =>
    rcases ih with ⟨rfl, rfl⟩ | ⟨m, t, rfl, a, b⟩
    · exact Or.inr ⟨0, _, rfl, h2, .refl _⟩
    · exact Or.inr ⟨m + 1, t, rfl, a, .tail b h2⟩

/-- If one execution finishes after `n` steps, then after any first step the rest finishes in the same state after `n - 1` steps. -/
theorem bstep_strip {f : BState S M} (hf : ∀ u, ¬ BStep f u) : ∀ (n : Nat) (s t : BState S M), Steps BStep n s f → BStep s t → ∃ m, n = m + 1 ∧ Steps BStep m t f := by
  intro n
  induction n with
  | zero =>
    intro s t h h1
    rcases h.cases_head with ⟨-, rfl⟩ | ⟨m, _, hm, -⟩
    · exact absurd h1 (hf _)
    · omega
  | succ n ih =>
    intro s t h h1
    rcases h.cases_head with ⟨hm, -⟩ | ⟨m, u, hm, a, b⟩
    · omega
    · obtain rfl : n = m := by omega
      refine ⟨n, rfl, ?_⟩
      rcases bstep_diamond a h1 with rfl | ⟨v, hv1, hv2⟩
      · exact b
      · obtain ⟨m, rfl, hst⟩ := ih u v b hv1
        exact .head hv2 hst

/-- **Determinism.**  If one execution finishes (in a state `f` without steps) after `n` steps, then every execution can be continued to `f` and no
execution has more than `n` steps. -/
theorem kahn {n : Nat} {s f : BState S M} (hf : ∀ u, ¬ BStep f u) (h : Steps BStep n s f) {k : Nat} {t : BState S M} (h' : Steps BStep k s t) :
    k ≤ n ∧ Steps BStep (n - k) t f := by
  induction h' with
  | refl => exact ⟨Nat.zero_le _, by simpa using h⟩
  | tail _ h2 ih =>
    obtain ⟨i1, i2⟩ := ih h
    obtain ⟨m, hm, i3⟩ := bstep_strip hf _ _ _ i2 h2
    refine ⟨by omega, ?_⟩
    convert i3 using 1
    omega

/-- Every execution of such a system that cannot be continued ends in `f`. -/
theorem kahn_stuck {n : Nat} {s f : BState S M} (hf : ∀ u, ¬ BStep f u) (h : Steps BStep n s f) {k : Nat} {t : BState S M} (h' : Steps BStep k s t)
    (ht : ∀ u, ¬ BStep t u) : k = n ∧ t = f := by
  obtain ⟨h1, h2⟩ := kahn hf h h'
  rcases h2.cases_head with ⟨a, b⟩ | ⟨m, u, -, a, -⟩
  · exact ⟨by omega, b⟩
  · exact absurd a (ht u)

end Heat
