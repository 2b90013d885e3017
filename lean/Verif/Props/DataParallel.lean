import Verif.Model.DataParallel
import Mathlib.Algebra.BigOperators.Ring.Finset
import Mathlib.Algebra.Field.Rat
import Mathlib.Tactic.Ring
/-!
# DataParallel: non-blocking updates against blocking ones (C118)
-/
namespace Heat
variable {L W 𝕜 : Type} [DecidableEq L] [Field 𝕜]

/-- The gradient of a layer once its messages have arrived. -/
def dpArrived (s : DpState L W 𝕜) (r : Nat) (ℓ : L) : 𝕜 := if ℓ ∈ s.active then s.grad r ℓ + (s.vals ℓ).sum else s.grad r ℓ

/-- The layer once it is finished. -/
def dpUpdated (opt : W → 𝕜 → W) (s : DpState L W 𝕜) (r : Nat) (ℓ : L) : W := if ℓ ∈ s.active ∧ s.updateNext = true then opt (s.w r ℓ) (s.grad r ℓ + (s.vals ℓ).sum) else s.w r ℓ

/-- `t` is `s` with some layers finished. -/
structure DpPartly (opt : W → 𝕜 → W) (s t : DpState L W 𝕜) : Prop where
  sub : ∀ ℓ ∈ t.active, ℓ ∈ s.active
  keys : t.keys = s.keys
  vals : t.vals = s.vals
  flag : t.updateNext = s.updateNext
  w : ∀ r ℓ, t.w r ℓ = if ℓ ∈ t.active then s.w r ℓ else dpUpdated opt s r ℓ
  grad : ∀ r ℓ, t.grad r ℓ = if ℓ ∈ t.active then s.grad r ℓ else dpArrived s r ℓ

theorem DpPartly.refl (opt : W → 𝕜 → W) (s : DpState L W 𝕜) : DpPartly opt s s := by
  refine ⟨fun _ h => h, rfl, rfl, rfl, ?_, ?_⟩
  · intro r ℓ
    by_cases h : ℓ ∈ s.active
    · rw [if_pos h]
    · rw [if_neg h, dpUpdated, if_neg (fun h' => h h'.1)]
  · intro r ℓ
    by_cases h : ℓ ∈ s.active
    · rw [if_pos h]
    · rw [if_neg h, dpArrived, if_neg h]

theorem dpFinish_partly {opt : W → 𝕜 → W} {s t : DpState L W 𝕜} (h : DpPartly opt s t) (ℓ : L) : DpPartly opt s (dpFinish opt t ℓ) ∧ (∀ m, m ∈ (dpFinish opt t ℓ).active ↔ m ∈ t.active ∧ m ≠ ℓ) ∧
    (dpFinish opt t ℓ).seen = t.seen ∧ (dpFinish opt t ℓ).log = t.log := by
  unfold dpFinish
  by_cases hℓ : ℓ ∈ t.active
  · rw [if_pos hℓ]
    dsimp only
    have hm : ∀ m, m ∈ t.active.filter (fun m => decide (m ≠ ℓ)) ↔ m ∈ t.active ∧ m ≠ ℓ := by
      intro m
      simp
    refine ⟨⟨?_, h.keys, h.vals, h.flag, ?_, ?_⟩, hm, rfl, rfl⟩
    · intro m hm'
      exact h.sub m ((hm m).1 hm').1
    · intro r m
      dsimp only
      by_cases e : m = ℓ
      · subst e
        have hn : ¬ m ∈ t.active.filter (fun m' => decide (m' ≠ m)) := fun h' => ((hm m).1 h').2 rfl
        rw [if_neg hn]
        have hw := h.w r m
        have hg := h.grad r m
        rw [if_pos hℓ] at hw hg
        by_cases hf : t.updateNext = true
        · rw [if_pos hf, if_pos rfl, if_pos rfl, hw, hg, dpUpdated, if_pos ⟨h.sub m hℓ, h.flag ▸ hf⟩, h.vals]
        · rw [if_neg hf, hw, dpUpdated, if_neg (fun h' => hf (h.flag.trans h'.2))]
      · have e1 : (if t.updateNext = true then fun r m => if m = ℓ then opt (t.w r m) (if m = ℓ then t.grad r m + (t.vals ℓ).sum else t.grad r m) else t.w r m else t.w) r m = t.w r m := by
          split
          · exact if_neg e
          · rfl
        rw [e1, h.w r m]
        by_cases ha : m ∈ t.active
        · rw [if_pos ha, if_pos ((hm m).2 ⟨ha, e⟩)]
        · rw [if_neg ha, if_neg (fun h' => ha ((hm m).1 h').1)]
    · intro r m
      dsimp only
      by_cases e : m = ℓ
      · subst e
        have hn : ¬ m ∈ t.active.filter (fun m' => decide (m' ≠ m)) := fun h' => ((hm m).1 h').2 rfl
        have hg := h.grad r m
        rw [if_pos hℓ] at hg
        rw [if_neg hn, if_pos rfl, hg, dpArrived, if_pos (h.sub m hℓ), h.vals]
      · rw [if_neg e, h.grad r m]
        by_cases ha : m ∈ t.active
        · rw [if_pos ha, if_pos ((hm m).2 ⟨ha, e⟩)]
        · rw [if_neg ha, if_neg (fun h' => ha ((hm m).1 h').1)]
  · rw [if_neg hℓ]
    refine ⟨h, ?_, rfl, rfl⟩
    intro m
    constructor
    · intro hm
      exact ⟨hm, fun e => hℓ (e ▸ hm)⟩
    · exact fun hm => hm.1

theorem dpFinish_all {opt : W → 𝕜 → W} {s t : DpState L W 𝕜} (h : DpPartly opt s t) (ls : List L) : DpPartly opt s (ls.foldl (dpFinish opt) t) ∧ (∀ m, m ∈ (ls.foldl (dpFinish opt) t).active ↔ m ∈ t.active ∧ m ∉ ls) ∧
    (ls.foldl (dpFinish opt) t).seen = t.seen ∧ (ls.foldl (dpFinish opt) t).log = t.log := by
  induction ls generalizing t with
  | nil => exact ⟨h, by simp, rfl, rfl⟩
  | cons ℓ ls ih =>
    obtain ⟨a, b, c, d⟩ := dpFinish_partly h ℓ
    obtain ⟨a', b', c', d'⟩ := ih a
    refine ⟨a', ?_, c'.trans c, d'.trans d⟩
    intro m
    rw [List.foldl_cons, b', b, List.mem_cons]
    tauto

omit [Field 𝕜] in
theorem dpReads_fields (calls : List L) (s : DpState L W 𝕜) : (calls.foldl dpRead s).w = s.w ∧ (calls.foldl dpRead s).grad = s.grad ∧ (calls.foldl dpRead s).keys = s.keys ∧ (calls.foldl dpRead s).vals = s.vals ∧
    (calls.foldl dpRead s).active = s.active ∧ (calls.foldl dpRead s).updateNext = s.updateNext := by
  induction calls generalizing s with
  | nil => exact ⟨rfl, rfl, rfl, rfl, rfl, rfl⟩
  | cons ℓ ls ih =>
    rw [List.foldl_cons]
    exact ih (dpRead s ℓ)

theorem dpCalls_spec {opt : W → 𝕜 → W} {hooked : L → Bool} {s : DpState L W 𝕜} (hk : ∀ ℓ ∈ s.active, ℓ ∈ s.keys) (calls : List L) (hh : ∀ ℓ ∈ calls, ℓ ∈ s.active → hooked ℓ = true)
    (t b : DpState L W 𝕜) (h : DpPartly opt s t) (hw : ∀ r ℓ, b.w r ℓ = dpUpdated opt s r ℓ) (hs : t.seen = b.seen) (hl : t.log = b.log) :
    DpPartly opt s (dpCalls opt hooked s.keys calls t) ∧ (dpCalls opt hooked s.keys calls t).seen = (calls.foldl dpRead b).seen ∧ (dpCalls opt hooked s.keys calls t).log = (calls.foldl dpRead b).log := by
  induction calls generalizing t b with
  | nil => exact ⟨h, hs, hl⟩
  | cons ℓ ls ih =>
    rw [dpCalls, List.foldl_cons]
    have key : ∃ t', t' = (if hooked ℓ = true ∧ ℓ ∈ s.keys then dpFinish opt t ℓ else t) ∧ DpPartly opt s t' ∧ ℓ ∉ t'.active ∧ t'.seen = t.seen ∧ t'.log = t.log := by
      refine ⟨_, rfl, ?_⟩
      split
      · obtain ⟨a, b, c, d⟩ := dpFinish_partly h ℓ
        exact ⟨a, fun hm => ((b ℓ).1 hm).2 rfl, c, d⟩
      · rename_i hc
        refine ⟨h, fun hm => hc ?_, rfl, rfl⟩
        have := h.sub ℓ hm
        exact ⟨hh ℓ (by simp) this, hk ℓ this⟩
    obtain ⟨t', et, h', hn, es, el⟩ := key
    rw [← et]
    have hr : ∀ r, t'.w r ℓ = b.w r ℓ := by
      intro r
      rw [h'.w, if_neg hn, hw]
    apply ih (fun m hm => hh m (List.mem_cons_of_mem _ hm)) (dpRead t' ℓ) (dpRead b ℓ) ⟨h'.sub, h'.keys, h'.vals, h'.flag, h'.w, h'.grad⟩ hw
    · unfold dpRead
      dsimp only
      funext r m
      rw [es, hs]
      by_cases e : m = ℓ
      · rw [if_pos e, if_pos e, e, hr]
      · rw [if_neg e, if_neg e]
    · unfold dpRead
      dsimp only
      rw [el, hl]
      congr 3
      funext r
      exact hr r

/-- What a non-blocking forward does: it reads the updated parameters, everywhere, and leaves nothing open. -/
theorem dpForward_spec {opt : W → 𝕜 → W} {hooked : L → Bool} {s : DpState L W 𝕜} (hk : ∀ ℓ ∈ s.active, ℓ ∈ s.keys) (calls : List L) (hh : ∀ ℓ ∈ calls, ℓ ∈ s.active → hooked ℓ = true)
    (b : DpState L W 𝕜) (hw : ∀ r ℓ, b.w r ℓ = dpUpdated opt s r ℓ) (hs : s.seen = b.seen) (hl : s.log = b.log) :
    (dpForward opt hooked calls s).w = b.w ∧ (dpForward opt hooked calls s).grad = dpArrived s ∧ (dpForward opt hooked calls s).seen = (calls.foldl dpRead b).seen ∧
    (dpForward opt hooked calls s).log = (calls.foldl dpRead b).log ∧ (dpForward opt hooked calls s).active = [] ∧ (dpForward opt hooked calls s).keys = [] ∧ (dpForward opt hooked calls s).vals = (fun _ => []) ∧
    (dpForward opt hooked calls s).updateNext = false := by
  obtain ⟨p, q1, q2⟩ := dpCalls_spec hk calls hh s b (DpPartly.refl opt s) hw hs hl
  obtain ⟨p', m', s', l'⟩ := dpFinish_all p (dpCalls opt hooked s.keys calls s).active
  have he : ∀ m, m ∉ ((dpCalls opt hooked s.keys calls s).active.foldl (dpFinish opt) (dpCalls opt hooked s.keys calls s)).active := by
    intro m hm
    have := (m' m).1 hm
    exact this.2 this.1
  unfold dpForward
  dsimp only
  refine ⟨?_, ?_, s'.trans q1, l'.trans q2, List.eq_nil_iff_forall_not_mem.2 he, rfl, rfl, rfl⟩
  · funext r ℓ
    rw [p'.w, if_neg (he ℓ), hw]
  · funext r ℓ
    rw [p'.grad, if_neg (he ℓ)]

/-- What a non-blocking backward does. -/
theorem dpHooks_spec (v : L → 𝕜) (reach : List L) (hn : reach.Nodup) (s : DpState L W 𝕜) (hkn : s.keys.Nodup) :
    (reach.foldl (dpHook v) s).w = s.w ∧ (reach.foldl (dpHook v) s).grad = s.grad ∧ (reach.foldl (dpHook v) s).seen = s.seen ∧ (reach.foldl (dpHook v) s).log = s.log ∧ (reach.foldl (dpHook v) s).updateNext = s.updateNext ∧
    (∀ ℓ, (reach.foldl (dpHook v) s).vals ℓ = if ℓ ∈ reach then s.vals ℓ ++ [v ℓ] else s.vals ℓ) ∧ (∀ ℓ, ℓ ∈ (reach.foldl (dpHook v) s).keys ↔ ℓ ∈ s.keys ∨ ℓ ∈ reach) ∧
    (∀ ℓ, ℓ ∈ (reach.foldl (dpHook v) s).active ↔ ℓ ∈ s.active ∨ ℓ ∈ reach) ∧ (reach.foldl (dpHook v) s).keys.Nodup := by
  induction reach generalizing s with
  | nil => exact ⟨rfl, rfl, rfl, rfl, rfl, by simp, by simp, by simp, hkn⟩
  | cons k ls ih =>
    rw [List.nodup_cons] at hn
    have hkn' : (dpHook v s k).keys.Nodup := by
      unfold dpHook
      dsimp only
      split
      · exact hkn
      · rename_i h
        rw [List.nodup_append]
        refine ⟨hkn, by simp, ?_⟩
        intro a ha b hb
        rw [List.mem_singleton] at hb
        rintro rfl
        exact h (hb ▸ ha)
    obtain ⟨a1, a2, a3, a4, a5, a6, a7, a8, a9⟩ := ih hn.2 (dpHook v s k) hkn'
    rw [List.foldl_cons]
    refine ⟨a1, a2, a3, a4, a5, ?_, ?_, ?_, a9⟩
    · intro ℓ
      rw [a6]
      unfold dpHook
      dsimp only
      by_cases e : ℓ = k
      · subst e
        rw [if_neg hn.1, if_pos rfl, if_pos (by simp)]
      · rw [if_neg e]
        by_cases hm : ℓ ∈ ls
        · rw [if_pos hm, if_pos (List.mem_cons_of_mem _ hm)]
        · rw [if_neg hm, if_neg (by simp [e, hm])]
    · intro ℓ
      rw [a7]
      unfold dpHook
      dsimp only
      split
      · rename_i h
        rw [List.mem_cons]
        constructor
        · rintro (h1 | h1)
          · exact Or.inl h1
          · exact Or.inr (Or.inr h1)
        · rintro (h1 | rfl | h1)
          · exact Or.inl h1
          · exact Or.inl h
          · exact Or.inr h1
      · rw [List.mem_append, List.mem_singleton, List.mem_cons]
        tauto
    · intro ℓ
      rw [a8]
      unfold dpHook
      dsimp only
      split
      · rename_i h
        rw [List.mem_cons]
        constructor
        · rintro (h1 | h1)
          · exact Or.inl h1
          · exact Or.inr (Or.inr h1)
        · rintro (h1 | rfl | h1)
          · exact Or.inl h1
          · exact Or.inl h
          · exact Or.inr h1
      · rw [List.mem_append, List.mem_singleton, List.mem_cons]
        tauto

/-- **C118**: with blocking updates every backward adds the mean over the processes of their gradients, on every process. -/
theorem dp_gradient (size : Nat) (opt : W → 𝕜 → W) (s : DpState L W 𝕜) (reach : List L) (g : Nat → (L → W) → L → 𝕜) (r : Nat) (ℓ : L) :
    (dpBlockingOp size opt s (.backward reach g)).grad r ℓ = s.grad r ℓ + (if ℓ ∈ reach then meanGradient size (fun q => g q (s.seen q) ℓ) else 0) := by
  have e : dpReduce size g s.seen ℓ = meanGradient size (fun q => g q (s.seen q) ℓ) := by
    unfold dpReduce meanGradient
    rw [← Finset.sum_mul, mul_one_div]
  unfold dpBlockingOp
  dsimp only
  split
  · rw [e]
  · rw [add_zero]

/-- **C118**: processes that start with the same parameters always have the same parameters (blocking). -/
theorem dp_same (size : Nat) (opt : W → 𝕜 → W) (ops : List (DpOp L W 𝕜)) (s : DpState L W 𝕜) (h : ∀ r ℓ, s.w r ℓ = s.w 0 ℓ ∧ s.grad r ℓ = s.grad 0 ℓ) :
    ∀ r ℓ, (dpRunBlocking size opt ops s).w r ℓ = (dpRunBlocking size opt ops s).w 0 ℓ ∧ (dpRunBlocking size opt ops s).grad r ℓ = (dpRunBlocking size opt ops s).grad 0 ℓ := by
  unfold dpRunBlocking
  induction ops generalizing s with
  | nil => exact h
  | cons o ops ih =>
    rw [List.foldl_cons]
    apply ih
    intro r ℓ
    cases o with
    | zero => exact ⟨(h r ℓ).1, rfl⟩
    | forward calls => rw [dpBlockingOp, (dpReads_fields calls s).1, (dpReads_fields calls s).2.1]; exact h r ℓ
    | backward reach g =>
      refine ⟨(h r ℓ).1, ?_⟩
      dsimp only [dpBlockingOp]
      rw [(h r ℓ).2]
    | step =>
      dsimp only [dpBlockingOp]
      rw [(h r ℓ).1, (h r ℓ).2]
      exact ⟨rfl, rfl⟩
    | eval => exact h r ℓ
    | test calls => rw [dpBlockingOp, (dpReads_fields calls s).1, (dpReads_fields calls s).2.1]; exact h r ℓ

/-- Between two iterations of the loop that zeroes first. -/
structure DpRelFirst (opt : W → 𝕜 → W) (n b : DpState L W 𝕜) : Prop where
  seen : n.seen = b.seen
  log : n.log = b.log
  sub : ∀ ℓ ∈ n.active, ℓ ∈ n.keys
  w : ∀ r ℓ, b.w r ℓ = if ℓ ∈ n.active ∧ n.updateNext = true then opt (n.w r ℓ) (n.vals ℓ).sum else n.w r ℓ

theorem dp_zero_first_step (size : Nat) (opt : W → 𝕜 → W) (hooked : L → Bool) (p : DpBatch L W 𝕜) (hh : ∀ ℓ ∈ p.calls, hooked ℓ = true) (hn : p.reach.Nodup) (hr : (∀ w, opt w 0 = w) ∨ ∀ ℓ, ℓ ∈ p.reach)
    (n b : DpState L W 𝕜) (h : DpRelFirst opt n b) :
    DpRelFirst opt (dpRun size opt hooked [.zero, .forward p.calls, .backward p.reach p.g, .step] n) (dpRunBlocking size opt [.zero, .forward p.calls, .backward p.reach p.g, .step] b) := by
  simp only [dpRun, dpRunBlocking, List.foldl_cons, List.foldl_nil]
  have hz : DpRelFirst opt (dpOp size opt hooked n .zero) (dpBlockingOp size opt b .zero) := ⟨h.seen, h.log, h.sub, h.w⟩
  have hzg : ∀ r ℓ, (dpOp size opt hooked n .zero).grad r ℓ = 0 := fun _ _ => rfl
  have hzb : ∀ r ℓ, (dpBlockingOp size opt b .zero).grad r ℓ = 0 := fun _ _ => rfl
  generalize dpOp size opt hooked n .zero = n1 at *
  generalize dpBlockingOp size opt b .zero = b1 at *
  obtain ⟨f1, f2, f3, f4, f5, f6, f7, f8⟩ := dpForward_spec (opt := opt) (hooked := hooked) hz.sub p.calls (fun ℓ hℓ _ => hh ℓ hℓ) b1 (by
    intro r ℓ
    rw [hz.w, dpUpdated, hzg, zero_add]) hz.seen hz.log
  have c := dpReads_fields p.calls b1
  change DpRelFirst opt (dpOp size opt hooked (dpOp size opt hooked (dpForward opt hooked p.calls n1) (.backward p.reach p.g)) .step)
    (dpBlockingOp size opt (dpBlockingOp size opt (p.calls.foldl dpRead b1) (.backward p.reach p.g)) .step)
  generalize dpForward opt hooked p.calls n1 = n2 at *
  generalize p.calls.foldl dpRead b1 = b2 at *
  have hv : dpReduce size p.g n2.seen = dpReduce size p.g b2.seen := by rw [f3]
  obtain ⟨a1, a2, a3, a4, a5, a6, a7, a8, a9⟩ := dpHooks_spec (dpReduce size p.g n2.seen) p.reach hn n2 (by rw [f6]; exact List.nodup_nil)
  refine ⟨?_, ?_, ?_, ?_⟩
  · exact a3.trans f3
  · exact a4.trans f4
  · intro ℓ hℓ
    have := (a8 ℓ).1 hℓ
    rw [f5] at this
    exact (a7 ℓ).2 (Or.inr (this.resolve_left (by simp)))
  · intro r ℓ
    have hact := a8 ℓ
    rw [f5] at hact
    have hval := a6 ℓ
    rw [f7] at hval
    have hb2 : ∀ r ℓ, b2.grad r ℓ = 0 := by rw [c.2.1]; exact hzb
    change opt (b2.w r ℓ) (if ℓ ∈ p.reach then b2.grad r ℓ + dpReduce size p.g b2.seen ℓ else b2.grad r ℓ) =
      if ℓ ∈ (p.reach.foldl (dpHook (dpReduce size p.g n2.seen)) n2).active ∧ true = true then opt ((p.reach.foldl (dpHook (dpReduce size p.g n2.seen)) n2).w r ℓ) ((p.reach.foldl (dpHook (dpReduce size p.g n2.seen)) n2).vals ℓ).sum
        else (p.reach.foldl (dpHook (dpReduce size p.g n2.seen)) n2).w r ℓ
    rw [a1, f1, c.1, hval, hb2]
    by_cases hm : ℓ ∈ p.reach
    · rw [if_pos hm, if_pos ⟨hact.2 (Or.inr hm), rfl⟩, if_pos hm, hv]
      simp
    · rw [if_neg hm, if_neg (fun h' => hm ((hact.1 h'.1).resolve_left (by simp)))]
      rcases hr with hr | hr
      · exact hr _
      · exact absurd (hr ℓ) hm

/-- **C118** (`_partial`: every layer is called through its submodule; every layer gets a gradient in every backward, or a zero gradient changes nothing; `eval` is not called): in the loop `zero_grad, forward, backward, step` every forward of a
non-blocking training reads exactly the parameters the blocking training reads. -/
theorem dp_zero_first_partial (size : Nat) (opt : W → 𝕜 → W) (hooked : L → Bool) (bs : List (DpBatch L W 𝕜)) (hh : ∀ p ∈ bs, ∀ ℓ ∈ p.calls, hooked ℓ = true) (hn : ∀ p ∈ bs, p.reach.Nodup)
    (hr : (∀ w, opt w 0 = w) ∨ ∀ p ∈ bs, ∀ ℓ, ℓ ∈ p.reach) (w0 : Nat → L → W) :
    (dpRun size opt hooked (zeroFirst bs) (dpInit w0)).log = (dpRunBlocking size opt (zeroFirst bs) (dpInit w0)).log := by
  have start : DpRelFirst opt (dpInit w0 : DpState L W 𝕜) (dpInit w0) := ⟨rfl, rfl, by simp [dpInit], by simp [dpInit]⟩
  suffices ∀ n b, DpRelFirst opt n b → DpRelFirst opt (dpRun size opt hooked (zeroFirst bs) n) (dpRunBlocking size opt (zeroFirst bs) b) from (this _ _ start).log
  clear start
  induction bs with
  | nil => exact fun n b h => h
  | cons p bs ih =>
    intro n b h
    have e : zeroFirst (p :: bs) = [.zero, .forward p.calls, .backward p.reach p.g, .step] ++ zeroFirst bs := by
      rw [zeroFirst, List.flatMap_cons]
      rfl
    rw [e, dpRun, dpRunBlocking, List.foldl_append, List.foldl_append]
    apply ih (fun q hq => hh q (List.mem_cons_of_mem _ hq)) (fun q hq => hn q (List.mem_cons_of_mem _ hq)) (hr.imp id (fun h q hq => h q (List.mem_cons_of_mem _ hq)))
    exact dp_zero_first_step size opt hooked p (hh p (by simp)) (hn p (by simp)) (hr.imp id (fun h => h p (by simp))) n b h

/-- Between two groups of the loop that zeroes after the forward. -/
structure DpRelSecond (opt : W → 𝕜 → W) (n b : DpState L W 𝕜) : Prop where
  seen : n.seen = b.seen
  log : n.log = b.log
  sub : ∀ ℓ ∈ n.active, ℓ ∈ n.keys
  nodup : n.keys.Nodup
  w : ∀ r ℓ, b.w r ℓ = dpUpdated opt n r ℓ

/-- An update is under way for every layer. -/
def DpFull (n : DpState L W 𝕜) : Prop := n.updateNext = true ∧ ∀ ℓ, ℓ ∈ n.active

/-- Nothing is under way. -/
def DpQuiet (n : DpState L W 𝕜) : Prop := n.active = [] ∧ (n.keys = [] → n.updateNext = false)

/-- Inside a group, after a backward. -/
structure DpMid (n b : DpState L W 𝕜) : Prop where
  seen : n.seen = b.seen
  log : n.log = b.log
  all : ∀ ℓ, ℓ ∈ n.active
  keys : ∀ ℓ, ℓ ∈ n.keys
  nodup : n.keys.Nodup
  flag : n.updateNext = false
  w : n.w = b.w
  grad : ∀ r ℓ, b.grad r ℓ = n.grad r ℓ + (n.vals ℓ).sum

theorem dp_mid (size : Nat) (opt : W → 𝕜 → W) (hooked : L → Bool) (reach : List L) (g : Nat → (L → W) → L → 𝕜) (hn : reach.Nodup) (hr : ∀ ℓ, ℓ ∈ reach) (n b : DpState L W 𝕜)
    (hs : n.seen = b.seen) (hl : n.log = b.log) (hk : n.keys = []) (hv : n.vals = fun _ => []) (hf : n.updateNext = false) (hw : n.w = b.w) (hg : n.grad = b.grad) :
    DpMid (dpOp size opt hooked n (.backward reach g)) (dpBlockingOp size opt b (.backward reach g)) := by
  obtain ⟨a1, a2, a3, a4, a5, a6, a7, a8, a9⟩ := dpHooks_spec (dpReduce size g n.seen) reach hn n (by rw [hk]; exact List.nodup_nil)
  refine ⟨a3.trans hs, a4.trans hl, fun ℓ => (a8 ℓ).2 (Or.inr (hr ℓ)), fun ℓ => (a7 ℓ).2 (Or.inr (hr ℓ)), a9, a5.trans hf, a1.trans hw, ?_⟩
  intro r ℓ
  change (if ℓ ∈ reach then b.grad r ℓ + dpReduce size g b.seen ℓ else b.grad r ℓ) = (reach.foldl (dpHook (dpReduce size g n.seen)) n).grad r ℓ + ((reach.foldl (dpHook (dpReduce size g n.seen)) n).vals ℓ).sum
  rw [a2, a6, if_pos (hr ℓ), if_pos (hr ℓ), hv, hs, hg]
  simp

theorem dp_mid_more (size : Nat) (opt : W → 𝕜 → W) (hooked : L → Bool) (p : DpBatch L W 𝕜) (hh : ∀ ℓ ∈ p.calls, hooked ℓ = true) (hn : p.reach.Nodup) (hr : ∀ ℓ, ℓ ∈ p.reach) (n b : DpState L W 𝕜) (h : DpMid n b) :
    DpMid (dpRun size opt hooked [.forward p.calls, .backward p.reach p.g] n) (dpRunBlocking size opt [.forward p.calls, .backward p.reach p.g] b) := by
  obtain ⟨f1, f2, f3, f4, f5, f6, f7, f8⟩ := dpForward_spec (opt := opt) (hooked := hooked) (fun ℓ _ => h.keys ℓ) p.calls (fun ℓ hℓ _ => hh ℓ hℓ) b (by
    intro r ℓ
    rw [dpUpdated, if_neg (by rw [h.flag]; simp), h.w]) h.seen h.log
  have c := dpReads_fields p.calls b
  simp only [dpRun, dpRunBlocking, List.foldl_cons, List.foldl_nil]
  apply dp_mid size opt hooked p.reach p.g hn hr
  · exact f3
  · exact f4
  · exact f6
  · exact f7
  · exact f8
  · exact f1.trans c.1.symm
  · refine f2.trans ?_
    rw [show (dpBlockingOp size opt b (.forward p.calls)).grad = b.grad from c.2.1]
    funext r ℓ
    rw [h.grad, dpArrived, if_pos (h.all ℓ)]

theorem dp_group (size : Nat) (opt : W → 𝕜 → W) (hooked : L → Bool) (p : DpBatch L W 𝕜 × List (DpBatch L W 𝕜)) (hh : ∀ q ∈ p.1 :: p.2, ∀ ℓ ∈ q.calls, hooked ℓ = true) (hn : ∀ q ∈ p.1 :: p.2, q.reach.Nodup)
    (hr : ∀ q ∈ p.1 :: p.2, ∀ ℓ, ℓ ∈ q.reach) (n b : DpState L W 𝕜) (h : DpRelSecond opt n b) :
    DpRelSecond opt (dpRun size opt hooked (zeroSecond [p]) n) (dpRunBlocking size opt (zeroSecond [p]) b) ∧ DpFull (dpRun size opt hooked (zeroSecond [p]) n) := by
  obtain ⟨q, qs⟩ := p
  have e : zeroSecond [(q, qs)] = [.forward q.calls, .zero, .backward q.reach q.g] ++ qs.flatMap (fun b => [.forward b.calls, .backward b.reach b.g]) ++ [.step] := by
    simp [zeroSecond]
  rw [e, dpRun, dpRunBlocking, List.foldl_append, List.foldl_append, List.foldl_append, List.foldl_append]
  have first : DpMid (([.forward q.calls, .zero, .backward q.reach q.g] : List (DpOp L W 𝕜)).foldl (dpOp size opt hooked) n) (([.forward q.calls, .zero, .backward q.reach q.g] : List (DpOp L W 𝕜)).foldl (dpBlockingOp size opt) b) := by
    obtain ⟨f1, f2, f3, f4, f5, f6, f7, f8⟩ := dpForward_spec (opt := opt) (hooked := hooked) h.sub q.calls (fun ℓ hℓ _ => hh q (by simp) ℓ hℓ) b h.w h.seen h.log
    have c := dpReads_fields q.calls b
    simp only [List.foldl_cons, List.foldl_nil]
    apply dp_mid size opt hooked q.reach q.g (hn q (by simp)) (hr q (by simp))
    · exact f3
    · exact f4
    · exact f6
    · exact f7
    · exact f8
    · exact f1.trans c.1.symm
    · rfl
  generalize ([.forward q.calls, .zero, .backward q.reach q.g] : List (DpOp L W 𝕜)).foldl (dpOp size opt hooked) n = n1 at *
  generalize ([.forward q.calls, .zero, .backward q.reach q.g] : List (DpOp L W 𝕜)).foldl (dpBlockingOp size opt) b = b1 at *
  have mids : DpMid ((qs.flatMap (fun b => [.forward b.calls, .backward b.reach b.g])).foldl (dpOp size opt hooked) n1) ((qs.flatMap (fun b => [.forward b.calls, .backward b.reach b.g])).foldl (dpBlockingOp size opt) b1) := by
    clear e h
    induction qs generalizing n1 b1 with
    | nil => exact first
    | cons p qs ih =>
      rw [List.flatMap_cons, List.foldl_append, List.foldl_append]
      apply ih
      · intro a ha
        rcases List.mem_cons.1 ha with rfl | ha
        · exact hh _ (by simp)
        · exact hh _ (by simp [ha])
      · intro a ha
        rcases List.mem_cons.1 ha with rfl | ha
        · exact hn _ (by simp)
        · exact hn _ (by simp [ha])
      · intro a ha
        rcases List.mem_cons.1 ha with rfl | ha
        · exact hr _ (by simp)
        · exact hr _ (by simp [ha])
      · exact dp_mid_more size opt hooked p (hh p (by simp)) (hn p (by simp)) (hr p (by simp)) n1 b1 first
  generalize (qs.flatMap (fun b => [.forward b.calls, .backward b.reach b.g])).foldl (dpOp size opt hooked) n1 = n2 at *
  generalize (qs.flatMap (fun b => [.forward b.calls, .backward b.reach b.g])).foldl (dpBlockingOp size opt) b1 = b2 at *
  simp only [List.foldl_cons, List.foldl_nil]
  refine ⟨⟨mids.seen, mids.log, fun ℓ _ => mids.keys ℓ, mids.nodup, ?_⟩, rfl, mids.all⟩
  intro r ℓ
  change opt (b2.w r ℓ) (b2.grad r ℓ) = if ℓ ∈ n2.active ∧ true = true then opt (n2.w r ℓ) (n2.grad r ℓ + (n2.vals ℓ).sum) else n2.w r ℓ
  rw [if_pos ⟨mids.all ℓ, rfl⟩, mids.grad, mids.w]

theorem dpFlush_spec (ls : List L) (hn : ls.Nodup) (s : DpState L W 𝕜) (ha : ∀ ℓ ∈ ls, ℓ ∈ s.active) :
    (dpFlush ls s).2 = true ∧ (dpFlush ls s).1.w = s.w ∧ (dpFlush ls s).1.keys = s.keys ∧ (dpFlush ls s).1.updateNext = s.updateNext ∧ (dpFlush ls s).1.seen = s.seen ∧ (dpFlush ls s).1.log = s.log ∧
    (∀ r ℓ, (dpFlush ls s).1.grad r ℓ = if ℓ ∈ ls then s.grad r ℓ + (s.vals ℓ).sum else s.grad r ℓ) ∧ (∀ ℓ, ℓ ∈ (dpFlush ls s).1.active ↔ ℓ ∈ s.active ∧ ℓ ∉ ls) := by
  induction ls generalizing s with
  | nil => exact ⟨rfl, rfl, rfl, rfl, rfl, rfl, by simp [dpFlush], by simp [dpFlush]⟩
  | cons k ls ih =>
    rw [List.nodup_cons] at hn
    rw [dpFlush, if_pos (ha k (by simp))]
    obtain ⟨a1, a2, a3, a4, a5, a6, a7, a8⟩ := ih hn.2 { s with grad := fun r m => if m = k then s.grad r m + (s.vals k).sum else s.grad r m, active := s.active.filter (fun m => decide (m ≠ k)) } (by
      intro ℓ hℓ
      dsimp only
      rw [List.mem_filter]
      refine ⟨ha ℓ (List.mem_cons_of_mem _ hℓ), ?_⟩
      rw [decide_eq_true_iff]
      rintro rfl
      exact hn.1 hℓ)
    refine ⟨a1, a2, a3, a4, a5, a6, ?_, ?_⟩
    · intro r ℓ
      rw [a7]
      dsimp only
      by_cases e : ℓ = k
      · subst e
        rw [if_neg hn.1, if_pos rfl, if_pos (by simp)]
      · by_cases hm : ℓ ∈ ls
        · rw [if_pos hm, if_neg e, if_pos (List.mem_cons_of_mem _ hm)]
        · rw [if_neg hm, if_neg e, if_neg (by simp [e, hm])]
    · intro ℓ
      rw [a8]
      dsimp only
      rw [List.mem_filter, List.mem_cons, decide_eq_true_iff]
      tauto

theorem dp_eval_step [Nonempty L] (opt : W → 𝕜 → W) (n b : DpState L W 𝕜) (h : DpRelSecond opt n b) (hq : DpFull n ∨ DpQuiet n) : DpRelSecond opt (dpEval opt n) b ∧ DpQuiet (dpEval opt n) ∧ (dpEval opt n).w = b.w := by
  rcases hq with ⟨hf, hall⟩ | ⟨ha, hk⟩
  · obtain ⟨a1, a2, a3, a4, a5, a6, a7, a8⟩ := dpFlush_spec n.keys.reverse (List.nodup_reverse.2 h.nodup) n (fun ℓ _ => hall ℓ)
    have hcov : ∀ ℓ, ℓ ∈ n.keys.reverse := fun ℓ => List.mem_reverse.2 (h.sub ℓ (hall ℓ))
    have hact : (dpFlush n.keys.reverse n).1.active = [] := by
      rw [List.eq_nil_iff_forall_not_mem]
      intro ℓ hℓ
      exact ((a8 ℓ).1 hℓ).2 (hcov ℓ)
    have hw : (dpEval opt n).w = b.w := by
      unfold dpEval
      dsimp only
      rw [if_pos ⟨a1, a4.trans hf⟩]
      funext r ℓ
      dsimp only
      rw [a2, a7, if_pos (hcov ℓ), h.w, dpUpdated, if_pos ⟨hall ℓ, hf⟩]
    have e : dpEval opt n = { (dpFlush n.keys.reverse n).1 with w := (dpEval opt n).w } := by
      unfold dpEval
      dsimp only
      split <;> rfl
    refine ⟨?_, ?_, hw⟩
    · rw [e]
      refine ⟨a5.trans h.seen, a6.trans h.log, ?_, ?_, ?_⟩
      · intro ℓ hℓ
        rw [show ({ (dpFlush n.keys.reverse n).1 with w := (dpEval opt n).w } : DpState L W 𝕜).active = [] from hact] at hℓ
        simp at hℓ
      · show (dpFlush n.keys.reverse n).1.keys.Nodup
        rw [a3]
        exact h.nodup
      · intro r ℓ
        rw [dpUpdated, if_neg]
        · exact (congrFun (congrFun hw r) ℓ).symm
        · rintro ⟨h1, _⟩
          rw [show ({ (dpFlush n.keys.reverse n).1 with w := (dpEval opt n).w } : DpState L W 𝕜).active = [] from hact] at h1
          simp at h1
    · rw [e]
      refine ⟨hact, ?_⟩
      intro hk
      have hk' : n.keys = [] := a3 ▸ hk
      obtain ⟨ℓ⟩ := ‹Nonempty L›
      have := h.sub ℓ (hall ℓ)
      rw [hk'] at this
      simp at this
  · have hw : n.w = b.w := by
      funext r ℓ
      rw [h.w, dpUpdated, if_neg (by rw [ha]; simp)]
    have e : dpEval opt n = n := by
      unfold dpEval
      dsimp only
      cases hkk : n.keys.reverse with
      | nil =>
        rw [dpFlush]
        dsimp only
        rw [hk (List.reverse_eq_nil_iff.1 hkk)]
        simp
      | cons k ls =>
        have : k ∉ n.active := by rw [ha]; simp
        simp [dpFlush, this]
    rw [e]
    exact ⟨h, ⟨ha, hk⟩, hw⟩

/-- An epoch: groups of batches, `eval()`, forwards in evaluation mode. -/
def dpEpoch (e : List (DpBatch L W 𝕜 × List (DpBatch L W 𝕜)) × List (List L)) : List (DpOp L W 𝕜) := zeroSecond e.1 ++ [.eval] ++ e.2.map DpOp.test

theorem zeroSecond_cons (p : DpBatch L W 𝕜 × List (DpBatch L W 𝕜)) (ps : List (DpBatch L W 𝕜 × List (DpBatch L W 𝕜))) : zeroSecond (p :: ps) = zeroSecond [p] ++ zeroSecond ps := by
  simp [zeroSecond]

theorem dp_groups (size : Nat) (opt : W → 𝕜 → W) (hooked : L → Bool) (ps : List (DpBatch L W 𝕜 × List (DpBatch L W 𝕜))) (hh : ∀ p ∈ ps, ∀ q ∈ p.1 :: p.2, ∀ ℓ ∈ q.calls, hooked ℓ = true)
    (hn : ∀ p ∈ ps, ∀ q ∈ p.1 :: p.2, q.reach.Nodup) (hr : ∀ p ∈ ps, ∀ q ∈ p.1 :: p.2, ∀ ℓ, ℓ ∈ q.reach) (n b : DpState L W 𝕜) (h : DpRelSecond opt n b) (hq : DpFull n ∨ DpQuiet n) :
    DpRelSecond opt (dpRun size opt hooked (zeroSecond ps) n) (dpRunBlocking size opt (zeroSecond ps) b) ∧ (DpFull (dpRun size opt hooked (zeroSecond ps) n) ∨ DpQuiet (dpRun size opt hooked (zeroSecond ps) n)) := by
  induction ps generalizing n b with
  | nil => exact ⟨h, hq⟩
  | cons p ps ih =>
    rw [zeroSecond_cons, dpRun, dpRunBlocking, List.foldl_append, List.foldl_append]
    obtain ⟨a, c⟩ := dp_group size opt hooked p (hh p (by simp)) (hn p (by simp)) (hr p (by simp)) n b h
    exact ih (fun q hq => hh q (List.mem_cons_of_mem _ hq)) (fun q hq => hn q (List.mem_cons_of_mem _ hq)) (fun q hq => hr q (List.mem_cons_of_mem _ hq)) _ _ a (Or.inl c)

theorem dp_tests (size : Nat) (opt : W → 𝕜 → W) (hooked : L → Bool) (ts : List (List L)) (n b : DpState L W 𝕜) (h : DpRelSecond opt n b) (hq : DpQuiet n) (hw : n.w = b.w) :
    DpRelSecond opt (dpRun size opt hooked (ts.map DpOp.test) n) (dpRunBlocking size opt (ts.map DpOp.test) b) ∧ DpQuiet (dpRun size opt hooked (ts.map DpOp.test) n) ∧
      (dpRun size opt hooked (ts.map DpOp.test) n).w = (dpRunBlocking size opt (ts.map DpOp.test) b).w := by
  induction ts generalizing n b with
  | nil => exact ⟨h, hq, hw⟩
  | cons c ts ih =>
    rw [List.map_cons, dpRun, dpRunBlocking, List.foldl_cons, List.foldl_cons]
    have c1 := dpReads_fields c n
    have c2 := dpReads_fields c b
    have reads : (c.foldl dpRead n).seen = (c.foldl dpRead b).seen ∧ (c.foldl dpRead n).log = (c.foldl dpRead b).log := by
      have hs := h.seen
      have hl := h.log
      clear c1 c2 h hq ih
      induction c generalizing n b with
      | nil => exact ⟨hs, hl⟩
      | cons k ks ih2 =>
        rw [List.foldl_cons, List.foldl_cons]
        apply ih2 (dpRead n k) (dpRead b k) hw
        · unfold dpRead
          dsimp only
          rw [hs, hw]
        · unfold dpRead
          dsimp only
          rw [hl, hw]
    apply ih
    · refine ⟨reads.1, reads.2, ?_, List.nodup_nil, ?_⟩
      · intro ℓ hℓ
        rw [show (dpOp size opt hooked n (.test c)).active = n.active from c1.2.2.2.2.1, hq.1] at hℓ
        simp at hℓ
      · intro r ℓ
        rw [dpUpdated, if_neg (fun h' => by simp [dpOp] at h')]
        change (c.foldl dpRead b).w r ℓ = (c.foldl dpRead n).w r ℓ
        rw [c1.1, c2.1, hw]
    · exact ⟨c1.2.2.2.2.1.trans hq.1, fun _ => rfl⟩
    · exact c1.1.trans (hw.trans c2.1.symm)

/-- **C118** (`_partial`: every layer is called through its submodule and gets a gradient in every backward): in the loop `forward, zero_grad, backward, (forward, backward)*, step` with `eval()` and evaluation after each epoch, for any number
of epochs, a non-blocking training reads the same parameters in every forward as the blocking one, and has the same parameters after every epoch. -/
theorem dp_zero_second_partial [Nonempty L] (size : Nat) (opt : W → 𝕜 → W) (hooked : L → Bool) (es : List (List (DpBatch L W 𝕜 × List (DpBatch L W 𝕜)) × List (List L)))
    (hh : ∀ e ∈ es, ∀ p ∈ e.1, ∀ q ∈ p.1 :: p.2, ∀ ℓ ∈ q.calls, hooked ℓ = true) (hn : ∀ e ∈ es, ∀ p ∈ e.1, ∀ q ∈ p.1 :: p.2, q.reach.Nodup) (hr : ∀ e ∈ es, ∀ p ∈ e.1, ∀ q ∈ p.1 :: p.2, ∀ ℓ, ℓ ∈ q.reach)
    (w0 : Nat → L → W) :
    (dpRun size opt hooked (es.flatMap dpEpoch) (dpInit w0)).log = (dpRunBlocking size opt (es.flatMap dpEpoch) (dpInit w0)).log ∧
    (dpRun size opt hooked (es.flatMap dpEpoch) (dpInit w0)).w = (dpRunBlocking size opt (es.flatMap dpEpoch) (dpInit w0)).w := by
  have start : DpRelSecond opt (dpInit w0 : DpState L W 𝕜) (dpInit w0) ∧ DpQuiet (dpInit w0 : DpState L W 𝕜) ∧ (dpInit w0 : DpState L W 𝕜).w = (dpInit w0 : DpState L W 𝕜).w :=
    ⟨⟨rfl, rfl, by simp [dpInit], List.nodup_nil, by simp [dpInit, dpUpdated]⟩, ⟨rfl, fun _ => rfl⟩, rfl⟩
  suffices ∀ n b, DpRelSecond opt n b ∧ DpQuiet n ∧ n.w = b.w → DpRelSecond opt (dpRun size opt hooked (es.flatMap dpEpoch) n) (dpRunBlocking size opt (es.flatMap dpEpoch) b) ∧
      DpQuiet (dpRun size opt hooked (es.flatMap dpEpoch) n) ∧ (dpRun size opt hooked (es.flatMap dpEpoch) n).w = (dpRunBlocking size opt (es.flatMap dpEpoch) b).w by
    have := this _ _ start
    exact ⟨this.1.log, this.2.2⟩
  clear start
  induction es with
  | nil => exact fun n b h => h
  | cons e es ih =>
    intro n b ⟨h, hq, hw⟩
    rw [List.flatMap_cons, dpRun, dpRunBlocking, List.foldl_append, List.foldl_append]
    apply ih (fun q hq => hh q (List.mem_cons_of_mem _ hq)) (fun q hq => hn q (List.mem_cons_of_mem _ hq)) (fun q hq => hr q (List.mem_cons_of_mem _ hq))
    rw [dpEpoch, List.foldl_append, List.foldl_append, List.foldl_append, List.foldl_append]
    obtain ⟨a1, a2⟩ := dp_groups size opt hooked e.1 (hh e (by simp)) (hn e (by simp)) (hr e (by simp)) n b h (Or.inr hq)
    obtain ⟨b1, b2, b3⟩ := dp_eval_step opt _ _ a1 a2
    exact dp_tests size opt hooked e.2 _ _ b1 b2 b3

/-- A concrete training: one process, two layers, SGD with learning rate 1, gradients that do not depend on the parameters. -/
def dpDemo (hooked : Bool → Bool) (ops : List (DpOp Bool ℚ ℚ)) : List ℚ × List ℚ :=
  let n := dpRun 1 (fun w g => w - g) hooked ops (dpInit (fun _ _ => 10))
  (n.log.map (fun p => p.2 0), [n.w 0 false, n.w 0 true])

/-- The same with blocking updates. -/
def dpDemoBlocking (ops : List (DpOp Bool ℚ ℚ)) : List ℚ × List ℚ :=
  let n := dpRunBlocking 1 (fun w g => w - g) ops (dpInit (fun _ _ => 10))
  (n.log.map (fun p => p.2 0), [n.w 0 false, n.w 0 true])

/-- A batch whose gradient is `c` for both layers. -/
def dpBatch (c : ℚ) : DpBatch Bool ℚ ℚ := ⟨[false, true], [true, false], fun _ _ _ => c⟩

/-- **C118** is violated in the usual loop (examples/nn/mnist.py) when `eval()` ends an epoch: the last update adds the gradient of the batch before. -/
theorem dp_eval_violated : (dpDemo (fun _ => true) (zeroFirst [dpBatch 1, dpBatch 2] ++ [.eval])).2 = [6, 6] ∧ (dpDemoBlocking (zeroFirst [dpBatch 1, dpBatch 2] ++ [.eval])).2 = [7, 7] := by
  constructor <;> decide +kernel

/-- **C118** is violated for gradient accumulation in the usual order (`zero, forward, backward, forward, backward, step`): the first gradient is lost. -/
theorem dp_accumulation_violated :
    (dpDemo (fun _ => true) [.zero, .forward [false, true], .backward [true, false] (fun _ _ _ => 1), .forward [false, true], .backward [true, false] (fun _ _ _ => 2), .step, .zero, .forward [false, true]]).2 = [8, 8] ∧
    (dpDemoBlocking [.zero, .forward [false, true], .backward [true, false] (fun _ _ _ => 1), .forward [false, true], .backward [true, false] (fun _ _ _ => 2), .step, .zero, .forward [false, true]]).2 = [7, 7] := by
  constructor <;> decide +kernel

/-- **C118** is violated for parameters that no called submodule owns (e.g. an `nn.Parameter` of the model itself): each forward reads them before the update. -/
theorem dp_root_violated : (dpDemo (fun ℓ => ℓ) (zeroFirst [dpBatch 1, dpBatch 2])).1 = [10, 10, 10, 9] ∧ (dpDemoBlocking (zeroFirst [dpBatch 1, dpBatch 2])).1 = [10, 10, 9, 9] := by
  constructor <;> decide +kernel

/-- **C118** is violated for a layer that gets a gradient in the first but not in the last backward of a group: its update is lost. -/
theorem dp_reach_violated :
    (dpDemo (fun _ => true) [.forward [false, true], .zero, .backward [true, false] (fun _ _ _ => 1), .forward [true], .backward [true] (fun _ _ _ => 2), .step, .forward [false, true]]).2 = [10, 7] ∧
    (dpDemoBlocking [.forward [false, true], .zero, .backward [true, false] (fun _ _ _ => 1), .forward [true], .backward [true] (fun _ _ _ => 2), .step, .forward [false, true]]).2 = [9, 7] := by
  constructor <;> decide +kernel

example : dpDemo (fun _ => true) (zeroFirst [dpBatch 1, dpBatch 2, dpBatch 3]) = ([10, 10, 9, 9, 7, 7], [7, 7]) := by decide +kernel
example : dpDemo (fun _ => true) (dpEpoch ([(dpBatch 1, [dpBatch 2]), (dpBatch 3, [])], [[true]])) = dpDemoBlocking (dpEpoch ([(dpBatch 1, [dpBatch 2]), (dpBatch 3, [])], [[true]])) := by decide +kernel
example : (dpDemo (fun _ => true) (dpEpoch ([(dpBatch 1, [dpBatch 2]), (dpBatch 3, [])], [[true]]))).2 = [4, 4] := by decide +kernel

end Heat
