import Verif.Proof.StrideTricks
/-!
# C04, C05: axis sanitation and broadcast shapes
-/
namespace Heat
open Heat.Spec

/-- C04.  On an array with at least one dimension, `sanitize_axis` succeeds with `k` exactly when `k` is
an axis number `0 ≤ k < ndim` and the argument is `k` or `k - ndim`. -/
theorem sanitize_axis_ok_iff (ndim : Nat) (a : Int) (k : Nat) (h : 0 < ndim) :
    sanitizeAxis ndim (some a) = .ok (some k) ↔ k < ndim ∧ (a = k ∨ a = (k : Int) - ndim) := by
  rw [sanitizeAxis_some _ _ h]
  split
  · rename_i h1
    rw [Except.ok.injEq, Option.some.injEq]
    split <;> omega
  · rename_i h1
    constructor
    · intro h; cases h
    · rintro ⟨h2, h3⟩; omega

/-- C04.  Otherwise it raises ValueError: exactly when the axis is outside `[-ndim, ndim)`. -/
theorem sanitize_axis_error_iff (ndim : Nat) (a : Int) (e : Err) (h : 0 < ndim) :
    sanitizeAxis ndim (some a) = .error e ↔ e = .valueError ∧ (a < -(ndim : Int) ∨ (ndim : Int) ≤ a) := by
  rw [sanitizeAxis_some _ _ h]
  split
  · constructor
    · intro h; cases h
    · rintro ⟨_, h2⟩; omega
  · constructor
    · intro h; cases h; exact ⟨rfl, by omega⟩
    · rintro ⟨rfl, _⟩; rfl

/-- C04.  `None` stays `None`, and every axis of a 0-d array is `None`. -/
theorem sanitize_axis_none (ndim : Nat) (a : Option Int) (h : ndim = 0 ∨ a = none) :
    sanitizeAxis ndim a = .ok none := by
  unfold sanitizeAxis
  rcases h with h | h <;> simp [h]

/-- C04.  Idempotent: sanitising a sanitised axis returns it unchanged. -/
theorem sanitize_axis_idem (ndim : Nat) (a : Option Int) (k : Option Nat)
    (h : sanitizeAxis ndim a = .ok k) : sanitizeAxis ndim (k.map Int.ofNat) = .ok k := by
  cases k with
  | none => exact sanitize_axis_none _ _ (Or.inr rfl)
  | some k =>
    by_cases h0 : ndim = 0
    · rw [sanitize_axis_none _ _ (Or.inl h0)] at h; cases h
    · cases a with
      | none => rw [sanitize_axis_none _ _ (Or.inr rfl)] at h; cases h
      | some a =>
        have := (sanitize_axis_ok_iff ndim a k (by omega)).1 h
        exact (sanitize_axis_ok_iff ndim _ k (by omega)).2 ⟨this.1, Or.inl rfl⟩

/-- C04.  Tuples are treated component by component: the call succeeds exactly when each component does, with
the components' results; otherwise it is a ValueError. -/
theorem sanitize_axes_componentwise (ndim : Nat) (axes : List Int) (h : 0 < ndim) :
    (∀ ks : List Nat, sanitizeAxes ndim axes = .ok (some ks) ↔
      axes.map (fun a => sanitizeAxis ndim (some a)) = ks.map (fun k => .ok (some k))) ∧
    ((∃ a ∈ axes, sanitizeAxis ndim (some a) = .error .valueError) ↔
      sanitizeAxes ndim axes = .error .valueError) := by
  unfold sanitizeAxes
  rw [if_neg (by omega)]
  simp only [List.any_map, Function.comp_def]
  by_cases hany : ∃ a ∈ axes, a < -(ndim : Int) ∨ (ndim : Int) ≤ a
  · rw [if_pos]
    · refine ⟨fun ks => ⟨fun h => (by cases h), fun hk => ?_⟩, fun _ => rfl, fun _ => ?_⟩
      · exfalso
        obtain ⟨a, ha, hb⟩ := hany
        have : sanitizeAxis ndim (some a) ∈ axes.map (fun a => sanitizeAxis ndim (some a)) :=
          List.mem_map.2 ⟨a, ha, rfl⟩
        rw [hk, (sanitize_axis_error_iff ndim a .valueError h).2 ⟨rfl, hb⟩] at this
        simp at this
      · obtain ⟨a, ha, hb⟩ := hany
        exact ⟨a, ha, (sanitize_axis_error_iff ndim a .valueError h).2 ⟨rfl, hb⟩⟩
    · rw [List.any_eq_true]
      obtain ⟨a, ha, hb⟩ := hany
      refine ⟨a, ha, ?_⟩
      simp only [Bool.or_eq_true, decide_eq_true_eq]
      split <;> omega
  · have hok : ∀ a ∈ axes, -(ndim : Int) ≤ a ∧ a < ndim := by
      intro a ha
      constructor
      · exact Int.not_lt.1 fun x => hany ⟨a, ha, Or.inl x⟩
      · exact Int.not_le.1 fun x => hany ⟨a, ha, Or.inr x⟩
    rw [if_neg]
    · refine ⟨fun ks => ?_, ?_⟩
      · rw [Except.ok.injEq, Option.some.injEq]
        have e : axes.map (fun a => sanitizeAxis ndim (some a)) =
            ((axes.map fun dim => if dim < 0 then dim + (ndim : Int) else dim).map Int.toNat).map
              (fun k => (.ok (some k) : Except Err (Option Nat))) := by
          rw [List.map_map, List.map_map]
          apply List.map_congr_left
          intro a ha
          rw [sanitizeAxis_some _ _ h, if_pos (hok a ha)]
          simp only [Function.comp_def]
          split <;> rfl
        rw [e]
        constructor
        · rintro rfl; rfl
        · intro h
          refine (List.map_inj_right ?_).1 h
          intro x y hxy
          cases hxy; rfl
      · constructor
        · rintro ⟨a, ha, he⟩
          have := (sanitize_axis_error_iff ndim a _ h).1 he
          have := hok a ha
          omega
        · intro h; cases h
    · rw [List.any_eq_true]
      rintro ⟨a, ha, hb⟩
      have := hok a ha
      simp only [Bool.or_eq_true, decide_eq_true_eq] at hb
      split at hb <;> omega

example : sanitizeAxis 3 (some (-1)) = .ok (some 2) ∧ sanitizeAxis 3 (some 3) = .error .valueError ∧
    sanitizeAxes 3 [-3, 1] = .ok (some [0, 1]) ∧ sanitizeAxes 3 [-4, 1] = .error .valueError :=
  ⟨rfl, rfl, rfl, rfl⟩

/-- C05.  `broadcast_shapes` returns the NumPy broadcast shape of any number of operands, and any shape that
is the NumPy broadcast shape is the one returned. -/
theorem broadcast_shapes_spec (ss : List (List Nat)) (c : List Nat) :
    broadcastShapes ss = .ok c ↔ IsBroadcast ss c := by
  rw [isBroadcast_iff]
  unfold broadcastShapes
  rw [fold_map]
  constructor
  · intro h
    split at h
    · rename_i d hd
      cases h
      have := fold_some _ [] [] d IsB_nil hd
      simpa using this
    · cases h
  · intro h
    cases hf : (ss.map List.reverse).foldl (fun acc s => acc.bind fun r => broadcastRev r s) (some []) with
    | none =>
      exfalso
      obtain ⟨i, s, hs, t, ht, h1, h2, h3⟩ := fold_none _ [] [] IsB_nil hf
      have := (h.2.2 i).1 s (by simpa using hs)
      have := (h.2.2 i).1 t (by simpa using ht)
      omega
    | some d =>
      have := fold_some _ [] [] d IsB_nil hf
      have := IsB_unique (by simpa using this) h
      subst this; simp

/-- C05.  It fails (with ValueError) exactly when two operands have right-aligned dimensions that
differ and are both different from 1. -/
theorem broadcast_shapes_error (ss : List (List Nat)) (e : Err) :
    broadcastShapes ss = .error e ↔
      e = .valueError ∧ ∃ s ∈ ss, ∃ t ∈ ss, ∃ i, dimR s i ≠ dimR t i ∧ dimR s i ≠ 1 ∧ dimR t i ≠ 1 := by
  constructor
  · intro h
    unfold broadcastShapes at h
    rw [fold_map] at h
    split at h
    · cases h
    · rename_i hf
      cases h
      obtain ⟨i, s, hs, t, ht, h1⟩ := fold_none _ [] [] IsB_nil hf
      simp only [List.nil_append, List.mem_map] at hs ht
      obtain ⟨s', hs', rfl⟩ := hs
      obtain ⟨t', ht', rfl⟩ := ht
      exact ⟨rfl, s', hs', t', ht', i, h1⟩
  · rintro ⟨rfl, s, hs, t, ht, i, h1, h2, h3⟩
    cases hb : broadcastShapes ss with
    | error e =>
      unfold broadcastShapes at hb
      split at hb
      · cases hb
      · exact hb.symm
    | ok c =>
      have := (broadcast_shapes_spec ss c).1 hb
      have a := (this.2.2 i).1 s hs
      have b := (this.2.2 i).1 t ht
      omega

/-- C05.  The two-operand form is the same function. -/
theorem broadcast_shape_eq (a b : List Nat) : broadcastShape a b = broadcastShapes [a, b] := by
  unfold broadcastShape broadcastShapes; simp [broadcastRev]

/-- C05.  The operands may be given in any order (and repeated any number of times). -/
theorem broadcast_shapes_set (ss ss' : List (List Nat)) (h : ∀ s, s ∈ ss ↔ s ∈ ss') :
    broadcastShapes ss = broadcastShapes ss' := by
  cases hb : broadcastShapes ss' with
  | ok c =>
    rw [broadcast_shapes_spec] at hb ⊢
    simpa only [IsBroadcast, h] using hb
  | error e =>
    rw [broadcast_shapes_error] at hb ⊢
    simpa only [h] using hb

/-- C05.  Grouping does not matter, including which inputs fail: broadcasting the operands `ss` first and
then the result with `ts` is broadcasting them all at once. -/
theorem broadcast_shapes_assoc (ss ts : List (List Nat)) :
    broadcastShapes (ss ++ ts) = (broadcastShapes ss).bind fun c => broadcastShapes (c :: ts) := by
  unfold broadcastShapes
  rw [List.foldl_append]
  cases hb : ss.foldl (fun acc s => acc.bind fun r => broadcastRev r s.reverse) (some []) with
  | none =>
    have : ∀ l : List (List Nat),
        l.foldl (fun acc s => acc.bind fun r => broadcastRev r s.reverse) (none : Option (List Nat)) = none := by
          intro l; induction l with
          | nil => rfl
          | cons _ _ ih => simpa using ih
    rw [this]; rfl
  | some c => simp [Except.bind, broadcastRev]

/-- C05.  Commutative, idempotent, identity `()`. -/
theorem broadcast_shape_comm (a b : List Nat) : broadcastShape a b = broadcastShape b a := by
  rw [broadcast_shape_eq, broadcast_shape_eq]
  apply broadcast_shapes_set; intro s; simp [or_comm]

theorem broadcast_shape_self (a : List Nat) : broadcastShape a a = .ok a ∧ broadcastShape [] a = .ok a := by
  constructor
  · rw [broadcast_shape_eq, broadcast_shapes_spec]
    simp [IsBroadcast]
  · simp [broadcastShape, broadcastRev]

example : broadcastShape [5, 4] [4] = .ok [5, 4] ∧ broadcastShapes [[2, 1], [8, 2, 3], [1, 1, 1, 3]] = .ok [1, 8, 2, 3] ∧
    broadcastShape [2, 1] [8, 4, 3] = .error .valueError ∧ broadcastShape [0] [1] = .ok [0] :=
  ⟨rfl, rfl, rfl, rfl⟩

end Heat
