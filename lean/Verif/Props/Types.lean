import Verif.Model.Types
import Verif.Spec.Types
/-!
# C24-C26: type promotion, result_type, casting

`Dt` is finite, so statements over all types are decided over the whole domain (`forall_dt`) and
statements over lists of operands are proved by induction.
-/
namespace Heat

theorem Dt.mem_all (t : Dt) : t ∈ Dt.all := by cases t <;> decide

/-- A decidable statement over all types holds if it holds on the complete table. -/
theorem forall_dt {p : Dt → Prop} (h : ∀ t ∈ Dt.all, p t) (t : Dt) : p t := h t t.mem_all

instance {p : Dt → Prop} [DecidablePred p] : Decidable (∀ t, p t) :=
  decidable_of_iff (∀ t ∈ Dt.all, p t) ⟨fun h t => h t t.mem_all, fun h t _ => h t⟩

/-! ## C24 -/

/-- Both types may be cast intuitively to `c`. -/
def Spec.Common (a b c : Dt) : Prop :=
  canCast a c .intuitive = .ok true ∧ canCast b c .intuitive = .ok true

instance (a b c : Dt) : Decidable (Spec.Common a b c) := by unfold Spec.Common; exact inferInstance

/-- C24: `promote_types` always succeeds, with a type to which both arguments can be cast
intuitively and such that no such type has fewer bits. -/
theorem promote_types_least : ∀ a b : Dt, ∃ c, promoteTypes a b = .ok c ∧ Spec.Common a b c ∧
    ∀ d, Spec.Common a b d → c.bits ≤ d.bits := by
  have h : ∀ a b : Dt, (promoteTypes a b).toOption.any (fun c => decide (Spec.Common a b c ∧
      ∀ d, Spec.Common a b d → c.bits ≤ d.bits)) = true := by decide +kernel
  intro a b
  have := h a b
  cases hp : promoteTypes a b with
  | error e => rw [hp] at this; simp [Except.toOption] at this
  | ok c =>
    rw [hp] at this
    simp only [Except.toOption, Option.any_some, decide_eq_true_eq] at this
    exact ⟨c, rfl, this⟩

/-- C24: the order of the arguments does not matter. -/
theorem promote_types_comm : ∀ a b : Dt, promoteTypes a b = promoteTypes b a := by decide +kernel

/-- C24: promoting a type with itself gives that type. -/
theorem promote_types_self : ∀ a : Dt, promoteTypes a a = .ok a := by decide +kernel

/-- C24: grouping does not matter. -/
theorem promote_types_assoc : ∀ a b c : Dt,
    (promoteTypes a b >>= fun x => promoteTypes x c) = (promoteTypes b c >>= promoteTypes a) := by
  decide +kernel

/-- C24: if `a` can be cast intuitively to `b`, promotion of the two never yields more bits than
`b` has. -/
theorem promote_types_bound (a b c : Dt) (h : canCast a b .intuitive = .ok true)
    (hc : promoteTypes a b = .ok c) : c.bits ≤ b.bits := by
  obtain ⟨c', h1, h2, h3⟩ := promote_types_least a b
  rw [hc] at h1; cases h1
  refine h3 b ⟨h, ?_⟩
  revert b; intro b _ _ _ _; cases b <;> rfl

example : promoteTypes .int8 .uint8 = .ok .int16 ∧ promoteTypes .int32 .float32 = .ok .float32 ∧
    promoteTypes .int64 .float32 = .ok .float64 := by decide

/-! ## C25 -/

/-- The operands in which a permutation can make no difference to the pairwise rule: `p` is closed
under the rule, which is commutative and associative on it. -/
structure Lawful (p : Operand → Prop) (f : Operand → Operand → Operand) : Prop where
  eq : ∀ a b, p a → p b → resultPair a b = .ok (f a b)
  closed : ∀ a b, p a → p b → p (f a b)
  comm : ∀ a b, p a → p b → f a b = f b a
  assoc : ∀ a b c, p a → p b → p c → f (f a b) c = f a (f b c)

theorem resultRec_lawful {p f} (L : Lawful p f) : ∀ l : List Operand, ∀ a, p a → (∀ x ∈ l, p x) →
    ∃ r, resultRec (a :: l) = .ok r ∧ p r ∧ (l = [] → r = a) ∧
      ∀ b l', l = b :: l' → ∃ r', resultRec l = .ok r' ∧ p r' ∧ r = f a r'
  | [], a, ha, _ => ⟨a, rfl, ha, fun _ => rfl, by intro b l' h; cases h⟩
  | b :: l, a, ha, hl => by
    obtain ⟨r, h1, h2, -, -⟩ := resultRec_lawful L l b (hl b (by simp)) (fun x hx => hl x (by simp [hx]))
    refine ⟨f a r, ?_, L.closed a r ha h2, by simp, ?_⟩
    · show (resultRec (b :: l) >>= fun r => resultPair a r) = _
      rw [h1]; exact L.eq a r ha h2
    · intro b' l' h; exact ⟨r, h1, h2, rfl⟩

theorem resultRec_perm {p f} (L : Lawful p f) {l l' : List Operand} (hp : l.Perm l')
    (hl : ∀ x ∈ l, p x) : resultRec l = resultRec l' := by
  induction hp with
  | nil => rfl
  | cons x h ih =>
    rename_i l₁ l₂
    have h1 := ih (fun y hy => hl y (by simp [hy]))
    cases l₁ with
    | nil => rw [List.nil_perm.1 h]
    | cons a l₁ =>
      cases l₂ with
      | nil => exact absurd (List.perm_nil.1 h) (by simp)
      | cons b l₂ =>
        show (resultRec (a :: l₁) >>= fun r => resultPair x r) = (resultRec (b :: l₂) >>= fun r => resultPair x r)
        rw [h1]
  | swap x y l =>
    have hx := hl x (by simp)
    have hy := hl y (by simp)
    have hl' : ∀ z ∈ l, p z := fun z hz => hl z (by simp [hz])
    cases l with
    | nil =>
      show resultPair y x = resultPair x y
      rw [L.eq y x hy hx, L.eq x y hx hy, L.comm y x hy hx]
    | cons a l =>
      obtain ⟨r, h1, h2, -, -⟩ := resultRec_lawful L l a (hl' a (by simp)) (fun z hz => hl' z (by simp [hz]))
      show (resultRec (a :: l) >>= fun r => resultPair x r) >>= (fun r => resultPair y r)
        = (resultRec (a :: l) >>= fun r => resultPair y r) >>= (fun r => resultPair x r)
      rw [h1]
      show (resultPair x r >>= fun r => resultPair y r) = (resultPair y r >>= fun r => resultPair x r)
      rw [L.eq x r hx h2, L.eq y r hy h2]
      show resultPair y (f x r) = resultPair x (f y r)
      rw [L.eq y _ hy (L.closed x r hx h2), L.eq x _ hx (L.closed y r hy h2), ← L.assoc y x r hy hx h2,
        ← L.assoc x y r hx hy h2, L.comm y x hy hx]
  | trans h1 h2 ih1 ih2 =>
    rw [ih1 hl, ih2 (fun x hx => hl x (h1.mem_iff.2 hx))]

/-- The result of `promote_types`, which never fails. -/
def join (a b : Dt) : Dt := match promoteTypes a b with
  | .ok t => t
  | .error _ => a

theorem join_eq : ∀ a b : Dt, promoteTypes a b = .ok (join a b) := by decide +kernel
theorem join_comm : ∀ a b : Dt, join a b = join b a := by decide +kernel
theorem join_self : ∀ a : Dt, join a a = a := by decide +kernel
theorem join_assoc : ∀ a b c : Dt, join (join a b) c = join a (join b c) := by decide +kernel
theorem join_kind : ∀ a b : Dt, a.kind = b.kind → (join a b).kind = a.kind := by decide +kernel

theorem canCast_same_kind : ∀ a b : Dt, a.kind = b.kind → canCast a b .sameKind = .ok true := by
  decide +kernel

/-- On operands of one family the rule is: lower precedence number wins, equal ones are promoted. -/
def joinPrec (a b : Operand) : Operand :=
  if a.2 < b.2 then a else if b.2 < a.2 then b else (join a.1 b.1, a.2)

theorem resultPair_kind (a b : Operand) (h : a.1.kind = b.1.kind) :
    resultPair a b = .ok (joinPrec a b) := by
  obtain ⟨a, i⟩ := a
  obtain ⟨b, j⟩ := b
  simp only [resultPair, joinPrec] at *
  by_cases hab : a = b
  · subst hab
    rw [if_pos rfl]
    by_cases h1 : i < j
    · rw [if_pos h1, Nat.min_eq_left (by omega)]
    · rw [if_neg h1]
      by_cases h2 : j < i
      · rw [if_pos h2, Nat.min_eq_right (by omega)]
      · rw [if_neg h2, join_self, Nat.min_eq_left (by omega)]
  · rw [if_neg hab]
    by_cases hij : i = j
    · subst hij; simp [join_eq]
    · rw [if_neg hij, if_pos (canCast_same_kind a b h)]
      by_cases h1 : i < j
      · rw [if_pos h1, if_pos h1, Nat.min_eq_left (by omega)]
      · rw [if_neg h1, if_neg h1, if_pos (by omega), Nat.min_eq_right (by omega)]

theorem lawful_kind (k : Kind) : Lawful (fun a => a.1.kind = k) joinPrec where
  eq a b ha hb := resultPair_kind a b (ha.trans hb.symm)
  closed a b ha hb := by
    unfold joinPrec
    split
    · exact ha
    · split
      · exact hb
      · show (join a.1 b.1).kind = k
        rw [join_kind _ _ (ha.trans hb.symm), ha]
  comm a b ha hb := by
    unfold joinPrec
    by_cases h1 : a.2 < b.2
    · rw [if_pos h1, if_neg (by omega), if_pos h1]
    · rw [if_neg h1]
      by_cases h2 : b.2 < a.2
      · rw [if_pos h2, if_pos h2]
      · rw [if_neg h2, if_neg h2, if_neg h1, join_comm, show a.2 = b.2 by omega]
  assoc a b c ha hb hc := by
    obtain ⟨a, i⟩ := a
    obtain ⟨b, j⟩ := b
    obtain ⟨c, k⟩ := c
    simp only [joinPrec]
    have := join_assoc a b c
    have hs := join_self
    repeat' split
    all_goals first
      | (exfalso; omega)
      | simp_all
      | (simp_all; omega)

theorem lawful_prec (k : Nat) : Lawful (fun a => a.2 = k) (fun a b => (join a.1 b.1, a.2)) where
  eq a b ha hb := by
    unfold resultPair
    by_cases h : a.1 = b.1
    · rw [if_pos h, ← h, join_self, ha, hb, Nat.min_self]
    · rw [if_neg h, if_pos (ha.trans hb.symm), join_eq]
  closed a b ha hb := ha
  comm a b ha hb := by simp only [join_comm a.1 b.1, ha, hb]
  assoc a b c ha hb hc := by simp only [join_assoc]

/-- C25 for operands of one category (all arrays, or all types, or all 0-d arrays, or all Python
scalars), any number of them: the order does not matter. -/
theorem result_type_order_category_partial (k : Nat) (l l' : List Operand) (h : l.Perm l')
    (hk : ∀ x ∈ l, x.2 = k) : resultType l = resultType l' := by
  unfold resultType; rw [resultRec_perm (lawful_prec k) h hk]

/-- C25 for operands of one family of types (all integers, all floats, all complex, all bool), of any
categories: the order does not matter. -/
theorem result_type_order_kind_partial (k : Kind) (l l' : List Operand) (h : l.Perm l')
    (hk : ∀ x ∈ l, x.1.kind = k) : resultType l = resultType l' := by
  unfold resultType; rw [resultRec_perm (lawful_kind k) h hk]

theorem resultPair_comm (a b : Operand) : resultPair a b = resultPair b a := by
  obtain ⟨a, i⟩ := a
  obtain ⟨b, j⟩ := b
  by_cases hk : a.kind = b.kind
  · rw [resultPair_kind _ _ hk, resultPair_kind _ _ hk.symm,
      (lawful_kind a.kind).comm (a, i) (b, j) rfl hk.symm]
  · have hne : a ≠ b := fun h => hk (h ▸ rfl)
    have h1 : ∀ a b : Dt, a.kind ≠ b.kind → ¬ canCast a b .sameKind = .ok true := by decide +kernel
    have h2 : ∀ a b : Dt, a.kind ≠ b.kind → a.kind.priority ≠ b.kind.priority := by decide +kernel
    simp only [resultPair, if_neg hne, if_neg (Ne.symm hne), if_neg (h1 a b hk),
      if_neg (h1 b a (Ne.symm hk))]
    by_cases hij : i = j
    · subst hij; rw [if_pos rfl, if_pos rfl, promote_types_comm]
    · rw [if_neg hij, if_neg (Ne.symm hij)]
      have := h2 a b hk
      by_cases h : a.kind.priority < b.kind.priority
      · rw [if_pos h, if_neg (by omega), Nat.min_comm]
      · rw [if_neg h, if_pos (by omega), Nat.min_comm]

/-- C25 for at most two operands: the order does not matter. -/
theorem result_type_order_two_partial (a b : Operand) : resultType [a, b] = resultType [b, a] := by
  show (resultPair a b >>= fun r => pure r.1) = (resultPair b a >>= fun r => pure r.1)
  rw [resultPair_comm]

/-- `result_type` of a non-empty list never fails. -/
theorem result_type_total (a : Operand) (l : List Operand) : ∃ t, resultType (a :: l) = .ok t := by
  suffices h : ∃ r, resultRec (a :: l) = .ok r by
    obtain ⟨r, h⟩ := h; exact ⟨r.1, by simp [resultType, h, pure, Except.pure, bind, Except.bind]⟩
  induction l generalizing a with
  | nil => exact ⟨a, rfl⟩
  | cons b l ih =>
    obtain ⟨r, h⟩ := ih b
    have : ∃ s, resultPair a r = .ok s := by
      unfold resultPair
      repeat' split
      all_goals first | exact ⟨_, rfl⟩ | skip
      rename_i h; rw [join_eq] at h; cases h
    obtain ⟨s, hs⟩ := this
    exact ⟨s, by show (resultRec (b :: l) >>= fun r => resultPair a r) = _; rw [h]; exact hs⟩

/-- C25 is false in general: with a float16 array, an int8 array and a Python float the result
depends on the order (`result_type(f16, i8, 1.0)` is float32, `result_type(i8, f16, 1.0)` float16). -/
theorem result_type_order_violated : ∃ l l' : List Operand, l.Perm l' ∧ resultType l ≠ resultType l' :=
  ⟨[(.float16, 0), (.int8, 0), (.float32, 3)], [(.int8, 0), (.float16, 0), (.float32, 3)],
    List.Perm.swap .., by decide⟩

example : resultType [(.int32, 0), (.int32, 3)] = .ok .int32 ∧
    resultType [(.float32, 1), (.int8, 2)] = .ok .float32 ∧
    resultType [(.int64, 1), (.float32, 1)] = .ok .float64 := by decide

/-! ## C26 -/

/-- C26: a type can be cast safely to itself. -/
theorem can_cast_safe_refl : ∀ a : Dt, canCast a a .safe = .ok true := by decide +kernel

/-- C26: safe casts compose. -/
theorem can_cast_safe_trans : ∀ a b c : Dt, canCast a b .safe = .ok true →
    canCast b c .safe = .ok true → canCast a c .safe = .ok true := by decide +kernel

/-- C26: safe casts are antisymmetric. -/
theorem can_cast_safe_antisymm : ∀ a b : Dt, canCast a b .safe = .ok true →
    canCast b a .safe = .ok true → a = b := by decide +kernel

/-- C26: `no` ⊆ `safe` ⊆ `intuitive` ⊆ `unsafe`, and `no` ⊆ `same_kind`. -/
theorem can_cast_hierarchy : ∀ a b : Dt,
    (canCast a b .no = .ok true → canCast a b .safe = .ok true ∧ canCast a b .sameKind = .ok true) ∧
    (canCast a b .safe = .ok true → canCast a b .intuitive = .ok true) ∧
    canCast a b .unsafe' = .ok true := by decide +kernel

/-- `same_kind` is an equivalence relation. -/
theorem can_cast_same_kind_equiv : ∀ a b c : Dt, canCast a a .sameKind = .ok true ∧
    (canCast a b .sameKind = .ok true → canCast b a .sameKind = .ok true) ∧
    (canCast a b .sameKind = .ok true → canCast b c .sameKind = .ok true →
      canCast a c .sameKind = .ok true) := by decide +kernel

theorem floatHolds_of_small {p emax : Nat} (h : p ≤ emax + 1) {n : Int} (hn : n.natAbs < 2 ^ p) :
    Spec.FloatHolds p emax n := ⟨n.natAbs, 0, by simp, hn, by omega⟩

theorem floatHolds_mono {p q e f : Nat} (hp : p ≤ q) (he : e + q ≤ f + p) {n : Int}
    (h : Spec.FloatHolds p e n) : Spec.FloatHolds q f n := by
  obtain ⟨m, k, h1, h2, h3⟩ := h
  exact ⟨m, k, h1, Nat.lt_of_lt_of_le h2 (Nat.pow_le_pow_right (by omega) hp), by omega⟩

/-- C26: a safe cast keeps every integer value exactly, except for int64 to float64/complex128. -/
theorem can_cast_safe_exact_partial (a b : Dt) (h : canCast a b .safe = .ok true)
    (hex : ¬ (a = .int64 ∧ (b = .float64 ∨ b = .complex128))) (n : Int) (hn : Spec.Holds' a n) :
    Spec.Holds' b n := by
  cases a <;> cases b <;>
    first
    | exact hn
    | (exfalso; exact absurd h (by decide))
    | (exfalso; exact hex (by decide))
    | (simp only [Spec.Holds'] at hn ⊢; omega)
    | (simp only [Spec.Holds'] at hn ⊢
       refine floatHolds_of_small (by omega) ?_
       omega)
    | exact floatHolds_mono (by omega) (by omega) hn

/-- C26 fails at int64 → float64: the documentation promises complete precision for `safe`, the table
lists the cast, and 2^53 + 1 is an int64 that no float64 equals. -/
theorem can_cast_safe_exact_violated : canCast .int64 .float64 .safe = .ok true ∧
    Spec.Holds' .int64 (2 ^ 53 + 1) ∧ ¬ Spec.Holds' .float64 (2 ^ 53 + 1) := by
  refine ⟨by decide, by simp only [Spec.Holds']; omega, ?_⟩
  rintro ⟨m, e, h1, h2, -⟩
  have h3 : (2 ^ 53 + 1 : Int).natAbs = 2 ^ 53 + 1 := by decide
  rw [h3] at h1
  cases e with
  | zero => omega
  | succ e =>
    rw [show m * 2 ^ (e + 1) = m * 2 ^ e * 2 by rw [Nat.pow_succ, Nat.mul_assoc]] at h1
    omega

example : Spec.Holds' .float16 2048 ∧ canCast .int16 .float32 .safe = .ok true := by
  exact ⟨⟨1024, 1, by decide, by decide, by decide⟩, by decide⟩

/-! ## Type codes -/

/-- Looking a type code up gives the same answer whatever the (unspecified) order in which the
registered types are listed. -/
theorem canonical_order (o₁ o₂ : List Dt) (h₁ : ∀ t, t ∈ o₁) (h₂ : ∀ t, t ∈ o₂) (s : String) :
    canonical o₁ s = canonical o₂ s := by
  have disj : ∀ a b : Dt, a ≠ b → ∀ s ∈ a.codes, s ∉ b.codes := by decide +kernel
  have key : ∀ o : List Dt, (∀ t, t ∈ o) → ∀ t, (o.find? fun t => t.codes.contains s) = some t ↔
      s ∈ t.codes := by
    intro o ho t
    constructor
    · intro h; simpa using List.find?_some h
    · intro h
      cases hf : o.find? fun t => t.codes.contains s with
      | none =>
        have := List.find?_eq_none.1 hf t (ho t)
        simp [h] at this
      | some u =>
        have hu : s ∈ u.codes := by simpa using List.find?_some hf
        by_cases e : u = t
        · rw [e]
        · exact absurd h (disj u t e s hu)
  unfold canonical
  cases h : o₁.find? fun t => t.codes.contains s with
  | some t => rw [(key o₂ h₂ t).2 ((key o₁ h₁ t).1 h)]
  | none =>
    cases h' : o₂.find? fun t => t.codes.contains s with
    | none => rfl
    | some t => rw [(key o₁ h₁ t).2 ((key o₂ h₂ t).1 h')] at h; cases h

/-- The short-hand name of every type except `bool` names that type. -/
theorem char_roundtrip_partial (o : List Dt) (h : ∀ t, t ∈ o) (t : Dt) (ht : t ≠ .bool) :
    canonical o t.char = .ok t := by
  rw [canonical_order o Dt.all h Dt.mem_all]
  revert t; decide +kernel

/-- The short-hand name of `bool` is `u1`, which names `uint8`. -/
theorem char_roundtrip_violated : canonical Dt.all Dt.bool.char = .ok .uint8 := by decide +kernel

end Heat
