import Verif.Model.ArrayApi
import Mathlib.Tactic.SplitIfs
import Mathlib.Data.List.Perm.Basic
/-!
# C184: Array API types; C185: Array API indices
-/
namespace Heat
namespace Spec

/-- The integers of an integer type. -/
def intRange : Dt → Option (Int × Int)
  | .int8 => some (-2 ^ 7, 2 ^ 7 - 1)
  | .int16 => some (-2 ^ 15, 2 ^ 15 - 1)
  | .int32 => some (-2 ^ 31, 2 ^ 31 - 1)
  | .int64 => some (-2 ^ 63, 2 ^ 63 - 1)
  | .uint8 => some (0, 2 ^ 8 - 1)
  | _ => none

/-- Floating types: bits of a component, and whether complex. -/
def floatKind : Dt → Option (Nat × Bool)
  | .float16 => some (16, false)
  | .float32 => some (32, false)
  | .float64 => some (64, false)
  | .complex64 => some (32, true)
  | .complex128 => some (64, true)
  | _ => none

/-- Every value of the first type is one of the second, within the same kind (booleans, integers, floating point numbers). -/
def Embeds (a b : Dt) : Bool :=
  match intRange a, intRange b, floatKind a, floatKind b with
  | some r, some s, _, _ => s.1 ≤ r.1 && r.2 ≤ s.2
  | _, _, some r, some s => r.1 ≤ s.1 && (!r.2 || s.2)
  | none, none, none, none => true
  | _, _, _, _ => false

/-- The least of the types of the namespace that has the values of all types of the list. -/
def LeastFor (l : List Dt) (c : Dt) : Prop := c ∈ apiAll ∧ (∀ t ∈ l, Embeds t c = true) ∧ ∀ d ∈ apiAll, (∀ t ∈ l, Embeds t d = true) → Embeds c d = true

end Spec
open Spec

theorem embeds_refl (a : Dt) : Embeds a a = true := by cases a <;> decide
theorem embeds_trans {a b c : Dt} : Embeds a b = true → Embeds b c = true → Embeds a c = true := by cases a <;> cases b <;> cases c <;> decide
theorem embeds_antisymm {a b : Dt} (h1 : Embeds a b = true) (h2 : Embeds b a = true) : a = b := by revert h1 h2; cases a <;> cases b <;> decide

/-- The statement about the table as a check. -/
def joinCheck (a b : Dt) : Bool :=
  match apiResult a b with
  | .ok c => decide (c ∈ apiAll) && Embeds a c && Embeds b c && apiAll.all fun d => !(Embeds a d && Embeds b d) || Embeds c d
  | .error e => decide (e = .typeError) && apiAll.all fun d => !(Embeds a d && Embeds b d)

theorem joinCheck_all {a b : Dt} (ha : a ∈ apiAll) (hb : b ∈ apiAll) : joinCheck a b = true := by
  revert ha hb
  cases a <;> cases b <;> decide

/-- The table in one statement: for types of the namespace the entry is an upper bound that embeds into every other one; without entry there is no upper bound. -/
theorem apiResult_join {a b : Dt} (ha : a ∈ apiAll) (hb : b ∈ apiAll) :
    match apiResult a b with
    | .ok c => c ∈ apiAll ∧ Embeds a c = true ∧ Embeds b c = true ∧ ∀ d ∈ apiAll, Embeds a d = true → Embeds b d = true → Embeds c d = true
    | .error e => e = .typeError ∧ ∀ d ∈ apiAll, ¬ (Embeds a d = true ∧ Embeds b d = true) := by
  have h := joinCheck_all ha hb
  unfold joinCheck at h
  split at h
  · rename_i c hc
    simp only [Bool.and_eq_true, decide_eq_true_eq, List.all_eq_true, Bool.or_eq_true, Bool.not_eq_true'] at h
    refine ⟨h.1.1.1, h.1.1.2, h.1.2, fun d hd h1 h2 => ?_⟩
    rcases h.2 d hd with c | c
    · rw [h1, h2] at c
      cases c
    · exact c
  · rename_i e he
    simp only [Bool.and_eq_true, decide_eq_true_eq, List.all_eq_true, Bool.not_eq_true'] at h
    refine ⟨h.1, fun d hd c => ?_⟩
    have := h.2 d hd
    rw [c.1, c.2] at this
    cases this

theorem apiFold_spec : ∀ (l : List Dt) {t : Dt}, t ∈ apiAll → (∀ u ∈ l, u ∈ apiAll) →
    match apiFold t l with
    | .ok c => LeastFor (t :: l) c
    | .error e => e = .typeError ∧ ∀ d ∈ apiAll, ¬ ∀ u ∈ t :: l, Embeds u d = true
  | [], t, ht, _ => by
    unfold apiFold
    refine ⟨ht, ?_, ?_⟩
    · intro u hu
      rw [List.mem_singleton.mp hu]
      exact embeds_refl t
    · intro d _ h
      exact h t (List.mem_singleton.mpr rfl)
  | u :: l, t, ht, hl => by
    have hj := apiResult_join ht (hl u List.mem_cons_self)
    unfold apiFold
    cases h : apiResult t u with
    | error e =>
      rw [h] at hj
      dsimp only at hj ⊢
      refine ⟨hj.1, fun d hd c => hj.2 d hd ⟨c t List.mem_cons_self, c u (List.mem_cons_of_mem _ List.mem_cons_self)⟩⟩
    | ok v =>
      rw [h] at hj
      dsimp only at hj ⊢
      have ih := apiFold_spec l hj.1 fun w hw => hl w (List.mem_cons_of_mem _ hw)
      cases h2 : apiFold v l with
      | ok c =>
        rw [h2] at ih
        dsimp only at ih ⊢
        obtain ⟨h3, h4, h5⟩ := ih
        have hv := h4 v List.mem_cons_self
        refine ⟨h3, ?_, ?_⟩
        · intro w hw
          rcases List.mem_cons.mp hw with rfl | hw
          · exact embeds_trans hj.2.1 hv
          · rcases List.mem_cons.mp hw with rfl | hw
            · exact embeds_trans hj.2.2.1 hv
            · exact h4 w (List.mem_cons_of_mem _ hw)
        · intro d hd hall
          refine h5 d hd fun w hw => ?_
          rcases List.mem_cons.mp hw with rfl | hw
          · exact hj.2.2.2 d hd (hall t List.mem_cons_self) (hall u (List.mem_cons_of_mem _ List.mem_cons_self))
          · exact hall w (List.mem_cons_of_mem _ (List.mem_cons_of_mem _ hw))
      | error e =>
        rw [h2] at ih
        dsimp only at ih ⊢
        refine ⟨ih.1, fun d hd hall => ih.2 d hd fun w hw => ?_⟩
        rcases List.mem_cons.mp hw with rfl | hw
        · exact hj.2.2.2 d hd (hall t List.mem_cons_self) (hall u (List.mem_cons_of_mem _ List.mem_cons_self))
        · exact hall w (List.mem_cons_of_mem _ (List.mem_cons_of_mem _ hw))

/-- **C184.**  `result_type` of any number of types is the least type that has all their values; if there is none (booleans, integers and floating point numbers mixed) it raises TypeError. -/
theorem api_result_type_spec {l : List Dt} (hl : ∀ t ∈ l, t ∈ apiAll) (hne : l ≠ []) (c : Dt) : apiResultType l = .ok c ↔ LeastFor l c := by
  obtain ⟨t, l, rfl⟩ : ∃ t l', l = t :: l' := List.exists_cons_of_ne_nil hne
  have e : apiResultType (t :: l) = apiFold t l := by
    unfold apiResultType
    rw [if_neg]
    simpa using ⟨hl t List.mem_cons_self, fun u hu => hl u (List.mem_cons_of_mem _ hu)⟩
  have h := apiFold_spec l (hl t List.mem_cons_self) fun u hu => hl u (List.mem_cons_of_mem _ hu)
  rw [e]
  cases h2 : apiFold t l with
  | ok d =>
    rw [h2] at h
    dsimp only at h
    rw [Except.ok.injEq]
    constructor
    · rintro rfl
      exact h
    · intro h'
      exact embeds_antisymm (h.2.2 c h'.1 h'.2.1) (h'.2.2 d h.1 h.2.1)
  | error x =>
    rw [h2] at h
    dsimp only at h
    constructor
    · intro c
      cases c
    · intro h'
      exact absurd h'.2.1 (h.2 c h'.1)

/-- **C184.**  The order of the arguments does not matter, also not for the error. -/
theorem api_result_type_perm {l l' : List Dt} (hp : l.Perm l') (hl : ∀ t ∈ l, t ∈ apiAll) : apiResultType l = apiResultType l' := by
  have hl' : ∀ t ∈ l', t ∈ apiAll := fun t h => hl t (hp.mem_iff.mpr h)
  by_cases hne : l = []
  · subst hne
    rw [List.nil_perm.mp hp]
  · have hne' : l' ≠ [] := fun h => hne (by rw [h] at hp; exact List.perm_nil.mp hp)
    have hiff : ∀ c, apiResultType l = .ok c ↔ apiResultType l' = .ok c := by
      intro c
      rw [api_result_type_spec hl hne, api_result_type_spec hl' hne']
      unfold LeastFor
      simp only [hp.mem_iff]
    have herr : ∀ {k : List Dt}, (∀ t ∈ k, t ∈ apiAll) → k ≠ [] → ∀ e, apiResultType k = .error e → e = .typeError := by
      intro k hk hkne e he
      obtain ⟨t, k, rfl⟩ := List.exists_cons_of_ne_nil hkne
      have h := apiFold_spec k (hk t List.mem_cons_self) fun u hu => hk u (List.mem_cons_of_mem _ hu)
      unfold apiResultType at he
      rw [if_neg (by simpa using ⟨hk t List.mem_cons_self, fun u hu => hk u (List.mem_cons_of_mem _ hu)⟩)] at he
      dsimp only at he
      rw [he] at h
      exact h.1
    cases h1 : apiResultType l with
    | ok c => exact ((hiff c).mp h1).symm
    | error e =>
      cases h2 : apiResultType l' with
      | ok c =>
        rw [(hiff c).mpr h2] at h1
        cases h1
      | error e' => rw [herr hl hne e h1, herr hl' hne' e' h2]

/-- **C184.**  `can_cast` says exactly whether all values are kept within the kind. -/
theorem api_can_cast_spec {a b : Dt} (ha : a ∈ apiAll) (hb : b ∈ apiAll) : apiCanCast a b = .ok (Embeds a b) := by
  revert ha hb
  cases a <;> cases b <;> decide

/-- **C184.**  `float16` is refused. -/
theorem api_float16 (l : List Dt) (h : Dt.float16 ∈ l) : apiResultType l = .error .typeError := by
  unfold apiResultType
  rw [if_pos]
  rw [List.any_eq_true]
  exact ⟨_, h, by decide⟩

theorem apiNormalize_prec (n m : Nat) : apiPrec (apiNormalize n m).1 = apiPrec (apiNormalize n m).2 := by
  unfold apiNormalize apiPrec
  split_ifs <;> simp_all

theorem resultType_pair {a b c : Dt} (p : Nat) (h : apiResult a b = .ok c) : resultType [(a, p), (b, p)] = .ok c := by
  have e : resultType [(a, p), (b, p)] = match resultPair (a, p) (b, p) with | .ok r => .ok r.1 | .error e => .error e := by
    unfold resultType resultRec resultRec
    simp only [bind, Except.bind, pure, Except.pure]
    cases resultPair (a, p) (b, p) <;> rfl
  rw [e]
  unfold resultPair
  dsimp only
  by_cases hab : a = b
  · subst hab
    rw [if_pos rfl]
    have : a = c := by
      revert h
      cases a <;> cases c <;> decide
    rw [this]
  · rw [if_neg hab, if_pos rfl]
    have : promoteTypes a b = .ok c := by
      revert h hab
      cases a <;> cases b <;> cases c <;> decide
    rw [this]

/-- **C184.**  Operators on two arrays: refused exactly if a type is not of the category or the types are of different kinds; otherwise the result has the least type that has all values, also if an operand has no axes. -/
theorem api_operator_arrays (cat : ApiCat) (t u : Dt) (n m : Nat) (c : Dt) : apiOperator cat t n (.arr u m) = .ok c ↔ t ∈ cat.types ∧ u ∈ cat.types ∧ LeastFor [t, u] c := by
  have hsub : ∀ t, t ∈ cat.types → t ∈ apiAll := by
    intro t h
    revert h
    cases cat <;> cases t <;> decide
  unfold apiOperator apiCheck
  by_cases ht : t ∈ cat.types
  · by_cases hu : u ∈ cat.types
    · rw [if_neg (not_not.mpr ht)]
      dsimp only
      rw [if_neg (not_not.mpr hu)]
      have hr := api_result_type_spec (l := [t, u]) (by simpa using ⟨hsub t ht, hsub u hu⟩) (by simp) c
      have e : apiResultType [t, u] = match apiResult t u with | .ok v => .ok v | .error e => .error e := by
        unfold apiResultType
        rw [if_neg (by simpa using ⟨hsub t ht, hsub u hu⟩)]
        rfl
      rw [e] at hr
      cases h : apiResult t u with
      | error x =>
        rw [h] at hr
        dsimp only at hr ⊢
        constructor
        · intro h'
          cases h'
        · intro h'
          exact absurd (hr.mpr h'.2.2) (by simp)
      | ok v =>
        rw [h] at hr
        dsimp only at hr ⊢
        rw [apiNormalize_prec, resultType_pair _ h]
        exact ⟨fun h' => ⟨ht, hu, hr.mp h'⟩, fun h' => hr.mpr h'.2.2⟩
    · rw [if_neg (not_not.mpr ht)]
      dsimp only
      rw [if_pos hu]
      exact ⟨fun h => (by cases h), fun h => absurd h.2.1 hu⟩
  · rw [if_pos ht]
    exact ⟨fun h => (by cases h), fun h => absurd h.1 ht⟩

/-- **C184.**  Operators with a Python scalar keep the type of the array; booleans only with booleans, integers with all others, floating point numbers with floating point arrays. -/
theorem api_operator_scalar_partial (cat : ApiCat) (t : Dt) (n : Nat) (o : ApiOther) (ho : o = .bool ∨ o = .int ∨ o = .float) (c : Dt) :
    apiOperator cat t n o = .ok c ↔ t ∈ cat.types ∧ c = t ∧ match o with | .bool => t = .bool | .int => t ≠ .bool | _ => (floatKind t).isSome = true := by
  by_cases ht : t ∈ cat.types
  · have hs : (apiResult t t = .ok t) := by
      revert ht
      cases cat <;> cases t <;> decide
    have h16 : t ≠ .float16 := by
      rintro rfl
      revert ht
      cases cat <;> decide
    have hops : apiOperator cat t n o = match promoteScalar t o with | .ok _ => .ok t | .error e => .error e := by
      have hx : ∀ x, promoteScalar t o = .ok x → x = (t, 0) := by
        intro x hx
        rcases ho with rfl | rfl | rfl <;> unfold promoteScalar at hx <;> dsimp only at hx <;> split_ifs at hx <;> rw [Except.ok.injEq] at hx <;> exact hx.symm
      have hc : apiCheck cat t o = match promoteScalar t o with | .ok x => (match apiResult t x.1 with | .ok _ => .ok (some x) | .error e => .error e) | .error e => .error e := by
        unfold apiCheck
        rw [if_neg (not_not.mpr ht)]
        rcases ho with rfl | rfl | rfl <;> rfl
      unfold apiOperator
      rw [hc]
      cases h : promoteScalar t o with
      | error e => rfl
      | ok x =>
        rw [hx x h]
        dsimp only
        rw [hs]
        dsimp only
        rw [apiNormalize_prec, resultType_pair _ hs]
    rw [hops]
    rcases ho with rfl | rfl | rfl
    · dsimp only [promoteScalar]
      by_cases hb : t = .bool
      · rw [if_neg (by rw [hb]; decide)]
        dsimp only
        rw [Except.ok.injEq]
        exact ⟨fun h => ⟨ht, h.symm, hb⟩, fun h => h.2.1.symm⟩
      · rw [if_pos (by unfold ApiCat.types; simpa using hb)]
        exact ⟨fun h => (by cases h), fun h => absurd h.2.2 hb⟩
    · dsimp only [promoteScalar]
      by_cases hb : t = .bool
      · rw [if_pos (by rw [hb]; decide)]
        exact ⟨fun h => (by cases h), fun h => absurd hb h.2.2⟩
      · rw [if_neg (by unfold ApiCat.types; simpa using hb)]
        dsimp only
        rw [Except.ok.injEq]
        exact ⟨fun h => ⟨ht, h.symm, hb⟩, fun h => h.2.1.symm⟩
    · dsimp only [promoteScalar]
      by_cases hb : (floatKind t).isSome = true
      · rw [if_neg (by revert hb h16; cases t <;> decide)]
        dsimp only
        rw [Except.ok.injEq]
        exact ⟨fun h => ⟨ht, h.symm, hb⟩, fun h => h.2.1.symm⟩
      · rw [if_pos (by revert hb h16; cases t <;> decide)]
        exact ⟨fun h => (by cases h), fun h => absurd h.2.2 hb⟩
  · unfold apiOperator apiCheck
    rw [if_pos ht]
    exact ⟨fun h => (by cases h), fun h => absurd h.1 ht⟩

/-- **C184, defect.**  Python's complex numbers are refused, also with complex arrays. -/
theorem api_complex_scalar_violated (cat : ApiCat) (t : Dt) (n : Nat) : apiOperator cat t n .other = .error .typeError := by
  unfold apiOperator apiCheck
  by_cases ht : t ∈ cat.types
  · rw [if_neg (not_not.mpr ht)]
  · rw [if_pos ht]

/-- **C184, defect.**  The category "real floating-point" has complex types. -/
theorem api_real_floating_violated : Dt.complex64 ∈ ApiCat.realFloating.types ∧ ApiCat.realFloating.types = ApiCat.floating.types := by decide

/-- **C184.**  The other categories are exactly the types their names say, among the ten types of the namespace. -/
theorem api_categories (t : Dt) : (t ∈ ApiCat.all.types ↔ t ≠ .float16) ∧ (t ∈ ApiCat.boolean.types ↔ t.kind = .bool) ∧ (t ∈ ApiCat.integer.types ↔ t.kind = .integer) ∧
    (t ∈ ApiCat.integerOrBool.types ↔ t.kind = .bool ∨ t.kind = .integer) ∧ (t ∈ ApiCat.complexFloating.types ↔ t.kind = .complex) ∧
    (t ∈ ApiCat.floating.types ↔ t ≠ .float16 ∧ (t.kind = .floating ∨ t.kind = .complex)) ∧ (t ∈ ApiCat.realNumeric.types ↔ t ≠ .float16 ∧ (t.kind = .integer ∨ t.kind = .floating)) ∧
    (t ∈ ApiCat.numeric.types ↔ t ≠ .float16 ∧ t.kind ≠ .bool) := by
  cases t <;> decide

/-! ## Indices -/

namespace Spec

/-- The axes of the entries of an index without ellipsis that starts at axis `a`: new axes take none. -/
def BoundsOk (shape : List Nat) : Nat → List ApiKey → Prop
  | _, [] => True
  | a, .newaxis :: l => BoundsOk shape a l
  | a, .slice s e :: l => (∀ side, shape[a]? = some side → (∀ v, s = some v → -(side : Int) ≤ v ∧ v ≤ side) ∧ (∀ v, e = some v → -(side : Int) ≤ v ∧ v ≤ side)) ∧ BoundsOk shape (a + 1) l
  | a, _ :: l => BoundsOk shape (a + 1) l

/-- Integers, slices and new axes. -/
def Basic (l : List ApiKey) : Prop := ∀ k ∈ l, match k with | .int _ => True | .slice _ _ => True | .newaxis => True | _ => False

/-- The number of axes taken. -/
def axesTaken (l : List ApiKey) : Nat := (l.filter ApiKey.single).length

end Spec

theorem boundOk_iff (side : Nat) (o : Option Int) : boundOk side o = true ↔ ∀ v, o = some v → -(side : Int) ≤ v ∧ v ≤ side := by
  cases o with
  | none => simp [boundOk]
  | some v => simp [boundOk]

theorem bounds_zip (shape : List Nat) : ∀ (l : List ApiKey) (a : Nat), Spec.Basic l → ((((l.filter ApiKey.single).zip (shape.drop a)).all fun p => entryOk false p.1 p.2) = true ↔ Spec.BoundsOk shape a l)
  | [], a, _ => by simp [Spec.BoundsOk]
  | k :: l, a, h => by
    have hl : Spec.Basic l := fun k' hk' => h k' (List.mem_cons_of_mem _ hk')
    have hk := h k List.mem_cons_self
    have ih := bounds_zip shape l
    cases k with
    | newaxis =>
      rw [List.filter_cons_of_neg (by simp [ApiKey.single])]
      exact ih a hl
    | int i =>
      rw [List.filter_cons_of_pos (by simp [ApiKey.single])]
      show _ ↔ Spec.BoundsOk shape (a + 1) l
      rw [← ih (a + 1) hl]
      cases hd : shape.drop a with
      | nil =>
        have : shape.drop (a + 1) = [] := by rw [← List.drop_drop, hd]; rfl
        rw [this]
        simp
      | cons side rest =>
        have : shape.drop (a + 1) = rest := by rw [← List.drop_drop, hd]; rfl
        rw [this, List.zip_cons_cons, List.all_cons]
        simp [entryOk]
    | slice s e =>
      rw [List.filter_cons_of_pos (by simp [ApiKey.single])]
      show _ ↔ _ ∧ Spec.BoundsOk shape (a + 1) l
      rw [← ih (a + 1) hl]
      cases hd : shape.drop a with
      | nil =>
        have h1 : shape.drop (a + 1) = [] := by rw [← List.drop_drop, hd]; rfl
        have h2 : shape[a]? = none := by
          rw [List.getElem?_eq_none]
          exact List.drop_eq_nil_iff.mp hd
        rw [h1, h2]
        simp
      | cons side rest =>
        have h1 : shape.drop (a + 1) = rest := by rw [← List.drop_drop, hd]; rfl
        have h2 : shape[a]? = some side := by
          have : (shape.drop a)[0]? = some side := by rw [hd]; rfl
          rwa [List.getElem?_drop, Nat.add_zero] at this
        rw [h1, h2, List.zip_cons_cons, List.all_cons, Bool.and_eq_true]
        refine and_congr_left fun _ => ?_
        unfold entryOk
        dsimp only
        rw [Bool.and_eq_true, boundOk_iff, boundOk_iff]
        constructor
        · rintro h' sd hsd
          rw [Option.some.injEq] at hsd
          subst hsd
          exact h'
        · intro h'
          exact h' side rfl
    | ellipsis => exact absurd hk id
    | arr o m n => exact absurd hk id
    | bad => exact absurd hk id

theorem basic_facts {l : List ApiKey} (h : Spec.Basic l) : ApiKey.bad ∉ l ∧ ApiKey.ellipsis ∉ l ∧ (l.filter ApiKey.single).any ApiKey.isMask = false := by
  refine ⟨fun c => h _ c, fun c => h _ c, ?_⟩
  rw [List.any_eq_false]
  intro k hk
  have := h k (List.mem_of_mem_filter hk)
  cases k <;> simp_all [ApiKey.isMask]

theorem entryOk_basic {l : List ApiKey} (h : Spec.Basic l) (b : Bool) (sh : List Nat) : (((l.filter ApiKey.single).zip sh).all fun p => entryOk b p.1 p.2) = ((l.filter ApiKey.single).zip sh).all fun p => entryOk false p.1 p.2 := by
  rw [Bool.eq_iff_iff, List.all_eq_true, List.all_eq_true]
  refine forall_congr' fun p => forall_congr' fun hp => ?_
  have := h p.1 (List.mem_of_mem_filter (List.of_mem_zip hp).1)
  cases hk : p.1 with
  | arr o m n => rw [hk] at this; exact absurd this id
  | _ => rfl

/-- **C185.**  An index of integers, slices and new axes is accepted exactly if it takes all axes (or more, which the DNDarray refuses) and every bound of a slice is within its own axis, counted without the new axes. -/
theorem validate_basic {shape : List Nat} {key : List ApiKey} (h : Spec.Basic key) : validateIndex shape key = .ok () ↔ shape.length ≤ Spec.axesTaken key ∧ Spec.BoundsOk shape 0 key := by
  obtain ⟨h1, h2, h3⟩ := basic_facts h
  unfold validateIndex
  dsimp only
  rw [if_neg h1, if_neg (by rw [List.count_eq_zero_of_not_mem h2]; omega)]
  have hs : indexedShape shape key = shape.drop 0 := by
    unfold indexedShape
    rw [if_neg h2, List.drop_zero]
  rw [hs, entryOk_basic h]
  unfold Spec.axesTaken
  by_cases hl : (key.filter ApiKey.single).length < shape.length
  · rw [if_pos ⟨h2, h3, hl⟩]
    exact ⟨fun c => (by cases c), fun c => absurd c.1 (by omega)⟩
  · rw [if_neg (fun c => hl c.2.2)]
    rw [← bounds_zip shape key 0 h]
    split_ifs with c
    · exact ⟨fun _ => ⟨by omega, c⟩, fun _ => rfl⟩
    · exact ⟨fun c' => (by cases c'), fun c' => absurd c'.2 c⟩

theorem idxOf_ellipsis {pre post : List ApiKey} (h : Spec.Basic pre) : ((pre ++ ApiKey.ellipsis :: post).filter fun k => k != .newaxis).idxOf .ellipsis = Spec.axesTaken pre := by
  unfold Spec.axesTaken
  induction pre with
  | nil => simp
  | cons k l ih =>
    have hl : Spec.Basic l := fun k' hk' => h k' (List.mem_cons_of_mem _ hk')
    have hk := h k List.mem_cons_self
    have ih := ih hl
    cases k with
    | newaxis =>
      rw [List.cons_append, List.filter_cons_of_neg (by simp), List.filter_cons_of_neg (by simp [ApiKey.single])]
      exact ih
    | int i =>
      rw [List.cons_append, List.filter_cons_of_pos (by simp), List.filter_cons_of_pos (by simp [ApiKey.single]), List.idxOf_cons_ne _ (by simp), ih, List.length_cons]
    | slice s e =>
      rw [List.cons_append, List.filter_cons_of_pos (by simp), List.filter_cons_of_pos (by simp [ApiKey.single]), List.idxOf_cons_ne _ (by simp), ih, List.length_cons]
    | ellipsis => exact absurd hk id
    | arr o m n => exact absurd hk id
    | bad => exact absurd hk id

/-- **C185.**  With one ellipsis that stands for no axis or more: the entries before are checked against the first axes, those after it against the last ones. -/
theorem validate_ellipsis {shape : List Nat} {pre post : List ApiKey} (h : Spec.Basic pre) (h' : Spec.Basic post) (hn : Spec.axesTaken pre + Spec.axesTaken post ≤ shape.length) :
    validateIndex shape (pre ++ ApiKey.ellipsis :: post) = .ok () ↔ Spec.BoundsOk shape 0 pre ∧ Spec.BoundsOk shape (shape.length - Spec.axesTaken post) post := by
  obtain ⟨h1, h2, _⟩ := basic_facts h
  obtain ⟨h1', h2', _⟩ := basic_facts h'
  have hmem : ApiKey.ellipsis ∈ pre ++ ApiKey.ellipsis :: post := List.mem_append_right _ List.mem_cons_self
  have hbad : ApiKey.bad ∉ pre ++ ApiKey.ellipsis :: post := by
    intro c
    rcases List.mem_append.mp c with c | c
    · exact h1 c
    · rcases List.mem_cons.mp c with c | c
      · cases c
      · exact h1' c
  have hcount : (pre ++ ApiKey.ellipsis :: post).count .ellipsis = 1 := by
    rw [List.count_append, List.count_eq_zero_of_not_mem h2, List.count_cons_self, List.count_eq_zero_of_not_mem h2']
  have hfil : (pre ++ ApiKey.ellipsis :: post).filter ApiKey.single = pre.filter ApiKey.single ++ post.filter ApiKey.single := by
    rw [List.filter_append, List.filter_cons_of_neg (by simp [ApiKey.single])]
  have hsh : indexedShape shape (pre ++ ApiKey.ellipsis :: post) = shape.take (Spec.axesTaken pre) ++ shape.drop (shape.length - Spec.axesTaken post) := by
    unfold indexedShape
    rw [if_pos hmem]
    dsimp only
    rw [idxOf_ellipsis h, hfil, List.length_append]
    unfold Spec.axesTaken at *
    rw [if_neg (by omega)]
    congr 2
    omega
  unfold validateIndex
  dsimp only
  rw [if_neg hbad, if_neg (by omega), if_neg (fun c => c.1 hmem), hsh, hfil, List.zip_append (by unfold Spec.axesTaken at *; rw [List.length_take]; omega), List.all_append, entryOk_basic h, entryOk_basic h']
  have e1 : (((pre.filter ApiKey.single).zip (shape.take (Spec.axesTaken pre))).all fun p => entryOk false p.1 p.2) = (((pre.filter ApiKey.single).zip (shape.drop 0)).all fun p => entryOk false p.1 p.2) := by
    have : (pre.filter ApiKey.single).zip (shape.take (Spec.axesTaken pre)) = (pre.filter ApiKey.single).zip shape := by
      unfold Spec.axesTaken
      apply List.ext_getElem?
      intro i
      simp only [List.getElem?_zip_eq_some, List.zip, List.getElem?_zipWith, List.getElem?_take]
      by_cases hi : i < (pre.filter ApiKey.single).length
      · rw [if_pos hi]
      · rw [List.getElem?_eq_none (by omega : (pre.filter ApiKey.single).length ≤ i)]
    rw [this, List.drop_zero]
  rw [e1, ← bounds_zip shape pre 0 h, ← bounds_zip shape post _ h']
  split_ifs with c
  · rw [Bool.and_eq_true] at c
    exact ⟨fun _ => c, fun _ => rfl⟩
  · rw [Bool.and_eq_true] at c
    exact ⟨fun c' => (by cases c'), fun c' => absurd c' c⟩

/-- **C185.**  A boolean array is accepted as the only entry; together with others, or an array of integers with axes, an array of this namespace is refused. -/
theorem validate_mask_partial {shape : List Nat} (hs : shape ≠ []) (nd : Nat) : validateIndex shape [.arr true true nd] = .ok () ∧ (∀ k, Spec.Basic [k] → validateIndex shape [.arr true true nd, k] = .error .indexError) ∧ (nd ≠ 0 → validateIndex shape [.arr true false nd] = .error .indexError) := by
  obtain ⟨n, sh, rfl⟩ := List.exists_cons_of_ne_nil hs
  refine ⟨?_, ?_, ?_⟩
  · simp [validateIndex, indexedShape, List.filter_cons, ApiKey.single, ApiKey.isMask, entryOk]
  · intro k hk
    have := hk k List.mem_cons_self
    cases k <;> simp_all [validateIndex, indexedShape, List.filter_cons, ApiKey.single, ApiKey.isMask, entryOk]
  · intro h
    simp [validateIndex, indexedShape, List.filter_cons, ApiKey.single, ApiKey.isMask, entryOk, h]

/-- **C185, defect.**  The same index with a DNDarray is accepted, although masking together with other entries and advanced integer indexing are to be refused. -/
theorem validate_mask_violated {n : Nat} {sh : List Nat} (nd : Nat) : validateIndex (n :: sh) [.arr false true nd, .int 0] = .ok () ∧ validateIndex [n] [.arr false false nd] = .ok () := by
  constructor
  · cases sh <;> simp [validateIndex, indexedShape, List.filter_cons, ApiKey.single, ApiKey.isMask, entryOk]
  · simp [validateIndex, indexedShape, List.filter_cons, ApiKey.single, ApiKey.isMask, entryOk]

/-- **C185.**  More than one ellipsis: left to the indexing of DNDarrays, which raises; an entry of another kind is refused whatever the others are. -/
theorem validate_ellipses (shape : List Nat) (key : List ApiKey) : (ApiKey.bad ∈ key → validateIndex shape key = .error .indexError) ∧
    (ApiKey.bad ∉ key → 2 ≤ key.count .ellipsis → validateIndex shape key = .ok ()) := by
  unfold validateIndex
  refine ⟨fun h => by simp [h], fun h h2 => ?_⟩
  simp only [h, if_false]
  rw [if_pos (by omega)]

/-! ## Cases -/

example : ∀ t ∈ [Dt.uint8, .int8, .int32], t ∈ apiAll := by decide
example : apiResultType [.uint8, .int8, .int8] = .ok .int16 ∧ apiResultType [.int64, .float32] = .error .typeError := by decide
example : LeastFor [.float64, .complex64] .complex128 := by
  refine ⟨by decide, by decide, by decide⟩
example : apiOperator .numeric .int8 3 (.arr .uint8 0) = .ok .int16 := by decide
example : Spec.Basic [.int 0, .newaxis, .slice (some (-2)) none] := by
  intro k hk
  simp only [List.mem_cons, List.not_mem_nil, or_false] at hk
  rcases hk with rfl | rfl | rfl <;> trivial
example : validateIndex [3, 4, 5] [.int 0, .ellipsis, .slice (some (-5)) (some 5)] = .ok () ∧ validateIndex [3, 4, 5] [.int 0, .ellipsis, .slice none (some 6)] = .error .indexError := by decide

end Heat
