import Verif.Model.Params
import Mathlib.Data.List.Forall2
import Mathlib.Data.List.Nodup
/-!
# C179: parameters of estimators
-/
namespace Heat
namespace Spec

/-- The value of a key in a dictionary. -/
def dictGet {α : Type} (d : List (String × α)) (k : String) : Option α := (d.find? fun p => p.1 = k).map Prod.snd

end Spec
open Spec

theorem setParams_names (E : PEst) (ps : List (String × PVal)) : (setParams E ps).1.names = E.names := by
  induction ps generalizing E with
  | nil => rfl
  | cons p rest ih =>
    obtain ⟨k, v⟩ := p
    unfold setParams
    cases h : setParam E k v with
    | error x => rfl
    | ok E' =>
      dsimp only
      rw [ih]
      unfold setParam at h
      split_ifs at h
      cases v <;> first | (cases h; done) | (cases h; rfl)

theorem setParam_ok {E : PEst} {k : String} {v : PVal} (hk : k ∈ E.names) (hv : ∀ d, v ≠ .dict d) : setParam E k v = .ok (setAttr E k v) := by
  unfold setParam
  rw [if_neg (by simpa using hk)]
  cases v with
  | dict d => exact absurd rfl (hv d)
  | leaf n => rfl
  | est e => rfl

/-- **C179.**  `set_params` sets exactly the given parameters and leaves the other attributes alone, if all names are parameters and no value is a dictionary. -/
theorem set_params_partial (E : PEst) {ps : List (String × PVal)} (hn : (ps.map Prod.fst).Nodup) (hk : ∀ p ∈ ps, p.1 ∈ E.names) (hv : ∀ p ∈ ps, ∀ d, p.2 ≠ .dict d) :
    (setParams E ps).2 = none ∧ ∀ k, (setParams E ps).1.attr k = (dictGet ps k).or (E.attr k) := by
  induction ps generalizing E with
  | nil => exact ⟨rfl, fun k => rfl⟩
  | cons p rest ih =>
    obtain ⟨k0, v⟩ := p
    have h0 := setParam_ok (hk _ List.mem_cons_self) (hv _ List.mem_cons_self)
    have hn' := List.nodup_cons.mp hn
    have := ih (setAttr E k0 v) hn'.2 (fun p hp => hk p (List.mem_cons_of_mem _ hp)) (fun p hp => hv p (List.mem_cons_of_mem _ hp))
    unfold setParams
    dsimp only at h0
    rw [h0]
    refine ⟨this.1, fun k => ?_⟩
    dsimp only
    rw [this.2 k]
    unfold dictGet setAttr
    rw [List.find?_cons]
    dsimp only
    by_cases c : k0 = k
    · subst c
      have : rest.find? (fun p => decide (p.1 = k0)) = none := by
        rw [List.find?_eq_none]
        intro p hp
        have : p.1 ≠ k0 := fun e => hn'.1 (List.mem_map.mpr ⟨p, hp, e⟩)
        simpa using this
      rw [this]
      simp
    · have c' : ¬ k = k0 := fun e => c e.symm
      simp [c, c']

theorem getParams_iff {sub : SubParams} {deep : Bool} {E : PEst} {ps : List (String × PVal)} : getParams sub deep E = .ok ps ↔ List.Forall₂ (fun key p => p.1 = key ∧ getParam sub deep E key = .ok p.2) E.names ps := by
  unfold getParams
  generalize E.names = ns
  induction ns generalizing ps with
  | nil =>
    cases ps with
    | nil => simp [pure, Except.pure]
    | cons p ps => simp [pure, Except.pure]
  | cons n ns ih =>
    rw [List.mapM_cons]
    cases h : getParam sub deep E n with
    | error x =>
      have hg : getEntry sub deep E n = .error x := by unfold getEntry; rw [h]
      rw [hg]
      simp only [bind, Except.bind]
      constructor
      · intro h; cases h
      · intro h'
        cases h' with
        | cons a b => rw [h] at a; exact absurd a.2 (by simp)
    | ok v =>
      have hg : getEntry sub deep E n = .ok (n, v) := by unfold getEntry; rw [h]
      rw [hg]
      simp only [bind, Except.bind]
      cases h2 : ns.mapM (getEntry sub deep E) with
      | error x =>
        constructor
        · intro h; cases h
        · intro h'
          cases h' with
          | cons a b =>
            have := ih.mpr b
            rw [h2] at this
            cases this
      | ok qs =>
        have e := (ih (ps := qs)).mp h2
        constructor
        · intro h'
          cases h'
          exact .cons ⟨rfl, h⟩ e
        · intro h'
          cases h' with
          | @cons _ p _ l a b =>
            have := ih.mpr b
            rw [h2] at this
            cases this
            rw [h] at a
            obtain ⟨k, w⟩ := p
            obtain ⟨rfl, a⟩ := a
            cases a
            rfl

/-- **C179.**  `get_params(deep=False)` gives every parameter of the constructor with the value of the attribute of this name; it raises exactly if there is one without such an attribute. -/
theorem get_params_spec (sub : SubParams) (E : PEst) : (∀ ps, getParams sub false E = .ok ps ↔ (ps.map Prod.fst = E.names ∧ ∀ p ∈ ps, E.attr p.1 = some p.2)) ∧ ((∃ x, getParams sub false E = .error x) ↔ ∃ k ∈ E.names, E.attr k = none) := by
  have hg : ∀ k v, getParam sub false E k = .ok v ↔ E.attr k = some v := by
    intro k v
    unfold getParam
    cases h : E.attr k with
    | none => simp
    | some w => cases w <;> simp
  have h1 : ∀ ps, getParams sub false E = .ok ps ↔ (ps.map Prod.fst = E.names ∧ ∀ p ∈ ps, E.attr p.1 = some p.2) := by
    intro ps
    rw [getParams_iff]
    simp only [hg]
    generalize E.names = ns
    constructor
    · intro h
      induction h with
      | nil => exact ⟨rfl, by simp⟩
      | cons a b ih => exact ⟨by rw [List.map_cons, ih.1, a.1], by
          intro p hp
          rcases List.mem_cons.mp hp with rfl | hp
          · rw [a.1]; exact a.2
          · exact ih.2 p hp⟩
    · rintro ⟨rfl, h⟩
      induction ps with
      | nil => exact .nil
      | cons p ps ih => exact .cons ⟨rfl, h p List.mem_cons_self⟩ (ih fun q hq => h q (List.mem_cons_of_mem _ hq))
  refine ⟨h1, ⟨?_, ?_⟩⟩
  · rintro ⟨x, hx⟩
    by_contra c
    push Not at c
    have : getParams sub false E = .ok (E.names.map fun k => (k, (E.attr k).getD (.leaf 0))) := by
      rw [h1]
      refine ⟨by rw [List.map_map]; exact List.map_id _, fun p hp => ?_⟩
      obtain ⟨k, hk, rfl⟩ := List.mem_map.mp hp
      have := c k hk
      cases h : E.attr k with
      | none => exact absurd h this
      | some v => rfl
    rw [this] at hx
    cases hx
  · rintro ⟨k, hk, hn⟩
    cases h : getParams sub false E with
    | error x => exact ⟨x, rfl⟩
    | ok ps =>
      obtain ⟨a, b⟩ := (h1 ps).mp h
      rw [← a] at hk
      obtain ⟨p, hp, rfl⟩ := List.mem_map.mp hk
      have := b p hp
      rw [hn] at this
      cases this

/-- **C179.**  Setting the parameters that `get_params(deep=False)` returned changes nothing. -/
theorem params_roundtrip_partial (sub : SubParams) {E : PEst} (hn : E.names.Nodup) {ps : List (String × PVal)} (h : getParams sub false E = .ok ps) (hd : ∀ k ∈ E.names, ∀ d, E.attr k ≠ some (.dict d)) :
    (setParams E ps).2 = none ∧ (setParams E ps).1 = E := by
  obtain ⟨a, b⟩ := ((get_params_spec sub E).1 ps).mp h
  have hmem : ∀ p ∈ ps, p.1 ∈ E.names := fun p hp => a ▸ List.mem_map_of_mem hp
  obtain ⟨h1, h2⟩ := set_params_partial E (a.symm ▸ hn) hmem (fun p hp d e => hd p.1 (hmem p hp) d (by rw [b p hp, e]))
  refine ⟨h1, ?_⟩
  have hnames := setParams_names E ps
  have hattr : (setParams E ps).1.attr = E.attr := by
    funext k
    rw [h2 k]
    unfold dictGet
    cases hf : ps.find? (fun p => decide (p.1 = k)) with
    | none => rfl
    | some p =>
      have hp := List.mem_of_find?_eq_some hf
      have he := List.find?_some hf
      simp only [decide_eq_true_eq] at he
      subst he
      simp [b p hp]
  generalize setParams E ps = r at *
  obtain ⟨⟨n1, a1⟩, x⟩ := r
  obtain ⟨n2, a2⟩ := E
  simp only at hnames hattr
  subst hnames hattr
  rfl

/-- **C179, defect.**  Nested parameters are documented; a dictionary as value always raises. -/
theorem set_params_nested_violated (E : PEst) {k : String} (hk : k ∈ E.names) (d : Nat) (rest : List (String × PVal)) : setParams E ((k, .dict d) :: rest) = (E, some .typeError) := by
  unfold setParams setParam
  rw [if_neg (by simpa using hk)]

/-- **C179, defect.**  So the parameters that `get_params()` returns cannot be set again if one of them is an estimator. -/
theorem params_deep_violated (sub : SubParams) {E : PEst} {ps : List (String × PVal)} (h : getParams sub true E = .ok ps) {k : String} (hk : k ∈ E.names) {e : Nat} (he : E.attr k = some (.est e)) : (setParams E ps).2 ≠ none := by
  have h' := getParams_iff.mp h
  clear h
  have hd : ∃ p ∈ ps, ∃ d, p.2 = .dict d := by
    generalize E.names = ns at *
    induction h' with
    | nil => cases hk
    | @cons n p ns' ps' a b ih =>
      rcases List.mem_cons.mp hk with rfl | hk
      · refine ⟨p, List.mem_cons_self, ?_⟩
        have := a.2
        unfold getParam at this
        rw [he] at this
        simp only [if_true] at this
        cases hs : sub e with
        | error x => rw [hs] at this; cases this
        | ok d =>
          rw [hs] at this
          simp only [Except.ok.injEq] at this
          exact ⟨d, this.symm⟩
      · obtain ⟨p', hp', hd⟩ := ih hk
        exact ⟨p', List.mem_cons_of_mem _ hp', hd⟩
  clear h' he hk
  induction ps generalizing E with
  | nil => obtain ⟨p, hp, _⟩ := hd; cases hp
  | cons q rest ih =>
    obtain ⟨k0, v⟩ := q
    unfold setParams
    cases hs : setParam E k0 v with
    | error x => simp
    | ok E' =>
      obtain ⟨p, hp, d, hd⟩ := hd
      rcases List.mem_cons.mp hp with rfl | hp
      · simp only at hd
        subst hd
        unfold setParam at hs
        split_ifs at hs
      · exact ih ⟨p, hp, d, hd⟩

/-- **C179, defect.**  `set_params` with an unknown name raises `ValueError` after it has changed the parameters before it. -/
theorem set_params_atomic_violated : ∃ (E : PEst) (ps : List (String × PVal)), (setParams E ps).2 = some .valueError ∧ (setParams E ps).1.attr "tol" ≠ E.attr "tol" :=
  ⟨⟨["tol"], fun _ => some (.leaf 0)⟩, [("tol", .leaf 1), ("tolerance", .leaf 2)], rfl, by decide⟩

/-- **C179.**  An unknown name is always reported as `ValueError`, if no value before it is a dictionary. -/
theorem set_params_unknown (E : PEst) {ps : List (String × PVal)} (hv : ∀ p ∈ ps, ∀ d, p.2 ≠ .dict d) (h : ∃ p ∈ ps, p.1 ∉ E.names) : (setParams E ps).2 = some .valueError := by
  induction ps generalizing E with
  | nil => obtain ⟨p, hp, _⟩ := h; cases hp
  | cons q rest ih =>
    obtain ⟨k0, v⟩ := q
    unfold setParams
    by_cases c : k0 ∈ E.names
    · have := setParam_ok c (hv _ List.mem_cons_self)
      dsimp only at this
      rw [this]
      refine ih _ (fun p hp => hv p (List.mem_cons_of_mem _ hp)) ?_
      obtain ⟨p, hp, hn⟩ := h
      rcases List.mem_cons.mp hp with rfl | hp
      · exact absurd c hn
      · exact ⟨p, hp, hn⟩
    · unfold setParam
      rw [if_pos c]

/-! ## Cases -/

/-- `Lasso`: three parameters. -/
def lassoEst : PEst := ⟨["lam", "max_iter", "tol"], fun k => if k = "lam" then some (.leaf 1) else if k = "max_iter" then some (.leaf 100) else if k = "tol" then some (.leaf 6) else none⟩

example : getParams (fun _ => .ok 0) true lassoEst = .ok [("lam", .leaf 1), ("max_iter", .leaf 100), ("tol", .leaf 6)] := rfl
example : lassoEst.names.Nodup ∧ ∀ k ∈ lassoEst.names, ∀ d, lassoEst.attr k ≠ some (.dict d) := ⟨by decide, by
  intro k hk d
  simp [lassoEst] at hk
  rcases hk with rfl | rfl | rfl <;> simp [lassoEst]⟩
example : (setParams lassoEst [("lam", .leaf 2)]).1.attr "lam" = some (.leaf 2) := rfl

/-- `Normalizer` keeps its parameter `norm` under another name (preprocessing.py: `norm_`): `get_params` raises. -/
example : getParams (fun _ => .ok 0) true ⟨["norm"], fun k => if k = "norm_" then some (.leaf 2) else none⟩ = .error .typeError := rfl

end Heat
