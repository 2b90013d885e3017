import Verif.Model.Alias
/-!
# C198 copies are independent of the arrays they are made from
-/
namespace Heat
variable {α : Type}

/-- All arrays refer to existing buffers. -/
def AWf (s : AState α) : Prop := ∀ x < s.nobj, (s.obj x).addr < s.next

/-- Writing any element through one of the arrays `x`, `y` never changes the other one. -/
def Independent (cj : α → α) (s : AState α) (x y : Nat) : Prop :=
  ∀ i v, aVals cj (aWrite cj s x i v) y = aVals cj s y ∧ aVals cj (aWrite cj s y i v) x = aVals cj s x

/-- `y` is a new array with the elements `l`, all other arrays are unchanged and independent of it. -/
structure FreshCopy (cj : α → α) (s : AState α) (res : Nat × AState α) (l : List α) : Prop where
  isNew : res.1 = s.nobj ∧ res.2.nobj = s.nobj + 1
  vals : aVals cj res.2 res.1 = l
  keep : ∀ z < s.nobj, aVals cj res.2 z = aVals cj s z
  indep : ∀ z < s.nobj, Independent cj res.2 res.1 z
  wf : AWf res.2

theorem independent_of_addr (cj : α → α) (s : AState α) (x y : Nat) (h : (s.obj x).addr ≠ (s.obj y).addr) : Independent cj s x y := by
  intro i v
  constructor
  · unfold aVals tVals aWrite
    simp [Ne.symm h]
  · unfold aVals tVals aWrite
    simp [h]

/-- A new array with its own buffer. -/
theorem alloc_fresh (cj : α → α) (s : AState α) (hs : AWf s) (l : List α) (dt : Nat) : FreshCopy cj s (aNew (aAlloc s l dt)) l := by
  refine ⟨⟨rfl, rfl⟩, ?_, ?_, ?_, ?_⟩
  · simp [aVals, tVals, aNew, aAlloc]
  · intro z hz
    have h1 := hs z hz
    simp [aVals, tVals, aNew, aAlloc, Nat.ne_of_lt hz, Nat.ne_of_lt h1]
  · intro z hz
    have h1 := hs z hz
    apply independent_of_addr
    have e1 : ((aNew (aAlloc s l dt)).2.obj (aNew (aAlloc s l dt)).1).addr = s.next := by simp [aNew, aAlloc]
    have e2 : (aNew (aAlloc s l dt)).2.obj z = s.obj z := by
      show (if z = s.nobj then _ else s.obj z) = _
      rw [if_neg (Nat.ne_of_lt hz)]
    rw [e1, e2]
    omega
  · intro z hz
    have hz : z < s.nobj + 1 := hz
    show (if z = s.nobj then (⟨s.next, dt, false⟩ : ATensor) else s.obj z).addr < s.next + 1
    by_cases h : z = s.nobj
    · rw [if_pos h]; exact Nat.lt_succ_self _
    · rw [if_neg h]
      have := hs z (by omega)
      omega

/-- **C198, `copy`, `pos`, `balance(copy=True)`:** the result has the same elements and is independent of every array. -/
theorem copy_fresh (cj : α → α) (s : AState α) (hs : AWf s) (x : Nat) :
    FreshCopy cj s (aCopy cj s x) (aVals cj s x) ∧ FreshCopy cj s (aPos cj s x) (aVals cj s x) ∧ FreshCopy cj s (aBalance cj s x true) (aVals cj s x) :=
  ⟨alloc_fresh cj s hs _ _, alloc_fresh cj s hs _ _, alloc_fresh cj s hs _ _⟩

/-- **C198, `astype` and the type constructors, partial:** to another type the result is independent of every array.
Missing: the type of the array itself (`astype_violated`). -/
theorem astype_partial (cast : Nat → Nat → α → α) (cj : α → α) (s : AState α) (hs : AWf s) (x dt : Nat) (h : (s.obj x).dt ≠ dt) :
    FreshCopy cj s (aAstype cast cj s x dt true) ((aVals cj s x).map (cast (s.obj x).dt dt)) ∧ FreshCopy cj s (aTypeNew cast cj s x dt) ((aVals cj s x).map (cast (s.obj x).dt dt)) := by
  constructor
  · unfold aAstype tType
    simp only [if_neg h, if_true]
    exact alloc_fresh cj s hs _ _
  · unfold aTypeNew tType
    rw [if_neg h]
    exact alloc_fresh cj s hs _ _

theorem view_write (cj : α → α) (hcj : ∀ v, cj (cj v) = v) (s : AState α) (x : Nat) (hx : x < s.nobj) (i : Nat) (v : α) (t : ATensor) (ht : t.addr = (s.obj x).addr) (y : Nat) (s' : AState α) (he : (y, s') = aNew (t, s)) :
    aVals cj (aWrite cj s' y i v) x = (aVals cj s x).set i (if t.conj = (s.obj x).conj then v else cj v) := by
  simp only [aNew, Prod.mk.injEq] at he
  obtain ⟨rfl, rfl⟩ := he
  have hxn : x ≠ s.nobj := Nat.ne_of_lt hx
  unfold aVals tVals aWrite
  simp only [if_true, if_neg hxn, ht]
  cases hc : (s.obj x).conj <;> cases ht' : t.conj <;> simp [List.map_set, hcj]

/-- **C198 violated:** `x.astype(x.dtype)` is documented to return a copy, but every write through the result changes `x`; the same for the type constructors. -/
theorem astype_violated (cast : Nat → Nat → α → α) (cj : α → α) (hcj : ∀ v, cj (cj v) = v) (s : AState α) (x : Nat) (hx : x < s.nobj) (i : Nat) (v : α) :
    aVals cj (aWrite cj (aAstype cast cj s x (s.obj x).dt true).2 (aAstype cast cj s x (s.obj x).dt true).1 i v) x = (aVals cj s x).set i v ∧
    aVals cj (aWrite cj (aTypeNew cast cj s x (s.obj x).dt).2 (aTypeNew cast cj s x (s.obj x).dt).1 i v) x = (aVals cj s x).set i v := by
  have key := view_write cj hcj s x hx i v (s.obj x) rfl _ _ rfl
  rw [if_pos rfl] at key
  constructor
  · unfold aAstype tType
    simp only [if_true]
    exact key
  · unfold aTypeNew tType
    rw [if_pos rfl]
    exact key

/-- `astype(copy=False)` returns the array itself with the elements converted; all other arrays keep their elements, also those that shared memory with it. -/
theorem astype_in_place (cast : Nat → Nat → α → α) (cj : α → α) (hcast : ∀ d v, cast d d v = v) (s : AState α) (hs : AWf s) (x dt : Nat) :
    (aAstype cast cj s x dt false).1 = x ∧ aVals cj (aAstype cast cj s x dt false).2 x = (aVals cj s x).map (cast (s.obj x).dt dt) ∧
      ∀ z < s.nobj, z ≠ x → aVals cj (aAstype cast cj s x dt false).2 z = aVals cj s z := by
  by_cases h : (s.obj x).dt = dt
  · subst h
    have e : (fun v : α => cast (s.obj x).dt (s.obj x).dt v) = id := by funext v; exact hcast _ v
    refine ⟨rfl, ?_, ?_⟩
    · unfold aAstype tType
      simp only [if_true, Bool.false_eq_true, if_false]
      rw [show cast (s.obj x).dt (s.obj x).dt = id from e, List.map_id]
      simp [aVals, tVals]
    · intro z _ hzx
      unfold aAstype tType
      simp [aVals, tVals, hzx]
  · refine ⟨rfl, ?_, ?_⟩
    · unfold aAstype tType
      simp [h, aVals, tVals, aAlloc]
    · intro z hz hzx
      have h1 := hs z hz
      unfold aAstype tType
      simp [h, aVals, tVals, aAlloc, hzx, Nat.ne_of_lt h1]

/-- **C198, `array` and `asarray`:** with `copy=True` the result is an independent array with the elements converted; with `copy=False` it is the array itself, or a ValueError, exactly if another type is asked
for; with `copy=None` the array itself unless another type is asked for. -/
theorem array_copy_spec (cast : Nat → Nat → α → α) (cj : α → α) (hcast : ∀ d v, cast d d v = v) (s : AState α) (hs : AWf s) (x : Nat) (hx : x < s.nobj) (dt : Option Nat) :
    (∃ res, aArray cast cj s x dt (some true) = .ok res ∧ aVals cj res.2 res.1 = (aVals cj s x).map (cast (s.obj x).dt (dt.getD (s.obj x).dt)) ∧
      (∀ z < s.nobj, aVals cj res.2 z = aVals cj s z ∧ Independent cj res.2 res.1 z)) ∧
    aArray cast cj s x dt (some false) = (if dt.getD (s.obj x).dt = (s.obj x).dt then .ok (x, s) else .error .valueError) ∧
    (dt.getD (s.obj x).dt = (s.obj x).dt → aArray cast cj s x dt none = .ok (x, s)) ∧
    (dt.getD (s.obj x).dt ≠ (s.obj x).dt → ∃ res, aArray cast cj s x dt none = .ok res ∧ FreshCopy cj s res ((aVals cj s x).map (cast (s.obj x).dt (dt.getD (s.obj x).dt)))) := by
  generalize hd : dt.getD (s.obj x).dt = D
  by_cases h : D = (s.obj x).dt
  · refine ⟨⟨aCopy cj s x, ?_, ?_, ?_⟩, ?_, ?_, ?_⟩
    · unfold aArray; rw [hd, if_pos h, if_pos rfl]
    · rw [(copy_fresh cj s hs x).1.vals, h]
      have e : cast (s.obj x).dt (s.obj x).dt = id := by funext v; exact hcast _ v
      rw [e, List.map_id]
    · intro z hz
      exact ⟨(copy_fresh cj s hs x).1.keep z hz, (copy_fresh cj s hs x).1.indep z hz⟩
    · unfold aArray; rw [hd, if_pos h, if_pos h]; rfl
    · intro _; unfold aArray; rw [hd, if_pos h]; rfl
    · intro h'; exact absurd h h'
  · have h2 : (s.obj x).dt ≠ D := fun e => h e.symm
    refine ⟨⟨aNew (tType cast cj (aAlloc s (aVals cj s x) (s.obj x).dt).2 (aAlloc s (aVals cj s x) (s.obj x).dt).1 D), ?_, ?_, ?_⟩, ?_, ?_, ?_⟩
    · unfold aArray; rw [hd, if_neg h, if_pos rfl]
    · simp [tType, aAlloc, aNew, aVals, tVals, h2]
    · intro z hz
      have h1 := hs z hz
      have hz' := Nat.ne_of_lt hz
      constructor
      · simp [tType, aAlloc, aNew, aVals, tVals, h2, hz', Nat.ne_of_lt h1, show (s.obj z).addr ≠ s.next + 1 by omega]
      · apply independent_of_addr
        simp [tType, aAlloc, aNew, h2, hz']
        omega
    · unfold aArray; rw [hd, if_neg h, if_neg h]; rfl
    · intro h'; exact absurd h' h
    · intro _
      refine ⟨aNew (tType cast cj s (s.obj x) D), ?_, ?_⟩
      · unfold aArray; rw [hd, if_neg h]; rfl
      · exact (astype_partial cast cj s hs x D h2).2

/-- **C198, `conjugate`, partial:** for types that are cast first (integers) the result is a new array. -/
theorem conjugate_partial (cast : Nat → Nat → α → α) (cj : α → α) (isComplex : Nat → Bool) (promote : Nat → Nat) (s : AState α) (hs : AWf s) (x : Nat) (h : promote (s.obj x).dt ≠ (s.obj x).dt)
    (hc : isComplex (promote (s.obj x).dt) = false) : FreshCopy cj s (aConj cast cj isComplex promote s x) ((aVals cj s x).map (cast (s.obj x).dt (promote (s.obj x).dt))) := by
  unfold aConj tType
  simp only [if_neg (Ne.symm h)]
  have : (if isComplex (aAlloc s ((tVals cj s (s.obj x)).map (cast (s.obj x).dt (promote (s.obj x).dt))) (promote (s.obj x).dt)).1.dt = true then
      ({ (aAlloc s ((tVals cj s (s.obj x)).map (cast (s.obj x).dt (promote (s.obj x).dt))) (promote (s.obj x).dt)).1 with conj := !(aAlloc s ((tVals cj s (s.obj x)).map (cast (s.obj x).dt (promote (s.obj x).dt))) (promote (s.obj x).dt)).1.conj } : ATensor)
      else (aAlloc s ((tVals cj s (s.obj x)).map (cast (s.obj x).dt (promote (s.obj x).dt))) (promote (s.obj x).dt)).1) = (aAlloc s ((tVals cj s (s.obj x)).map (cast (s.obj x).dt (promote (s.obj x).dt))) (promote (s.obj x).dt)).1 := by
    rw [if_neg]
    show ¬ isComplex (promote (s.obj x).dt) = true
    rw [hc]; simp
  rw [this]
  exact alloc_fresh cj s hs _ _

/-- The elements of `conjugate(x)` for floating point and complex types. -/
theorem conjugate_vals (cast : Nat → Nat → α → α) (cj : α → α) (hcj : ∀ v, cj (cj v) = v) (isComplex : Nat → Bool) (promote : Nat → Nat) (s : AState α) (x : Nat) (h : promote (s.obj x).dt = (s.obj x).dt) :
    aVals cj (aConj cast cj isComplex promote s x).2 (aConj cast cj isComplex promote s x).1 = if isComplex (s.obj x).dt then (aVals cj s x).map cj else aVals cj s x := by
  have hid : cj ∘ cj = id := by funext v; exact hcj v
  unfold aConj tType
  simp only [if_pos h.symm]
  cases hc : isComplex (s.obj x).dt
  · simp [aNew, aVals, tVals]
  · cases hb : (s.obj x).conj <;> simp [aNew, aVals, tVals, hb, hid]

/-- **C198 violated:** `conjugate(x)` of a floating point or complex array shares its memory: a write of `v` through the result writes `v` (complex types: the conjugate of `v`) to `x`. -/
theorem conjugate_violated (cast : Nat → Nat → α → α) (cj : α → α) (hcj : ∀ v, cj (cj v) = v) (isComplex : Nat → Bool) (promote : Nat → Nat) (s : AState α) (x : Nat) (hx : x < s.nobj)
    (h : promote (s.obj x).dt = (s.obj x).dt) (i : Nat) (v : α) :
    aVals cj (aWrite cj (aConj cast cj isComplex promote s x).2 (aConj cast cj isComplex promote s x).1 i v) x = (aVals cj s x).set i (if isComplex (s.obj x).dt then cj v else v) := by
  unfold aConj tType
  simp only [if_pos h.symm]
  cases hc : isComplex (s.obj x).dt
  · simp only [Bool.false_eq_true, if_false]
    have := view_write cj hcj s x hx i v (s.obj x) rfl _ _ rfl
    rwa [if_pos rfl] at this
  · simp only [if_true]
    have := view_write cj hcj s x hx i v { s.obj x with conj := !(s.obj x).conj } rfl _ _ rfl
    rw [if_neg (by cases (s.obj x).conj <;> simp)] at this
    exact this

/-- `flatten` of an array that is not distributed is a view (`ravel` is documented so). -/
theorem flatten_view (cj : α → α) (hcj : ∀ v, cj (cj v) = v) (s : AState α) (x : Nat) (hx : x < s.nobj) (i : Nat) (v : α) :
    aVals cj (aFlatten s x).2 (aFlatten s x).1 = aVals cj s x ∧ aVals cj (aWrite cj (aFlatten s x).2 (aFlatten s x).1 i v) x = (aVals cj s x).set i v := by
  constructor
  · simp [aFlatten, aNew, aVals]
    unfold tVals
    rfl
  · have := view_write cj hcj s x hx i v (s.obj x) rfl _ _ rfl
    rwa [if_pos rfl] at this

/-- One array `[1, 2]` of type 7: a write to its cast to type 7 is seen, a write to its copy is not. -/
def aliasExample : AState Int := ⟨1, fun _ => [1, 2], 1, fun _ => ⟨0, 7, false⟩⟩

example : AWf aliasExample := fun x hx => by simp [aliasExample]

example : aVals id (aWrite id (aAstype (fun _ _ v => v) id aliasExample 0 7 true).2 (aAstype (fun _ _ v => v) id aliasExample 0 7 true).1 0 5) 0 = [5, 2] := rfl

example : aVals id (aWrite id (aCopy id aliasExample 0).2 (aCopy id aliasExample 0).1 0 5) 0 = [1, 2] := rfl

example : aVals Int.neg (aWrite Int.neg (aConj (fun _ _ v => v) Int.neg (fun _ => true) id aliasExample 0).2 (aConj (fun _ _ v => v) Int.neg (fun _ => true) id aliasExample 0).1 0 5) 0 = [-5, 2] := rfl

end Heat
