import Verif.Model.Reduce
import Verif.Proof.Dist
/-!
# C20 - C22: reductions and cumulative operations
-/
namespace Heat
open Heat.Spec
variable {α M : Type}

/-! ## C20 -/

/-- `op` lifted to optional values, `none` being neutral. -/
def oadd (op : M → M → M) : Option M → Option M → Option M
  | none, b => b
  | a, none => a
  | some a, some b => some (op a b)

/-- The reduction of a list without neutral element: `none` for the empty list. -/
def Spec.reduceList (op : M → M → M) (l : List M) : Option M := l.foldr (fun x acc => oadd op (some x) acc) none

section
variable {op : M → M → M}

theorem oadd_none_right (a : Option M) : oadd op a none = a := by cases a <;> rfl
theorem oadd_none_left (a : Option M) : oadd op none a = a := by cases a <;> rfl

theorem oadd_assoc (ha : ∀ a b c, op (op a b) c = op a (op b c)) (a b c : Option M) :
    oadd op (oadd op a b) c = oadd op a (oadd op b c) := by
  cases a <;> cases b <;> cases c <;> simp [oadd, ha]

theorem oadd_comm (hc : ∀ a b, op a b = op b a) (a b : Option M) : oadd op a b = oadd op b a := by
  cases a <;> cases b <;> simp [oadd, hc]

theorem reduceList_append (ha : ∀ a b c, op (op a b) c = op a (op b c)) (l l' : List M) :
    reduceList op (l ++ l') = oadd op (reduceList op l) (reduceList op l') := by
  induction l with
  | nil => simp [reduceList, oadd_none_left]
  | cons x xs ih =>
    have : reduceList op (x :: xs ++ l') = oadd op (some x) (reduceList op (xs ++ l')) := rfl
    rw [this, ih, ← oadd_assoc ha]; rfl

theorem reduceList_perm (ha : ∀ a b c, op (op a b) c = op a (op b c)) (hc : ∀ a b, op a b = op b a) {l l' : List M}
    (h : l.Perm l') : reduceList op l = reduceList op l' := by
  induction h with
  | nil => rfl
  | cons x _ ih => show oadd op _ _ = oadd op _ _; exact congrArg _ ih
  | swap x y l =>
    show oadd op (some y) (oadd op (some x) (reduceList op l)) = oadd op (some x) (oadd op (some y) (reduceList op l))
    rw [← oadd_assoc ha, ← oadd_assoc ha, oadd_comm hc (some y)]
  | trans _ _ ih1 ih2 => exact ih1.trans ih2

theorem combine_unique (ha : ∀ a b c, op (op a b) c = op a (op b c)) (hc : ∀ a b, op a b = op b a) {l : List M} {v : M}
    (h : Combine op l v) : reduceList op l = some v := by
  induction h with
  | one x => rfl
  | node _ _ hp ih1 ih2 =>
    rw [reduceList_perm ha hc hp, reduceList_append ha, ih1, ih2]; rfl

theorem foldl_reduceList (ha : ∀ a b c, op (op a b) c = op a (op b c)) (xs : List M) (x : M) :
    some (xs.foldl op x) = reduceList op (x :: xs) := by
  induction xs generalizing x with
  | nil => rfl
  | cons y ys ih =>
    rw [List.foldl_cons, ih]
    show oadd op (some (op x y)) _ = oadd op (some x) (oadd op (some y) _)
    rw [← oadd_assoc ha]; rfl

theorem localPartial_reduceList (ha : ∀ a b c, op (op a b) c = op a (op b c)) (f : α → M) (neutral : α) {l : List α}
    (h : l ≠ []) : some (localPartial op f neutral l) = reduceList op (l.map f) := by
  cases l with
  | nil => exact absurd rfl h
  | cons x xs => exact foldl_reduceList ha _ _

theorem absorb (ha : ∀ a b c, op (op a b) c = op a (op b c)) {e : M} {l : List M} (h : l ≠ [])
    (he : ∀ x ∈ l, op e x = x) : oadd op (some e) (reduceList op l) = reduceList op l := by
  cases l with
  | nil => exact absurd rfl h
  | cons x xs =>
    show oadd op (some e) (oadd op (some x) _) = oadd op (some x) _
    rw [← oadd_assoc ha]
    show oadd op (some (op e x)) _ = _
    rw [he x (by simp)]

theorem reduce_prefix (ha : ∀ a b c, op (op a b) c = op a (op b c)) (hc : ∀ a b, op a b = op b a) (f : α → M)
    (neutral : α) (d : Nat → List α) (hee : op (f neutral) (f neutral) = f neutral) (k : Nat)
    (he : ∀ x ∈ content k d, op (f neutral) (f x) = f x) :
    (content k d = [] → k ≠ 0 → reduceList op ((List.range k).map fun r => localPartial op f neutral (d r)) = some (f neutral)) ∧
    (content k d ≠ [] → reduceList op ((List.range k).map fun r => localPartial op f neutral (d r)) =
      reduceList op ((content k d).map f)) := by
  induction k with
  | zero => exact ⟨fun _ h => absurd rfl h, fun h => absurd rfl h⟩
  | succ k ih =>
    rw [content_succ] at he
    have ih := ih fun x hx => he x (List.mem_append_left _ hx)
    rw [content_succ, List.range_succ, List.map_append, reduceList_append ha, List.map_cons, List.map_nil]
    have hlast : reduceList op [localPartial op f neutral (d k)] = some (localPartial op f neutral (d k)) := rfl
    rw [hlast]
    constructor
    · intro hnil _
      rw [List.append_eq_nil_iff] at hnil
      rw [hnil.2]
      show oadd op _ (some (f neutral)) = _
      by_cases hk : k = 0
      · subst hk; rfl
      · rw [ih.1 hnil.1 hk]; show some (op _ _) = _; rw [hee]
    · intro hne
      rw [List.map_append, reduceList_append ha]
      by_cases hd : d k = []
      · rw [hd] at hne ⊢
        rw [List.append_nil] at hne
        rw [ih.2 hne, List.map_nil]
        show oadd op _ (some (f neutral)) = _
        rw [oadd_comm hc, show reduceList op ([] : List M) = none from rfl, oadd_none_right]
        apply absorb ha (by simpa using hne)
        intro x hx
        obtain ⟨y, hy, rfl⟩ := List.mem_map.1 hx
        exact he y (List.mem_append_left _ hy)
      · rw [localPartial_reduceList ha f neutral hd]
        by_cases hcn : content k d = []
        · rw [hcn, List.map_nil, show reduceList op ([] : List M) = none from rfl, oadd_none_left]
          by_cases hk : k = 0
          · subst hk; exact oadd_none_left _
          · rw [ih.1 hcn hk]
            apply absorb ha (by simpa using hd)
            intro x hx
            obtain ⟨y, hy, rfl⟩ := List.mem_map.1 hx
            exact he y (List.mem_append_right _ hy)
        · rw [ih.2 hcn]
end

/-- **C20.** For every associative and commutative operator, every element map, every number of processes `P ≥ 1` and every
distribution of a non-empty array, with or without empty ranks: whatever order MPI uses, the reduction is the
reduction of the undistributed array, provided the neutral value is neutral for the elements of the array.
(The reduction of an empty array is the neutral value.) -/
theorem reduce_spec (op : M → M → M) (ha : ∀ a b c, op (op a b) c = op a (op b c)) (hc : ∀ a b, op a b = op b a)
    (f : α → M) (neutral : α) (P : Nat) (d : Nat → List α)
    (hee : op (f neutral) (f neutral) = f neutral) (he : ∀ x ∈ content P d, op (f neutral) (f x) = f x) (v : M)
    (hv : ReduceResult op f neutral P d v) :
    (content P d ≠ [] → Spec.reduceList op ((content P d).map f) = some v) ∧ (content P d = [] → v = f neutral) := by
  have h1 := combine_unique ha hc hv
  have h2 := reduce_prefix ha hc f neutral d hee P he
  constructor
  · intro hne; rw [← h2.2 hne, h1]
  · intro hnil
    have hP : P ≠ 0 := by
      intro h; subst h; simp [reduceList] at h1
    rw [h2.1 hnil hP] at h1
    exact (Option.some.inj h1).symm

/-- Some result always exists for `P ≥ 1`. -/
theorem reduce_exists (op : M → M → M) (f : α → M) (neutral : α) (P : Nat) (hP : 0 < P) (d : Nat → List α) :
    ∃ v, ReduceResult op f neutral P d v := by
  unfold ReduceResult
  obtain ⟨k, rfl⟩ : ∃ k, P = k + 1 := ⟨P - 1, by omega⟩
  generalize (fun r => localPartial op f neutral (d r)) = g
  clear hP d
  induction k with
  | zero => exact ⟨g 0, Combine.one _⟩
  | succ k ih =>
    obtain ⟨v, hv⟩ := ih
    refine ⟨op v (g (k + 1)), Combine.node hv (Combine.one _) ?_⟩
    rw [List.range_succ, List.map_append]; exact List.Perm.refl _

theorem reduceList_sum (l : List Int) (h : l ≠ []) : Spec.reduceList (· + ·) l = some l.sum := by
  induction l with
  | nil => exact absurd rfl h
  | cons x xs ih =>
    show oadd _ (some x) (reduceList _ xs) = _
    cases xs with
    | nil => simp [reduceList, oadd]
    | cons y ys => rw [ih (by simp)]; simp [oadd]

/-- `ht.sum` over the split axis of integer data (heat/core/arithmetics.py:3173, neutral 0) is the sum of all elements. -/
theorem sum_spec (P : Nat) (d : Nat → List Int) (v : Int) (hv : ReduceResult (· + ·) id 0 P d v) :
    v = (content P d).sum := by
  have h := reduce_spec (· + ·) Int.add_assoc Int.add_comm id 0 P d (by simp) (by simp) v hv
  by_cases hne : content P d = []
  · rw [h.2 hne, hne]; rfl
  · have := h.1 hne
    rw [List.map_id, reduceList_sum _ hne] at this
    exact (Option.some.inj this).symm

theorem reduceList_and (l : List Bool) (h : l ≠ []) : Spec.reduceList (· && ·) l = some (l.all id) := by
  induction l with
  | nil => exact absurd rfl h
  | cons x xs ih =>
    show oadd _ (some x) (reduceList _ xs) = _
    cases xs with
    | nil => simp [reduceList, oadd]
    | cons y ys => rw [ih (by simp)]; simp [oadd]

theorem reduceList_or (l : List Bool) (h : l ≠ []) : Spec.reduceList (· || ·) l = some (l.any id) := by
  induction l with
  | nil => exact absurd rfl h
  | cons x xs ih =>
    show oadd _ (some x) (reduceList _ xs) = _
    cases xs with
    | nil => simp [reduceList, oadd]
    | cons y ys => rw [ih (by simp)]; simp [oadd]

/-- `ht.all` (heat/core/logical.py:92-100, neutral 1): true iff no element is zero. -/
theorem all_spec (P : Nat) (d : Nat → List Int) (v : Bool)
    (hv : ReduceResult (· && ·) (fun x => decide (x ≠ 0)) 1 P d v) : v = true ↔ ∀ x ∈ content P d, x ≠ 0 := by
  have h := reduce_spec (· && ·) Bool.and_assoc Bool.and_comm (fun x : Int => decide (x ≠ 0)) 1 P d (by simp) (by simp) v hv
  by_cases hne : content P d = []
  · rw [h.2 hne, hne]; simp
  · have := h.1 hne
    rw [reduceList_and _ (by simpa using hne)] at this
    rw [← Option.some.inj this]; simp

/-- `ht.any` (heat/core/logical.py:212-220, neutral 0): true iff some element is not zero. -/
theorem any_spec (P : Nat) (d : Nat → List Int) (v : Bool)
    (hv : ReduceResult (· || ·) (fun x => decide (x ≠ 0)) 0 P d v) : v = true ↔ ∃ x ∈ content P d, x ≠ 0 := by
  have h := reduce_spec (· || ·) Bool.or_assoc Bool.or_comm (fun x : Int => decide (x ≠ 0)) 0 P d (by simp) (by simp) v hv
  by_cases hne : content P d = []
  · rw [h.2 hne, hne]; simp
  · have := h.1 hne
    rw [reduceList_or _ (by simpa using hne)] at this
    rw [← Option.some.inj this]; simp

/-- two ranks with data, one without -/
example : ReduceResult (· + ·) id (0 : Int) 3 (fun r => ([[3, 4], [], [5]] : List (List Int)).getD r []) 12 := by
  exact Combine.node (op := (· + ·)) (l := [7, 0, 5]) (l₁ := [5]) (l₂ := [7, 0]) (Combine.one (5 : Int))
    (Combine.node (l₁ := [7]) (l₂ := [0]) (Combine.one 7) (Combine.one 0) (List.Perm.refl _)) (by decide)

/-- The neutral value used by `ht.max` for a dtype whose largest value is `big` (heat/core/statistics.py:852,
heat/core/sanitation.py:210-225) is `-big`; the maximum is right if no element is below it. -/
theorem max_spec_partial (P : Nat) (d : Nat → List Int) (big : Int) (hne : content P d ≠ [])
    (hlow : ∀ x ∈ content P d, -big ≤ x) (v : Int) (hv : ReduceResult max id (-big) P d v) :
    v ∈ content P d ∧ ∀ x ∈ content P d, x ≤ v := by
  have h := reduce_spec max (fun a b c => by omega) (fun a b => by omega) id (-big) P d (by simp)
    (fun x hx => by have := hlow x hx; simp only [id]; omega) v hv
  replace h := h.1 hne
  rw [List.map_id] at h
  clear hv hlow hne
  generalize content P d = l at *
  induction l generalizing v with
  | nil => simp [reduceList] at h
  | cons x xs ih =>
    have h' : oadd max (some x) (reduceList max xs) = some v := h
    cases hr : reduceList max xs with
    | none =>
      rw [hr] at h'
      have : x = v := by simpa [oadd] using h'
      subst this
      have : xs = [] := by
        cases xs with
        | nil => rfl
        | cons y ys =>
          exfalso
          have : reduceList max (y :: ys) = oadd max (some y) (reduceList max ys) := rfl
          rw [this] at hr; cases hq : reduceList max ys <;> rw [hq] at hr <;> simp [oadd] at hr
      subst this; simp
    | some w =>
      rw [hr] at h'
      have hv : max x w = v := by simpa [oadd] using h'
      obtain ⟨h1, h2⟩ := ih w hr
      constructor
      · rcases Int.le_total x w with hxw | hxw
        · rw [← hv, Int.max_eq_right hxw]; exact List.mem_cons_of_mem _ h1
        · rw [← hv, Int.max_eq_left hxw]; exact List.mem_cons_self
      · intro y hy
        rcases List.mem_cons.1 hy with rfl | hy
        · omega
        · have := h2 y hy; omega

/-- int8 data `[-128]` on two ranks, the second one empty: `ht.max` is -127, a value that does not occur. -/
theorem max_int_min_violated :
    ReduceResult max id (-127) 2 (fun r => ([[-128], []] : List (List Int)).getD r []) (-127) := by
  exact Combine.node (l₁ := [-128]) (l₂ := [-127]) (Combine.one _) (Combine.one _) (List.Perm.refl _)

/-! ## C21 -/

/-- The cumulative operation on an undistributed array: the `i`-th value is the total of the first `i+1` elements. -/
def Spec.cumulative (op : M → M → M) (e : M) (l : List M) : List M :=
  (List.range l.length).map fun i => (l.take (i + 1)).foldl op e

section
variable {op : M → M → M} {e : M}

theorem scanFrom_eq (acc : M) (l : List M) :
    scanFrom op acc l = (List.range l.length).map fun i => (l.take (i + 1)).foldl op acc := by
  induction l generalizing acc with
  | nil => rfl
  | cons x xs ih =>
    rw [scanFrom, ih, List.length_cons, List.range_succ_eq_map, List.map_cons, List.map_map]
    rfl

theorem cumLocal_eq (hid : ∀ a, op e a = a) (l : List M) : cumLocal op l = Spec.cumulative op e l := by
  unfold Spec.cumulative
  rw [← scanFrom_eq]
  cases l with
  | nil => rfl
  | cons x xs => rw [cumLocal, scanFrom, hid]

theorem cumSend_eq (hid : ∀ a, op e a = a) (l : List M) : cumSend op e l = l.foldl op e := by
  unfold cumSend
  rw [cumLocal_eq hid]
  unfold Spec.cumulative
  cases hl : l.length with
  | zero => have := List.eq_nil_of_length_eq_zero hl; subst this; rfl
  | succ n =>
    rw [List.range_succ, List.map_append]
    simp only [List.map_cons, List.map_nil, List.getLast?_append, List.getLast?_singleton, Option.some_or, Option.getD_some]
    rw [← hl, List.take_length]

theorem foldl_shift (ha : ∀ a b c, op (op a b) c = op a (op b c)) (hid : ∀ a, op e a = a) (hid' : ∀ a, op a e = a) (l : List M) (a : M) :
    l.foldl op a = op a (l.foldl op e) := by
  induction l generalizing a with
  | nil => exact (hid' a).symm
  | cons x xs ih => rw [List.foldl_cons, List.foldl_cons, ih, ih (op e x), hid, ha]

theorem cum_prefix_total (ha : ∀ a b c, op (op a b) c = op a (op b c)) (hid : ∀ a, op e a = a) (hid' : ∀ a, op a e = a)
    (d : Nat → List M) (r : Nat) :
    ((List.range r).map fun q => cumSend op e (d q)).foldl op e = (content r d).foldl op e := by
  induction r with
  | zero => rfl
  | succ k ih =>
    rw [List.range_succ, List.map_append, List.foldl_append, ih, content_succ, List.foldl_append]
    simp only [List.map_cons, List.map_nil, List.foldl_cons, List.foldl_nil]
    rw [cumSend_eq hid, foldl_shift ha hid hid' (d k) ((content k d).foldl op e)]
end

/-- **C21.** For every commutative monoid `(op, e)`, every `P` and every distribution (with or without empty ranks), whatever
bracketing the exclusive scan uses: the local results in rank order are the cumulative operation of the
undistributed array. -/
theorem cum_spec (op : M → M → M) (e : M) (ha : ∀ a b c, op (op a b) c = op a (op b c)) (hc : ∀ a b, op a b = op b a)
    (hid : ∀ a, op e a = a) (P : Nat) (d : Nat → List M) (recv : Nat → M)
    (hr : ∀ r < P, CumRecv op e d r (recv r)) :
    content P (fun r => cumResult op (d r) (recv r)) = Spec.cumulative op e (content P d) := by
  have hid' : ∀ a, op a e = a := fun a => by rw [hc, hid]
  have hrecv : ∀ r < P, recv r = (content r d).foldl op e := by
    intro r hrP
    have := hr r hrP
    unfold CumRecv at this
    split at this
    · next h => subst h; exact this
    · next h =>
      have h1 := combine_unique ha hc this
      have h2 : some (((List.range r).map fun q => cumSend op e (d q)).foldl op e) = some (recv r) := by
        rw [foldl_reduceList ha]
        show oadd op (some e) (reduceList op _) = _
        rw [h1]; show some (op e (recv r)) = _; rw [hid]
      rw [cum_prefix_total ha hid hid'] at h2
      exact (Option.some.inj h2).symm
  clear hr
  induction P with
  | zero => rfl
  | succ k ih =>
    rw [content_succ, content_succ, ih fun r h => hrecv r (by omega)]
    unfold cumResult
    rw [cumLocal_eq hid, hrecv k (by omega)]
    unfold Spec.cumulative
    rw [List.length_append]
    generalize content k d = c
    rw [List.range_add, List.map_append, List.map_map, List.map_map]
    congr 1
    · apply List.map_congr_left
      intro i hi
      rw [List.mem_range] at hi
      rw [List.take_append_of_le_length (by omega)]
    · apply List.map_congr_left
      intro i hi
      simp only [Function.comp]
      have e1 : (c ++ d k).take (c.length + i + 1) = c ++ (d k).take (i + 1) := by
        rw [List.take_append, List.take_of_length_le (l := c) (by omega),
          show c.length + i + 1 - c.length = i + 1 by omega]
      rw [e1, List.foldl_append, foldl_shift ha hid hid' _ (c.foldl op e), hc]

example : CumRecv (· + ·) (0 : Int) (fun r => ([[3, 4], [], [5]] : List (List Int)).getD r []) 2 7 ∧
    Spec.cumulative (· + ·) (0 : Int) [3, 4, 5] = [3, 7, 12] := by
  constructor
  · exact Combine.node (op := (· + ·)) (l := [(7 : Int), 0]) (l₁ := [7]) (l₂ := [0]) (Combine.one 7) (Combine.one 0)
      (List.Perm.refl _)
  · decide

/-! ## C22 -/

/-- NumPy's result shape of a reduction over `axes`: reduced axes become 1 (`keepdims`) or disappear.  `i` is the
position of the head of the list. -/
def Spec.reducedShape (axes : List Nat) (keep : Bool) : Nat → List Nat → List Nat
  | _, [] => []
  | i, n :: s => if i ∈ axes then (if keep then 1 :: Spec.reducedShape axes keep (i + 1) s else Spec.reducedShape axes keep (i + 1) s)
      else n :: Spec.reducedShape axes keep (i + 1) s

/-- Position of the old axis `s` (not reduced) in the result. -/
def Spec.axisAfter (axes : List Nat) (keep : Bool) (s : Nat) : Nat :=
  if keep then s else ((List.range s).filter fun i => i ∉ axes).length

theorem onesAt_get (axes : List Nat) (shape : List Nat) (j : Nat) (hj : j < shape.length) :
    (onesAt shape axes)[j]? = some (if j ∈ axes then 1 else shape[j]) := by
  unfold onesAt
  induction axes generalizing shape with
  | nil => simp [List.getElem?_eq_getElem hj]
  | cons a as ih =>
    rw [List.foldl_cons, ih (shape.set a 1) (by simpa using hj)]
    rw [List.getElem_set]
    by_cases h1 : j ∈ as
    · simp [h1]
    · by_cases h2 : a = j
      · subst h2; simp [h1]
      · have : j ≠ a := fun h => h2 h.symm
        simp [h1, h2, this]

theorem onesAt_length (axes : List Nat) (shape : List Nat) : (onesAt shape axes).length = shape.length := by
  unfold onesAt
  induction axes generalizing shape with
  | nil => rfl
  | cons a as ih => rw [List.foldl_cons, ih]; simp

theorem reducedShape_keep (axes shape : List Nat) (i : Nat) :
    reducedShape axes true i shape = shape.mapIdx fun j n => if i + j ∈ axes then 1 else n := by
  induction shape generalizing i with
  | nil => rfl
  | cons n s ih =>
    rw [reducedShape, ih, List.mapIdx_cons]
    simp only [Nat.add_zero, if_true]
    have : (fun j n => if i + (j + 1) ∈ axes then 1 else n) = (fun j (n : Nat) => if i + 1 + j ∈ axes then 1 else n) := by
      funext j n; congr 2; omega
    rw [this]
    split <;> rfl

theorem onesAt_spec (axes shape : List Nat) : onesAt shape axes = reducedShape axes true 0 shape := by
  rw [reducedShape_keep]
  apply List.ext_getElem
  · rw [onesAt_length]; simp
  · intro j h1 h2
    have hj : j < shape.length := by rwa [onesAt_length] at h1
    have := onesAt_get axes shape j hj
    rw [List.getElem?_eq_getElem h1] at this
    rw [Option.some.inj this]; simp

theorem loseDims_aux (axes shape : List Nat) (i : Nat) :
    reducedShape axes false i shape =
      ((List.range shape.length).filter fun j => i + j ∉ axes).map fun j => shape.getD j 0 := by
  induction shape generalizing i with
  | nil => rfl
  | cons n s ih =>
    rw [reducedShape, ih, List.length_cons, List.range_succ_eq_map, List.filter_cons, List.filter_map]
    have : ((fun j => decide (i + j ∉ axes)) ∘ Nat.succ) = fun j => decide (i + 1 + j ∉ axes) := by
      funext j; simp only [Function.comp, Nat.succ_eq_add_one]; rw [decide_eq_decide]
      rw [show i + (j + 1) = i + 1 + j by omega]
    rw [this]
    by_cases h : i ∈ axes
    · simp [h, List.map_map, Function.comp_def]
    · simp [h, List.map_map, Function.comp_def]

theorem loseDims_spec (axes shape : List Nat) : loseDims shape axes = reducedShape axes false 0 shape := by
  rw [loseDims_aux]; unfold loseDims; congr 1
  apply List.filter_congr; intro j _; rw [Nat.zero_add]

/-- duplicates-free list of dims below `s`: complement count -/
theorem count_axes (axes : List Nat) (hnd : axes.Nodup) (s : Nat) :
    s - (axes.filter fun dim => decide (dim < s)).length = ((List.range s).filter fun i => decide (i ∉ axes)).length := by
  have h1 : (axes.filter fun dim => decide (dim < s)).Perm ((List.range s).filter fun i => decide (i ∈ axes)) := by
    rw [List.perm_ext_iff_of_nodup (hnd.filter _) (List.nodup_range.filter _)]
    intro a; simp [and_comm]
  rw [h1.length_eq]
  have h2 : ∀ l : List Nat, (l.filter fun i => decide (i ∈ axes)).length + (l.filter fun i => decide (i ∉ axes)).length = l.length := by
    intro l
    induction l with
    | nil => rfl
    | cons x xs ih =>
      by_cases h : x ∈ axes
      · simp [h]; simp at ih; omega
      · simp [h]; simp at ih; omega
  have := h2 (List.range s)
  rw [List.length_range] at this
  omega

/-- local and global shapes agree except at the split axis -/
def Spec.LocalOf (gshape lshape : List Nat) (split : Option Nat) : Prop :=
  lshape.length = gshape.length ∧ ∀ j < gshape.length, split ≠ some j → lshape.getD j 0 = gshape.getD j 0

theorem loseDims_congr {axes a b : List Nat} (hl : a.length = b.length)
    (h : ∀ j < b.length, j ∉ axes → a.getD j 0 = b.getD j 0) : loseDims a axes = loseDims b axes := by
  unfold loseDims
  rw [hl]
  apply List.map_congr_left
  intro j hj
  rw [List.mem_filter] at hj
  exact h j (List.mem_range.1 hj.1) (by simpa using hj.2)

theorem onesAt_congr {axes a b : List Nat} (hl : a.length = b.length)
    (h : ∀ j < b.length, j ∉ axes → a.getD j 0 = b.getD j 0) : onesAt a axes = onesAt b axes := by
  apply List.ext_getElem
  · rw [onesAt_length, onesAt_length, hl]
  · intro j h1 h2
    have ha : j < a.length := by rwa [onesAt_length] at h1
    have hb : j < b.length := by rwa [onesAt_length] at h2
    have e1 := onesAt_get axes a j ha
    have e2 := onesAt_get axes b j hb
    rw [List.getElem?_eq_getElem h1] at e1
    rw [List.getElem?_eq_getElem h2] at e2
    rw [Option.some.inj e1, Option.some.inj e2]
    split
    · rfl
    · next hj =>
      have := h j hb hj
      simpa [List.getD, List.getElem?_eq_getElem ha, List.getElem?_eq_getElem hb] using this

/-- **C22 (partial).** For every global shape with `ndim ≠ 1`, every local shape, split, set of reduced axes (not all of them,
unless `keepdims`) and `keepdims`: the result's global shape is NumPy's; its split axis is None if the split axis was
reduced and otherwise the new position of the old split axis; the local shape is the reduced local shape, respectively
the whole result if the split axis was reduced.
Missing: 1-d arrays without keepdims, reducing all axes of a tuple, `axis=None` with keepdims
(`reduceMeta_*_violated`). -/
theorem reduceMeta_partial (distributed : Bool) (gshape lshape : List Nat) (split : Option Nat) (axes : List Nat)
    (keepdims : Bool) (hnd : axes.Nodup) (hloc : Spec.LocalOf gshape lshape split)
    (hdim : keepdims = true ∨ (gshape.length ≠ 1 ∧ ∃ j < gshape.length, j ∉ axes)) :
    let m := reduceMeta distributed gshape lshape split (some axes) keepdims
    m.gshape = Spec.reducedShape axes keepdims 0 gshape ∧
    m.split = (match split with
      | none => none
      | some s => if s ∈ axes then none else some (Spec.axisAfter axes keepdims s)) ∧
    m.lshape = (match split with
      | none => Spec.reducedShape axes keepdims 0 lshape
      | some s => if s ∈ axes then Spec.reducedShape axes keepdims 0 gshape
                  else Spec.reducedShape axes keepdims 0 lshape) := by
  have hlen := hloc.1
  -- the local shape of the partial result
  have hpart : ∀ s, split = some s → s ∈ axes → ∀ p : List Nat, (p = lshape ∨ p = gshape.set s 1) →
      onesAt p axes = onesAt gshape axes := by
    intro s hs hin p hp
    apply onesAt_congr
    · rcases hp with rfl | rfl
      · exact hlen
      · simp
    · intro j hj hjn
      have hne : j ≠ s := fun h => hjn (h ▸ hin)
      rcases hp with rfl | rfl
      · exact hloc.2 j hj (by rw [hs]; simp; exact fun h => hne h.symm)
      · simp [List.getD, Ne.symm hne]
  have hlose : ∀ s, split = some s → s ∈ axes → loseDims lshape axes = loseDims gshape axes := by
    intro s hs hin
    apply loseDims_congr hlen
    intro j hj hjn
    have hne : j ≠ s := fun h => hjn (h ▸ hin)
    exact hloc.2 j hj (by rw [hs]; simp; exact fun h => hne h.symm)
  have hpos : ∀ sh : List Nat, sh.length = gshape.length → (∃ j < gshape.length, j ∉ axes) → 0 < (loseDims sh axes).length := by
    intro sh hsh ⟨j, hj, hjn⟩
    unfold loseDims
    rw [List.length_map]
    apply List.length_pos_of_mem (a := j)
    rw [List.mem_filter]
    exact ⟨List.mem_range.2 (by omega), by simpa using hjn⟩
  unfold reduceMeta
  simp only
  cases split with
  | none =>
    simp only [Bool.and_false, Bool.false_eq_true, if_false]
    cases keepdims with
    | true => simp [onesAt_spec]
    | false =>
      have hd := hdim.resolve_left (by simp)
      have := hpos lshape hlen hd.2
      simp only [Bool.not_false, Bool.true_and, onesAt_length]
      rw [if_pos (by simpa using by omega : decide (lshape.length ≠ 1) = true)]
      rw [if_pos this]
      simp [loseDims_spec]
  | some s =>
    simp only
    by_cases hin : s ∈ axes
    · simp only [hin, decide_true, if_true, Bool.and_true]
      generalize hp : (if (distributed && lshape.contains 0) = true then gshape.set s 1 else lshape) = p
      have hp' : p = lshape ∨ p = gshape.set s 1 := by rw [← hp]; split <;> simp
      have hpl : p.length = gshape.length := by rcases hp' with rfl | rfl <;> simp [hlen]
      rw [hpart s rfl hin p hp']
      cases keepdims with
      | true => simp [onesAt_spec]
      | false =>
        have hd := hdim.resolve_left (by simp)
        have := hpos lshape hlen hd.2
        simp only [Bool.not_false, Bool.true_and, onesAt_length]
        rw [if_pos (by simpa using hd.1 : decide (gshape.length ≠ 1) = true)]
        simp only [if_pos this]
        rw [hlose s rfl hin]
        simp [loseDims_spec]
    · simp only [hin, decide_false, Bool.and_false, Bool.false_eq_true, if_false]
      cases keepdims with
      | true => simp [onesAt_spec, Spec.axisAfter]
      | false =>
        have hd := hdim.resolve_left (by simp)
        have := hpos lshape hlen hd.2
        simp only [Bool.not_false, Bool.true_and, onesAt_length, if_true]
        rw [if_pos (by simpa using by omega : decide (lshape.length ≠ 1) = true)]
        rw [if_pos this, count_axes axes hnd]
        simp [loseDims_spec, Spec.axisAfter]

example : Spec.LocalOf [4, 6, 5] [4, 2, 5] (some 1) ∧
    reduceMeta true [4, 6, 5] [4, 2, 5] (some 1) (some [0]) false = ⟨[6, 5], [2, 5], some 0⟩ ∧
    reduceMeta true [4, 6, 5] [4, 0, 5] (some 1) (some [1]) true = ⟨[4, 1, 5], [4, 1, 5], none⟩ := by
  refine ⟨⟨rfl, ?_⟩, by decide, by decide⟩
  decide

/-- `ht.sum(x, axis=0)` of a 1-d array has shape `(1,)`, not `()`. -/
theorem reduceMeta_1d_violated (distributed : Bool) (n : Nat) :
    (reduceMeta distributed [n] [n] none (some [0]) false).gshape = [1] ∧ Spec.reducedShape [0] false 0 [n] = [] := by
  constructor
  · simp [reduceMeta, onesAt]
  · simp [Spec.reducedShape]

/-- `ht.sum(x, axis=(0, 1))` of a 2-d array has global shape `()` but local shape `(1, 1)`. -/
theorem reduceMeta_all_axes_violated (distributed : Bool) (n m : Nat) :
    (reduceMeta distributed [n, m] [n, m] none (some [0, 1]) false) = ⟨[], [1, 1], none⟩ := by
  simp [reduceMeta, onesAt, loseDims, List.range_succ]

/-- `keepdims` is ignored when `axis` is None. -/
theorem reduceMeta_none_keepdims_violated (distributed : Bool) (n m : Nat) (split : Option Nat) :
    (reduceMeta distributed [n, m] [n, m] split none true).gshape = [] ∧ Spec.reducedShape [0, 1] true 0 [n, m] = [1, 1] := by
  simp [reduceMeta, Spec.reducedShape]

end Heat
