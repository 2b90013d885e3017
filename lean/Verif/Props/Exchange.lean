import Verif.Proof.Exchange
import Verif.Props.Dist
import Verif.Props.Indexing
/-!
# C33, C38, C39: permutation, roll and flip along the split axis
-/
namespace Heat
open Heat.Spec
variable {α : Type}

/-- The distributed result of an exchange: rank `r`'s receive slots `0, 1, ..., |parts r| - 1`. -/
def Spec.received (P : Nat) (parts : Nat → List α) (s : XState α) : List (Option α) :=
  content P fun r => (List.range (parts r).length).map (s.store r)

theorem received_get {P : Nat} {parts : Nat → List α} {s : XState α} {src : Nat → Nat}
    (h : ∀ r < P, ∀ i < (parts r).length, s.store r i = (content P parts)[src (startOf parts r + i)]?) :
    Spec.received P parts s = (List.range (content P parts).length).map fun g => (content P parts)[src g]? := by
  have hl : ∀ k, startOf (fun r => (List.range (parts r).length).map (s.store r)) k = startOf parts k := by
    intro k
    induction k with
    | zero => rfl
    | succ k ih => rw [startOf_succ, startOf_succ, ih]; simp
  apply List.ext_getElem?
  intro g
  by_cases hg : g < (content P parts).length
  · obtain ⟨r, hr, h1, h2⟩ := startOf_owner parts P g hg
    rw [startOf_succ] at h2
    have := content_get (fun r => (List.range (parts r).length).map (s.store r)) P r (g - startOf parts r) hr
      (by simp; omega)
    rw [hl, show startOf parts r + (g - startOf parts r) = g by omega] at this
    unfold Spec.received
    rw [this]
    simp only [List.getElem?_map, List.getElem_map, List.getElem_range]
    rw [List.getElem?_range hg]
    simp only [Option.map_some]
    rw [h r hr _ (by omega), show startOf parts r + (g - startOf parts r) = g by omega]
  · rw [List.getElem?_eq_none, List.getElem?_eq_none]
    · simpa using hg
    · have : (Spec.received P parts s).length = (content P parts).length := hl P
      omega

/-! ## roll -/

theorem indexMap_owns (P : Nat) (parts : Nat → List α) :
    Owns P parts fun g => (indexMap P parts).getD g 0 := by
  have hl : ∀ k, startOf (fun r => List.replicate (parts r).length r) k = startOf parts k := by
    intro k
    induction k with
    | zero => rfl
    | succ k ih => rw [startOf_succ, startOf_succ, ih]; simp
  intro g hg
  obtain ⟨r, hr, h1, h2⟩ := startOf_owner parts P g hg
  have h3 := h2
  rw [startOf_succ] at h2
  have := content_get (fun r => List.replicate (parts r).length r) P r (g - startOf parts r) hr
      (by simp; omega)
  rw [hl, show startOf parts r + (g - startOf parts r) = g by omega,
    List.getElem_replicate] at this
  have e : (indexMap P parts).getD g 0 = r := by
    rw [List.getD_eq_getElem?_getD]
    show (content P _)[g]?.getD 0 = r
    rw [this]; rfl
  simp only [e]
  exact ⟨hr, h1, h3⟩

theorem mod_toNat_lt (n : Nat) (x : Int) (hn : 0 < n) : (x % (n : Int)).toNat < n := by
  have h1 := Int.emod_nonneg x (show (n : Int) ≠ 0 by omega)
  have h2 := Int.emod_lt_of_pos x (show (0 : Int) < n by omega)
  omega

theorem mod_toNat_cast (n : Nat) (x : Int) (hn : 0 < n) : (((x % (n : Int)).toNat : Nat) : Int) = x % n := by
  have h1 := Int.emod_nonneg x (show (n : Int) ≠ 0 by omega)
  omega

theorem mod_back (n g : Nat) (a : Int) (hg : g < n) :
    (((((g : Int) + a) % (n : Int)).toNat - a : Int) % (n : Int)).toNat = g := by
  rw [mod_toNat_cast _ _ (by omega)]
  rw [show (((g : Int) + a) % (n : Int) - a) = ((g : Int) + a) % (n : Int) + (-a) by omega, Int.emod_add_emod,
    show (g : Int) + a + -a = g by omega, Int.emod_eq_of_lt (by omega) (by omega)]
  omega

theorem roll_posExchange (P : Nat) (parts : Nat → List α) (shift : Int) :
    PosExchange P parts (fun g => (indexMap P parts).getD g 0)
      (fun g => (((g : Int) - shift) % ((content P parts).length : Int)).toNat)
      (fun g => (((g : Int) + shift) % ((content P parts).length : Int)).toNat)
      (fun g => g) (rollProg P parts shift) := by
  have hout : ∀ r, ∀ x ∈ rollOps P parts shift r, x.1 = r := by
    intro r x hx
    simp only [rollOps, List.mem_append, List.mem_map, List.mem_filterMap, List.mem_range,
      Option.map_eq_some_iff] at hx
    rcases hx with ⟨i, -, rfl⟩ | ⟨i, -, v, -, rfl⟩ <;> rfl
  have hback : ∀ g : Nat, g < (content P parts).length → ∀ a : Int, 0 < (content P parts).length :=
    fun g hg _ => by omega
  have tagInj : ∀ r i j : Nat, r < P → i < (parts r).length → j < (parts r).length →
      (((startOf parts r + i : Nat) : Int) + shift) % ((content P parts).length : Int) =
      (((startOf parts r + j : Nat) : Int) + shift) % ((content P parts).length : Int) → i = j := by
    intro r i j hr hi hj e
    have a := mod_back _ _ shift (pos_lt hr hi)
    have b := mod_back _ _ shift (pos_lt hr hj)
    rw [e] at a
    omega
  refine ⟨indexMap_owns P parts, ?_, ?_, ?_, ?_, ?_, ?_, ?_, ?_⟩
  · intro r s t i
    simp only [rollProg, List.mem_flatMap, List.mem_range]
    constructor
    · rintro ⟨a, ha, hm⟩
      have : r = a := hout a _ hm
      subst this
      simp only [rollOps, List.mem_append, List.mem_map, List.mem_filterMap, List.mem_range,
        Option.map_eq_some_iff] at hm
      rcases hm with ⟨j, hj, e⟩ | ⟨j, -, v, -, e⟩
      · simp only [Prod.mk.injEq, XOp.irecv.injEq, true_and] at e
        obtain ⟨e1, e2, e3⟩ := e
        subst e3
        refine ⟨ha, hj, ?_, ?_⟩
        · rw [← e1]; rfl
        · omega
      · simp at e
    · rintro ⟨ha, hi, rfl, rfl⟩
      refine ⟨r, ha, ?_⟩
      simp only [rollOps, List.mem_append, List.mem_map, List.mem_range]
      left
      refine ⟨i, hi, ?_⟩
      simp only [Prod.mk.injEq, XOp.irecv.injEq, true_and, and_true]
      refine ⟨rfl, by omega⟩
  · intro r d t v
    simp only [rollProg, List.mem_flatMap, List.mem_range]
    constructor
    · rintro ⟨a, ha, hm⟩
      have : r = a := hout a _ hm
      subst this
      simp only [rollOps, List.mem_append, List.mem_map, List.mem_filterMap, List.mem_range,
        Option.map_eq_some_iff] at hm
      rcases hm with ⟨j, hj, e⟩ | ⟨j, hj, w, hw, e⟩
      · simp at e
      · simp only [Prod.mk.injEq, XOp.isend.injEq, true_and] at e
        obtain ⟨e1, e2, e3⟩ := e
        subst e3
        exact ⟨ha, j, hw, by rw [← e1]; rfl, by rw [← e2]; rfl⟩
    · rintro ⟨ha, i, hv, rfl, rfl⟩
      refine ⟨r, ha, ?_⟩
      simp only [rollOps, List.mem_append, List.mem_filterMap, List.mem_range, Option.map_eq_some_iff]
      right
      exact ⟨i, getElem?_lt hv, v, hv, rfl⟩
  · apply nodup_flatMap_ranks
    · intro r hr
      unfold rollOps
      simp only
      rw [List.nodup_append]
      refine ⟨?_, ?_, ?_⟩
      · apply nodup_map_range
        intro i hi j hj e
        simp only [Prod.mk.injEq, XOp.irecv.injEq] at e
        exact e.2.2.2
      · rw [filterMap_range_eq_map (parts r) (fun i v => (r, XOp.isend
          ((indexMap P parts).getD (((startOf parts r : Int) + i + shift) %
            ((content P parts).length : Int)).toNat 0)
          (((startOf parts r : Int) + i + shift) % ((content P parts).length : Int)).toNat v))]
        rw [List.nodup_iff_pairwise_ne, List.pairwise_iff_getElem]
        intro i j hi hj hij e
        simp only [List.getElem_mapIdx, Prod.mk.injEq, XOp.isend.injEq] at e
        have hi' : i < (parts r).length := by simpa using hi
        have hj' : j < (parts r).length := by simpa using hj
        have hn := pos_lt hr hi'
        have e2 := congrArg (fun (x : Nat) => (x : Int)) e.2.2.1
        rw [mod_toNat_cast _ _ (by omega), mod_toNat_cast _ _ (by omega)] at e2
        have := tagInj r i j hr hi' hj' (by simpa using e2)
        omega
      · intro a ha b hb e
        subst e
        simp only [List.mem_map, List.mem_filterMap, Option.map_eq_some_iff] at ha hb
        obtain ⟨i, -, rfl⟩ := ha
        obtain ⟨j, -, v, -, e⟩ := hb
        simp at e
    · intro r _; exact hout r
  · intro g hg; exact mod_toNat_lt _ _ (by omega)
  · intro g hg; exact mod_toNat_lt _ _ (by omega)
  · intro g hg; exact mod_back _ _ _ hg
  · intro g hg
    have := mod_back _ g (-shift) hg
    simpa [Int.sub_eq_add_neg] using this
  · intro p q _ _ _ h; exact h

/-- C38.  `roll(x, shift, axis=split)`: for every distribution of the array (empty ranks allowed), every integer
shift and every schedule of the messages: no schedule is longer than twice the number of messages operations, a
schedule can only stop when all operations are complete, and then the global array has the slab of position `g` at
position `(g + shift) mod n`, with the same local sizes as before. -/
theorem roll_spec (P : Nat) (parts : Nat → List α) (shift : Int) {k : Nat} {s : XState α}
    (h : Steps (XStep (rollProg P parts shift)) k XState.init s) :
    k ≤ 2 * (rollProg P parts shift).length ∧
    (Spec.Stuck (XStep (rollProg P parts shift)) s →
      (∀ o < (rollProg P parts shift).length, s.status o = .done) ∧
      (Spec.received P parts s).length = (content P parts).length ∧
      ∀ g < (content P parts).length,
        (Spec.received P parts s)[(((g : Int) + shift) % ((content P parts).length : Int)).toNat]? =
          some (content P parts)[g]?) := by
  refine ⟨exchange_terminates _ h, ?_⟩
  intro hstuck
  have E := roll_posExchange P parts shift
  obtain ⟨h1, h2⟩ := posExchange_result E h hstuck
  have h3 := received_get (src := fun g => (((g : Int) - shift) % ((content P parts).length : Int)).toNat) h2
  refine ⟨h1, by rw [h3]; simp, ?_⟩
  intro g hg
  rw [h3, List.getElem?_map, List.getElem?_range (mod_toNat_lt _ _ (by omega)), Option.map_some]
  rw [mod_back _ _ _ hg]

example : rollProg 2 (fun r => [[10, 11], [12]].getD r []) (-1) =
    [(0, .irecv 0 0 0), (0, .irecv 1 1 1), (0, .isend 1 2 10), (0, .isend 0 0 11),
     (1, .irecv 0 2 0), (1, .isend 0 1 12)] := by decide

/-! ## flip -/

theorem content_reverse (P : Nat) (parts : Nat → List α) :
    content P (fun r => (parts (P - 1 - r)).reverse) = (content P parts).reverse := by
  have key : ∀ k, k ≤ P → content k (fun r => (parts (P - 1 - r)).reverse) =
      (content P parts).reverse.take (content k (fun r => (parts (P - 1 - r)).reverse)).length ∧
      content (P - k) parts = (content P parts).take (startOf parts (P - k)) ∧
      content P parts = content (P - k) parts ++ (content k fun r => (parts (P - 1 - r)).reverse).reverse := by
    intro k
    induction k with
    | zero => intro _; simp [content_zero, startOf]
    | succ k ih =>
      intro hk
      obtain ⟨-, -, h3⟩ := ih (by omega)
      have h4 : content P parts = content (P - (k + 1)) parts ++
          (content (k + 1) fun r => (parts (P - 1 - r)).reverse).reverse := by
        rw [content_succ, List.reverse_append, List.reverse_reverse, ← List.append_assoc]
        rw [show P - 1 - k = P - (k + 1) by omega, ← content_succ]
        rw [show P - (k + 1) + 1 = P - k by omega]
        exact h3
      refine ⟨?_, ?_, h4⟩
      · conv => rhs; rw [h4]
        simp
      · conv => rhs; rw [h4]
        simp [startOf]
  have := (key P (Nat.le_refl P)).2.2
  rw [Nat.sub_self, content_zero, List.nil_append] at this
  rw [this, List.reverse_reverse]

theorem flip_wellMatched (P : Nat) (parts : Nat → List α) : Spec.WellMatched (flipProg P parts) := by
  have hmem : ∀ x, x ∈ flipProg P parts ↔ ∃ r < P, x = (r, XOp.isend (P - 1 - r) 0 (parts r).reverse) ∨
      x = (r, XOp.irecv (P - 1 - r) 0 0) := by
    intro x; simp [flipProg]
  have nd : (flipProg P parts).Nodup := by
    apply nodup_flatMap_ranks
    · intro r _; simp
    · intro r _ x hx
      simp at hx
      rcases hx with rfl | rfl <;> rfl
  have snd : ∀ {r d t : Nat} {v}, (r, XOp.isend d t v) ∈ flipProg P parts →
      r < P ∧ d = P - 1 - r ∧ t = 0 ∧ v = (parts r).reverse := by
    intro r d t v h
    obtain ⟨a, ha, h | h⟩ := (hmem _).1 h
    · simp only [Prod.mk.injEq, XOp.isend.injEq] at h
      obtain ⟨rfl, rfl, rfl, rfl⟩ := h
      exact ⟨ha, rfl, rfl, rfl⟩
    · simp at h
  have rcv : ∀ {r d t i : Nat}, (r, XOp.irecv d t i) ∈ flipProg P parts →
      r < P ∧ d = P - 1 - r ∧ t = 0 ∧ i = 0 := by
    intro r d t v h
    obtain ⟨a, ha, h | h⟩ := (hmem _).1 h
    · simp at h
    · simp only [Prod.mk.injEq, XOp.irecv.injEq] at h
      obtain ⟨rfl, rfl, rfl, rfl⟩ := h
      exact ⟨ha, rfl, rfl, rfl⟩
  refine ⟨?_, ?_, ?_, ?_, ?_⟩
  · intro i r d t v h
    obtain ⟨hr, rfl, rfl, rfl⟩ := snd (List.mem_of_getElem? h)
    have : (P - 1 - r, XOp.irecv (P - 1 - (P - 1 - r)) 0 0) ∈ flipProg P parts :=
      (hmem _).2 ⟨P - 1 - r, by omega, Or.inr rfl⟩
    obtain ⟨j, hj⟩ := List.getElem?_of_mem this
    rw [show P - 1 - (P - 1 - r) = r by omega] at hj
    exact ⟨j, 0, hj⟩
  · intro j s d t sl h
    obtain ⟨hr, rfl, rfl, rfl⟩ := rcv (List.mem_of_getElem? h)
    have : (P - 1 - d, XOp.isend (P - 1 - (P - 1 - d)) 0 (parts (P - 1 - d)).reverse) ∈ flipProg P parts :=
      (hmem _).2 ⟨P - 1 - d, by omega, Or.inl rfl⟩
    obtain ⟨j, hj⟩ := List.getElem?_of_mem this
    rw [show P - 1 - (P - 1 - d) = d by omega] at hj
    exact ⟨j, _, hj⟩
  · intro i i' r d t v v' h h'
    obtain ⟨hr, rfl, rfl, rfl⟩ := snd (List.mem_of_getElem? h)
    obtain ⟨-, -, -, rfl⟩ := snd (List.mem_of_getElem? h')
    exact nodup_index nd h h'
  · intro j j' s r t a b h h'
    obtain ⟨hr, rfl, rfl, rfl⟩ := rcv (List.mem_of_getElem? h)
    obtain ⟨-, -, -, rfl⟩ := rcv (List.mem_of_getElem? h')
    exact nodup_index nd h h'
  · intro j j' r s s' t t' a h h'
    obtain ⟨hr, rfl, rfl, rfl⟩ := rcv (List.mem_of_getElem? h)
    obtain ⟨-, rfl, rfl, -⟩ := rcv (List.mem_of_getElem? h')
    exact nodup_index nd h h'

/-- C39.  `flip` along the split axis.  For every distribution and every message schedule: the schedule ends
with all operations complete; the blocks then held by the ranks, in rank order, are the global array reversed;
and the final `balance_` succeeds and leaves the reversed array in balanced distribution. -/
theorem flip_spec (P : Nat) (hP : 0 < P) (parts : Nat → List α) {k : Nat} {s : XState (List α)}
    (h : Steps (XStep (flipProg P parts)) k XState.init s) :
    k ≤ 2 * (flipProg P parts).length ∧
    (Spec.Stuck (XStep (flipProg P parts)) s →
      (∀ o < (flipProg P parts).length, s.status o = .done) ∧
      ∃ blocks : Nat → List α, (∀ r < P, s.store r 0 = some (blocks r)) ∧
        content P blocks = (content P parts).reverse ∧
        ∃ final, balance 2 (content P blocks).length P blocks = .ok final ∧
          content P final = (content P parts).reverse ∧ Balanced P final) := by
  refine ⟨exchange_terminates _ h, ?_⟩
  intro hstuck
  obtain ⟨h1, h2, -⟩ := exchange_schedule_independent _ (flip_wellMatched P parts) h hstuck
  refine ⟨h1, fun r => (parts (P - 1 - r)).reverse, ?_, content_reverse P parts, ?_⟩
  · intro r hr
    have m1 : (P - 1 - r, XOp.isend r 0 (parts (P - 1 - r)).reverse) ∈ flipProg P parts := by
      simp only [flipProg, List.mem_flatMap, List.mem_range]
      exact ⟨P - 1 - r, by omega, by simp; omega⟩
    have m2 : (r, XOp.irecv (P - 1 - r) 0 0) ∈ flipProg P parts := by
      simp only [flipProg, List.mem_flatMap, List.mem_range]
      exact ⟨r, hr, by simp⟩
    obtain ⟨a, ha⟩ := List.getElem?_of_mem m1
    obtain ⟨b, hb⟩ := List.getElem?_of_mem m2
    exact h2 a b _ _ _ _ _ ha hb
  · obtain ⟨f, hf1, hf2, hf3, -⟩ := balance_spec P hP (fun r => (parts (P - 1 - r)).reverse) 2 (Nat.le_refl 2)
    exact ⟨f, hf1, hf2.trans (content_reverse P parts), hf3⟩

example : content 3 (fun r => ((fun r => [[1, 2, 3], [], [4]].getD r []) (3 - 1 - r)).reverse) = [4, 3, 2, 1] := by
  decide

/-! ## permutation -/

theorem permBounds_get (n P : Nat) (hP : 0 < P) (r : Nat) (hr : r ≤ P) :
    (permBounds n P)[r]? = some (chunkRange n r P).1 := by
  unfold permBounds
  by_cases h : r < P
  · rw [List.getElem?_append_left (by simpa using h)]; simp [h]
  · have : r = P := by omega
    subst this
    rw [List.getElem?_append_right (by simp)]
    simp [chunkRange_at_P n r hP]

theorem ownerByCumsum_spec (n P v : Nat) (hP : 0 < P) (hv : v < n) :
    ownerByCumsum (permBounds n P) v < P ∧
    (chunkRange n (ownerByCumsum (permBounds n P) v) P).1 ≤ v ∧
    v < (chunkRange n (ownerByCumsum (permBounds n P) v + 1) P).1 := by
  unfold ownerByCumsum
  have hlen : (permBounds n P).length = P + 1 := by simp [permBounds]
  have hlt : (permBounds n P).findIdx (fun b => decide (v < b)) < (permBounds n P).length := by
    rw [List.findIdx_lt_length]
    exact ⟨n, by simp [permBounds], by simpa using hv⟩
  have h1 := List.findIdx_getElem (w := hlt)
  have hk : ∀ k (hk : k < (permBounds n P).length), (permBounds n P)[k] = (chunkRange n k P).1 := by
    intro k hk
    have := permBounds_get n P hP k (by omega)
    rw [List.getElem?_eq_getElem hk] at this
    simpa using this
  rw [hk] at h1
  simp only [decide_eq_true_eq] at h1
  generalize hx : (permBounds n P).findIdx (fun b => decide (v < b)) = x at *
  have h0 : 0 < x := by
    rcases Nat.eq_zero_or_pos x with h | h
    · subst h; rw [chunkRange_zero] at h1; omega
    · exact h
  have h2 := List.not_of_lt_findIdx (p := fun b => decide (v < b)) (xs := permBounds n P)
    (show x - 1 < _ by rw [hx]; omega)
  rw [hk] at h2
  simp only [decide_eq_false_iff_not, Nat.not_lt] at h2
  refine ⟨by omega, by omega, ?_⟩
  rw [show x - 1 + 1 = x by omega]
  exact h1

theorem perm_owns {P : Nat} (hP : 0 < P) {parts : Nat → List α} (hb : Balanced P parts) :
    Owns P parts (ownerByCumsum (permBounds (content P parts).length P)) := by
  intro g hg
  obtain ⟨h1, h2, h3⟩ := ownerByCumsum_spec _ P g hP hg
  refine ⟨h1, ?_, ?_⟩
  · rw [balanced_chunk_start hb _ (by omega)]; exact h2
  · rw [balanced_chunk_start hb _ (by omega)]; exact h3

theorem foldl_ok {β γ : Type} (f : β → Except Err (List γ)) (g : β → List γ) (L : List β) :
    ∀ acc : List γ, (∀ r ∈ L, f r = .ok (g r)) →
    L.foldl (fun acc r => do let a ← acc; let b ← f r; pure (a ++ b)) (.ok acc) = .ok (acc ++ L.flatMap g) := by
  induction L with
  | nil => intro acc _; simp
  | cons a L ih =>
    intro acc h
    rw [List.foldl_cons, h a (by simp)]
    show List.foldl _ (Except.ok (acc ++ g a)) L = _
    rw [ih _ (fun r hr => h r (by simp [hr]))]
    simp

theorem permLoop_mem {bounds : List Nat} {parts : Nat → List α} {recv send : Nat → Nat} {r size : Nat}
    {x : Nat × XOp α} : x ∈ permLoop bounds parts recv send r size ↔ ∃ i < size,
      x = (r, XOp.irecv (ownerByCumsum bounds (recv (bounds.getD r 0 + i))) i i) ∨
      ∃ v, (parts r)[i]? = some v ∧ x = (r, XOp.isend (ownerByCumsum bounds (send (bounds.getD r 0 + i)))
        (send (bounds.getD r 0 + i) - bounds.getD (ownerByCumsum bounds (send (bounds.getD r 0 + i))) 0) v) := by
  simp only [permLoop, List.mem_flatMap, List.mem_range, List.mem_cons, Option.mem_toList,
    Option.map_eq_some_iff]
  constructor
  · rintro ⟨i, hi, h | ⟨v, hv, h⟩⟩
    · exact ⟨i, hi, Or.inl h⟩
    · exact ⟨i, hi, Or.inr ⟨v, hv, h.symm⟩⟩
  · rintro ⟨i, hi, h | ⟨v, hv, h⟩⟩
    · exact ⟨i, hi, Or.inl h⟩
    · exact ⟨i, hi, Or.inr ⟨v, hv, h.symm⟩⟩

theorem perm_posExchange {P : Nat} (hP : 0 < P) {parts : Nat → List α} (hb : Balanced P parts)
    {recv send : Nat → Nat}
    (hr : ∀ g < (content P parts).length, recv g < (content P parts).length ∧ send (recv g) = g)
    (hs : ∀ g < (content P parts).length, send g < (content P parts).length ∧ recv (send g) = g) :
    ∃ prog, permProg (content P parts).length P parts recv send = .ok prog ∧
      PosExchange P parts (ownerByCumsum (permBounds (content P parts).length P)) recv send
        (fun q => q - startOf parts (ownerByCumsum (permBounds (content P parts).length P) q)) prog := by
  have hbd : ∀ r, r ≤ P → (permBounds (content P parts).length P).getD r 0 = startOf parts r := by
    intro r hr
    rw [List.getD_eq_getElem?_getD, permBounds_get _ _ hP _ hr, balanced_chunk_start hb r hr]; rfl
  have hsize : ∀ r < P, (permBounds (content P parts).length P).getD (r + 1) 0 -
      (permBounds (content P parts).length P).getD r 0 = (parts r).length := by
    intro r hr
    rw [hbd _ (by omega), hbd _ (by omega), startOf_succ]; omega
  have hops : ∀ r < P, permOps (content P parts).length P parts recv send r =
      .ok (permLoop (permBounds (content P parts).length P) parts recv send r (parts r).length) := by
    intro r hr
    unfold permOps
    by_cases h0 : (parts r).length = 0
    · rw [if_pos h0, h0]; rfl
    · rw [if_neg h0]
      simp only [hsize r hr]
      rw [if_neg (by omega)]
  have own := perm_owns hP hb
  have hmem : ∀ {r : Nat} {x}, r < P → (x ∈ permLoop (permBounds (content P parts).length P) parts recv send r
      (parts r).length ↔ ∃ i < (parts r).length,
      x = (r, XOp.irecv (ownerByCumsum (permBounds (content P parts).length P) (recv (startOf parts r + i))) i i) ∨
      ∃ v, (parts r)[i]? = some v ∧ x = (r, XOp.isend
        (ownerByCumsum (permBounds (content P parts).length P) (send (startOf parts r + i)))
        (send (startOf parts r + i) - startOf parts
          (ownerByCumsum (permBounds (content P parts).length P) (send (startOf parts r + i)))) v)) := by
    intro r x hr'
    rw [permLoop_mem, hbd r (by omega)]
    constructor
    · rintro ⟨i, hi, h | ⟨v, hv, h⟩⟩
      · exact ⟨i, hi, Or.inl h⟩
      · rw [hbd _ (Nat.le_of_lt (own _ (hs _ (pos_lt hr' hi)).1).1)] at h
        exact ⟨i, hi, Or.inr ⟨v, hv, h⟩⟩
    · rintro ⟨i, hi, h | ⟨v, hv, h⟩⟩
      · exact ⟨i, hi, Or.inl h⟩
      · rw [← hbd (ownerByCumsum _ _) (Nat.le_of_lt (own _ (hs _ (pos_lt hr' hi)).1).1)] at h
        exact ⟨i, hi, Or.inr ⟨v, hv, h⟩⟩
  have tagInj : ∀ p q, p < (content P parts).length → q < (content P parts).length →
      ownerByCumsum (permBounds (content P parts).length P) p =
        ownerByCumsum (permBounds (content P parts).length P) q →
      p - startOf parts (ownerByCumsum (permBounds (content P parts).length P) p) =
      q - startOf parts (ownerByCumsum (permBounds (content P parts).length P) q) → p = q := by
    intro p q hp hq e1 e2
    have a := (own p hp).2.1
    have b := (own q hq).2.1
    rw [e1] at a e2
    omega
  refine ⟨_, foldl_ok _ _ _ [] fun r hr => hops r (List.mem_range.1 hr), ?_⟩
  rw [List.nil_append]
  have hfst : ∀ {r : Nat} {x}, x ∈ permLoop (permBounds (content P parts).length P) parts recv send r
      (parts r).length → x.1 = r := by
    intro r x hx
    obtain ⟨i, -, rfl | ⟨v, -, rfl⟩⟩ := permLoop_mem.1 hx <;> rfl
  have recvTag : ∀ {r i : Nat}, r < P → i < (parts r).length → startOf parts r + i - startOf parts
      (ownerByCumsum (permBounds (content P parts).length P) (startOf parts r + i)) = i := by
    intro r i hr hi
    rw [own.at hr hi]; omega
  refine ⟨own, ?_, ?_, ?_, fun g hg => (hr g hg).1, fun g hg => (hs g hg).1, fun g hg => (hs g hg).2,
    fun g hg => (hr g hg).2, tagInj⟩
  · intro r s t i
    simp only [List.mem_flatMap, List.mem_range]
    constructor
    · rintro ⟨a, ha, hm⟩
      have : r = a := hfst hm
      subst this
      obtain ⟨j, hj, h | ⟨v, -, h⟩⟩ := (hmem ha).1 hm
      · simp only [Prod.mk.injEq, XOp.irecv.injEq, true_and] at h
        obtain ⟨rfl, rfl, rfl⟩ := h
        exact ⟨ha, hj, rfl, (recvTag ha hj).symm⟩
      · simp at h
    · rintro ⟨ha, hi, rfl, rfl⟩
      exact ⟨r, ha, (hmem ha).2 ⟨i, hi, Or.inl (by rw [recvTag ha hi])⟩⟩
  · intro r d t v
    simp only [List.mem_flatMap, List.mem_range]
    constructor
    · rintro ⟨a, ha, hm⟩
      have : r = a := hfst hm
      subst this
      obtain ⟨j, hj, h | ⟨w, hw, h⟩⟩ := (hmem ha).1 hm
      · simp at h
      · simp only [Prod.mk.injEq, XOp.isend.injEq, true_and] at h
        obtain ⟨rfl, rfl, rfl⟩ := h
        exact ⟨ha, j, hw, rfl, rfl⟩
    · rintro ⟨ha, i, hv, rfl, rfl⟩
      exact ⟨r, ha, (hmem ha).2 ⟨i, getElem?_lt hv, Or.inr ⟨v, hv, rfl⟩⟩⟩
  · apply nodup_flatMap_ranks
    · intro r hr'
      unfold permLoop
      simp only
      rw [List.nodup_iff_pairwise_ne, List.pairwise_flatMap]
      constructor
      · intro i hi
        rw [List.getElem?_eq_getElem (List.mem_range.1 hi)]
        simp
      · have : (List.range (parts r).length).Pairwise (· ≠ ·) := List.nodup_range
        refine List.Pairwise.imp_of_mem ?_ this
        intro i j hi hj hne x hx y hy e
        have hi := List.mem_range.1 hi
        have hj := List.mem_range.1 hj
        subst e
        simp only [List.mem_cons, Option.mem_toList, Option.map_eq_some_iff] at hx hy
        rcases hx with rfl | ⟨v, hv, rfl⟩
        · rcases hy with hy | ⟨w, hw, hy⟩
          · simp at hy; exact hne hy.2
          · simp at hy
        · rcases hy with hy | ⟨w, hw, hy⟩
          · simp at hy
          · simp only [Prod.mk.injEq, XOp.isend.injEq, true_and] at hy
            obtain ⟨e1, e2, -⟩ := hy
            rw [hbd r (by omega)] at e1 e2
            have gi := hs _ (pos_lt hr' hi)
            have gj := hs _ (pos_lt hr' hj)
            rw [hbd _ (Nat.le_of_lt (own _ gi.1).1), hbd _ (Nat.le_of_lt (own _ gj.1).1)] at e2
            have := tagInj _ _ gj.1 gi.1 e1 e2
            have := congrArg recv this
            rw [gi.2, gj.2] at this
            omega
    · intro r _ x hx; exact hfst hx

/-- C33 (partial).  `permutation(x)` for `x` split along axis 0 and balanced (as every array created by heat is),
every permutation `recv` with inverse `send = argsort(recv)`, every schedule: the exchange is posted without an
error, no schedule is longer than twice the number of operations, it stops only when everything is complete, and
then the global array has the slab `x[recv[g]]` at position `g`.  Missing: unbalanced arrays, for which it fails
(`permutation_unbalanced_violated`). -/
theorem permutation_spec_partial (P : Nat) (hP : 0 < P) (parts : Nat → List α) (hb : Balanced P parts)
    (recv send : Nat → Nat)
    (hr : ∀ g < (content P parts).length, recv g < (content P parts).length ∧ send (recv g) = g)
    (hs : ∀ g < (content P parts).length, send g < (content P parts).length ∧ recv (send g) = g) :
    ∃ prog, permProg (content P parts).length P parts recv send = .ok prog ∧
      ∀ (k : Nat) (s : XState α), Steps (XStep prog) k XState.init s →
        k ≤ 2 * prog.length ∧
        (Spec.Stuck (XStep prog) s → (∀ o < prog.length, s.status o = .done) ∧
          Spec.received P parts s = (List.range (content P parts).length).map fun g => (content P parts)[recv g]?) := by
  obtain ⟨prog, h1, E⟩ := perm_posExchange hP hb hr hs
  refine ⟨prog, h1, fun k s h => ⟨exchange_terminates _ h, fun hstuck => ?_⟩⟩
  obtain ⟨h2, h3⟩ := posExchange_result E h hstuck
  exact ⟨h2, received_get h3⟩

example : permProg 3 2 (fun r => [[10, 11], [12]].getD r []) (fun g => [2, 0, 1].getD g 0)
    (fun g => [1, 2, 0].getD g 0) = .ok
    [(0, .irecv 1 0 0), (0, .isend 0 1 10), (0, .irecv 0 1 1), (0, .isend 1 0 11),
     (1, .irecv 0 0 0), (1, .isend 0 0 12)] := by decide

/-- C33 fails for an unbalanced array: four rows distributed (1, 3) over two ranks make `permutation` raise an
`IndexError` on rank 0 (its balanced share would be 2 rows), whatever the permutation. -/
theorem permutation_unbalanced_violated :
    permOps 4 2 (fun r => [[0], [1, 2, 3]].getD r []) id id 0 = .error .indexError ∧
    content 2 (fun r => [[0], [1, 2, 3]].getD r []) = [0, 1, 2, 3] := by
  decide

/-- A receive without a matching send never completes, in no schedule. -/
theorem unmatched_recv_never_done (prog : XProg α) (j r src tag slot : Nat)
    (hj : prog[j]? = some (r, XOp.irecv src tag slot))
    (hno : ∀ (i : Nat) (v : α), prog[i]? ≠ some (src, XOp.isend r tag v)) {k : Nat} {s : XState α}
    (h : Steps (XStep prog) k XState.init s) : s.status j ≠ .done := by
  generalize hi : (XState.init : XState α) = s0 at h
  induction h with
  | refl => subst hi; simp [XState.init]
  | @tail _ _ s _ _ h2 ih =>
    have ih := ih hi
    cases h2 with
    | post k r op hk hs hprev =>
      show (if j = k then XStatus.posted else s.status j) ≠ .done
      split
      · simp
      · exact ih
    | complete a b v dst sl hm ha hb =>
      show (if j = a ∨ j = b then XStatus.done else s.status j) ≠ .done
      obtain ⟨src', tag', m1, m2⟩ := hm
      rw [if_neg]
      · exact ih
      · rintro (e | e)
        · subst e; rw [hj] at m1; simp at m1
        · subst e
          rw [hj] at m2
          simp only [Option.some.injEq, Prod.mk.injEq, XOp.irecv.injEq] at m2
          obtain ⟨rfl, rfl, rfl, rfl⟩ := m2
          exact hno a v m1

/-- C33 fails for an unbalanced array: with two rows both on rank 0, rank 1 posts no operations, while rank 0
(whose balanced share is one row) waits for a row from rank 1 when the permutation swaps the rows: that receive
completes in no schedule, the program hangs. -/
theorem permutation_hang_violated :
    ∃ prog, permProg 2 2 (fun r => [[0, 1], []].getD r []) (fun g => 1 - g) (fun g => 1 - g) = .ok prog ∧
      prog.length = 2 ∧ ∀ (k : Nat) (s : XState Nat), Steps (XStep prog) k XState.init s → s.status 0 ≠ .done := by
  refine ⟨[(0, .irecv 1 0 0), (0, .isend 1 0 0)], by decide, rfl, ?_⟩
  intro k s h
  refine unmatched_recv_never_done _ 0 0 1 0 0 rfl ?_ h
  intro i v
  rcases i with _ | _ | i <;> simp

end Heat
