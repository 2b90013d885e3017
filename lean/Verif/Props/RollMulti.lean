import Verif.Model.RollMulti
import Verif.Proof.Dist
import Verif.Props.BinaryOp
import Mathlib.Data.List.Basic
import Mathlib.Data.List.Induction
/-!
# C200 `roll` along several axes
-/
namespace Heat
open Spec
variable {β : Type}

/-- One axis after the other on the global array: along the split axis the slab of position `g` goes to position `(g + s) mod n`, along any other axis every slab is rolled. -/
def rollAxes (one : Int → Int → β → β) (split : Nat) (sa : List (Int × Int)) (l : List β) : List β :=
  sa.foldl (fun y p => if p.2 = (split : Int) then rollSlabs p.1 y else y.map (one p.1 p.2)) l

theorem rollSlabs_eq (s : Int) (l : List β) (d : β) : rollSlabs s l = (List.range l.length).map fun (g : Nat) => l.getD (((g : Int) - s) % (l.length : Int)).toNat d := by
  unfold rollSlabs
  rw [← List.filterMap_eq_map']
  apply List.filterMap_congr
  intro g hg
  have hn : 0 < l.length := by have := List.mem_range.1 hg; omega
  have h1 := Int.emod_nonneg ((g : Int) - s) (show (l.length : Int) ≠ 0 by omega)
  have h2 := Int.emod_lt_of_pos ((g : Int) - s) (show (0 : Int) < l.length by omega)
  have h3 : (((g : Int) - s) % (l.length : Int)).toNat < l.length := by omega
  rw [List.getElem?_eq_getElem h3, List.getD_eq_getElem?_getD, List.getElem?_eq_getElem h3]
  rfl

theorem rollSlabs_length (s : Int) (l : List β) : (rollSlabs s l).length = l.length := by
  cases l with
  | nil => rfl
  | cons x l => rw [rollSlabs_eq s _ x]; simp

theorem rollSlabs_getD (s : Int) (l : List β) (d : β) (g : Nat) (hg : g < l.length) : (rollSlabs s l).getD g d = l.getD (((g : Int) - s) % (l.length : Int)).toNat d := by
  rw [rollSlabs_eq s l d, List.getD_eq_getElem?_getD, List.getElem?_map, List.getElem?_range hg]
  rfl

/-- What `rollSlabs` means: the slab of position `g` is at position `(g + s) mod n` afterwards. -/
theorem rollSlabs_spec (s : Int) (l : List β) (g : Nat) (hg : g < l.length) : (rollSlabs s l)[(((g : Int) + s) % (l.length : Int)).toNat]? = l[g]? := by
  have hn : (0 : Int) < l.length := by omega
  have h1 := Int.emod_nonneg ((g : Int) + s) (show (l.length : Int) ≠ 0 by omega)
  have h2 := Int.emod_lt_of_pos ((g : Int) + s) hn
  have h3 : (((g : Int) + s) % (l.length : Int)).toNat < l.length := by omega
  rw [rollSlabs_eq s l l[g], List.getElem?_map, List.getElem?_range h3]
  have e : ((((((g : Int) + s) % (l.length : Int)).toNat : Nat) : Int) - s) % (l.length : Int) = g := by
    rw [Int.toNat_of_nonneg h1, Int.emod_sub_emod, Int.add_sub_cancel]
    exact Int.emod_eq_of_lt (by omega) (by omega)
  rw [Option.map_some, e, Int.toNat_natCast, List.getD_eq_getElem?_getD, List.getElem?_eq_getElem hg]
  rfl

theorem rollSlabs_zero (l : List β) : rollSlabs 0 l = l := by
  cases hl : l with
  | nil => rfl
  | cons x t =>
    rw [← hl]
    apply List.ext_getElem?
    intro g
    by_cases hg : g < l.length
    · have := rollSlabs_spec 0 l g hg
      rw [Int.add_zero, Int.emod_eq_of_lt (by omega) (by omega), Int.toNat_natCast] at this
      exact this
    · rw [List.getElem?_eq_none (by rw [rollSlabs_length]; omega), List.getElem?_eq_none (by omega)]

theorem rollSlabs_add (s t : Int) (l : List β) : rollSlabs s (rollSlabs t l) = rollSlabs (s + t) l := by
  cases hl : l with
  | nil => rfl
  | cons x l' =>
    rw [← hl]
    rw [rollSlabs_eq s (rollSlabs t l) x, rollSlabs_eq (s + t) l x, rollSlabs_length]
    apply List.map_congr_left
    intro g hg
    have hg := List.mem_range.1 hg
    have hn : (0 : Int) < l.length := by omega
    have h1 := Int.emod_nonneg ((g : Int) - s) (show (l.length : Int) ≠ 0 by omega)
    have h2 := Int.emod_lt_of_pos ((g : Int) - s) hn
    rw [rollSlabs_getD t l x _ (by omega), Int.toNat_of_nonneg h1, Int.emod_sub_emod]
    congr 3
    omega

theorem rollSlabs_map {γ : Type} (s : Int) (f : β → γ) (l : List β) : rollSlabs s (l.map f) = (rollSlabs s l).map f := by
  unfold rollSlabs
  rw [List.map_filterMap, List.length_map]
  apply List.filterMap_congr
  intro g _
  rw [List.getElem?_map]

/-! ## the lists -/

theorem filter_range_snoc (ax : List Int) (a y : Int) : ((List.range (ax ++ [a]).length).filter fun i => (ax ++ [a]).getD i 0 = y) =
    ((List.range ax.length).filter fun i => ax.getD i 0 = y) ++ if a = y then [ax.length] else [] := by
  rw [List.length_append, List.length_singleton, List.range_succ, List.filter_append]
  congr 1
  · apply List.filter_congr
    intro i hi
    have hi := List.mem_range.1 hi
    rw [List.getD_eq_getElem?_getD, List.getElem?_append_left hi, ← List.getD_eq_getElem?_getD]
  · rw [List.filter_cons, List.getD_eq_getElem?_getD, List.getElem?_append_right (Nat.le_refl _)]
    by_cases h : a = y <;> simp [h]

theorem eraseIdx_foldl_snoc (idx : List Nat) (sh : List Int) (s : Int) (h : ∀ i ∈ idx, i < sh.length) (hp : idx.Pairwise (· > ·)) :
    idx.foldl (fun sh i => sh.eraseIdx i) (sh ++ [s]) = idx.foldl (fun sh i => sh.eraseIdx i) sh ++ [s] := by
  induction idx generalizing sh with
  | nil => rfl
  | cons i idx ih =>
    rw [List.foldl_cons, List.foldl_cons]
    have hi := h i List.mem_cons_self
    rw [List.eraseIdx_append_of_lt_length hi]
    have hp' := List.pairwise_cons.1 hp
    apply ih
    · intro j hj
      have := hp'.1 j hj
      rw [List.length_eraseIdx]
      split <;> omega
    · exact hp'.2

theorem erase_foldl (y : Int) (ax : List Int) : ∀ idx : List Nat, idx.length = ax.count y → idx.foldl (fun ax _ => ax.erase y) ax = ax.filter fun a => a ≠ y := by
  have aux : ∀ (x : Int) (idx : List Nat) (ax : List Int), x ≠ y → idx.foldl (fun ax _ => ax.erase y) (x :: ax) = x :: idx.foldl (fun ax _ => ax.erase y) ax := by
    intro x idx
    induction idx with
    | nil => intro ax _; rfl
    | cons i idx ih =>
      intro ax hx
      rw [List.foldl_cons, List.foldl_cons, List.erase_cons_tail (by simpa using hx)]
      exact ih _ hx
  induction ax with
  | nil =>
    intro idx h
    rw [List.count_nil] at h
    rw [List.length_eq_zero_iff.1 h]
    rfl
  | cons x ax ih =>
    intro idx h
    by_cases hx : x = y
    · subst hx
      rw [List.count_cons_self] at h
      cases idx with
      | nil => simp at h
      | cons i idx =>
        rw [List.foldl_cons, List.erase_cons_head, ih idx (by simpa using h), List.filter_cons]
        simp
    · rw [List.count_cons_of_ne (by simpa using hx)] at h
      rw [aux x idx ax hx, ih idx h, List.filter_cons, if_pos (by simpa using hx)]

/-- The pass removes exactly the entries of the axis, and adds their shifts. -/
theorem takeAxis_spec (y acc : Int) (sh ax : List Int) (h : sh.length = ax.length) :
    takeAxis y (acc, sh, ax) = (acc + (((List.zip sh ax).filter fun p => p.2 = y).map Prod.fst).sum, ((List.zip sh ax).filter fun p => p.2 ≠ y).map Prod.fst, ((List.zip sh ax).filter fun p => p.2 ≠ y).map Prod.snd) := by
  have cnt : ∀ ax : List Int, ((List.range ax.length).filter fun i => ax.getD i 0 = y).length = ax.count y := by
    intro ax
    induction ax using List.reverseRecOn with
    | nil => rfl
    | append_singleton ax a ih =>
      rw [filter_range_snoc, List.length_append, ih, List.count_append]
      by_cases ha : a = y <;> simp [ha]
  have key : ∀ (ax sh : List Int), sh.length = ax.length →
      ((List.range ax.length).filter fun i => ax.getD i 0 = y).foldl (fun acc i => acc + sh.getD i 0) acc = acc + (((List.zip sh ax).filter fun p => p.2 = y).map Prod.fst).sum ∧
      ((List.range ax.length).filter fun i => ax.getD i 0 = y).reverse.foldl (fun sh i => sh.eraseIdx i) sh = ((List.zip sh ax).filter fun p => p.2 ≠ y).map Prod.fst ∧
      ax.filter (fun a => a ≠ y) = ((List.zip sh ax).filter fun p => p.2 ≠ y).map Prod.snd := by
    intro ax
    induction ax using List.reverseRecOn with
    | nil =>
      intro sh hl
      have : sh = [] := List.length_eq_zero_iff.1 (by simpa using hl)
      subst this
      simp
    | append_singleton ax a ih =>
      intro sh hl
      obtain ⟨sh', s, rfl⟩ : ∃ sh' s, sh = sh' ++ [s] := by
        rcases List.eq_nil_or_concat sh with e | ⟨sh', s, e⟩
        · subst e; simp at hl
        · exact ⟨sh', s, by rw [e, List.concat_eq_append]⟩
      have hl' : sh'.length = ax.length := by simpa using hl
      obtain ⟨i1, i2, i3⟩ := ih sh' hl'
      have ez : List.zip (sh' ++ [s]) (ax ++ [a]) = List.zip sh' ax ++ [(s, a)] := by
        rw [List.zip_append hl']; rfl
      have f1 : ((List.range ax.length).filter fun i => ax.getD i 0 = y).foldl (fun acc i => acc + (sh' ++ [s]).getD i 0) acc = ((List.range ax.length).filter fun i => ax.getD i 0 = y).foldl (fun acc i => acc + sh'.getD i 0) acc := by
        apply List.foldl_ext
        intro b i hi
        have := List.mem_range.1 (List.mem_filter.1 hi).1
        rw [List.getD_eq_getElem?_getD, List.getElem?_append_left (by omega), ← List.getD_eq_getElem?_getD]
      have fl : ∀ i ∈ ((List.range ax.length).filter fun i => ax.getD i 0 = y).reverse, i < sh'.length := by
        intro i hi
        rw [List.mem_reverse] at hi
        have := List.mem_range.1 (List.mem_filter.1 hi).1
        omega
      have fp : ((List.range ax.length).filter fun i => ax.getD i 0 = y).reverse.Pairwise (· > ·) := by
        rw [List.pairwise_reverse]
        exact List.Pairwise.filter _ List.pairwise_lt_range
      rw [filter_range_snoc, ez, List.filter_append, List.filter_append, List.filter_append]
      by_cases ha : a = y
      · subst ha
        refine ⟨?_, ?_, ?_⟩
        · rw [if_pos rfl, List.foldl_append, f1, i1]
          simp [← hl', Int.add_assoc]
        · rw [if_pos rfl, List.reverse_append]
          have : (sh' ++ [s]).eraseIdx ax.length = sh' := by
            rw [← hl', List.eraseIdx_append_of_length_le (Nat.le_refl _)]; simp
          simp only [List.reverse_cons, List.reverse_nil, List.nil_append, List.cons_append, List.foldl_cons]
          rw [this, i2]
          simp
        · rw [i3]; simp
      · refine ⟨?_, ?_, ?_⟩
        · rw [if_neg ha, List.append_nil, f1, i1]
          simp [ha]
        · rw [if_neg ha, List.append_nil, eraseIdx_foldl_snoc _ _ _ fl fp, i2]
          simp [ha]
        · rw [i3]; simp [ha]
  obtain ⟨k1, k2, k3⟩ := key ax sh h
  unfold takeAxis
  simp only
  rw [k1, k2, erase_foldl y ax _ (by rw [List.length_reverse]; exact cnt ax), k3]

theorem takeAxis_none (y acc : Int) (sh ax : List Int) (h : sh.length = ax.length) (hy : y ∉ ax) : takeAxis y (acc, sh, ax) = (acc, sh, ax) := by
  rw [takeAxis_spec y acc sh ax h]
  have h1 : ∀ p ∈ List.zip sh ax, p.2 ≠ y := fun p hp e => hy (e ▸ (List.of_mem_zip hp).2)
  have e1 : (List.zip sh ax).filter (fun p => p.2 = y) = [] := List.filter_eq_nil_iff.2 (fun p hp => by simpa using h1 p hp)
  have e2 : (List.zip sh ax).filter (fun p => p.2 ≠ y) = List.zip sh ax := List.filter_eq_self.2 (fun p hp => by simpa using h1 p hp)
  rw [e1, e2, List.map_fst_zip (Nat.le_of_eq h), List.map_snd_zip (Nat.le_of_eq h.symm)]
  simp

/-! ## the array -/

theorem rollSplit_content (P : Nat) (parts : Nat → List β) (s : Int) : content P (rollSplit P parts s) = rollSlabs s (content P parts) ∧ ∀ r < P, (rollSplit P parts s r).length = (parts r).length := by
  have hlen := rollSlabs_length s (content P parts)
  have sums : ∀ r, ((List.range r).map fun k => (parts k).length).sum = (content r parts).length := by
    intro r
    induction r with
    | zero => rfl
    | succ r ih => rw [List.range_succ, List.map_append, List.sum_append, ih, content_succ, List.length_append]; simp
  have key : ∀ k ≤ P, content k (rollSplit P parts s) = (rollSlabs s (content P parts)).take (content k parts).length := by
    intro k
    induction k with
    | zero => intro _; simp [content_zero]
    | succ k ih =>
      intro hk
      rw [content_succ, ih (by omega), content_succ, List.length_append, List.take_add]
      unfold rollSplit
      rw [sums]
  constructor
  · rw [key P (Nat.le_refl _), ← hlen, List.take_length]
  · intro r hr
    unfold rollSplit
    rw [sums, List.length_take, List.length_drop, hlen]
    have := content_length_mono parts (show r + 1 ≤ P by omega)
    rw [content_succ, List.length_append] at this
    omega

theorem rollAxes_split (one : Int → Int → β → β) (split : Nat) (sa : List (Int × Int)) (l : List β) :
    rollAxes one split sa l = (rollSlabs ((sa.filter fun p => p.2 = (split : Int)).map Prod.fst).sum l).map fun x => (sa.filter fun p => p.2 ≠ (split : Int)).foldl (fun y p => one p.1 p.2 y) x := by
  induction sa generalizing l with
  | nil =>
    show l = _
    simp [rollSlabs_zero]
  | cons p sa ih =>
    have e : rollAxes one split (p :: sa) l = rollAxes one split sa (if p.2 = (split : Int) then rollSlabs p.1 l else l.map (one p.1 p.2)) := rfl
    rw [e, ih]
    by_cases hp : p.2 = (split : Int)
    · have e1 : (p :: sa).filter (fun p => p.2 = (split : Int)) = p :: sa.filter (fun p => p.2 = (split : Int)) := by rw [List.filter_cons, if_pos (by simpa using hp)]
      have e2 : (p :: sa).filter (fun p => p.2 ≠ (split : Int)) = sa.filter (fun p => p.2 ≠ (split : Int)) := by rw [List.filter_cons, if_neg (by simpa using hp)]
      rw [if_pos hp, rollSlabs_add, e1, e2, List.map_cons, List.sum_cons, Int.add_comm]
    · have e1 : (p :: sa).filter (fun p => p.2 = (split : Int)) = sa.filter (fun p => p.2 = (split : Int)) := by rw [List.filter_cons, if_neg (by simpa using hp)]
      have e2 : (p :: sa).filter (fun p => p.2 ≠ (split : Int)) = p :: sa.filter (fun p => p.2 ≠ (split : Int)) := by rw [List.filter_cons, if_pos (by simpa using hp)]
      rw [if_neg hp, rollSlabs_map, e1, e2, List.map_map]
      rfl

theorem zip_unzip_filter (f : Int × Int → Bool) (l : List (Int × Int)) : List.zip ((l.filter f).map Prod.fst) ((l.filter f).map Prod.snd) = l.filter f := by
  generalize l.filter f = m
  induction m with
  | nil => rfl
  | cons p m ih => simp [ih]

/-- **C200:** for every distribution and every list of axes, the split axis included any number of times, the result is the array rolled along one axis after the other, in the distribution of the array. -/
theorem rollMulti_spec (one : Int → Int → β → β) (ndim split P : Nat) (parts : Nat → List β) (shift axis : List Int) (h : shift.length = axis.length) (hs : split < ndim) (ha : ∀ a ∈ axis, 0 ≤ a ∧ a < (ndim : Int)) :
    ∃ res sh', rollMulti one ndim split P parts shift axis = .ok (res, sh') ∧ content P res = rollAxes one split (List.zip shift axis) (content P parts) ∧ ∀ r < P, (res r).length = (parts r).length := by
  unfold rollMulti
  rw [if_neg (by simpa using h)]
  by_cases hm : (split : Int) ∈ axis
  · rw [if_pos hm]
    have hlen : (((List.zip shift axis).filter fun p => p.2 ≠ (split : Int)).map Prod.fst).length = (((List.zip shift axis).filter fun p => p.2 ≠ (split : Int)).map Prod.snd).length := by simp
    rw [takeAxis_spec _ _ _ _ h, takeAxis_none _ _ _ _ hlen (by
      intro hx
      obtain ⟨p, hp, e⟩ := List.mem_map.1 hx
      have := (ha p.2 (List.of_mem_zip (List.mem_filter.1 hp).1).2).1
      omega)]
    simp only [Int.zero_add]
    obtain ⟨c1, c2⟩ := rollSplit_content P parts (((List.zip shift axis).filter fun p => p.2 = (split : Int)).map Prod.fst).sum
    split
    · rename_i h0
      refine ⟨_, _, rfl, ?_, c2⟩
      rw [rollAxes_split, c1]
      have : ((List.zip shift axis).filter fun p => p.2 ≠ (split : Int)) = [] := by
        apply List.length_eq_zero_iff.1
        simpa using h0
      rw [this]
      simp
    · refine ⟨_, _, rfl, ?_, ?_⟩
      · rw [rollAxes_split]
        unfold rollLocal
        rw [zip_unzip_filter, content_map, c1]
      · intro r hr
        show (rollLocal _ _ _ _).length = _
        unfold rollLocal
        rw [List.length_map, c2 r hr]
  · rw [if_neg hm]
    refine ⟨_, _, rfl, ?_, ?_⟩
    · rw [rollAxes_split]
      have h1 : ∀ p ∈ List.zip shift axis, p.2 ≠ (split : Int) := fun p hp e => hm (e ▸ (List.of_mem_zip hp).2)
      have e1 : (List.zip shift axis).filter (fun p => p.2 = (split : Int)) = [] := List.filter_eq_nil_iff.2 (fun p hp => by simpa using h1 p hp)
      have e2 : (List.zip shift axis).filter (fun p => p.2 ≠ (split : Int)) = List.zip shift axis := List.filter_eq_self.2 (fun p hp => by simpa using h1 p hp)
      rw [e1, e2]
      unfold rollLocal
      rw [content_map]
      simp [rollSlabs_zero]
    · intro r _
      show (rollLocal _ _ _ _).length = _
      unfold rollLocal
      rw [List.length_map]

/-- **C200 violated (arguments):** if the split axis is among the axes, the list `shift` of the caller is shorter after the call, and the same call again raises a `ValueError`. -/
theorem rollMulti_argument_violated (one : Int → Int → β → β) (ndim split P : Nat) (parts : Nat → List β) (shift axis : List Int) (h : shift.length = axis.length) (hs : split < ndim) (ha : ∀ a ∈ axis, 0 ≤ a ∧ a < (ndim : Int))
    (hm : (split : Int) ∈ axis) : ∃ res sh', rollMulti one ndim split P parts shift axis = .ok (res, sh') ∧ sh'.length < shift.length ∧ ∀ parts', rollMulti one ndim split P parts' sh' axis = .error .valueError := by
  have hlen : (((List.zip shift axis).filter fun p => p.2 ≠ (split : Int)).map Prod.fst).length = (((List.zip shift axis).filter fun p => p.2 ≠ (split : Int)).map Prod.snd).length := by simp
  have hz : (List.zip shift axis).length = shift.length := by rw [List.length_zip, h, Nat.min_self]
  have hlt : (((List.zip shift axis).filter fun p => p.2 ≠ (split : Int)).map Prod.fst).length < shift.length := by
    rw [List.length_map, ← hz]
    apply List.length_filter_lt_length_iff_exists.2
    obtain ⟨i, hi, e⟩ := List.mem_iff_getElem.1 hm
    refine ⟨(shift[i]'(by omega), axis[i]), ?_, by simpa using e⟩
    have hi2 : i < (List.zip shift axis).length := by rw [hz]; omega
    have := List.getElem_mem hi2
    rwa [List.getElem_zip] at this
  have run : ∃ res, rollMulti one ndim split P parts shift axis = .ok (res, ((List.zip shift axis).filter fun p => p.2 ≠ (split : Int)).map Prod.fst) := by
    unfold rollMulti
    rw [if_neg (by simpa using h), if_pos hm, takeAxis_spec _ _ _ _ h, takeAxis_none _ _ _ _ hlen (by
      intro hx
      obtain ⟨p, hp, e⟩ := List.mem_map.1 hx
      have := (ha p.2 (List.of_mem_zip (List.mem_filter.1 hp).1).2).1
      omega)]
    simp only
    split
    · exact ⟨_, rfl⟩
    · exact ⟨_, rfl⟩
  obtain ⟨res, hr⟩ := run
  refine ⟨res, _, hr, hlt, ?_⟩
  intro parts'
  unfold rollMulti
  rw [if_pos (by omega)]

/-- One shift for several axes; the list of the code is its own, so that no argument changes. -/
theorem rollInt_spec (one : Int → Int → β → β) (ndim split P : Nat) (parts : Nat → List β) (shift : Int) (axis : List Int) (hs : split < ndim) (ha : ∀ a ∈ axis, 0 ≤ a ∧ a < (ndim : Int)) :
    ∃ res sh', rollInt one ndim split P parts shift axis = .ok (res, sh') ∧ content P res = rollAxes one split (axis.map fun a => (shift, a)) (content P parts) ∧ ∀ r < P, (res r).length = (parts r).length := by
  obtain ⟨res, sh', h1, h2, h3⟩ := rollMulti_spec one ndim split P parts (List.replicate axis.length shift) axis (by simp) hs ha
  refine ⟨res, sh', h1, ?_, h3⟩
  rw [h2]
  congr 1
  clear ha h1 h2 h3
  induction axis with
  | nil => rfl
  | cons a axis ih => rw [List.length_cons, List.replicate_succ, List.zip_cons_cons, List.map_cons, ih]

example : (rollMulti (fun s _ x => x + 100 * s) 2 0 2 (fun r => if r = 0 then [1, 2] else [3]) [1, 5, 1] [0, 1, 0]).toOption.map (fun p => (p.1 0, p.1 1, p.2)) = some ([502, 503], [501], [5]) := by decide

end Heat
