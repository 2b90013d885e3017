import Verif.Model.CommAxis
/-!
# C152: collectives along an axis
-/
namespace Heat
variable {α : Type}

namespace Spec
/-- `t` is an index tuple of a tensor of this shape. -/
def InShape (t sh : List Nat) : Prop := t.length = sh.length ∧ ∀ k < sh.length, t.getD k 0 < sh.getD k 0
end Spec
open Spec

theorem ext_getD {l l' : List Nat} (h : l.length = l'.length) (h' : ∀ k < l.length, l.getD k 0 = l'.getD k 0) : l = l' := by
  apply List.ext_getElem h
  intro k h1 h2
  have := h' k h1
  simpa [List.getD_eq_getElem?_getD, List.getElem?_eq_getElem h1, List.getElem?_eq_getElem h2] using this

theorem getD_set (l : List Nat) (i v k : Nat) (hi : i < l.length) : (l.set i v).getD k 0 = if k = i then v else l.getD k 0 := by
  rw [List.getD_eq_getElem?_getD, List.getElem?_set]
  by_cases h : i = k
  · subst h; simp [hi]
  · rw [if_neg h, if_neg (Ne.symm h), List.getD_eq_getElem?_getD]

theorem axisSwap_length (a : Nat) (l : List Nat) : (axisSwap a l).length = l.length := by simp [axisSwap]

theorem axisSwap_getD (a : Nat) (l : List Nat) (h : a < l.length) (k : Nat) :
    (axisSwap a l).getD k 0 = if k = a then l.getD 0 0 else if k = 0 then l.getD a 0 else l.getD k 0 := by
  unfold axisSwap
  rw [getD_set _ _ _ _ (by rw [List.length_set]; exact h), getD_set _ _ _ _ (by omega)]

theorem axisSwap_invol (a : Nat) (l : List Nat) (h : a < l.length) : axisSwap a (axisSwap a l) = l := by
  apply ext_getD (by rw [axisSwap_length, axisSwap_length])
  intro k _
  rw [axisSwap_getD a _ (by rw [axisSwap_length]; exact h), axisSwap_getD a l h, axisSwap_getD a l h, axisSwap_getD a l h]
  by_cases h1 : k = a
  · subst h1; by_cases h0 : 0 = k
    · subst h0; simp
    · simp [h0]
  · by_cases h0 : k = 0
    · subst h0; simp [h1]
    · simp [h0, h1]

theorem axisSwap_inShape {a : Nat} {t sh : List Nat} (ha : a < sh.length) (h : InShape t sh) : InShape (axisSwap a t) (axisSwap a sh) := by
  refine ⟨by rw [axisSwap_length, axisSwap_length, h.1], ?_⟩
  intro k hk
  rw [axisSwap_length] at hk
  rw [axisSwap_getD a t (by rw [h.1]; exact ha), axisSwap_getD a sh ha]
  by_cases h1 : k = a
  · rw [if_pos h1, if_pos h1]; exact h.2 0 (by omega)
  · rw [if_neg h1, if_neg h1]
    by_cases h0 : k = 0
    · rw [if_pos h0, if_pos h0]; exact h.2 a ha
    · rw [if_neg h0, if_neg h0]; exact h.2 k hk

theorem inShape_cons (i n : Nat) (t sh : List Nat) : InShape (i :: t) (n :: sh) ↔ i < n ∧ InShape t sh := by
  unfold InShape
  constructor
  · rintro ⟨h1, h2⟩
    refine ⟨by simpa using h2 0 (by simp), by simpa using h1, fun k hk => ?_⟩
    simpa using h2 (k + 1) (by simpa using hk)
  · rintro ⟨h1, h2, h3⟩
    refine ⟨by simpa using h2, fun k hk => ?_⟩
    cases k with
    | zero => simpa using h1
    | succ k => simpa using h3 k (by simpa using hk)

theorem mem_rowMajor (t sh : List Nat) : t ∈ rowMajor sh ↔ InShape t sh := by
  induction sh generalizing t with
  | nil =>
    unfold rowMajor InShape
    simp
  | cons n sh ih =>
    unfold rowMajor
    simp only [List.mem_flatMap, List.mem_range, List.mem_map]
    constructor
    · rintro ⟨i, hi, s, hs, rfl⟩
      exact (inShape_cons _ _ _ _).2 ⟨hi, (ih s).1 hs⟩
    · intro h
      cases t with
      | nil => have := h.1; simp at this
      | cons i s =>
        obtain ⟨h1, h2⟩ := (inShape_cons _ _ _ _).1 h
        exact ⟨i, h1, s, (ih s).2 h2, rfl⟩

theorem lookup_zip_map {β : Type} [BEq β] [LawfulBEq β] {ι : Type} (g : ι → β) (f : ι → α) (L : List ι) (x : ι) (hx : x ∈ L)
    (hu : ∀ y ∈ L, g y = g x → y = x) : ((L.map g).zip (L.map f)).lookup (g x) = some (f x) := by
  induction L with
  | nil => cases hx
  | cons y L ih =>
    rw [List.map_cons, List.map_cons, List.zip_cons_cons, List.lookup_cons]
    by_cases e : g x == g y
    · have := hu y List.mem_cons_self (eq_of_beq e).symm
      subst this
      simp
    · have hxy : x ≠ y := fun h => e (by rw [h]; exact beq_self_eq_true _)
      have : (g x == g y) = false := by simpa using e
      rw [this]
      exact ih ((List.mem_cons.1 hx).resolve_left hxy) fun z hz => hu z (List.mem_cons_of_mem _ hz)

theorem lookup_zip_none {β : Type} [BEq β] [LawfulBEq β] (L : List β) (M : List α) (x : β) (hx : x ∉ L) : (L.zip M).lookup x = none := by
  induction L generalizing M with
  | nil => rfl
  | cons y L ih =>
    cases M with
    | nil => rfl
    | cons m M =>
      rw [List.zip_cons_cons, List.lookup_cons]
      have : (x == y) = false := by simpa using fun h : x = y => hx (by rw [h]; exact List.mem_cons_self)
      rw [this]
      exact ih M fun h => hx (List.mem_cons_of_mem _ h)

theorem rowShift_length (lo : Nat) (t : List Nat) : (rowShift lo t).length = t.length := by cases t <;> rfl

theorem swapped_tail_length {a : Nat} {sh : List Nat} (ha : a < sh.length) : ((axisSwap a sh).tail).length + 1 = sh.length := by
  rw [List.length_tail, axisSwap_length]; omega

theorem mem_rows_length {a cnt : Nat} {sh t : List Nat} (ha : a < sh.length) (h : t ∈ rowMajor (cnt :: (axisSwap a sh).tail)) : t.length = sh.length := by
  rw [((mem_rowMajor _ _).1 h).1, List.length_cons, swapped_tail_length ha]

/-- Different rows or different positions in a row have different index tuples. -/
theorem address_inj {a lo lo' : Nat} {t t' : List Nat} (h : t.length = t'.length) (ha : a < t.length)
    (e : axisSwap a (rowShift lo t) = axisSwap a (rowShift lo' t')) : rowShift lo t = rowShift lo' t' := by
  rw [← axisSwap_invol a (rowShift lo t) (by rw [rowShift_length]; exact ha), e, axisSwap_invol a _ (by rw [rowShift_length, ← h]; exact ha)]

theorem rowShift_inj {lo : Nat} {t t' : List Nat} (h : rowShift lo t = rowShift lo t') : t = t' := by
  cases t with
  | nil => cases t' with
    | nil => rfl
    | cons i s => simp [rowShift] at h
  | cons i s => cases t' with
    | nil => simp [rowShift] at h
    | cons i' s' =>
      simp only [rowShift, List.cons.injEq] at h
      rw [h.2, show i = i' by omega]

/-- Receiving one message. -/
theorem unpack_spec (a lo cnt : Nat) (b : CBuf α) (f : List Nat → α) (ha : a < b.shape.length) :
    ∃ b', unpackRows a lo cnt b ((rowMajor (cnt :: (axisSwap a b.shape).tail)).map f) = .ok b' ∧ b'.shape = b.shape ∧
      (∀ t ∈ rowMajor (cnt :: (axisSwap a b.shape).tail), b'.get (axisSwap a (rowShift lo t)) = f t) ∧
      ∀ i, (∀ t ∈ rowMajor (cnt :: (axisSwap a b.shape).tail), i ≠ axisSwap a (rowShift lo t)) → b'.get i = b.get i := by
  unfold unpackRows rowTuples
  rw [if_pos (by simp)]
  refine ⟨_, rfl, rfl, ?_, ?_⟩
  · intro t ht
    dsimp only
    rw [lookup_zip_map (fun t => axisSwap a (rowShift lo t)) f _ t ht, Option.getD_some]
    intro y hy e
    have l1 := mem_rows_length ha hy
    have l2 := mem_rows_length ha ht
    exact rowShift_inj (address_inj (by rw [l1, l2]) (by rw [l1]; exact ha) e)
  · intro i hi
    dsimp only
    rw [lookup_zip_none, Option.getD_none]
    intro h
    obtain ⟨t, ht, rfl⟩ := List.mem_map.1 h
    exact hi t ht rfl

theorem range_foldlM_succ {β : Type} (g : β → Nat → Except Err β) (n : Nat) (b : β) :
    (List.range (n + 1)).foldlM g b = ((List.range n).foldlM g b).bind fun b' => g b' n := by
  rw [List.range_succ, List.foldlM_append]
  show ((List.range n).foldlM g b).bind _ = _
  congr 1
  funext b'
  show ([n] : List Nat).foldlM g b' = _
  rw [List.foldlM_cons]
  show (g b' n).bind _ = _
  cases g b' n <;> rfl

/-- Receiving from all processes into disjoint rows. -/
theorem recvAll_spec (P a : Nat) (lo cnt : Nat → Nat) (msg : Nat → List α) (b : CBuf α) (f : Nat → List Nat → α) (ha : a < b.shape.length)
    (hm : ∀ q < P, msg q = (rowMajor (cnt q :: (axisSwap a b.shape).tail)).map (f q))
    (hd : ∀ q < P, ∀ q' < P, ∀ j < cnt q, ∀ j' < cnt q', lo q + j = lo q' + j' → q = q') :
    ∃ b', recvAll P a lo cnt msg b = .ok b' ∧ b'.shape = b.shape ∧
      (∀ q < P, ∀ t ∈ rowMajor (cnt q :: (axisSwap a b.shape).tail), b'.get (axisSwap a (rowShift (lo q) t)) = f q t) ∧
      ∀ i, (∀ q < P, ∀ t ∈ rowMajor (cnt q :: (axisSwap a b.shape).tail), i ≠ axisSwap a (rowShift (lo q) t)) → b'.get i = b.get i := by
  induction P with
  | zero => exact ⟨b, rfl, rfl, fun q hq => absurd hq (by omega), fun _ _ => rfl⟩
  | succ n ih =>
    obtain ⟨b1, e1, s1, g1, k1⟩ := ih (fun q hq => hm q (by omega)) fun q hq q' hq' => hd q (by omega) q' (by omega)
    obtain ⟨b2, e2, s2, g2, k2⟩ := unpack_spec a (lo n) (cnt n) b1 (f n) (by rw [s1]; exact ha)
    rw [s1] at e2 g2 k2
    refine ⟨b2, ?_, by rw [s2, s1], ?_, ?_⟩
    · unfold recvAll at e1 ⊢
      rw [range_foldlM_succ, e1]
      show unpackRows _ _ _ _ _ = _
      rw [hm n (by omega), e2]
    · intro q hq t ht
      by_cases hqn : q = n
      · subst hqn; exact g2 t ht
      · rw [k2, g1 q (by omega) t ht]
        intro t' ht' e
        have l1 := mem_rows_length ha ht
        have l2 := mem_rows_length ha ht'
        have := address_inj (by rw [l1, l2]) (by rw [l1]; exact ha) e
        cases t with
        | nil => simp at l1; omega
        | cons i s =>
          cases t' with
          | nil => simp at l2; omega
          | cons i' s' =>
            simp only [rowShift, List.cons.injEq] at this
            exact hqn (hd q hq n (by omega) i ((inShape_cons _ _ _ _).1 ((mem_rowMajor _ _).1 ht)).1 i'
              ((inShape_cons _ _ _ _).1 ((mem_rowMajor _ _).1 ht')).1 this.1)
    · intro i hi
      rw [k2 i (hi n (by omega)), k1 i fun q hq => hi q (by omega)]

/-- An index tuple as row and position in the permuted tensor. -/
theorem tuple_eq {a : Nat} {idx : List Nat} (h : a < idx.length) : axisSwap a (idx.getD a 0 :: (axisSwap a idx).tail) = idx := by
  have : idx.getD a 0 :: (axisSwap a idx).tail = axisSwap a idx := by
    have h0 := axisSwap_getD a idx h 0
    have hl := axisSwap_length a idx
    cases hs : axisSwap a idx with
    | nil => rw [hs] at hl; simp at hl; omega
    | cons i s =>
      rw [hs] at h0
      simp only [List.getD_cons_zero] at h0
      rw [List.tail_cons, h0]
      by_cases e : 0 = a
      · subst e; simp
      · rw [if_neg e]; simp
  rw [this, axisSwap_invol a idx h]

theorem tuple_shift {a lo : Nat} {idx : List Nat} (h : a < idx.length) :
    axisSwap a (rowShift lo (idx.getD a 0 :: (axisSwap a idx).tail)) = idx.set a (lo + idx.getD a 0) := by
  show axisSwap a ((lo + idx.getD a 0) :: (axisSwap a idx).tail) = _
  have hset : a < (idx.set a (lo + idx.getD a 0)).length := by rw [List.length_set]; exact h
  have := tuple_eq hset
  rw [getD_set idx _ _ _ h, if_pos rfl] at this
  rw [← this]
  congr 2
  have e : ∀ k, (axisSwap a (idx.set a (lo + idx.getD a 0))).getD (k + 1) 0 = (axisSwap a idx).getD (k + 1) 0 := by
    intro k
    rw [axisSwap_getD a _ hset, axisSwap_getD a idx h, getD_set _ _ _ _ h, getD_set _ _ _ _ h, getD_set _ _ _ _ h]
    by_cases h1 : k + 1 = a
    · rw [if_pos h1, if_pos h1, if_neg (by omega)]
    · rw [if_neg h1, if_neg h1, if_neg h1, if_neg (by omega), if_neg (by omega)]
  apply ext_getD (by simp [axisSwap_length])
  intro k _
  have := e k
  rw [List.getD_eq_getElem?_getD, List.getD_eq_getElem?_getD] at this ⊢
  rw [List.getElem?_tail, List.getElem?_tail]
  exact this.symm

theorem mem_of_inShape {a : Nat} {idx sh : List Nat} {cnt : Nat} (ha : a < sh.length) (h : InShape idx (sh.set a cnt)) :
    (idx.getD a 0 :: (axisSwap a idx).tail) ∈ rowMajor (cnt :: (axisSwap a sh).tail) := by
  have hl : idx.length = sh.length := by rw [h.1, List.length_set]
  have hs := axisSwap_inShape (a := a) (by rw [List.length_set]; exact ha) h
  rw [mem_rowMajor, inShape_cons]
  have ha' : a < (sh.set a cnt).length := by rw [List.length_set]; exact ha
  refine ⟨by have := h.2 a ha'; rwa [getD_set _ _ _ _ ha, if_pos rfl] at this, by simp [axisSwap_length, hl], ?_⟩
  intro k hk
  have hk' : k + 1 < sh.length := by rw [List.length_tail, axisSwap_length] at hk; omega
  have := hs.2 (k + 1) (by rw [axisSwap_length, List.length_set]; exact hk')
  rw [axisSwap_getD a (sh.set a cnt) ha', getD_set _ _ _ _ ha, getD_set _ _ _ _ ha, getD_set _ _ _ _ ha] at this
  have e : (axisSwap a sh).tail.getD k 0 = (axisSwap a sh).getD (k + 1) 0 := by
    rw [List.getD_eq_getElem?_getD, List.getD_eq_getElem?_getD, List.getElem?_tail]
  have e' : (axisSwap a idx).tail.getD k 0 = (axisSwap a idx).getD (k + 1) 0 := by
    rw [List.getD_eq_getElem?_getD, List.getD_eq_getElem?_getD, List.getElem?_tail]
  rw [e, e', axisSwap_getD a sh ha]
  by_cases h1 : k + 1 = a
  · rw [if_pos h1, if_neg (show ¬ (0 = a) by omega)] at this; rw [if_pos h1]; exact this
  · rw [if_neg h1, if_neg (show ¬ (k + 1 = 0) by omega), if_neg h1] at this
    rw [if_neg h1, if_neg (by omega)]; exact this

theorem set_tail {a cnt : Nat} {sh : List Nat} (ha : a < sh.length) :
    (axisSwap a (sh.set a cnt)).getD 0 0 = cnt ∧ (axisSwap a (sh.set a cnt)).tail = (axisSwap a sh).tail := by
  have hset : a < (sh.set a cnt).length := by rw [List.length_set]; exact ha
  constructor
  · rw [axisSwap_getD a _ hset, getD_set _ _ _ _ ha, getD_set _ _ _ _ ha, if_pos rfl]
    by_cases e : 0 = a
    · rw [if_pos e, if_pos e]
    · rw [if_neg e, if_pos rfl]
  · apply ext_getD (by simp [axisSwap_length])
    intro k _
    rw [List.getD_eq_getElem?_getD, List.getD_eq_getElem?_getD, List.getElem?_tail, List.getElem?_tail, ← List.getD_eq_getElem?_getD,
      ← List.getD_eq_getElem?_getD, axisSwap_getD a _ hset, axisSwap_getD a _ ha, getD_set _ _ _ _ ha, getD_set _ _ _ _ ha, getD_set _ _ _ _ ha]
    by_cases h1 : k + 1 = a
    · rw [if_pos h1, if_pos h1, if_neg (by omega)]
    · rw [if_neg h1, if_neg h1, if_neg h1, if_neg (by omega), if_neg (by omega)]

/-- **C152, Allgatherv.**  For every number of processes, shape and axis: if the part of the process `q` has the shape of the receive buffer
with `counts q` slabs along the axis, and the ranges of slabs given by counts and displacements do not overlap, then slab `j` of the part of
`q` ends up as slab `displs q + j` along the axis, element for element, and nothing else is touched. -/
theorem allgatherv_axis (P a : Nat) (counts displs : Nat → Nat) (send : Nat → CBuf α) (recv : CBuf α) (ha : a < recv.shape.length)
    (hs : ∀ q < P, (send q).shape = recv.shape.set a (counts q))
    (hd : ∀ q < P, ∀ q' < P, ∀ j < counts q, ∀ j' < counts q', displs q + j = displs q' + j' → q = q') :
    ∃ b, allgathervAxis P a counts displs send recv = .ok b ∧ b.shape = recv.shape ∧
      (∀ q < P, ∀ idx, InShape idx (send q).shape → b.get (idx.set a (displs q + idx.getD a 0)) = (send q).get idx) ∧
      ∀ i, (∀ q < P, ¬ (displs q ≤ i.getD a 0 ∧ i.getD a 0 < displs q + counts q)) → b.get i = recv.get i := by
  have hst : ∀ q < P, (axisSwap a (send q).shape).getD 0 0 = counts q ∧ (axisSwap a (send q).shape).tail = (axisSwap a recv.shape).tail := by
    intro q hq; rw [hs q hq]; exact set_tail ha
  obtain ⟨b, e, hsh, hg, hk⟩ := recvAll_spec P a displs counts (fun q => packRows a 0 ((send q).rows a) (send q)) recv
    (fun q t => (send q).get (axisSwap a (rowShift 0 t))) ha (by
      intro q hq
      unfold packRows rowTuples CBuf.rows
      rw [(hst q hq).1, (hst q hq).2, List.map_map]; rfl) hd
  refine ⟨b, e, hsh, ?_, ?_⟩
  · intro q hq idx hidx
    rw [hs q hq] at hidx
    have hl : a < idx.length := by rw [hidx.1, List.length_set]; exact ha
    have := hg q hq _ (mem_of_inShape ha hidx)
    rw [tuple_shift hl, tuple_shift hl] at this
    rw [this]
    congr 1
    apply ext_getD (by simp)
    intro k _
    rw [getD_set _ _ _ _ hl, Nat.zero_add]
    by_cases h : k = a
    · rw [if_pos h, h]
    · rw [if_neg h]
  · intro i hi
    apply hk
    intro q hq t ht heq
    have hlt := mem_rows_length ha ht
    cases t with
    | nil => simp at hlt; omega
    | cons j s =>
      have hj := ((inShape_cons _ _ _ _).1 ((mem_rowMajor _ _).1 ht)).1
      apply hi q hq
      have : i.getD a 0 = displs q + j := by
        rw [heq, axisSwap_getD a _ (by rw [rowShift_length, hlt]; exact ha), if_pos rfl]
        rfl
      omega

/-- **C152, Allgather**: equal parts are concatenated along the axis. -/
theorem allgather_axis (P a n : Nat) (hP : 0 < P) (send : Nat → CBuf α) (recv : CBuf α) (sh : List Nat) (ha : a < sh.length)
    (hs : ∀ q < P, (send q).shape = sh.set a n) (hr : recv.shape = sh.set a (P * n)) :
    ∃ b, allgatherAxis P a send recv = .ok b ∧ b.shape = recv.shape ∧
      ∀ q < P, ∀ idx, InShape idx (send q).shape → b.get (idx.set a (q * n + idx.getD a 0)) = (send q).get idx := by
  have hrows : recv.rows a / P = n := by
    unfold CBuf.rows; rw [hr, (set_tail ha).1, Nat.mul_div_cancel_left _ hP]
  unfold allgatherAxis
  rw [hrows]
  obtain ⟨b, e, h1, h2, _⟩ := allgatherv_axis P a (fun _ => n) (fun q => q * n) send recv (by rw [hr, List.length_set]; exact ha)
    (by intro q hq; rw [hs q hq, hr, List.set_set]) (by
      intro q _ q' _ j hj j' hj' h
      have e1 : (q * n + j) / n = q := by rw [Nat.mul_comm, Nat.mul_add_div (by omega), Nat.div_eq_of_lt hj]; omega
      have e2 : (q' * n + j') / n = q' := by rw [Nat.mul_comm, Nat.mul_add_div (by omega), Nat.div_eq_of_lt hj']; omega
      rw [← e1, ← e2, h])
  exact ⟨b, e, h1, h2⟩

/-- **C152, Gatherv.**  On the root, for any two axes: row `j` of the part of `q` counted along the send axis becomes row `displs q + j`
along the receive axis (the axes 0 and the given one being exchanged on both sides). -/
theorem gatherv_axis (P sa ra : Nat) (counts displs : Nat → Nat) (send : Nat → CBuf α) (recv : CBuf α) (ha : ra < recv.shape.length)
    (hs : ∀ q < P, axisSwap sa (send q).shape = counts q :: (axisSwap ra recv.shape).tail)
    (hd : ∀ q < P, ∀ q' < P, ∀ j < counts q, ∀ j' < counts q', displs q + j = displs q' + j' → q = q') :
    ∃ b, gathervAxis P sa ra counts displs send recv = .ok b ∧ b.shape = recv.shape ∧
      ∀ q < P, ∀ j t, InShape (j :: t) (axisSwap sa (send q).shape) →
        b.get (axisSwap ra ((displs q + j) :: t)) = (send q).get (axisSwap sa (j :: t)) := by
  obtain ⟨b, e, hsh, hg, _⟩ := recvAll_spec P ra displs counts (fun q => packRows sa 0 ((send q).rows sa) (send q)) recv
    (fun q t => (send q).get (axisSwap sa (rowShift 0 t))) ha (by
      intro q hq
      unfold packRows rowTuples CBuf.rows
      rw [hs q hq, List.getD_cons_zero, List.tail_cons, List.map_map]; rfl) hd
  refine ⟨b, e, hsh, ?_⟩
  intro q hq j t hidx
  rw [hs q hq] at hidx
  have := hg q hq (j :: t) ((mem_rowMajor _ _).2 hidx)
  simp only [rowShift, Nat.zero_add] at this
  exact this

/-- **C152, Gather** of equal parts along one axis: concatenation on the root. -/
theorem gather_axis (P a n : Nat) (hP : 0 < P) (send : Nat → CBuf α) (recv : CBuf α) (sh : List Nat) (ha : a < sh.length)
    (hs : ∀ q < P, (send q).shape = sh.set a n) (hr : recv.shape = sh.set a (P * n)) :
    ∃ b, gatherAxis P a a send recv = .ok b ∧ b.shape = recv.shape ∧
      ∀ q < P, ∀ idx, InShape idx (send q).shape → b.get (idx.set a (q * n + idx.getD a 0)) = (send q).get idx :=
  allgather_axis P a n hP send recv sh ha hs hr

/-- **C152, Gather** with different axes: the equal parts follow each other along the receive axis in the order of the processes. -/
theorem gather_axes (P sa ra n : Nat) (hP : 0 < P) (send : Nat → CBuf α) (recv : CBuf α) (ha : ra < recv.shape.length)
    (hs : ∀ q < P, axisSwap sa (send q).shape = n :: (axisSwap ra recv.shape).tail) (hr : recv.rows ra = P * n) :
    ∃ b, gatherAxis P sa ra send recv = .ok b ∧ b.shape = recv.shape ∧
      ∀ q < P, ∀ j t, InShape (j :: t) (axisSwap sa (send q).shape) →
        b.get (axisSwap ra ((q * n + j) :: t)) = (send q).get (axisSwap sa (j :: t)) := by
  unfold gatherAxis
  rw [hr, Nat.mul_div_cancel_left _ hP]
  refine gatherv_axis P sa ra (fun _ => n) (fun q => q * n) send recv ha hs ?_
  intro q _ q' _ j hj j' hj' h
  have e1 : (q * n + j) / n = q := by rw [Nat.mul_comm, Nat.mul_add_div (by omega), Nat.div_eq_of_lt hj]; omega
  have e2 : (q' * n + j') / n = q' := by rw [Nat.mul_comm, Nat.mul_add_div (by omega), Nat.div_eq_of_lt hj']; omega
  rw [← e1, ← e2, h]

example : (gatherAxis 2 0 1 (fun q => ⟨[2, 1], fun i => 10 * q + i.getD 0 0⟩) ⟨[1, 4], fun _ => 99⟩).map
    (fun b => [b.get [0, 0], b.get [0, 1], b.get [0, 2], b.get [0, 3]]) = .ok [0, 1, 10, 11] := by decide

theorem rowMajor_length (sh : List Nat) : (rowMajor sh).length = sh.prod := by
  induction sh with
  | nil => rfl
  | cons n sh ih =>
    rw [rowMajor, List.length_flatMap, List.prod_cons, ← ih]
    simp only [List.length_map]
    generalize (rowMajor sh).length = c
    clear ih
    induction n with
    | zero => simp
    | succ n ih2 => rw [List.range_succ, List.map_append, List.sum_append, ih2]; simp [Nat.succ_mul]

/-- **C152**: a part that does not fill the receive buffer exactly, or does not fit into it, is refused. -/
theorem scatterv_refused (sa ra : Nat) (counts displs : Nat → Nat) (root recv : CBuf α) (r : Nat)
    (h : counts r * (axisSwap sa root.shape).tail.prod ≠ recv.rows ra * (axisSwap ra recv.shape).tail.prod) :
    scattervAxis sa ra counts displs root recv r = .error .runtimeError := by
  unfold scattervAxis unpackRows
  rw [if_neg]
  unfold packRows rowTuples
  simp only [List.length_map, rowMajor_length, List.prod_cons]
  exact h

example : (3 : Nat) * (axisSwap 1 [2, 4]).tail.prod ≠ CBuf.rows 1 (⟨[2, 2], fun _ => 99⟩ : CBuf Nat) * (axisSwap 1 [2, 2]).tail.prod := by decide

/-- **C152, Scatterv.**  The process `r` obtains the rows `displs r, ..., displs r + counts r - 1` of the root's tensor, counted along the send
axis. -/
theorem scatterv_axis (sa ra : Nat) (counts displs : Nat → Nat) (root recv : CBuf α) (r : Nat) (ha : ra < recv.shape.length)
    (hs : axisSwap ra recv.shape = counts r :: (axisSwap sa root.shape).tail) :
    ∃ b, scattervAxis sa ra counts displs root recv r = .ok b ∧ b.shape = recv.shape ∧
      ∀ j t, InShape (j :: t) (axisSwap ra recv.shape) → b.get (axisSwap ra (j :: t)) = root.get (axisSwap sa ((displs r + j) :: t)) := by
  unfold scattervAxis
  obtain ⟨b, e, hsh, hg, _⟩ := unpack_spec ra 0 (recv.rows ra) recv (fun t => root.get (axisSwap sa (rowShift (displs r) t))) ha
  have hrows : recv.rows ra = counts r := by unfold CBuf.rows; rw [hs]; rfl
  refine ⟨b, ?_, hsh, ?_⟩
  · rw [← e]
    congr 1
    unfold packRows rowTuples
    rw [List.map_map, hrows, hs, List.tail_cons]; rfl
  · intro j t hjt
    have := hg (j :: t) ((mem_rowMajor _ _).2 (by rw [hrows]; rw [hs] at hjt ⊢; exact hjt))
    simp only [rowShift, Nat.zero_add] at this
    exact this

/-- **C152, Scatter** of equal parts along one axis: slab `j` of the process `r` is slab `r * n + j` of the root's tensor. -/
theorem scatter_axis (P a n : Nat) (hP : 0 < P) (root recv : CBuf α) (r : Nat) (sh : List Nat) (ha : a < sh.length)
    (hs : root.shape = sh.set a (P * n)) (hr : recv.shape = sh.set a n) :
    ∃ b, scatterAxis P a a root recv r = .ok b ∧ b.shape = recv.shape ∧
      ∀ idx, InShape idx recv.shape → b.get idx = root.get (idx.set a (r * n + idx.getD a 0)) := by
  have hrows : root.rows a / P = n := by
    unfold CBuf.rows; rw [hs, (set_tail ha).1, Nat.mul_div_cancel_left _ hP]
  unfold scatterAxis
  rw [hrows]
  have hra : a < recv.shape.length := by rw [hr, List.length_set]; exact ha
  have hsw : axisSwap a recv.shape = n :: (axisSwap a root.shape).tail := by
    have h1 := set_tail (cnt := n) ha
    have h2 := set_tail (cnt := P * n) ha
    rw [hr, hs, h2.2, ← h1.2]
    cases hc : axisSwap a (sh.set a n) with
    | nil => have := axisSwap_length a (sh.set a n); rw [hc, List.length_set] at this; simp at this; omega
    | cons x y => rw [hc] at h1; simp only [List.getD_cons_zero] at h1; rw [h1.1]; rfl
  obtain ⟨b, e, h1, h2⟩ := scatterv_axis a a (fun _ => n) (fun q => q * n) root recv r hra hsw
  refine ⟨b, e, h1, ?_⟩
  intro idx hidx
  have hl : a < idx.length := by rw [hidx.1]; exact hra
  have hm : InShape (idx.getD a 0 :: (axisSwap a idx).tail) (axisSwap a recv.shape) := by
    rw [hsw, ← mem_rowMajor]
    have := mem_of_inShape (cnt := n) (sh := root.shape) (by rw [hs, List.length_set]; exact ha) (idx := idx) (by rw [hs, List.set_set, ← hr]; exact hidx)
    exact this
  have := h2 _ _ hm
  rw [tuple_eq hl] at this
  rw [this]
  congr 1
  exact tuple_shift (lo := r * n) hl

/-- **C152, Alltoallv** with axes 0 and 1: row `sd q r + j` of `q` along the send axis becomes row `rd r q + j` of `r` along the receive axis,
if the permuted tensors have the same remaining shape. -/
theorem alltoallv_axis (P sa ra : Nat) (sc sd rc rd : Nat → Nat → Nat) (send : Nat → CBuf α) (recv : CBuf α) (r : Nat) (ha : ra < recv.shape.length)
    (hs : ∀ q < P, (axisSwap sa (send q).shape).tail = (axisSwap ra recv.shape).tail) (hc : ∀ q < P, sc q r = rc r q)
    (hd : ∀ q < P, ∀ q' < P, ∀ j < rc r q, ∀ j' < rc r q', rd r q + j = rd r q' + j' → q = q') :
    ∃ b, alltoallvAxis P sa ra sc sd rc rd send recv r = .ok b ∧ b.shape = recv.shape ∧
      ∀ q < P, ∀ j t, j < rc r q → InShape t (axisSwap ra recv.shape).tail →
        b.get (axisSwap ra ((rd r q + j) :: t)) = (send q).get (axisSwap sa ((sd q r + j) :: t)) := by
  obtain ⟨b, e, hsh, hg, _⟩ := recvAll_spec P ra (rd r) (rc r) (fun q => packRows sa (sd q r) (sc q r) (send q)) recv
    (fun q t => (send q).get (axisSwap sa (rowShift (sd q r) t))) ha (by
      intro q hq
      unfold packRows rowTuples
      rw [hs q hq, hc q hq, List.map_map]; rfl) hd
  refine ⟨b, e, hsh, ?_⟩
  intro q hq j t hj ht
  exact hg q hq (j :: t) ((mem_rowMajor _ _).2 ((inShape_cons _ _ _ _).2 ⟨hj, ht⟩))

/-- **C152 (partial), Alltoall along one axis** (send axis = receive axis): block `q` of the result of `r` is block `r` of `q`.  Missing: the use
documented for different axes, to turn a split along one axis into a split along another (`alltoall_resplit_violated`). -/
theorem alltoall_axis_partial (P a n : Nat) (hP : 0 < P) (send : Nat → CBuf α) (recv : CBuf α) (r : Nat) (ha : a < recv.shape.length)
    (hs : ∀ q < P, (send q).shape = recv.shape) (hn : recv.shape.getD a 0 = P * n) :
    ∃ b, alltoallAxis P a a send recv r = .ok b ∧ b.shape = recv.shape ∧
      ∀ q < P, ∀ idx, InShape idx (recv.shape.set a n) →
        b.get (idx.set a (q * n + idx.getD a 0)) = (send q).get (idx.set a (r * n + idx.getD a 0)) := by
  have hrow : recv.rows a / P = n := by
    unfold CBuf.rows
    rw [axisSwap_getD a _ ha]
    by_cases e : 0 = a
    · subst e; rw [if_pos rfl, hn, Nat.mul_div_cancel_left _ hP]
    · rw [if_neg e, if_pos rfl, hn, Nat.mul_div_cancel_left _ hP]
  have hrow' : ∀ q < P, (send q).rows a / P = n := by
    intro q hq; unfold CBuf.rows; rw [hs q hq]; exact hrow
  unfold alltoallAxis
  rw [hrow]
  obtain ⟨b, e, h1, h2⟩ := alltoallv_axis P a a (fun q _ => (send q).rows a / P) (fun q p => p * ((send q).rows a / P)) (fun _ _ => n)
    (fun _ q => q * n) send recv r ha (by intro q hq; rw [hs q hq]) (fun q hq => hrow' q hq) (by
      intro q _ q' _ j hj j' hj' h
      have e1 : (q * n + j) / n = q := by rw [Nat.mul_comm, Nat.mul_add_div (by omega), Nat.div_eq_of_lt hj]; omega
      have e2 : (q' * n + j') / n = q' := by rw [Nat.mul_comm, Nat.mul_add_div (by omega), Nat.div_eq_of_lt hj']; omega
      rw [← e1, ← e2, h])
  refine ⟨b, e, h1, ?_⟩
  intro q hq idx hidx
  have hl : a < idx.length := by rw [hidx.1, List.length_set]; exact ha
  have hm := (inShape_cons _ _ _ _).1 ((mem_rowMajor _ _).1 (mem_of_inShape ha hidx))
  have := h2 q hq _ _ hm.1 hm.2
  rw [hrow' q hq] at this
  rw [← tuple_shift (lo := q * n) hl, ← tuple_shift (lo := r * n) hl]
  exact this

/-- The 4 x 4 matrix with the entries `10 * i + j`. -/
def exMat (i j : Nat) : Nat := 10 * i + j

/-- Documented use "send_axis = future split axis, recv_axis = prior split axis": a 4 x 4 matrix split along axis 1 on two processes is to be
split along axis 0.  The process 0 should obtain its rows 0 and 1; the blocks arrive transposed: entry (0, 1) is that of (1, 0). -/
theorem alltoall_resplit_violated :
    ∃ b, alltoallAxis 2 0 1 (fun q => ⟨[4, 2], fun i => exMat (i.getD 0 0) (2 * q + i.getD 1 0)⟩) ⟨[2, 4], fun _ => 0⟩ 0 = .ok b ∧
      b.get [0, 0] = exMat 0 0 ∧ b.get [0, 1] = exMat 1 0 ∧ b.get [0, 1] ≠ exMat 0 1 ∧ b.get [0, 3] = exMat 1 2 :=
  ⟨_, rfl, by decide, by decide, by decide, by decide⟩

example : (allgatherAxis 2 1 (fun q => ⟨[2, 1], fun i => 10 * q + i.getD 0 0⟩) ⟨[2, 2], fun _ => 99⟩).map
    (fun b => (b.get [0, 0], b.get [0, 1], b.get [1, 0], b.get [1, 1])) = .ok (0, 10, 1, 11) := by decide

example : (scatterAxis 2 1 1 ⟨[2, 4], fun i => 10 * i.getD 0 0 + i.getD 1 0⟩ ⟨[2, 2], fun _ => 99⟩ 1).map
    (fun b => (b.get [0, 0], b.get [0, 1], b.get [1, 0], b.get [1, 1])) = .ok (2, 3, 12, 13) := by decide

end Heat
