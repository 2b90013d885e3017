import Verif.Model.Exchange
import Verif.Proof.Dist
import Verif.Props.Mpi
/-! # Exchanges that move slabs between global positions -/
namespace Heat
open Heat.Spec
variable {α : Type}

/-- `own g` is the rank that holds global position `g`. -/
def Owns (P : Nat) (parts : Nat → List α) (own : Nat → Nat) : Prop :=
  ∀ g < (content P parts).length, own g < P ∧ startOf parts (own g) ≤ g ∧ g < startOf parts (own g + 1)

theorem Owns.at {P : Nat} {parts : Nat → List α} {own : Nat → Nat} (h : Owns P parts own) {r i : Nat}
    (hr : r < P) (hi : i < (parts r).length) : own (startOf parts r + i) = r := by
  have hlt : startOf parts r + i < startOf parts (r + 1) := by rw [startOf_succ]; omega
  have hP : startOf parts r + i < (content P parts).length := by
    have := startOf_mono parts (show r + 1 ≤ P by omega)
    show _ < startOf parts P
    omega
  obtain ⟨h1, h2, h3⟩ := h _ hP
  exact startOf_owner_unique parts _ _ _ h2 h3 (by omega) hlt

theorem pos_lt {P : Nat} {parts : Nat → List α} {r i : Nat} (hr : r < P) (hi : i < (parts r).length) :
    startOf parts r + i < (content P parts).length := by
  have := startOf_mono parts (show r + 1 ≤ P by omega)
  rw [startOf_succ] at this
  show _ < startOf parts P
  omega

/-- An exchange in which global position `q` receives the slab at global position `src q`, the slab at `g`
goes to `snd g`, and messages for position `q` carry the tag `tag q`. -/
structure PosExchange (P : Nat) (parts : Nat → List α) (own src snd tag : Nat → Nat) (prog : XProg α) :
    Prop where
  owns : Owns P parts own
  recv_mem : ∀ (r s t i : Nat), (r, XOp.irecv s t i) ∈ prog ↔ r < P ∧ i < (parts r).length ∧
    s = own (src (startOf parts r + i)) ∧ t = tag (startOf parts r + i)
  send_mem : ∀ (r d t : Nat) (v : α), (r, XOp.isend d t v) ∈ prog ↔ r < P ∧ ∃ i, (parts r)[i]? = some v ∧
    d = own (snd (startOf parts r + i)) ∧ t = tag (snd (startOf parts r + i))
  nodup : prog.Nodup
  src_lt : ∀ g < (content P parts).length, src g < (content P parts).length
  snd_lt : ∀ g < (content P parts).length, snd g < (content P parts).length
  src_snd : ∀ g < (content P parts).length, src (snd g) = g
  snd_src : ∀ g < (content P parts).length, snd (src g) = g
  tag_inj : ∀ p q, p < (content P parts).length → q < (content P parts).length → own p = own q →
    tag p = tag q → p = q

theorem nodup_index {β : Type} {l : List β} (h : l.Nodup) {i j : Nat} {x : β} (hi : l[i]? = some x)
    (hj : l[j]? = some x) : i = j := by
  have hlt : i < l.length := getElem?_lt hi
  exact (List.getElem?_inj hlt h).1 (by rw [hi, hj])

/-- position `q` on its owner -/
theorem Owns.local {P : Nat} {parts : Nat → List α} {own : Nat → Nat} (h : Owns P parts own) {q : Nat}
    (hq : q < (content P parts).length) : ∃ j, j < (parts (own q)).length ∧ startOf parts (own q) + j = q := by
  obtain ⟨h1, h2, h3⟩ := h q hq
  rw [startOf_succ] at h3
  exact ⟨q - startOf parts (own q), by omega, by omega⟩

theorem posExchange_wellMatched {P : Nat} {parts : Nat → List α} {own src snd tag : Nat → Nat}
    {prog : XProg α} (E : PosExchange P parts own src snd tag prog) : Spec.WellMatched prog := by
  have lt_of_some : ∀ {r i : Nat} {v : α}, (parts r)[i]? = some v → i < (parts r).length :=
    fun h => getElem?_lt h
  refine ⟨?_, ?_, ?_, ?_, ?_⟩
  · intro i r d t v h
    obtain ⟨hr, i, hv, rfl, rfl⟩ := (E.send_mem _ _ _ _).1 (List.mem_of_getElem? h)
    have hg := pos_lt hr (lt_of_some hv)
    have hq := E.snd_lt _ hg
    obtain ⟨j, hj, hjq⟩ := E.owns.local hq
    have hm : (own (snd (startOf parts r + i)), XOp.irecv r (tag (snd (startOf parts r + i))) j) ∈ prog := by
      rw [E.recv_mem]
      refine ⟨(E.owns _ hq).1, hj, ?_, ?_⟩
      · rw [hjq, E.src_snd _ hg, E.owns.at hr (lt_of_some hv)]
      · rw [hjq]
    obtain ⟨k, hk⟩ := List.getElem?_of_mem hm
    exact ⟨k, j, hk⟩
  · intro j s d t sl h
    obtain ⟨hr, hi, rfl, rfl⟩ := (E.recv_mem _ _ _ _).1 (List.mem_of_getElem? h)
    have hg := pos_lt hr hi
    have hq := E.src_lt _ hg
    obtain ⟨j', hj', hjq⟩ := E.owns.local hq
    have hm : (own (src (startOf parts d + sl)), XOp.isend d (tag (startOf parts d + sl))
        (parts (own (src (startOf parts d + sl))))[j']) ∈ prog := by
      rw [E.send_mem]
      refine ⟨(E.owns _ hq).1, j', by simp [hj'], ?_, ?_⟩
      · rw [hjq, E.snd_src _ hg, E.owns.at hr hi]
      · rw [hjq, E.snd_src _ hg]
    obtain ⟨k, hk⟩ := List.getElem?_of_mem hm
    exact ⟨k, _, hk⟩
  · intro i i' r d t v v' h h'
    obtain ⟨hr, a, ha, hd, ht⟩ := (E.send_mem _ _ _ _).1 (List.mem_of_getElem? h)
    obtain ⟨-, b, hb, hd', ht'⟩ := (E.send_mem _ _ _ _).1 (List.mem_of_getElem? h')
    have ga := pos_lt hr (lt_of_some ha)
    have gb := pos_lt hr (lt_of_some hb)
    have := E.tag_inj _ _ (E.snd_lt _ ga) (E.snd_lt _ gb) (hd.symm.trans hd') (ht.symm.trans ht')
    have := congrArg src this
    rw [E.src_snd _ ga, E.src_snd _ gb] at this
    have : a = b := by omega
    subst this
    rw [ha] at hb; cases hb
    exact nodup_index E.nodup h h'
  · intro j j' s r t a b h h'
    obtain ⟨hr, ha, hs, ht⟩ := (E.recv_mem _ _ _ _).1 (List.mem_of_getElem? h)
    obtain ⟨-, hb, hs', ht'⟩ := (E.recv_mem _ _ _ _).1 (List.mem_of_getElem? h')
    have := E.tag_inj _ _ (pos_lt hr ha) (pos_lt hr hb)
      (by rw [E.owns.at hr ha, E.owns.at hr hb]) (ht.symm.trans ht')
    have : a = b := by omega
    subst this
    exact nodup_index E.nodup h h'
  · intro j j' r s s' t t' a h h'
    obtain ⟨hr, ha, hs, ht⟩ := (E.recv_mem _ _ _ _).1 (List.mem_of_getElem? h)
    obtain ⟨-, hb, hs', ht'⟩ := (E.recv_mem _ _ _ _).1 (List.mem_of_getElem? h')
    subst hs; subst hs'; subst ht; subst ht'
    exact nodup_index E.nodup h h'

/-- After any complete execution every position holds the slab of its source position. -/
theorem posExchange_result {P : Nat} {parts : Nat → List α} {own src snd tag : Nat → Nat}
    {prog : XProg α} (E : PosExchange P parts own src snd tag prog) {n : Nat} {s : XState α}
    (h : Steps (XStep prog) n XState.init s) (hstuck : Spec.Stuck (XStep prog) s) :
    (∀ k < prog.length, s.status k = .done) ∧
    ∀ r < P, ∀ i < (parts r).length,
      s.store r i = (content P parts)[src (startOf parts r + i)]? := by
  obtain ⟨h1, h2, -⟩ := exchange_schedule_independent prog (posExchange_wellMatched E) h hstuck
  refine ⟨h1, ?_⟩
  intro r hr i hi
  have hg := pos_lt hr hi
  have hq := E.src_lt _ hg
  obtain ⟨j, hj, hjq⟩ := E.owns.local hq
  have hm1 : (r, XOp.irecv (own (src (startOf parts r + i))) (tag (startOf parts r + i)) i) ∈ prog := by
    rw [E.recv_mem]; exact ⟨hr, hi, rfl, rfl⟩
  have hm2 : (own (src (startOf parts r + i)), XOp.isend r (tag (startOf parts r + i))
      (parts (own (src (startOf parts r + i))))[j]) ∈ prog := by
    rw [E.send_mem]
    refine ⟨(E.owns _ hq).1, j, by simp [hj], ?_, ?_⟩
    · rw [hjq, E.snd_src _ hg, E.owns.at hr hi]
    · rw [hjq, E.snd_src _ hg]
  obtain ⟨a, ha⟩ := List.getElem?_of_mem hm2
  obtain ⟨b, hb⟩ := List.getElem?_of_mem hm1
  rw [h2 a b _ _ _ _ _ ha hb]
  have := content_get parts P (own (src (startOf parts r + i))) j (E.owns _ hq).1 hj
  rw [hjq] at this
  exact this.symm

theorem nodup_flatMap_ranks {β : Type} (P : Nat) (F : Nat → List (Nat × β)) (h1 : ∀ r < P, (F r).Nodup)
    (h2 : ∀ r < P, ∀ x ∈ F r, x.1 = r) : ((List.range P).flatMap F).Nodup := by
  rw [List.nodup_iff_pairwise_ne, List.pairwise_flatMap]
  constructor
  · intro r hr; exact h1 r (List.mem_range.1 hr)
  · have : (List.range P).Pairwise (· ≠ ·) := List.nodup_range
    refine List.Pairwise.imp_of_mem ?_ this
    intro r s hr hs hne x hx y hy e
    have a := h2 r (List.mem_range.1 hr) x hx
    have b := h2 s (List.mem_range.1 hs) y hy
    subst e
    exact hne (a.symm.trans b)

theorem nodup_map_range {β : Type} (l : Nat) (f : Nat → β) (h : ∀ i < l, ∀ j < l, f i = f j → i = j) :
    ((List.range l).map f).Nodup := by
  rw [List.nodup_iff_pairwise_ne, List.pairwise_map]
  have : (List.range l).Pairwise (· ≠ ·) := List.nodup_range
  refine List.Pairwise.imp_of_mem ?_ this
  intro i j hi hj hne e
  exact hne (h i (List.mem_range.1 hi) j (List.mem_range.1 hj) e)

theorem filterMap_range_eq_map {β : Type} (l : List α) (f : Nat → α → β) :
    ((List.range l.length).filterMap fun i => l[i]?.map (f i)) = l.mapIdx f := by
  apply List.ext_getElem?
  intro i
  have : ∀ L : List Nat, (∀ i ∈ L, i < l.length) →
      (L.filterMap fun i => l[i]?.map (f i)).map some = L.map fun i => l[i]?.map (f i) := by
    intro L
    induction L with
    | nil => intro _; rfl
    | cons a L ih =>
      intro h
      have ha := h a (by simp)
      rw [List.filterMap_cons, List.getElem?_eq_getElem ha]
      simp only [Option.map_some, List.map_cons]
      rw [ih (fun b hb => h b (by simp [hb])), List.getElem?_eq_getElem ha]; rfl
  have h2 := congrArg (fun L => L[i]?) (this (List.range l.length) (fun i hi => List.mem_range.1 hi))
  simp only [List.getElem?_map] at h2
  rw [List.getElem?_mapIdx]
  by_cases hi : i < l.length
  · rw [List.getElem?_range hi] at h2
    simp only [Option.map_some] at h2
    rw [List.getElem?_eq_getElem hi] at *
    simp only [Option.map_some] at *
    generalize (List.filterMap _ _)[i]? = z at *
    cases z <;> simp at h2
    rw [h2]
  · rw [List.getElem?_eq_none (l := List.range l.length) (by simpa using hi)] at h2
    rw [List.getElem?_eq_none (l := l) (by omega)]
    generalize (List.filterMap _ _)[i]? = z at *
    cases z <;> simp at h2
    rfl

end Heat
