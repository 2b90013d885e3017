import Verif.Spec.DasoPack
import Verif.Model.DasoPack
import Mathlib.Data.List.Basic
import Mathlib.Algebra.BigOperators.Group.List.Basic
import Mathlib.Algebra.Order.BigOperators.Group.List
import Mathlib.Tactic.Ring
/-!
# DASO: packing, chunks, unpacking (C117)
-/
namespace Heat
variable {α : Type}

/-- **C117**: the chunks add up to the buffer and none is longer than `sending_chunk_size`. -/
theorem dasoChunkSizes_spec (n split : Nat) (hs : 0 < split) (hn : split < n) :
    (dasoChunkSizes n split).sum = n ∧ (∀ c ∈ dasoChunkSizes n split, 0 < c ∧ c ≤ split) ∧ (∀ c ∈ (dasoChunkSizes n split).tail, c = split) := by
  unfold dasoChunkSizes
  dsimp only
  generalize hq : (n + split - 1) / split = q
  have h1 : q * split ≤ n + split - 1 := by rw [← hq]; exact Nat.div_mul_le_self _ _
  have h2 : n + split - 1 < q * split + split := by
    rw [← hq]
    have := Nat.lt_div_mul_add (a := n + split - 1) hs
    exact this
  have hq1 : 1 ≤ q := by
    by_contra hc
    have : q = 0 := by omega
    rw [this] at h2
    omega
  obtain ⟨r, rfl⟩ : ∃ r, q = r + 1 := ⟨q - 1, by omega⟩
  have e : (r + 1) * split = split * r + split := by ring
  rw [e] at h1 h2
  simp only [Nat.add_sub_cancel]
  refine ⟨?_, ?_, ?_⟩
  · rw [List.sum_cons, List.sum_replicate, nsmul_eq_mul, Nat.cast_id, Nat.mul_comm r split]
    omega
  · intro c hc
    rw [List.mem_cons] at hc
    rcases hc with rfl | hc
    · omega
    · rw [List.eq_of_mem_replicate hc]
      omega
  · intro c hc
    exact List.eq_of_mem_replicate hc

theorem dasoCut_flatten (ns : List Nat) (buf : List α) (h : ns.sum = buf.length) : (dasoCut ns buf).flatten = buf := by
  induction ns generalizing buf with
  | nil =>
    simp at h
    rw [dasoCut, List.eq_nil_of_length_eq_zero h.symm]
    rfl
  | cons n ns ih =>
    rw [List.sum_cons] at h
    rw [dasoCut, List.flatten_cons, ih _ (by rw [List.length_drop]; omega), List.take_append_drop]

theorem dasoCut_lengths (ns : List Nat) (buf : List α) (h : ns.sum = buf.length) : (dasoCut ns buf).map List.length = ns := by
  induction ns generalizing buf with
  | nil => rfl
  | cons n ns ih =>
    rw [List.sum_cons] at h
    rw [dasoCut, List.map_cons, ih _ (by rw [List.length_drop]; omega), List.length_take]
    congr 1
    omega

/-- What the loop over the parameters needs. -/
structure DasoReader (B : List α) (more : Nat → List α → List (List α) → Except Err (List α × List (List α))) (bound : Nat) (Inv : List α → List (List α) → Nat → Prop) : Prop where
  next : ∀ got rest st n, Inv got rest st → n ≤ bound → st + n ≤ B.length → ∃ got' rest', more (st + n) got rest = .ok (got', rest') ∧ Inv got' rest' (st + n) ∧ st + n ≤ got'.length
  all : ∀ got rest st, Inv got rest st → got ++ rest.flatten = B

theorem dasoUnpackFrom_frozen (more : Nat → List α → List (List α) → Except Err (List α × List (List α))) (ps : List (Bool × List α)) (hf : ∀ p ∈ ps, p.1 = false) (st : Nat) (got : List α) (rest : List (List α)) :
    dasoUnpackFrom more ps st got rest = .ok (ps.map Prod.snd) := by
  induction ps generalizing st with
  | nil => rfl
  | cons p ps ih =>
    rw [dasoUnpackFrom, hf p (by simp)]
    simp [ih (fun q hq => hf q (List.mem_cons_of_mem _ hq))]

theorem dasoUnpackFrom_spec {B : List α} {more : Nat → List α → List (List α) → Except Err (List α × List (List α))} {bound : Nat} {Inv : List α → List (List α) → Nat → Prop} (hr : DasoReader B more bound Inv)
    (a a' f : List (Bool × List α)) (ha : ∀ p ∈ a, p.1 = true) (hf : ∀ p ∈ f, p.1 = false) (hsame : a.map (fun p => p.2.length) = a'.map (fun p => p.2.length))
    (hb : ∀ p ∈ a, p.2.length ≤ bound) (st : Nat) (got : List α) (rest : List (List α)) (hi : Inv got rest st) (z : List α) (hB : B.drop st = a'.flatMap Prod.snd ++ z) (hst : st ≤ B.length) :
    dasoUnpackFrom more (a ++ f) st got rest = .ok (a'.map Prod.snd ++ f.map Prod.snd) := by
  induction a generalizing a' st got rest with
  | nil =>
    have : a' = [] := by
      cases a' with
      | nil => rfl
      | cons _ _ => simp at hsame
    subst this
    exact dasoUnpackFrom_frozen more f hf st got rest
  | cons p a ih =>
    cases a' with
    | nil => simp at hsame
    | cons q a' =>
      simp only [List.map_cons, List.cons.injEq] at hsame
      have hp := ha p (by simp)
      have hlen : (B.drop st).length = B.length - st := List.length_drop
      rw [hB, List.flatMap_cons, List.length_append, List.length_append] at hlen
      have hle : st + p.2.length ≤ B.length := by rw [hsame.1]; omega
      obtain ⟨got', rest', e1, i1, l1⟩ := hr.next got rest st p.2.length hi (hb p (by simp)) hle
      have hv : (got'.drop st).take p.2.length = q.2 := by
        have h1 : (B.drop st).take p.2.length = q.2 := by
          rw [hB, List.flatMap_cons, List.append_assoc, hsame.1, List.take_left]
        rw [← h1, ← hr.all got' rest' _ i1, List.drop_append_of_le_length (by omega), List.take_append_of_le_length]
        rw [List.length_drop]
        omega
      have hB' : B.drop (st + p.2.length) = a'.flatMap Prod.snd ++ z := by
        rw [← List.drop_drop, hB, List.flatMap_cons, List.append_assoc, hsame.1, List.drop_left]
      have := ih a' (fun p hp => ha p (List.mem_cons_of_mem _ hp)) hsame.2 (fun p hp => hb p (List.mem_cons_of_mem _ hp)) _ got' rest' i1 hB' hle
      rw [List.cons_append, dasoUnpackFrom, hp, if_pos rfl, e1]
      dsimp only
      rw [hv, if_neg (by rw [hsame.1]; exact fun h => h rfl), this]
      rfl

theorem dasoMoreLoop_spec (B : List α) (stop : Nat) (hs : stop ≤ B.length) (got : List α) (rest : List (List α)) (h : got ++ rest.flatten = B) :
    ∃ got' rest', dasoMoreLoop stop got rest = .ok (got', rest') ∧ got' ++ rest'.flatten = B ∧ stop ≤ got'.length := by
  induction rest generalizing got with
  | nil =>
    rw [dasoMoreLoop, if_neg]
    · refine ⟨got, [], rfl, h, ?_⟩
      simp at h
      rw [h]; exact hs
    · simp at h
      rw [h]; omega
  | cons c cs ih =>
    rw [dasoMoreLoop]
    split
    · exact ih (got ++ c) (by rw [List.append_assoc]; exact h)
    · exact ⟨got, c :: cs, rfl, h, by omega⟩

theorem dasoReader_loop (B : List α) (bound : Nat) : DasoReader B dasoMoreLoop bound (fun got rest _ => got ++ rest.flatten = B) where
  next := by
    intro got rest st n h _ hle
    exact dasoMoreLoop_spec B (st + n) hle got rest h
  all := fun _ _ _ h => h

theorem dasoReader_once (B : List α) (split : Nat) :
    DasoReader B dasoMore split (fun got rest st => got ++ rest.flatten = B ∧ st ≤ got.length ∧ ∀ c ∈ rest, c.length = split) where
  next := by
    rintro got rest st n ⟨h1, h2, h3⟩ hn hle
    unfold dasoMore
    split
    · rename_i hlt
      cases rest with
      | nil =>
        simp at h1
        rw [h1] at hlt
        omega
      | cons c cs =>
        have hc := h3 c (by simp)
        have hl : st + n ≤ (got ++ c).length := by rw [List.length_append]; omega
        exact ⟨_, _, rfl, ⟨by rw [List.append_assoc]; exact h1, hl, fun d hd => h3 d (List.mem_cons_of_mem _ hd)⟩, hl⟩
    · rename_i hlt
      exact ⟨_, _, rfl, ⟨h1, by omega, h3⟩, by omega⟩
  all := fun _ _ _ h => h.1

/-- The trained parameters come first. -/
def TrainedFirst (ps : List (Bool × List α)) : Prop := ∃ a f, ps = a ++ f ∧ (∀ p ∈ a, p.1 = true) ∧ ∀ p ∈ f, p.1 = false

theorem sameNetwork_split {a f qs : List (Bool × List α)} (h : SameNetwork (a ++ f) qs) : ∃ a' f', qs = a' ++ f' ∧ a.map (fun p => (p.1, p.2.length)) = a'.map (fun p => (p.1, p.2.length)) ∧
    f.map (fun p => (p.1, p.2.length)) = f'.map (fun p => (p.1, p.2.length)) := by
  unfold SameNetwork at h
  rw [List.map_append] at h
  refine ⟨qs.take a.length, qs.drop a.length, (List.take_append_drop _ _).symm, ?_, ?_⟩
  · rw [List.map_take, ← h]
    rw [List.take_left' (by simp)]
  · rw [List.map_drop, ← h]
    rw [List.drop_left' (by simp)]

theorem same_flags {a a' : List (Bool × List α)} (h : a.map (fun p => (p.1, p.2.length)) = a'.map (fun p => (p.1, p.2.length))) (b : Bool) (ha : ∀ p ∈ a, p.1 = b) : ∀ p ∈ a', p.1 = b := by
  intro p hp
  have : (p.1, p.2.length) ∈ a.map (fun p => (p.1, p.2.length)) := by rw [h]; exact List.mem_map_of_mem hp
  obtain ⟨q, hq, e⟩ := List.mem_map.1 this
  rw [← (Prod.mk.inj e).1]
  exact ha q hq

theorem same_lengths {a a' : List (Bool × List α)} (h : a.map (fun p => (p.1, p.2.length)) = a'.map (fun p => (p.1, p.2.length))) : a.map (fun p => p.2.length) = a'.map (fun p => p.2.length) := by
  have := congrArg (List.map Prod.snd) h
  simpa [Function.comp_def] using this

theorem delivered_split {a a' f f' : List (Bool × List α)} (ha : ∀ p ∈ a, p.1 = true) (hf : ∀ p ∈ f, p.1 = false) (h : a.map (fun p => p.2.length) = a'.map (fun p => p.2.length)) (hff : f.map (fun p => p.2.length) = f'.map (fun p => p.2.length)) :
    delivered (a ++ f) (a' ++ f') = a'.map Prod.snd ++ f.map Prod.snd := by
  unfold delivered
  have hl : a.length = a'.length := by simpa using congrArg List.length h
  rw [List.zipWith_append hl]
  congr 1
  · clear h
    induction a generalizing a' with
    | nil => cases a' <;> simp_all
    | cons p a ih =>
      cases a' with
      | nil => simp at hl
      | cons q a' =>
        simp only [List.zipWith_cons_cons, List.map_cons, ha p (by simp), if_true]
        rw [ih (fun p hp => ha p (List.mem_cons_of_mem _ hp)) (by simpa using hl)]
  · have hl : f.length = f'.length := by simpa using congrArg List.length hff
    clear hff
    induction f generalizing f' with
    | nil => simp
    | cons p f ih =>
      cases f' with
      | nil => simp at hl
      | cons q f' =>
        simp only [List.zipWith_cons_cons, List.map_cons, hf p (by simp)]
        rw [ih (fun p hp => hf p (List.mem_cons_of_mem _ hp)) (by simpa using hl)]
        simp

theorem dasoPack_first (zero : α) (a f : List (Bool × List α)) (ha : ∀ p ∈ a, p.1 = true) (hf : ∀ p ∈ f, p.1 = false) : ∃ z, dasoPack zero (a ++ f) = a.flatMap Prod.snd ++ z := by
  unfold dasoPack
  dsimp only
  rw [List.filter_append, List.filter_eq_self.2 (by simpa using ha), List.filter_eq_nil_iff.2 (by simpa using hf), List.append_nil]
  exact ⟨_, rfl⟩

/-- What is sent, put together, is the buffer; all chunks but the first have `sending_chunk_size` elements. -/
theorem dasoSendChunks_spec (split : Nat) (hs : 0 < split) (buf : List α) : ∃ c cs, dasoSendChunks split buf = c :: cs ∧ c ++ cs.flatten = buf ∧ ∀ d ∈ cs, d.length = split := by
  unfold dasoSendChunks
  split
  · exact ⟨buf, [], rfl, by simp, by simp⟩
  · rename_i h
    obtain ⟨h1, h2, h3⟩ := dasoChunkSizes_spec buf.length split hs (by omega)
    have hf := dasoCut_flatten _ buf h1
    have hl := dasoCut_lengths _ buf h1
    cases hc : dasoCut (dasoChunkSizes buf.length split) buf with
    | nil =>
      rw [hc] at hf
      simp at hf
      rw [hf] at h
      simp at h
    | cons c cs =>
      refine ⟨c, cs, rfl, by rw [hc] at hf; simpa using hf, ?_⟩
      intro d hd
      apply h3
      rw [← hl, hc, List.map_cons, List.tail_cons]
      exact List.mem_map_of_mem hd

/-- **C117** (`_partial`: the trained parameters come before the frozen ones): the last batch of an epoch and the blocking phases deliver every parameter, for every chunk size. -/
theorem daso_unpack_last_partial (zero : α) (ps qs : List (Bool × List α)) (split : Nat) (hs : 0 < split) (h : SameNetwork ps qs) (ht : TrainedFirst ps) :
    dasoUnpackLast ps (dasoSendChunks split (dasoPack zero qs)) = .ok (delivered ps qs) := by
  obtain ⟨a, f, rfl, ha, hf⟩ := ht
  obtain ⟨a', f', rfl, e1, e2⟩ := sameNetwork_split h
  obtain ⟨z, hz⟩ := dasoPack_first zero a' f' (same_flags e1 _ ha) (same_flags e2 _ hf)
  obtain ⟨c, cs, hc, hcat, _⟩ := dasoSendChunks_spec split hs (dasoPack zero (a' ++ f'))
  unfold dasoUnpackLast
  rw [hc]
  dsimp only
  rw [dasoUnpackFrom_spec (dasoReader_loop (dasoPack zero (a' ++ f')) ((a.map (fun p => p.2.length)).sum)) a a' f ha hf (same_lengths e1)
      (fun p hp => List.single_le_sum (fun _ _ => Nat.zero_le _) _ (List.mem_map_of_mem hp)) 0 c cs hcat z (by rw [List.drop_zero, hz]) (Nat.zero_le _),
    delivered_split ha hf (same_lengths e1) (same_lengths e2)]

/-- **C117** (`_partial`: the trained parameters come before the frozen ones and none is larger than `sending_chunk_size`): the receiver in the middle of an epoch delivers every parameter. -/
theorem daso_unpack_partial (zero : α) (ps qs : List (Bool × List α)) (split : Nat) (hs : 0 < split) (h : SameNetwork ps qs) (ht : TrainedFirst ps) (hsmall : ∀ p ∈ ps, p.1 = true → p.2.length ≤ split) :
    dasoUnpack ps (dasoSendChunks split (dasoPack zero qs)) = .ok (delivered ps qs) := by
  obtain ⟨a, f, rfl, ha, hf⟩ := ht
  obtain ⟨a', f', rfl, e1, e2⟩ := sameNetwork_split h
  obtain ⟨z, hz⟩ := dasoPack_first zero a' f' (same_flags e1 _ ha) (same_flags e2 _ hf)
  obtain ⟨c, cs, hc, hcat, hlen⟩ := dasoSendChunks_spec split hs (dasoPack zero (a' ++ f'))
  unfold dasoUnpack
  rw [hc]
  dsimp only
  rw [dasoUnpackFrom_spec (dasoReader_once (dasoPack zero (a' ++ f')) split) a a' f ha hf (same_lengths e1)
      (fun p hp => hsmall p (List.mem_append_left _ hp) (ha p hp)) 0 c cs ⟨hcat, Nat.zero_le _, hlen⟩ z (by rw [List.drop_zero, hz]) (Nat.zero_le _),
    delivered_split ha hf (same_lengths e1) (same_lengths e2)]

/-- **C117** is violated with a frozen parameter before a trained one: the trained parameter receives the padding (0) instead of its values. -/
theorem daso_unpack_violated : ∃ ps : List (Bool × List Int), dasoUnpackLast ps (dasoSendChunks 10 (dasoPack 0 ps)) = .ok [[7], [0]] ∧ delivered ps ps = [[7], [5]] :=
  ⟨[(false, [7]), (true, [5])], by decide +kernel, by decide +kernel⟩

/-- **C117** is violated in the middle of an epoch for a parameter larger than the chunks: only one more chunk is fetched, and `reshape` raises. The receiver of the last batch handles it. -/
theorem daso_unpack_large_violated : ∃ ps : List (Bool × List Int), dasoUnpack ps (dasoSendChunks 2 (dasoPack 0 ps)) = .error .runtimeError ∧ dasoUnpackLast ps (dasoSendChunks 2 (dasoPack 0 ps)) = .ok (delivered ps ps) :=
  ⟨[(true, [1, 2, 3, 4, 5])], by decide +kernel, by decide +kernel⟩

example : dasoUnpack [(true, [0, 0]), (true, [0, 0, 0]), (false, [9])] (dasoSendChunks 4 (dasoPack 0 [(true, [1, 2]), (true, [3, 4, 5]), (false, [8])])) = .ok [[1, 2], [3, 4, 5], [9]] := by decide +kernel
example : dasoChunkSizes 10 4 = [2, 4, 4] := by decide
example : TrainedFirst [(true, [0, 0]), (true, [0, 0, 0]), (false, [9])] := ⟨[(true, [0, 0]), (true, [0, 0, 0])], [(false, [9])], rfl, by simp, by simp⟩

end Heat
