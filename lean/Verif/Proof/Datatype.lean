import Verif.Spec.Datatype
import Verif.Model.Datatype
/-! Lemmas about typemaps. -/
namespace Heat
open Spec MType

theorem dot_cons (i s : Nat) (idx st : List Nat) : dot (i :: idx) (s :: st) = i * s + dot idx st := by
  simp [dot]

theorem dot_nil_left (st : List Nat) : dot [] st = 0 := by simp [dot]

theorem byteOffsets_nil (sz : Nat) : byteOffsets sz [] [] = [0] := by simp [byteOffsets, indices, dot]

theorem byteOffsets_cons (sz n s : Nat) (sh st : List Nat) :
    byteOffsets sz (n :: sh) (s :: st) = (List.range n).flatMap fun i => (byteOffsets sz sh st).map (i * (sz * s) + ·) := by
  simp only [byteOffsets, indices, List.map_flatMap, List.map_map]
  congr 1
  funext i
  apply List.map_congr_left
  intro idx _
  simp only [Function.comp, dot_cons]
  rw [Nat.mul_add, Nat.mul_left_comm]

theorem vector_one (t : MType) (n s : Nat) :
    (t.vector n 1 s).offs = (List.range n).flatMap fun i => t.offs.map (i * (t.extent * s) + ·) := by
  simp only [vector]
  congr 1
  funext i
  simp only [List.range_one, List.flatMap_cons, List.flatMap_nil, List.append_nil, Nat.add_zero]
  congr 1
  funext x
  rw [Nat.mul_comm t.extent s, Nat.mul_assoc]

/-- One step of the chain. -/
def step (p : Nat × Nat × Nat) (t : MType) : MType := ((t.vector p.1 1 p.2.1).resized p.2.2).commit

theorem step_offs (p : Nat × Nat × Nat) (t : MType) :
    (step p t).offs = (List.range p.1).flatMap fun i => t.offs.map (i * (t.extent * p.2.1) + ·) := vector_one _ _ _

/-- The chain of vector types describes the strided array, and its extent is the next outer stride. -/
theorem chain_spec (sz : Nat) : ∀ (sh st : List Nat) (s0 : Nat), sh.length = st.length → sh ≠ [] →
    let t := (sh.zip ((List.replicate (sh.length - 1) 1 ++ [st.getLastD 0]).zip ((s0 :: st).dropLast.map (sz * ·)))).foldr step (basic sz)
    t.offs = byteOffsets sz sh st ∧ t.extent = sz * s0 ∧ t.committed = true
  | [], _, _, _, h => absurd rfl h
  | [d], [], _, h, _ => by simp at h
  | [d], [s], s0, _, _ => by
    simp only [List.length_singleton, Nat.sub_self, List.replicate_zero, List.nil_append, List.getLastD_cons, List.getLastD_nil,
      List.dropLast_cons₂, List.dropLast_singleton, List.map_cons, List.map_nil, List.zip_cons_cons, List.zip_nil_right, List.foldr_cons, List.foldr_nil]
    refine ⟨?_, rfl, rfl⟩
    rw [step_offs, byteOffsets_cons, byteOffsets_nil]
    rfl
  | [d], s :: s' :: st, _, h, _ => by simp at h
  | d :: d' :: sh, [], _, h, _ => by simp at h
  | d :: d' :: sh, [s], _, h, _ => by simp at h
  | d :: d' :: sh, s :: s' :: st, s0, h, _ => by
    have ih := chain_spec sz (d' :: sh) (s' :: st) s (by simpa using h) (by simp)
    simp only [List.length_cons, Nat.add_sub_cancel] at ih ⊢
    have e1 : (s :: s' :: st).getLastD 0 = (s' :: st).getLastD 0 := by simp
    rw [e1, List.replicate_succ, List.cons_append, List.dropLast_cons₂, List.map_cons, List.zip_cons_cons, List.zip_cons_cons, List.foldr_cons]
    obtain ⟨h1, h2, _⟩ := ih
    refine ⟨?_, rfl, rfl⟩
    rw [step_offs, byteOffsets_cons, h1, h2, Nat.mul_one]

theorem rev_set (x : Nat) (m : Nat) (hm : 0 < m) :
    ((List.replicate m 1).set 0 x).reverse = List.replicate (m - 1) 1 ++ [x] := by
  obtain ⟨k, rfl⟩ : ∃ k, m = k + 1 := ⟨m - 1, by omega⟩
  simp [List.replicate_succ]

theorem set_last (x : Nat) (m : Nat) (hm : 0 < m) :
    (List.replicate m 1).set (m - 1) x = List.replicate (m - 1) 1 ++ [x] := by
  obtain ⟨k, rfl⟩ : ∃ k, m = k + 1 := ⟨m - 1, by omega⟩
  simp only [Nat.add_sub_cancel]
  rw [List.replicate_succ', List.set_append, if_neg (by simp)]
  simp

theorem chainType_spec (sz d0 s0 : Nat) (sh st : List Nat) (hl : sh.length = st.length) (hne : sh ≠ []) :
    (chainType sz (d0 :: sh) (s0 :: st)).offs = byteOffsets sz sh st ∧ (chainType sz (d0 :: sh) (s0 :: st)).extent = sz * s0 ∧
    (chainType sz (d0 :: sh) (s0 :: st)).committed = true := by
  have hm : 0 < sh.length := List.length_pos_iff.2 hne
  have e : (s0 :: st).getLastD 0 = st.getLastD 0 := by
    cases st with
    | nil => simp at hl; exact absurd hl hne
    | cons a l => simp
  have := chain_spec sz sh st s0 hl hne
  simp only [chainType, List.drop_one, List.tail_cons, rev_set _ _ hm, e]
  exact this

theorem message_spec (t : MType) (sz c s : Nat) (sh st : List Nat) (h1 : t.offs = byteOffsets sz sh st) (h2 : t.extent = sz * s) :
    t.message c = byteOffsets sz (c :: sh) (s :: st) := by
  rw [byteOffsets_cons, message, h1, h2]

theorem flatMap_add (n c d : Nat) (f : Nat → List Nat) :
    ((List.range n).flatMap f).map (d + ·) = (List.range n).flatMap fun i => (f i).map (d + ·) := by
  rw [List.map_flatMap]

theorem byteOffsets_length (sz : Nat) (sh st : List Nat) : (byteOffsets sz sh st).length = sh.prod := by
  have : ∀ sh : List Nat, (indices sh).length = sh.prod := by
    intro sh
    induction sh with
    | nil => rfl
    | cons n sh ih =>
      have : ∀ (n c : Nat), ((List.range n).map fun _ => c).sum = n * c := by
        intro n c
        induction n with
        | zero => simp
        | succ n ih => rw [List.range_succ, List.map_append, List.sum_append, ih]; simp [Nat.succ_mul]
      simp only [indices, List.length_flatMap, List.length_map, ih, this, List.prod_cons]
  simp [byteOffsets, this]

theorem indices_length : ∀ {sh idx : List Nat}, idx ∈ indices sh → idx.length = sh.length
  | [], idx, h => by simp [indices] at h; simp [h]
  | n :: sh, idx, h => by
    simp only [indices, List.mem_flatMap, List.mem_map] at h
    obtain ⟨i, _, a, ha, rfl⟩ := h
    simp [indices_length ha]

/-- Membership in `indices`. -/
theorem mem_indices : ∀ {sh idx : List Nat}, idx ∈ indices sh ↔ idx.length = sh.length ∧ ∀ k < sh.length, idx.getD k 0 < sh.getD k 0
  | [], idx => by
    simp [indices]
  | n :: sh, idx => by
    simp only [indices, List.mem_flatMap, List.mem_map, List.mem_range]
    constructor
    · rintro ⟨i, hi, a, ha, rfl⟩
      obtain ⟨h1, h2⟩ := mem_indices.1 ha
      refine ⟨by simp [h1], fun k hk => ?_⟩
      cases k with
      | zero => simpa using hi
      | succ k => simpa using h2 k (by simpa using hk)
    · rintro ⟨h1, h2⟩
      cases idx with
      | nil => simp at h1
      | cons i a =>
        refine ⟨i, by simpa using h2 0 (by simp), a, mem_indices.2 ⟨by simpa using h1, fun k hk => ?_⟩, rfl⟩
        have := h2 (k + 1) (by simpa using hk)
        simpa using this

end Heat
