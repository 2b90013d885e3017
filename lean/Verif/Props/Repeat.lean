import Verif.Model.Repeat
import Verif.Props.Split
/-!
# C105: `repeat`
-/
namespace Heat
open Heat.Spec
variable {α : Type}

/-- Specification: every element as often as its repetition number says. -/
def Spec.repeated (l : List α) (rs : List Nat) : List α := (l.zip rs).flatMap fun p => List.replicate p.2 p.1

theorem repeatAssemble_spec (fuel : Nat) (hfuel : 2 ≤ fuel) (P : Nat) (hP : 0 < P) (loc : Nat → Except Err (List α)) (e : Nat → List α) (h : ∀ r < P, loc r = .ok (e r)) :
    ∃ out, repeatAssemble fuel P loc = .ok out ∧ content P out = content P e ∧ Balanced P out := by
  have hc : content P (fun r => ((List.range P).map e).getD r []) = content P e := content_congr fun r hr => by
    rw [List.getD_eq_getElem?_getD, List.getElem?_map, List.getElem?_range hr]; rfl
  obtain ⟨out, h1, h2, h3, _⟩ := balance_spec P hP (fun r => ((List.range P).map e).getD r []) fuel hfuel
  refine ⟨out, ?_, by rw [h2, hc], h3⟩
  unfold repeatAssemble
  rw [mapM_range_eq loc e P h]
  dsimp only
  rw [← h1, content_length_sum]

/-- C105, one repetition number: every element `k` times, in order, evenly distributed if the array is not empty. -/
theorem repeat_int (fuel : Nat) (hfuel : 2 ≤ fuel) (P k : Nat) (hP : 0 < P) (d : Nat → List α) :
    ∃ out, repeatInt fuel P k d = .ok out ∧ content P out = (content P d).flatMap (List.replicate k) ∧ (content P d ≠ [] → Balanced P out) := by
  unfold repeatInt
  split
  · rename_i h
    rw [← content_length_sum] at h
    have h := List.length_eq_zero_iff.1 h
    exact ⟨d, rfl, by rw [h]; rfl, fun hn => absurd h hn⟩
  · obtain ⟨out, h1, h2, h3⟩ := repeatAssemble_spec fuel hfuel P hP (fun r => .ok ((d r).flatMap (List.replicate k))) (fun r => (d r).flatMap (List.replicate k)) (fun _ _ => rfl)
    refine ⟨out, h1, ?_, fun _ => h3⟩
    rw [h2]
    unfold content
    rw [List.flatMap_assoc]

example : ∃ out, repeatInt 2 2 2 (fun r : Nat => if r = 0 then [1, 2, 3] else []) = .ok out ∧ (List.range 2).map out = [[1, 1, 2], [2, 3, 3]] := ⟨_, rfl, by decide +kernel⟩

theorem repeatInterleave_eq (xs : List α) (rs : List Nat) (h : rs.length = xs.length) : repeatInterleave xs rs = .ok (Spec.repeated xs rs) := by
  unfold repeatInterleave Spec.repeated
  split
  · match xs, h with
    | [x], _ => simp
  · rw [if_pos h]

theorem repeated_content (P : Nat) (d : Nat → List α) (rp : Nat → List Nat) (h : ∀ r < P, (rp r).length = (d r).length) :
    content P (fun r => Spec.repeated (d r) (rp r)) = Spec.repeated (content P d) (content P rp) := by
  induction P with
  | zero => rfl
  | succ k ih =>
    rw [content_succ, content_succ, content_succ, ih fun r hr => h r (by omega)]
    have hl : (content k d).length = (content k rp).length := by
      rw [content_length_sum, content_length_sum]
      congr 1
      exact List.map_congr_left fun r hr => (h r (by have := List.mem_range.1 hr; omega)).symm
    unfold Spec.repeated
    rw [List.zip_append hl, List.flatMap_append]

/-- C105, one number per element: if every process holds as many repetition numbers as rows, the result is right and evenly distributed. -/
theorem repeat_array_partial (fuel : Nat) (hfuel : 2 ≤ fuel) (P : Nat) (hP : 0 < P) (axisNone : Bool) (d : Nat → List α) (rp : Nat → List Nat) (hn : content P d ≠ [])
    (h : ∀ r < P, (rp r).length = (d r).length) :
    ∃ out, repeatArr fuel P axisNone d rp = .ok out ∧ content P out = Spec.repeated (content P d) (content P rp) ∧ Balanced P out := by
  have hl : (content P rp).length = (content P d).length := by
    rw [content_length_sum, content_length_sum]
    congr 1
    exact List.map_congr_left fun r hr => h r (List.mem_range.1 hr)
  have hpos : 0 < (content P d).length := List.length_pos_iff.2 hn
  obtain ⟨out, h1, h2, h3⟩ := repeatAssemble_spec fuel hfuel P hP (fun r => repeatInterleave (d r) (rp r)) (fun r => Spec.repeated (d r) (rp r)) (fun r hr => repeatInterleave_eq _ _ (h r hr))
  refine ⟨out, ?_, by rw [h2, repeated_content P d rp h], h3⟩
  unfold repeatArr
  dsimp only
  rw [← content_length_sum, ← content_length_sum, if_neg (by omega), if_neg (by omega), if_neg (by omega)]
  exact h1

/-- In particular for an evenly distributed array and a list of repetition numbers of the right length. -/
theorem repeat_array_balanced_partial (fuel : Nat) (hfuel : 2 ≤ fuel) (P : Nat) (hP : 0 < P) (axisNone : Bool) (d : Nat → List α) (rs : List Nat) (hn : content P d ≠ []) (hb : Balanced P d)
    (hl : rs.length = (content P d).length) :
    ∃ out, repeatArr fuel P axisNone d (repeatsChunk rs P) = .ok out ∧ content P out = Spec.repeated (content P d) rs ∧ Balanced P out := by
  obtain ⟨out, h1, h2, h3⟩ := repeat_array_partial fuel hfuel P hP axisNone d (repeatsChunk rs P) hn (fun r hr => by
    unfold repeatsChunk
    rw [List.length_drop, List.length_take, Nat.min_eq_left (chunk_bounds rs.length P r hr).2, chunkRange_len, hl, hb r hr])
  refine ⟨out, h1, ?_, h3⟩
  rw [h2]
  congr 1
  have := content_chunkParts rs P hP P (Nat.le_refl _)
  rw [chunkRange_at_P _ _ hP, List.take_length] at this
  exact this

/-- A case that meets the hypotheses. -/
example : (content 2 (fun r : Nat => if r = 0 then [5, 6] else [7])) ≠ [] ∧ (∀ r < 2, (if r = 0 then [5, 6] else [7]).length = evenSize 3 2 r) ∧
    ∃ out, repeatArr 2 2 false (fun r : Nat => if r = 0 then [5, 6] else [7]) (repeatsChunk [1, 0, 3] 2) = .ok out ∧ (List.range 2).map out = [[5, 7], [7, 7]] :=
  ⟨by decide, by decide, _, rfl, by decide +kernel⟩

/-- C105 fails for an array that is not evenly distributed: `repeats` is distributed evenly, and torch uses a single number for all rows. -/
theorem repeat_uneven_violated : ∃ out, repeatArr 2 2 false (fun r : Nat => if r = 0 then [5, 6] else []) (repeatsChunk [1, 2] 2) = .ok out ∧
    content 2 out = [5, 6] ∧ Spec.repeated [5, 6] [1, 2] = [5, 6, 6] := ⟨_, rfl, by decide +kernel, by decide +kernel⟩

/-- With longer parts an uneven array raises instead. -/
theorem repeat_uneven_raises_violated : repeatArr 2 2 false (fun r : Nat => if r = 0 then [5, 6, 7] else [8]) (repeatsChunk [1, 2, 1, 2] 2) = (.error .runtimeError : Except Err (Nat → List Nat)) := rfl

/-- C105 fails for `repeats` of the wrong length along the split axis: every process uses its single number for all its rows, where an error is due.  For all `P ≥ 2` processes with `w ≥ 2` rows each and one number per process. -/
theorem repeat_wrong_length_violated (fuel : Nat) (hfuel : 2 ≤ fuel) (P w : Nat) (hP : 2 ≤ P) (hw : 2 ≤ w) (d : Nat → List α) (hd : ∀ r < P, (d r).length = w) (k : Nat → Nat) :
    P ≠ (content P d).length ∧ ∃ out, repeatArr fuel P false d (fun r => [k r]) = .ok out ∧ content P out = content P (fun r => (d r).flatMap (List.replicate (k r))) := by
  have hlen : ∀ {β : Type} (e : Nat → List β) (w : Nat), (∀ r < P, (e r).length = w) → ((List.range P).map fun r => (e r).length).sum = P * w := by
    intro β e w h
    rw [List.map_congr_left (g := fun _ => w) fun r hr => h r (List.mem_range.1 hr)]
    simp
  have h1 := hlen d w hd
  have h2 := hlen (fun r => [k r]) 1 (fun _ _ => rfl)
  have h3 : P * 2 ≤ P * w := Nat.mul_le_mul_left _ hw
  obtain ⟨out, ho, hc, _⟩ := repeatAssemble_spec fuel hfuel P (by omega) (fun r => repeatInterleave (d r) [k r]) (fun r => (d r).flatMap (List.replicate (k r))) (fun _ _ => rfl)
  refine ⟨by rw [content_length_sum, h1]; omega, out, ?_, hc⟩
  unfold repeatArr
  dsimp only at h2 ⊢
  rw [h1, h2, if_neg (by omega), if_neg (by omega), if_neg (by simp)]
  exact ho

example : ∃ out, repeatArr 2 2 false (fun r : Nat => if r = 0 then [5, 6] else [7, 8]) (fun r => [r + 1]) = .ok out ∧ content 2 out = [5, 6, 7, 7, 8, 8] := ⟨_, rfl, by decide +kernel⟩

/-- C105 fails for an array without elements: it is returned unchanged, though the axis to repeat along need not be the empty one. -/
theorem repeat_empty_shape_violated (m k : Nat) (hm : 0 < m) (hk : k ≠ 1) : repeatShape [0, m] k 1 = [0, m] ∧ [0, m] ≠ [0, m * k] := by
  refine ⟨rfl, fun h => hk ?_⟩
  simp only [List.cons.injEq, and_true, true_and] at h
  exact (Nat.eq_of_mul_eq_mul_left hm (by omega)).symm

end Heat
