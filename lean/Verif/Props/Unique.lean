import Verif.Model.Unique
import Verif.Props.Sparse
import Mathlib.Data.List.Dedup
/-!
# C83-C84: unique
-/
namespace Heat

open Spec

variable {α : Type}

/-- `torch.unique` does what it says. -/
def UniqueLaw (tu : List α → List α × List Nat) : Prop := ∀ l, DistinctOf l (tu l).1 ∧ InverseOf l (tu l).1 (tu l).2

theorem mem_content_iff {P : Nat} {parts : Nat → List α} {x : α} : x ∈ content P parts ↔ ∃ r < P, x ∈ parts r := by
  unfold content
  simp [List.mem_flatMap]

/-- **C83.**  `unique` (`axis=None`, or `axis` = split axis with slabs as elements): the values of the array, each once, for every distribution. -/
theorem unique_spec {tu : List α → List α × List Nat} (htu : UniqueLaw tu) (P : Nat) (loc : Nat → List α) : DistinctOf (content P loc) (uniqueValues tu P loc) := by
  obtain ⟨⟨h1, h2⟩, _⟩ := htu (uniqueGathered tu P loc)
  refine ⟨h1, fun x => ?_⟩
  unfold uniqueValues
  rw [h2]
  unfold uniqueGathered
  rw [mem_content_iff, mem_content_iff]
  constructor
  · rintro ⟨r, hr, h⟩; exact ⟨r, hr, ((htu (loc r)).1.2 x).1 h⟩
  · rintro ⟨r, hr, h⟩; exact ⟨r, hr, ((htu (loc r)).1.2 x).2 h⟩

/-- **C83.**  Its distribution: canonical if the result has the split axis, else every process has all of it. -/
theorem unique_distribution (tu : List α → List α × List Nat) (P : Nat) (hP : 0 < P) (loc : Nat → List α) (split ndim : Nat) :
    if split < ndim then content P (uniqueResult tu P loc split ndim) = uniqueValues tu P loc ∧ Balanced P (uniqueResult tu P loc split ndim)
    else ∀ r, uniqueResult tu P loc split ndim r = uniqueValues tu P loc := by
  by_cases h : split < ndim
  · rw [if_pos h]
    have e : uniqueResult tu P loc split ndim = rowsAt (uniqueValues tu P loc) P := by
      funext r
      unfold uniqueResult rowsAt
      dsimp only
      rw [if_pos h]
    rw [e]
    refine ⟨rowsAt_content _ P hP, ?_⟩
    intro r hr
    rw [rowsAt_content _ P hP, rowsAt_length _ P r hP hr]
  · rw [if_neg h]
    intro r
    unfold uniqueResult
    dsimp only
    rw [if_neg h]

/-- The same if sorted values were asked for. -/
theorem unique_sorted {tu : List Int → List Int × List Nat} (hs : ∀ l, (tu l).1.Pairwise (· < ·)) (P : Nat) (loc : Nat → List Int) :
    (uniqueValues tu P loc).Pairwise (· < ·) := hs _

/-! ## Inverse indices -/

theorem inverseOf_lt {l u : List α} {inv : List Nat} (h : InverseOf l u inv) {k : Nat} (hk : k ∈ inv) : k < u.length := by
  have : u[k]? ∈ inv.map fun k => u[k]? := List.mem_map.2 ⟨k, hk, rfl⟩
  rw [h] at this
  obtain ⟨x, _, hx⟩ := List.mem_map.1 this
  by_contra hlt
  rw [List.getElem?_eq_none (by omega)] at hx
  exact absurd hx (by simp)

theorem inverseOf_length {l u : List α} {inv : List Nat} (h : InverseOf l u inv) : inv.length = l.length := by
  have := congrArg List.length h
  simpa using this

theorem inverseOf_bind {l u : List α} {inv : List Nat} (h : InverseOf l u inv) (i : Nat) : (inv[i]?).bind (fun k => u[k]?) = l[i]? := by
  have := congrArg (fun z => z[i]?) h
  rw [List.getElem?_map, List.getElem?_map] at this
  cases h1 : inv[i]? <;> cases h2 : l[i]? <;> rw [h1, h2] at this <;> simp_all

theorem uniqueDispl_eq (tu : List α → List α × List Nat) (loc : Nat → List α) (r : Nat) : uniqueDispl tu loc r = (content r fun q => (tu (loc q)).1).length := by
  unfold uniqueDispl
  rw [content_length_sum]

theorem content_get_at {P r : Nat} (parts : Nat → List α) (hr : r < P) {k : Nat} (hk : k < (parts r).length) :
    (content P parts)[(content r parts).length + k]? = (parts r)[k]? := by
  obtain ⟨d, rfl⟩ : ∃ d, P = r + 1 + d := ⟨P - (r + 1), by omega⟩
  have : ∃ rest, content (r + 1 + d) parts = content r parts ++ (parts r ++ rest) := by
    induction d with
    | zero => exact ⟨[], by rw [Nat.add_zero, content_succ, List.append_nil]⟩
    | succ d ih =>
      obtain ⟨rest, h⟩ := ih (by omega)
      exact ⟨rest ++ parts (r + 1 + d), by rw [← Nat.add_assoc, content_succ, h, List.append_assoc, List.append_assoc]⟩
  obtain ⟨rest, h⟩ := this
  rw [h, List.getElem?_append_right (by omega), Nat.add_sub_cancel_left, List.getElem?_append_left hk]

/-- The positions of rank `c`, taken through the second `unique`, lead to the elements of rank `c`. -/
theorem remap_block {tu : List α → List α × List Nat} (htu : UniqueLaw tu) {P c : Nat} (hc : c < P) (loc : Nat → List α) :
    ((tu (loc c)).2.map fun e => (tu (uniqueGathered tu P loc)).2[e + uniqueDispl tu loc c]?).map (fun o => o.bind fun k => (uniqueValues tu P loc)[k]?) = (loc c).map some := by
  have hinv := (htu (loc c)).2
  rw [List.map_map]
  refine Eq.trans ?_ hinv
  apply List.map_congr_left
  intro e he
  show Option.bind _ _ = _
  unfold uniqueValues
  rw [inverseOf_bind (htu (uniqueGathered tu P loc)).2]
  unfold uniqueGathered
  rw [uniqueDispl_eq, Nat.add_comm, content_get_at (fun r => (tu (loc r)).1) hc (inverseOf_lt hinv he)]

/-- A block without a boundary. -/
theorem inverse_block (g : List Nat) (displs : Nat → Nat) (bound : Nat → Option Nat) (c : Nat) : ∀ (l : List Nat) (s : Nat) (out : List (Option Nat)),
    (∀ b, bound c = some b → s + l.length ≤ b) →
    (l.zipIdx s).foldl (inverseStep g displs bound) (c, out) = (c, out ++ l.map fun e => g[e + displs c]?)
  | [], s, out, _ => by simp
  | x :: xs, s, out, h => by
    rw [List.zipIdx_cons, List.foldl_cons]
    have hstep : inverseStep g displs bound (c, out) (x, s) = (c, out ++ [g[x + displs c]?]) := by
      unfold inverseStep
      dsimp only
      rw [if_neg]
      intro hany
      cases hb : bound c with
      | none => rw [hb] at hany; exact absurd hany (by simp)
      | some b =>
        rw [hb] at hany
        have := h b hb
        rw [List.length_cons] at this
        have h2 : b ≤ s := by simpa using hany
        omega
    rw [hstep, inverse_block g displs bound c xs (s + 1) _ (fun b hb => by have := h b hb; rw [List.length_cons] at this; omega), List.map_cons, List.append_assoc]
    rfl

theorem inverseDispl_succ (n P r : Nat) : inverseDispl n P (r + 1) = inverseDispl n P r + inverseCount n P r := by
  unfold inverseDispl
  rw [List.range_succ, List.map_append, List.sum_append, List.map_singleton, List.sum_singleton]

/-- The loop over ranks `0, ..., k-1`. -/
theorem inverse_loop (g : List Nat) (displs : Nat → Nat) (n P m : Nat) (blocks : Nat → List Nat) (hlen : ∀ r < P, (blocks r).length = inverseCount n P r * m) :
    ∀ k ≤ P, (content k blocks).zipIdx.foldl (inverseStep g displs (elementBound n P m)) (0, []) =
      (min k (if m = 0 then 0 else min n P) - 1, content k fun c => (blocks c).map fun e => g[e + displs c]?) := by
  intro k hk
  have hl : ∀ j ≤ P, (content j blocks).length = inverseDispl n P j * m := by
    intro j hj
    induction j with
    | zero => simp [content_zero, inverseDispl]
    | succ j ih => rw [content_succ, List.length_append, ih (by omega), hlen j (by omega), inverseDispl_succ, Nat.add_mul]
  induction k with
  | zero => simp [content_zero]
  | succ k ih =>
    rw [content_succ, List.zipIdx_append, List.foldl_append, ih (by omega), Nat.zero_add, hl k (by omega), content_succ]
    have hbl := hlen k (by omega)
    have hnb : elementBound n P m k = none ∨ elementBound n P m k = some (inverseDispl n P k * m + (blocks k).length) := by
      unfold elementBound
      by_cases h : k + 1 < P
      · right; rw [if_pos h, inverseDispl_succ, hbl, Nat.add_mul]
      · left; rw [if_neg h]
    have hfit : ∀ b, elementBound n P m k = some b → inverseDispl n P k * m + (blocks k).length ≤ b := by
      intro b hb
      rcases hnb with h | h
      · rw [h] at hb; exact absurd hb (by simp)
      · rw [h] at hb; injection hb with hb; omega
    by_cases hm : m = 0
    · have : blocks k = [] := List.length_eq_zero_iff.1 (by rw [hbl, hm, Nat.mul_zero])
      rw [this, if_pos hm]; simp
    · rw [if_neg hm]
      by_cases hkn : k < n
      · -- not empty
        have hmin : min (k + 1) (min n P) = k + 1 := by omega
        rw [hmin, Nat.add_sub_cancel]
        have hmin2 : min k (min n P) = k := by omega
        rw [hmin2]
        by_cases hk0 : k = 0
        · subst hk0
          exact inverse_block g displs _ 0 _ _ _ hfit
        · -- the first element raises the counter
          have hne : blocks k ≠ [] := by
            intro he
            have h0 : inverseCount n P k * m = 0 := by rw [← hbl, he]; rfl
            rcases Nat.mul_eq_zero.1 h0 with h | h
            · unfold inverseCount at h
              have h1 : n / P = 0 := (Nat.add_eq_zero_iff.1 h).1
              have h2 : n < P := by
                rcases Nat.div_eq_zero_iff.1 h1 with h | h
                · omega
                · exact h
              rw [h1, Nat.mod_eq_of_lt h2, if_pos hkn] at h
              omega
            · exact hm h
          obtain ⟨x, xs, hx⟩ := List.exists_cons_of_ne_nil hne
          rw [hx] at hfit ⊢
          rw [List.zipIdx_cons, List.foldl_cons]
          have hstep : ∀ out, inverseStep g displs (elementBound n P m) (k - 1, out) (x, inverseDispl n P k * m) = (k, out ++ [g[x + displs k]?]) := by
            intro out
            unfold inverseStep
            dsimp only
            have hb : elementBound n P m (k - 1) = some (inverseDispl n P k * m) := by
              unfold elementBound
              rw [if_pos (by omega), show k - 1 + 1 = k by omega]
            rw [hb, if_pos (by simp), show k - 1 + 1 = k by omega]
          rw [hstep, inverse_block g displs _ k xs _ _ (fun b hb => by have := hfit b hb; rw [List.length_cons] at this; omega), List.map_cons, List.append_assoc]
          rfl
      · have hn : n / P = 0 ∧ n % P = n := by
          have : n < P := by omega
          exact ⟨Nat.div_eq_of_lt this, Nat.mod_eq_of_lt this⟩
        have hz : inverseCount n P k = 0 := by unfold inverseCount; rw [hn.1, hn.2, if_neg hkn]
        have : blocks k = [] := List.length_eq_zero_iff.1 (by rw [hbl, hz, Nat.zero_mul])
        rw [this]
        simp
        omega

/-- **C84.**  `unique(a, return_inverse=True)` (`axis=None`) of a canonically distributed array: the values at the inverse indices are the array. -/
theorem unique_inverse_spec {tu : List α → List α × List Nat} (htu : UniqueLaw tu) (P m : Nat) (hP : 0 < P) (slabs : Nat → List (List α)) (hbal : Balanced P slabs)
    (hm : ∀ r < P, ∀ s ∈ slabs r, s.length = m) :
    ∃ inv, uniqueInverse tu P (content P slabs).length m slabs = some inv ∧
      inv.map (fun o => o.bind fun k => (uniqueValues tu P fun r => (slabs r).flatten)[k]?) = (content P slabs).flatten.map some := by
  have hlen : ∀ r < P, ((tu (slabs r).flatten).2).length = inverseCount (content P slabs).length P r * m := by
    intro r hr
    rw [inverseOf_length (htu _).2]
    have h1 := hbal r hr
    have h2 : (slabs r).flatten.length = (slabs r).length * m := by
      have := hm r hr
      generalize slabs r = l at this
      induction l with
      | nil => simp
      | cons a t ih =>
        rw [List.flatten_cons, List.length_append, ih (fun s hs => this s (List.mem_cons_of_mem _ hs)), this a (List.mem_cons_self ..), List.length_cons, Nat.succ_mul, Nat.add_comm]
    rw [h2, h1]
    rfl
  have hd : ∀ j ≤ P, (content j fun r => (tu (slabs r).flatten).2).length = inverseDispl (content P slabs).length P j * m := by
    intro j hj
    induction j with
    | zero => simp [content_zero, inverseDispl]
    | succ j ih => rw [content_succ, List.length_append, ih (by omega), hlen j (by omega), inverseDispl_succ, Nat.add_mul]
  have htot : inverseDispl (content P slabs).length P P = (content P slabs).length := by
    unfold inverseDispl
    conv_rhs => rw [content_length_sum]
    congr 1
    apply List.map_congr_left
    intro r hr
    exact (hbal r (List.mem_range.1 hr)).symm
  unfold uniqueInverse
  dsimp only
  rw [gatherAt_spec (fun r hr => (hlen r hr).symm) (fun r hr => (hd r (by omega)).symm) (by rw [hd P (Nat.le_refl _), htot])]
  refine ⟨_, rfl, ?_⟩
  dsimp only
  rw [inverse_loop _ _ _ P m _ hlen P (Nat.le_refl _)]
  dsimp only
  rw [← content_map]
  have hflat : ∀ k, content k (fun r => (slabs r).flatten) = (content k slabs).flatten := by
    intro k
    induction k with
    | zero => rfl
    | succ k ih => rw [content_succ, content_succ, ih, List.flatten_append]
  rw [← hflat, ← content_map]
  apply content_congr
  intro c hc
  exact remap_block htu hc (fun r => (slabs r).flatten)

/-- **C84.**  Otherwise the gathering fails, on every process. -/
theorem unique_inverse_raises {tu : List α → List α × List Nat} (htu : UniqueLaw tu) (P m : Nat) (hm0 : 0 < m) (slabs : Nat → List (List α)) (hbal : ¬ Balanced P slabs)
    (hm : ∀ r < P, ∀ s ∈ slabs r, s.length = m) : uniqueInverse tu P (content P slabs).length m slabs = none := by
  unfold uniqueInverse gatherAt
  dsimp only
  rw [if_neg, Option.map_none]
  intro hall
  apply hbal
  intro r hr
  rw [List.all_eq_true] at hall
  have h1 := hall r (List.mem_range.2 hr)
  rw [decide_eq_true_iff, inverseOf_length (htu _).2] at h1
  have h2 : (slabs r).flatten.length = (slabs r).length * m := by
    have := hm r hr
    generalize slabs r = l at this
    induction l with
    | nil => simp
    | cons a t ih =>
      rw [List.flatten_cons, List.length_append, ih (fun s hs => this s (List.mem_cons_of_mem _ hs)), this a (List.mem_cons_self ..), List.length_cons, Nat.succ_mul, Nat.add_comm]
  rw [h2] at h1
  exact (Nat.eq_of_mul_eq_mul_right hm0 h1).symm


/-! ## `axis` = split axis -/

theorem content_take_at {P i : Nat} (f : Nat → List α) (hi : i ≤ P) : (content P f).take (content i f).length = content i f := by
  induction P with
  | zero => rw [Nat.le_zero.1 hi]; rfl
  | succ P ih =>
    by_cases h : i = P + 1
    · rw [h, List.take_length]
    · rw [content_succ, List.take_append_of_le_length (content_length_mono f (by omega)), ih (by omega)]

theorem content_piece {P i : Nat} (f : Nat → List α) (hi : i < P) :
    (if i + 1 < P then ((content P f).take (content (i + 1) f).length).drop (content i f).length else (content P f).drop (content i f).length) = f i := by
  by_cases h : i + 1 < P
  · rw [if_pos h, content_take_at f (by omega), content_succ, List.drop_left]
  · rw [if_neg h, show P = i + 1 by omega, content_succ, List.drop_left]

theorem foldl_writeAt {β : Type} {P g : Nat} {zero : β} {displs : Nat → Nat} {loc : Nat → List β}
    (hd : ∀ r < P, displs r = (content r loc).length) (hg : (content P loc).length = g) :
    (List.range P).foldl (fun b r => writeAt b (displs r) (loc r)) (List.replicate g zero) = content P loc := by
  have := gatherAt_spec (zero := zero) (counts := fun r => (loc r).length) (fun _ _ => rfl) hd hg
  unfold gatherAt at this
  rw [if_pos (by rw [List.all_eq_true]; intro r _; simp)] at this
  injection this

theorem foldl_congr_mem {β γ : Type} {f g : β → γ → β} : ∀ (l : List γ) (b : β), (∀ b, ∀ x ∈ l, f b x = g b x) → l.foldl f b = l.foldl g b
  | [], _, _ => rfl
  | x :: xs, b, h => by
    rw [List.foldl_cons, List.foldl_cons, h b x (List.mem_cons_self ..)]
    exact foldl_congr_mem xs _ (fun b y hy => h b y (List.mem_cons_of_mem _ hy))

/-- **C84.**  Along split axis 0 of a canonically distributed array the inverse indices are right if no process holds a slab twice. -/
theorem unique_axis_inverse_partial {tu : List α → List α × List Nat} (htu : UniqueLaw tu) (P : Nat) (loc : Nat → List α) (hbal : Balanced P loc)
    (hnd : ∀ r < P, (loc r).Nodup) :
    ∃ inv, uniqueAxisInverse tu P (content P loc).length 0 loc = .ok (some inv) ∧ inv.map (fun o => o.bind fun k => (uniqueValues tu P loc)[k]?) = (content P loc).map some := by
  have hul : ∀ r < P, (tu (loc r)).1.length = (loc r).length := by
    intro r hr
    obtain ⟨h1, h2⟩ := (htu (loc r)).1
    exact ((List.perm_ext_iff_of_nodup h1 (hnd r hr)).2 h2).length_eq
  have hil : ∀ r < P, (tu (loc r)).2.length = inverseCount (content P loc).length P r := by
    intro r hr
    rw [inverseOf_length (htu _).2]
    exact hbal r hr
  have hid : ∀ j ≤ P, (content j fun r => (tu (loc r)).2).length = inverseDispl (content P loc).length P j := by
    intro j hj
    induction j with
    | zero => simp [content_zero, inverseDispl]
    | succ j ih => rw [content_succ, List.length_append, ih (by omega), hil j (by omega), inverseDispl_succ]
  have hdd : ∀ j ≤ P, uniqueDispl tu loc j = (content j fun r => (tu (loc r)).2).length := by
    intro j hj
    rw [uniqueDispl_eq, content_length_sum, content_length_sum]
    congr 1
    apply List.map_congr_left
    intro r hr
    have := List.mem_range.1 hr
    rw [hul r (by omega), inverseOf_length (htu _).2]
  have htot : (content P fun r => (tu (loc r)).2).length = (content P loc).length := by
    rw [content_length_sum, content_length_sum]
    congr 1
    apply List.map_congr_left
    intro r hr
    rw [inverseOf_length (htu _).2]
  unfold uniqueAxisInverse
  rw [if_neg (by omega), gatherAt_spec (fun r hr => (hil r hr).symm) (fun r hr => (hid r (by omega)).symm) htot]
  refine ⟨_, rfl, ?_⟩
  have hstep : ∀ (b : List (Option Nat)), ∀ i ∈ List.range P, axisStep (tu (uniqueGathered tu P loc)).2 (content P fun r => (tu (loc r)).2) P (uniqueDispl tu loc) b i =
      writeAt b (uniqueDispl tu loc i) ((tu (loc i)).2.map fun x => (tu (uniqueGathered tu P loc)).2[x + uniqueDispl tu loc i]?) := by
    intro b i hi
    have hi := List.mem_range.1 hi
    unfold axisStep
    dsimp only
    have hp : (if i + 1 < P then ((content P fun r => (tu (loc r)).2).take (uniqueDispl tu loc (i + 1))).drop (uniqueDispl tu loc i)
        else (content P fun r => (tu (loc r)).2).drop (uniqueDispl tu loc i)) = (tu (loc i)).2 := by
      rw [hdd i (by omega), hdd (i + 1) (by omega)]
      exact content_piece (fun r => (tu (loc r)).2) hi
    rw [hp]
    congr 1
    apply List.map_congr_left
    intro x _
    rw [Nat.add_comm]
  have hlen2 : ∀ j, (content j fun i => (tu (loc i)).2.map fun x => (tu (uniqueGathered tu P loc)).2[x + uniqueDispl tu loc i]?).length = (content j fun r => (tu (loc r)).2).length := by
    intro j
    rw [content_length_sum, content_length_sum]
    congr 1
    apply List.map_congr_left
    intro r _
    rw [List.length_map]
  dsimp only
  rw [foldl_congr_mem _ _ hstep, foldl_writeAt (loc := fun i => (tu (loc i)).2.map fun x => (tu (uniqueGathered tu P loc)).2[x + uniqueDispl tu loc i]?)
    (fun r hr => by rw [hlen2, hdd r (by omega)]) (by rw [hlen2, htot]), ← content_map, ← content_map]
  apply content_congr
  intro c hc
  exact remap_block htu hc loc

/-- Distinct values in order of their last appearance: an instance of `torch.unique`. -/
def lastUnique (l : List Nat) : List Nat × List Nat := (l.dedup, l.map fun x => l.dedup.idxOf x)

theorem lastUnique_law : UniqueLaw lastUnique := by
  intro l
  refine ⟨⟨List.nodup_dedup l, fun x => List.mem_dedup⟩, ?_⟩
  unfold InverseOf lastUnique
  dsimp only
  rw [List.map_map]
  apply List.map_congr_left
  intro x hx
  show l.dedup[l.dedup.idxOf x]? = some x
  have hlt := List.idxOf_lt_length_of_mem (List.mem_dedup.2 hx)
  rw [List.getElem?_eq_getElem hlt, List.getElem_idxOf hlt]

/-- Two processes, canonical: everything meets the hypotheses. -/
example : uniqueInverse lastUnique 2 3 2 (fun r => if r = 0 then [[5, 6], [6, 7]] else [[7, 5]]) = some [some 2, some 0, some 0, some 1, some 1, some 2] := by decide +kernel

example : ∃ inv, uniqueInverse lastUnique 2 3 2 (fun r => if r = 0 then [[5, 6], [6, 7]] else [[7, 5]]) = some inv ∧
    inv.map (fun o => o.bind fun k => (uniqueValues lastUnique 2 fun r => (if r = 0 then [[5, 6], [6, 7]] else [[7, 5]] : List (List Nat)).flatten)[k]?) =
      [5, 6, 6, 7, 7, 5].map some :=
  unique_inverse_spec lastUnique_law 2 2 (by omega) (fun r => if r = 0 then [[5, 6], [6, 7]] else [[7, 5]]) (by unfold Balanced; decide +kernel) (by decide +kernel)

/-- **C84, violated.**  Along the split axis, a process with the value 1 twice: element 1 of the array, a 1, is said to be the second value, a 2. -/
theorem unique_axis_inverse_violated :
    let a : Nat → List Nat := fun r => if r = 0 then [1, 1] else [2, 3]
    uniqueValues lastUnique 2 a = [1, 2, 3] ∧ uniqueAxisInverse lastUnique 2 4 0 a = .ok (some [some 0, some 1, some 1, some 2]) := by decide +kernel

/-- **C84, violated.**  Along a split axis other than 0 the inverse indices are never returned. -/
theorem unique_axis_inverse_split_violated (tu : List α → List α × List Nat) (P n split : Nat) (hs : split ≠ 0) (loc : Nat → List α) :
    uniqueAxisInverse tu P n split loc = .error .indexError := by
  unfold uniqueAxisInverse
  rw [if_pos hs]

/-! ## `axis` other than the split axis -/

/-- The positions that occur in the inverse are all positions. -/
theorem sharedIndices_eq {tu : List α → List α × List Nat} (htu : UniqueLaw tu) (loc : Nat → List α) (root : Nat) :
    sharedIndices tu loc root = List.range (tu (loc root)).1.length := by
  unfold sharedIndices
  rw [List.filter_eq_self]
  intro k hk
  have hk := List.mem_range.1 hk
  obtain ⟨⟨hnd, hmem⟩, hinv⟩ := htu (loc root)
  have hx : (tu (loc root)).1[k] ∈ loc root := (hmem _).1 (List.getElem_mem hk)
  have h2 : some (tu (loc root)).1[k] ∈ (loc root).map some := List.mem_map.2 ⟨_, hx, rfl⟩
  rw [← hinv] at h2
  obtain ⟨j, hj, hjx⟩ := List.mem_map.1 h2
  have hjlt := inverseOf_lt hinv hj
  rw [List.getElem?_eq_getElem hjlt] at hjx
  injection hjx with hjx
  have : j = k := (hnd.getElem_inj_iff).1 hjx
  rw [← this]
  simpa using hj

/-- **C83.**  Along another axis than the split axis, every process returns its pieces of the *first* slabs: as many as the process with the most distinct pieces has. -/
theorem unique_other_partial {tu : List α → List α × List Nat} (htu : UniqueLaw tu) (loc : Nat → List α) (root r : Nat) (hlen : (loc root).length ≤ (loc r).length) :
    uniqueOther tu loc root r = ((loc r).take (tu (loc root)).1.length).map some := by
  unfold uniqueOther
  rw [sharedIndices_eq htu]
  have hle : (tu (loc root)).1.length ≤ (loc r).length := by
    refine Nat.le_trans ?_ hlen
    exact (((htu (loc root)).1.1.subperm) (fun x hx => ((htu (loc root)).1.2 x).1 hx)).length_le
  apply List.ext_getElem?
  intro i
  rw [List.getElem?_map, List.getElem?_map, List.getElem?_take]
  by_cases hi : i < (tu (loc root)).1.length
  · rw [List.getElem?_range hi, if_pos hi, List.getElem?_eq_getElem (show i < (loc r).length by omega)]
    show some ((loc r)[i]?) = _
    rw [List.getElem?_eq_getElem (show i < (loc r).length by omega)]; rfl
  · rw [List.getElem?_eq_none (by simpa using hi), if_neg hi]; rfl

/-- So the result is right if the pieces of the sending process are distinct already: nothing is removed. -/
theorem unique_other_distinct_partial {tu : List α → List α × List Nat} (htu : UniqueLaw tu) (loc : Nat → List α) (root r : Nat) (hlen : (loc r).length = (loc root).length)
    (hnd : (loc root).Nodup) : uniqueOther tu loc root r = (loc r).map some := by
  rw [unique_other_partial htu loc root r (by omega)]
  have : (tu (loc root)).1.length = (loc root).length := ((List.perm_ext_iff_of_nodup (htu (loc root)).1.1 hnd).2 (htu (loc root)).1.2).length_eq
  rw [this, ← hlen, List.take_length]

/-- **C83, violated.**  The rows (1, 1), (1, 1), (2, 2), distributed by columns: the "unique rows" are (1, 1) and (1, 1). -/
theorem unique_other_violated :
    let a : Nat → List Nat := fun _ => [1, 1, 2]
    maxUniques lastUnique 2 a = (lastUnique (a 0)).1.length ∧ ∀ r, uniqueOther lastUnique a 0 r = [some 1, some 1] := by
  refine ⟨by decide +kernel, fun r => ?_⟩
  show uniqueOther lastUnique (fun _ => [1, 1, 2]) 0 0 = _
  decide +kernel

end Heat
