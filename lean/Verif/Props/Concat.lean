import Verif.Model.Concat
import Verif.Spec.Concat
import Verif.Proof.Dist
import Verif.Proof.StrideTricks
import Verif.Props.Mpi
import Verif.Props.Exchange
import Verif.Props.BinaryOp
/-!
# C61: concatenate
-/
namespace Heat
open Spec

variable {α : Type}

/-! ### The transfers as steps on the data -/

/-- One transfer of arr0 on the data of all ranks. -/
def fstep (chunk : Nat → Nat) (d : Nat → List α) (p : Nat × Nat) : Nat → List α :=
  let a := catAmount chunk (fun r => (d r).length) p.1 p.2
  upd (upd d p.1 ((d p.1).drop a)) p.2 (d p.2 ++ (d p.1).take a)

/-- One transfer of arr1 on the data of all ranks. -/
def bstep (chunk : Nat → Nat) (d : Nat → List α) (p : Nat × Nat) : Nat → List α :=
  let a := catAmount chunk (fun r => (d r).length) p.1 p.2
  upd (upd d p.1 ((d p.1).take ((d p.1).length - a))) p.2 ((d p.1).drop ((d p.1).length - a) ++ d p.2)

theorem catAmount_le (chunk l : Nat → Nat) (spr pr : Nat) : catAmount chunk l spr pr ≤ l spr := by
  unfold catAmount
  dsimp only
  split <;> omega

theorem runSeq_append {S M : Type} (A B : List (Xfer S M)) (loc : Nat → S) : runSeq (A ++ B) loc = runSeq B (runSeq A loc) := by
  unfold runSeq; rw [List.foldl_append]

theorem front_sim (P : Nat) (chunk : Nat → Nat) (loc : Nat → List α × List α) : ∀ (L : List (Nat × Nat)) (plan : List (Nat × Nat × Nat)) (l : Nat → Nat) (d : Nat → List α),
    (∀ p ∈ L, p.1 ≠ p.2) → runSeq (plan.map (frontXfer P)) loc = (fun r => (d r, (loc r).2)) → l = (fun r => (d r).length) →
    runSeq (((L.foldl (catStep chunk) (l, plan)).2).map (frontXfer P)) loc = fun r => ((L.foldl (fstep chunk) d) r, (loc r).2)
  | [], plan, l, d, _, h, _ => h
  | p :: L, plan, l, d, hne, h, hl => by
    rw [List.foldl_cons, List.foldl_cons]
    have hp := hne p (List.mem_cons_self ..)
    have hle := catAmount_le chunk l p.1 p.2
    have hstep : catStep chunk (l, plan) p = (upd (upd l p.1 (l p.1 - catAmount chunk l p.1 p.2)) p.2 (l p.2 + catAmount chunk l p.1 p.2),
        if catAmount chunk l p.1 p.2 ≠ 0 then plan ++ [(p.1, p.2, catAmount chunk l p.1 p.2)] else plan) := rfl
    rw [hstep]
    apply front_sim P chunk loc L _ _ _ fun q hq => hne q (List.mem_cons_of_mem _ hq)
    · by_cases h0 : catAmount chunk l p.1 p.2 ≠ 0
      · rw [if_pos h0, List.map_append, runSeq_append, h]
        funext r
        unfold fstep
        rw [← hl]
        simp only [runSeq, List.map_cons, List.map_nil, List.foldl_cons, List.foldl_nil, Xfer.apply, frontXfer, set1, upd]
        by_cases h1 : r = p.2
        · rw [if_pos h1, if_pos h1, h1]
        · rw [if_neg h1, if_neg h1]
          by_cases h2 : r = p.1
          · rw [if_pos h2, if_pos h2, h2]
          · rw [if_neg h2, if_neg h2]
      · rw [if_neg h0, h]
        have h0 : catAmount chunk l p.1 p.2 = 0 := by omega
        funext r
        unfold fstep
        rw [← hl, h0]
        simp only [upd, List.drop_zero, List.take_zero, List.append_nil]
        by_cases h1 : r = p.2
        · rw [if_pos h1, h1]
        · rw [if_neg h1]
          by_cases h2 : r = p.1
          · rw [if_pos h2, h2]
          · rw [if_neg h2]
    · funext r
      unfold fstep
      rw [← hl]
      have e1 : l p.1 = (d p.1).length := by rw [hl]
      have e2 : l p.2 = (d p.2).length := by rw [hl]
      simp only [upd]
      by_cases h1 : r = p.2
      · rw [if_pos h1, if_pos h1, List.length_append, List.length_take]; omega
      · rw [if_neg h1, if_neg h1]
        by_cases h2 : r = p.1
        · rw [if_pos h2, if_pos h2, List.length_drop]; omega
        · rw [if_neg h2, if_neg h2, hl]

theorem back_sim (P : Nat) (chunk : Nat → Nat) (loc : Nat → List α × List α) : ∀ (L : List (Nat × Nat)) (plan : List (Nat × Nat × Nat)) (l : Nat → Nat) (d : Nat → List α),
    (∀ p ∈ L, p.1 ≠ p.2) → runSeq (plan.map (backXfer P)) loc = (fun r => ((loc r).1, d r)) → l = (fun r => (d r).length) →
    runSeq (((L.foldl (catStep chunk) (l, plan)).2).map (backXfer P)) loc = fun r => ((loc r).1, (L.foldl (bstep chunk) d) r)
  | [], plan, l, d, _, h, _ => h
  | p :: L, plan, l, d, hne, h, hl => by
    rw [List.foldl_cons, List.foldl_cons]
    have hp := hne p (List.mem_cons_self ..)
    have hle := catAmount_le chunk l p.1 p.2
    have hstep : catStep chunk (l, plan) p = (upd (upd l p.1 (l p.1 - catAmount chunk l p.1 p.2)) p.2 (l p.2 + catAmount chunk l p.1 p.2),
        if catAmount chunk l p.1 p.2 ≠ 0 then plan ++ [(p.1, p.2, catAmount chunk l p.1 p.2)] else plan) := rfl
    rw [hstep]
    apply back_sim P chunk loc L _ _ _ fun q hq => hne q (List.mem_cons_of_mem _ hq)
    · by_cases h0 : catAmount chunk l p.1 p.2 ≠ 0
      · rw [if_pos h0, List.map_append, runSeq_append, h]
        funext r
        unfold bstep
        rw [← hl]
        simp only [runSeq, List.map_cons, List.map_nil, List.foldl_cons, List.foldl_nil, Xfer.apply, backXfer, set1, upd]
        by_cases h1 : r = p.2
        · rw [if_pos h1, if_pos h1, h1]
        · rw [if_neg h1, if_neg h1]
          by_cases h2 : r = p.1
          · rw [if_pos h2, if_pos h2, h2]
          · rw [if_neg h2, if_neg h2]
      · rw [if_neg h0, h]
        have h0 : catAmount chunk l p.1 p.2 = 0 := by omega
        funext r
        unfold bstep
        rw [← hl, h0]
        simp only [upd, Nat.sub_zero, List.take_length, List.drop_length, List.nil_append]
        by_cases h1 : r = p.2
        · rw [if_pos h1, h1]
        · rw [if_neg h1]
          by_cases h2 : r = p.1
          · rw [if_pos h2, h2]
          · rw [if_neg h2]
    · funext r
      unfold bstep
      rw [← hl]
      have e1 : l p.1 = (d p.1).length := by rw [hl]
      have e2 : l p.2 = (d p.2).length := by rw [hl]
      simp only [upd]
      by_cases h1 : r = p.2
      · rw [if_pos h1, if_pos h1, List.length_append, List.length_drop]; omega
      · rw [if_neg h1, if_neg h1]
        by_cases h2 : r = p.1
        · rw [if_pos h2, if_pos h2, List.length_take]; omega
        · rw [if_neg h2, if_neg h2, hl]

/-! ### Front loading fills the ranks in order -/

theorem startOf_eq_of_content {d d' : Nat → List α} {k : Nat} (h : content k d = content k d') : startOf d k = startOf d' k := by
  unfold startOf; rw [h]

theorem fstep_pull (chunk : Nat → Nat) (X : Nat → List α) (k j : Nat) (hjk : j < k) :
    fstep chunk X (k, j) = upd (upd X k ((X k).drop (catAmount chunk (fun r => (X r).length) k j))) j
      (X j ++ (X k).take (catAmount chunk (fun r => (X r).length) k j)) := rfl

/-- Inner loop: rank `k` hands out its slabs to the ranks `0, ..., j-1`. -/
theorem front_inner (chunk T : Nat → Nat) (hT0 : T 0 = 0) (hT : ∀ r, T (r + 1) = T r + chunk r) (D0 : Nat → List α) (k : Nat)
    (h0 : ∀ r ≤ k, startOf D0 r = min (T r) (startOf D0 k)) (hk : (D0 k).length ≤ chunk k) : ∀ j ≤ k,
    (∀ m, k < m → content m (((List.range j).map fun pr => (k, pr)).foldl (fstep chunk) D0) = content m D0) ∧
    (∀ r, k < r → (((List.range j).map fun pr => (k, pr)).foldl (fstep chunk) D0) r = D0 r) ∧
    (∀ r ≤ j, startOf (((List.range j).map fun pr => (k, pr)).foldl (fstep chunk) D0) r = min (T r) (startOf D0 k + (D0 k).length)) ∧
    (∀ r, j ≤ r → r ≤ k → startOf (((List.range j).map fun pr => (k, pr)).foldl (fstep chunk) D0) r =
      max (min (T j) (startOf D0 k + (D0 k).length)) (min (T r) (startOf D0 k))) := by
  have hTm : ∀ {a b : Nat}, a ≤ b → T a ≤ T b := by
    intro a b hab
    induction hab with
    | refl => exact Nat.le_refl _
    | step _ ih => rw [hT]; omega
  have hsk : startOf D0 k ≤ T k := by have := h0 k (Nat.le_refl _); omega
  intro j
  induction j with
  | zero =>
    intro _
    refine ⟨fun _ _ => rfl, fun _ _ => rfl, ?_, ?_⟩
    · intro r hr
      have : r = 0 := by omega
      subst this
      rw [hT0]; simp [startOf_zero]
    · intro r _ hr
      show startOf D0 r = _
      rw [h0 r hr, hT0]; omega
  | succ j ih =>
    intro hj
    obtain ⟨i1, i2, i3, i4⟩ := ih (by omega)
    rw [List.range_succ, List.map_append, List.foldl_append]
    simp only [List.map_cons, List.map_nil, List.foldl_cons, List.foldl_nil]
    generalize ((List.range j).map fun pr => (k, pr)).foldl (fstep chunk) D0 = X at i1 i2 i3 i4
    generalize hs : startOf D0 k = s at *
    generalize hm : (D0 k).length = m at *
    -- sizes before the step
    have a1 : startOf X j = min (T j) (s + m) := i3 j (Nat.le_refl _)
    have a2 : startOf X (j + 1) = max (min (T j) (s + m)) (min (T (j + 1)) s) := i4 (j + 1) (by omega) (by omega)
    have a3 : startOf X k = max (min (T j) (s + m)) s := by
      have := i4 k (by omega) (Nat.le_refl _)
      rw [this]; omega
    have a4 : startOf X (k + 1) = s + m := by
      rw [startOf_eq_of_content (i1 (k + 1) (by omega)), startOf_succ, hs, hm]
    have b1 := startOf_succ X j
    have b2 := startOf_succ X k
    have hTj := hT j
    have hTk : T (j + 1) ≤ T k := hTm (by omega)
    generalize hx : catAmount chunk (fun r => (X r).length) k j = x
    have hxv : x = min (T (j + 1) - min (T j) (s + m) - (X j).length) (X k).length := by
      rw [← hx]; unfold catAmount; dsimp only
      split <;> omega
    rw [fstep_pull chunk X k j (by omega), hx]
    have hempty : x ≠ 0 → ∀ i, j < i → i < k → X i = [] := by
      intro hx0 i hi1 hi2
      have e1 := i4 i (by omega) (by omega)
      have e2 := i4 (i + 1) (by omega) (by omega)
      have e3 := startOf_succ X i
      have e4 : T (j + 1) ≤ T i := hTm (by omega)
      have e5 : T i ≤ T (i + 1) := hTm (by omega)
      apply List.length_eq_zero_iff.1
      omega
    generalize hY : upd (upd X k ((X k).drop x)) j (X j ++ (X k).take x) = Y
    have y1 : ∀ r, r ≠ k → r ≠ j → Y r = X r := by
      intro r h1 h2; rw [← hY, upd_ne _ _ h2, upd_ne _ _ h1]
    have y2 : Y j = X j ++ (X k).take x := by rw [← hY, upd_same]
    have y3 : Y k = (X k).drop x := by rw [← hY, upd_ne _ _ (by omega), upd_same]
    have hcont : ∀ q, k < q → content q Y = content q X := by
      intro q hq
      by_cases hx0 : x = 0
      · apply content_congr
        intro r _
        by_cases h1 : r = k
        · rw [h1, y3, hx0, List.drop_zero]
        · by_cases h2 : r = j
          · rw [h2, y2, hx0, List.take_zero, List.append_nil]
          · exact y1 r h1 h2
      · rw [← hY]
        exact pull_content X k j x (by omega) (hempty hx0) q hq
    -- sizes after the step
    have c1 : ∀ r ≤ j, startOf Y r = startOf X r := by
      intro r hr
      exact startOf_eq_of_content (content_congr fun i hi => y1 i (by omega) (by omega))
    have c2 : ∀ r, j < r → r ≤ k → startOf Y r = startOf X r + x := by
      intro r hr hrk
      induction r with
      | zero => omega
      | succ r ihr =>
        rw [startOf_succ, startOf_succ]
        by_cases e : r = j
        · rw [e, c1 j (Nat.le_refl _), y2, List.length_append, List.length_take]
          omega
        · rw [ihr (by omega) (by omega), y1 r (by omega) e]; omega
    refine ⟨?_, ?_, ?_, ?_⟩
    · intro q hq; rw [hcont q hq, i1 q hq]
    · intro r hr; rw [y1 r (by omega) (by omega), i2 r hr]
    · intro r hr
      by_cases e : r ≤ j
      · rw [c1 r e, i3 r e]
      · have : r = j + 1 := by omega
        rw [this, c2 (j + 1) (by omega) (by omega), a2]
        omega
    · intro r hr1 hr2
      rw [c2 r (by omega) hr2, i4 r (by omega) hr2]
      have e1 : T (j + 1) ≤ T r := hTm hr1
      omega

theorem frontPairs_succ (P : Nat) : frontPairs (P + 1) = frontPairs P ++ (List.range P).map fun pr => (P, pr) := by
  unfold frontPairs
  rw [List.range_succ, List.flatMap_append]; simp

/-- Front loading: the content is unchanged and the ranks are filled in order up to their share. -/
theorem front_fold (chunk T : Nat → Nat) (hT0 : T 0 = 0) (hT : ∀ r, T (r + 1) = T r + chunk r) (d : Nat → List α) (P : Nat) (hfit : ∀ r < P, (d r).length ≤ chunk r) :
    content P ((frontPairs P).foldl (fstep chunk) d) = content P d ∧
    ∀ r ≤ P, startOf ((frontPairs P).foldl (fstep chunk) d) r = min (T r) (content P d).length := by
  have key : ∀ k ≤ P, (∀ m, k ≤ m → content m ((frontPairs k).foldl (fstep chunk) d) = content m d) ∧
      (∀ r, k ≤ r → ((frontPairs k).foldl (fstep chunk) d) r = d r) ∧
      (∀ r ≤ k, startOf ((frontPairs k).foldl (fstep chunk) d) r = min (T r) (startOf d k)) := by
    intro k
    induction k with
    | zero =>
      intro _
      refine ⟨fun _ _ => rfl, fun _ _ => rfl, ?_⟩
      intro r hr
      have : r = 0 := by omega
      subst this; rw [hT0]; simp [startOf_zero]
    | succ k ih =>
      intro hk
      obtain ⟨i1, i2, i3⟩ := ih (by omega)
      rw [frontPairs_succ, List.foldl_append]
      generalize (frontPairs k).foldl (fstep chunk) d = D0 at i1 i2 i3
      have hs : startOf D0 k = startOf d k := startOf_eq_of_content (i1 k (Nat.le_refl _))
      have hd : D0 k = d k := i2 k (Nat.le_refl _)
      have hf := hfit k (by omega)
      obtain ⟨j1, j2, j3, j4⟩ := front_inner chunk T hT0 hT D0 k (by rw [hs]; exact i3) (by rw [hd]; exact hf) k (Nat.le_refl _)
      have hs1 : startOf d (k + 1) = startOf d k + (d k).length := startOf_succ d k
      have hle : startOf d k ≤ T k := by have := i3 k (Nat.le_refl _); omega
      refine ⟨?_, ?_, ?_⟩
      · intro m hm; rw [j1 m (by omega), i1 m (by omega)]
      · intro r hr; rw [j2 r (by omega), i2 r (by omega)]
      · intro r hr
        by_cases e : r ≤ k
        · rw [j3 r e, hs, hd, hs1]
        · have : r = k + 1 := by omega
          rw [this, startOf_eq_of_content (j1 (k + 1) (by omega)), startOf_eq_of_content (i1 (k + 1) (by omega)), hT]
          omega
  obtain ⟨h1, _, h3⟩ := key P (Nat.le_refl _)
  exact ⟨h1 P (Nat.le_refl _), h3⟩

/-! ### Back loading is front loading seen in a mirror -/

/-- Ranks and slabs in reverse order. -/
def mir (P : Nat) (d : Nat → List α) (r : Nat) : List α := if r < P then (d (P - 1 - r)).reverse else []

theorem content_mir (P : Nat) (d : Nat → List α) : content P (mir P d) = (content P d).reverse := by
  rw [← content_reverse]
  exact content_congr fun r hr => by rw [mir, if_pos hr]

theorem startOf_mir (P : Nat) (d : Nat → List α) (r : Nat) (hr : r ≤ P) : startOf (mir P d) r + startOf d (P - r) = startOf d P := by
  induction r with
  | zero => rw [startOf_zero, Nat.sub_zero]; omega
  | succ r ih =>
    have := ih (by omega)
    have e := startOf_succ d (P - (r + 1))
    rw [show P - (r + 1) + 1 = P - r by omega] at e
    rw [startOf_succ, mir, if_pos (by omega), List.length_reverse, show P - 1 - r = P - (r + 1) by omega]
    omega

theorem mir_bstep (P : Nat) (chunk : Nat → Nat) (d : Nat → List α) (i j : Nat) (hi : i < P) (hj : j < P) (hij : i ≠ j) :
    mir P (bstep chunk d (P - 1 - i, P - 1 - j)) = fstep (fun r => chunk (P - 1 - r)) (mir P d) (i, j) := by
  have hamt : catAmount (fun r => chunk (P - 1 - r)) (fun r => (mir P d r).length) i j = catAmount chunk (fun r => (d r).length) (P - 1 - i) (P - 1 - j) := by
    unfold catAmount mir
    simp only [if_pos hi, if_pos hj, List.length_reverse]
  funext r
  unfold fstep
  dsimp only
  rw [hamt]
  have hb : bstep chunk d (P - 1 - i, P - 1 - j) = upd (upd d (P - 1 - i) ((d (P - 1 - i)).take ((d (P - 1 - i)).length - catAmount chunk (fun r => (d r).length) (P - 1 - i) (P - 1 - j))))
      (P - 1 - j) ((d (P - 1 - i)).drop ((d (P - 1 - i)).length - catAmount chunk (fun r => (d r).length) (P - 1 - i) (P - 1 - j)) ++ d (P - 1 - j)) := rfl
  rw [hb]
  have hle := catAmount_le chunk (fun r => (d r).length) (P - 1 - i) (P - 1 - j)
  generalize catAmount chunk (fun r => (d r).length) (P - 1 - i) (P - 1 - j) = a at *
  by_cases h1 : r = j
  · subst h1
    rw [upd_same]
    simp only [mir, if_pos hi, if_pos hj]
    rw [upd_same, List.reverse_append, List.reverse_drop]
    congr 1
    have : (d (P - 1 - i)).length - ((d (P - 1 - i)).length - a) = a := by omega
    rw [this]
  · rw [upd_ne _ _ h1]
    by_cases h2 : r = i
    · subst h2
      rw [upd_same]
      simp only [mir, if_pos hi]
      rw [upd_ne _ _ (by omega), upd_same, List.reverse_take]
      congr 1
      omega
    · rw [upd_ne _ _ h2]
      unfold mir
      by_cases h3 : r < P
      · rw [if_pos h3, if_pos h3, upd_ne _ _ (by omega), upd_ne _ _ (by omega)]
      · rw [if_neg h3, if_neg h3]

theorem backPairs_eq (P : Nat) : backPairs P = (frontPairs P).map fun p => (P - 1 - p.1, P - 1 - p.2) := by
  unfold backPairs frontPairs
  rw [List.map_flatMap]
  simp only [List.map_map]
  rfl

theorem mem_frontPairs {P : Nat} {p : Nat × Nat} (h : p ∈ frontPairs P) : p.1 < P ∧ p.2 < p.1 := by
  unfold frontPairs at h
  obtain ⟨i, hi, h⟩ := List.mem_flatMap.1 h
  obtain ⟨j, hj, rfl⟩ := List.mem_map.1 h
  exact ⟨List.mem_range.1 hi, List.mem_range.1 hj⟩

theorem mir_fold (P : Nat) (chunk : Nat → Nat) : ∀ (L : List (Nat × Nat)) (d : Nat → List α), (∀ p ∈ L, p.1 < P ∧ p.2 < p.1) →
    mir P ((L.map fun p => (P - 1 - p.1, P - 1 - p.2)).foldl (bstep chunk) d) = L.foldl (fstep fun r => chunk (P - 1 - r)) (mir P d)
  | [], _, _ => rfl
  | p :: L, d, h => by
    have hp := h p (List.mem_cons_self ..)
    rw [List.map_cons, List.foldl_cons, List.foldl_cons, mir_fold P chunk L _ fun q hq => h q (List.mem_cons_of_mem _ hq),
      mir_bstep P chunk d p.1 p.2 hp.1 (by omega) (by omega)]

/-- Back loading: the content is unchanged and the ranks are filled from the last one. -/
theorem back_fold (chunk T : Nat → Nat) (hT0 : T 0 = 0) (hT : ∀ r, T (r + 1) = T r + chunk r) (d : Nat → List α) (P : Nat) (hfit : ∀ r < P, (d r).length ≤ chunk r) :
    content P ((backPairs P).foldl (bstep chunk) d) = content P d ∧
    ∀ r ≤ P, startOf ((backPairs P).foldl (bstep chunk) d) r = T r - (T P - (content P d).length) := by
  have hTm : ∀ {a b : Nat}, a ≤ b → T a ≤ T b := by
    intro a b hab
    induction hab with
    | refl => exact Nat.le_refl _
    | step _ ih => rw [hT]; omega
  rw [backPairs_eq]
  have hm := mir_fold P chunk (frontPairs P) d fun p hp => mem_frontPairs hp
  generalize hD : ((frontPairs P).map fun p => (P - 1 - p.1, P - 1 - p.2)).foldl (bstep chunk) d = D at hm
  -- running sums in the mirror, extended beyond P
  let T' : Nat → Nat := fun r => if r ≤ P then T P - T (P - r) else T P + (r - P) * chunk 0
  have hT' : ∀ r, T' (r + 1) = T' r + (fun r => chunk (P - 1 - r)) r := by
    intro r
    show (if r + 1 ≤ P then T P - T (P - (r + 1)) else _) = (if r ≤ P then T P - T (P - r) else _) + chunk (P - 1 - r)
    by_cases h : r + 1 ≤ P
    · rw [if_pos h, if_pos (by omega)]
      have e := hT (P - (r + 1))
      rw [show P - (r + 1) + 1 = P - r by omega] at e
      have := hTm (show P - r ≤ P by omega)
      rw [show P - 1 - r = P - (r + 1) by omega]
      omega
    · rw [if_neg h]
      by_cases h2 : r ≤ P
      · have : r = P := by omega
        rw [if_pos h2, this, show P - P = 0 by omega, hT0, show P + 1 - P = 1 by omega, show P - 1 - P = 0 by omega]
        omega
      · rw [if_neg h2, show P - 1 - r = 0 by omega, show r + 1 - P = (r - P) + 1 by omega, Nat.add_mul, Nat.one_mul]
        omega
  have hf := front_fold (fun r => chunk (P - 1 - r)) T' (by show (if 0 ≤ P then T P - T (P - 0) else _) = 0; rw [if_pos (Nat.zero_le _)]; simp) hT' (mir P d) P (by
    intro r hr
    rw [mir, if_pos hr, List.length_reverse]
    exact hfit _ (by omega))
  rw [← hm, content_mir, content_mir, List.length_reverse] at hf
  have hc : content P D = content P d := by
    have := congrArg List.reverse hf.1
    simpa using this
  refine ⟨hc, ?_⟩
  intro r hr
  have h1 := hf.2 (P - r) (by omega)
  have h2 := startOf_mir P D (P - r) (by omega)
  rw [show P - (P - r) = r by omega] at h2
  have h3 : T' (P - r) = T P - T r := by
    show (if P - r ≤ P then T P - T (P - (P - r)) else _) = _
    rw [if_pos (by omega), show P - (P - r) = r by omega]
  have h4 : startOf D P = (content P d).length := by unfold startOf; rw [hc]
  have h5 := hTm hr
  rw [h1, h3, h4] at h2
  -- the content fits
  have h6 : (content P d).length ≤ T P := by
    have : ∀ k ≤ P, (content k d).length ≤ T k := by
      intro k
      induction k with
      | zero => intro _; simp [content_zero]
      | succ k ih =>
        intro hk
        have := ih (by omega)
        have := hfit k (by omega)
        rw [content_succ, List.length_append, hT]; omega
    exact this P (Nat.le_refl _)
  omega

/-! ### C61 -/

theorem CatArr.len_glob (P : Nat) (a : CatArr α) : a.len P = (a.glob P).length := by cases a <;> rfl

theorem evenSize_mono {n m P r : Nat} (h : n ≤ m) (hr : r < P) : evenSize n P r ≤ evenSize m P r := by
  unfold evenSize
  rcases Nat.lt_or_ge (n / P) (m / P) with h1 | h1
  · split <;> split <;> omega
  · have h2 := Nat.div_le_div_right (c := P) h
    have h3 := Nat.div_add_mod n P
    have h4 := Nat.div_add_mod m P
    have e : n / P = m / P := by omega
    rw [e] at h3
    split <;> split <;> omega

theorem CatArr.Canonical.fits {P n : Nat} {a : CatArr α} (h : a.Canonical P) (hn : (a.glob P).length ≤ n) : a.Fits P n := by
  cases a with
  | rep l => trivial
  | along d =>
    intro r hr
    rw [h r hr]
    exact evenSize_mono hn hr

/-- The first parts are a prefix of the content. -/
theorem content_take (d : Nat → List α) : ∀ P k, k ≤ P → (content P d).take (startOf d k) = content k d := by
  intro P
  induction P with
  | zero => intro k hk
            have : k = 0 := by omega
            subst this; rfl
  | succ m ih =>
    intro k hk
    by_cases e : k = m + 1
    · rw [e]; exact List.take_length
    · rw [content_succ, List.take_append_of_le_length (startOf_mono d (show k ≤ m by omega))]
      exact ih k (by omega)

/-- A part is the slice of the content between the starts. -/
theorem part_slice (d : Nat → List α) (P r : Nat) (hr : r < P) : d r = ((content P d).take (startOf d (r + 1))).drop (startOf d r) := by
  rw [content_take d P (r + 1) (by omega), content_succ]
  unfold startOf
  rw [List.drop_left]

theorem catChunk_eq (n P r : Nat) : catChunk n P r = evenSize n P r := chunkRange_size n r P

theorem chunkStart_succ (n P r : Nat) : (chunkRange n (r + 1) P).1 = (chunkRange n r P).1 + catChunk n P r := by
  have := chunkRange_mono n P (show r ≤ r + 1 by omega)
  rw [chunkRange_succ] at this
  rw [chunkRange_succ]; unfold catChunk; omega

/-- Slicing two lists separately or their concatenation. -/
theorem slice_append (A B : List α) (x y : Nat) (hxy : x ≤ y) :
    (A.take (min y A.length)).drop (min x A.length) ++ (B.take (y - A.length)).drop (x - A.length) = ((A ++ B).take y).drop x := by
  rw [List.take_append, List.drop_append, List.length_take]
  congr 1
  · rw [show A.take (min y A.length) = A.take y by
      rcases Nat.le_total y A.length with h | h
      · rw [Nat.min_eq_left h]
      · rw [Nat.min_eq_right h, List.take_length, List.take_of_length_le h]]
    rcases Nat.le_total x A.length with h | h
    · rw [Nat.min_eq_left h]
    · rw [Nat.min_eq_right h, List.drop_of_length_le (by rw [List.length_take]; omega), List.drop_of_length_le (by rw [List.length_take]; omega)]
  · rcases Nat.le_total y A.length with h | h
    · rw [show y - A.length = 0 by omega]; simp
    · rw [Nat.min_eq_right h]

theorem frontPairs_ne {P : Nat} : ∀ p ∈ frontPairs P, p.1 ≠ p.2 := fun p hp => by have := mem_frontPairs hp; omega

theorem backPairs_ne {P : Nat} : ∀ p ∈ backPairs P, p.1 ≠ p.2 := by
  intro p hp
  rw [backPairs_eq] at hp
  obtain ⟨q, hq, rfl⟩ := List.mem_map.1 hp
  have := mem_frontPairs hq
  show P - 1 - q.1 ≠ P - 1 - q.2
  omega

/-- What every rank holds after the transfers. -/
theorem catMoved_eq (P : Nat) (a b : CatArr α) (r : Nat) :
    catMoved P a b r = ((match a with | .rep l => l | .along d => (frontPairs P).foldl (fstep (catChunk (a.len P + b.len P) P)) d r),
      (match b with | .rep l => l | .along d => (backPairs P).foldl (bstep (catChunk (a.len P + b.len P) P)) d r)) := by
  unfold catMoved catXfers
  dsimp only
  generalize catChunk (a.len P + b.len P) P = chunk
  rw [runSeq_append]
  have h1 : runSeq ((a.front P chunk).map (frontXfer P)) (fun r => (a.loc r, b.loc r)) =
      fun r => ((match a with | .rep l => l | .along d => (frontPairs P).foldl (fstep chunk) d r), b.loc r) := by
    cases a with
    | rep l => rfl
    | along d =>
      exact front_sim P chunk (fun r => (d r, b.loc r)) (frontPairs P) [] (fun r => (d r).length) d frontPairs_ne rfl rfl
  rw [h1]
  cases b with
  | rep l => rfl
  | along d =>
    have := back_sim P chunk (fun r => ((match a with | .rep l => l | .along d => (frontPairs P).foldl (fstep chunk) d r), d r)) (backPairs P) [] (fun r => (d r).length) d backPairs_ne rfl rfl
    exact congrFun this r

/-- **Schedules**: in every execution of the transfers - MPI may or may not buffer sends - no rank waits for ever, the number of steps is bounded, and when all
ranks are done the data are `catMoved` and no message is left. -/
theorem concat_schedule (P : Nat) (a b : CatArr α) {n : Nat} {st : BState (List α × List α) (List α)}
    (h : Steps BStep n (scheduleInit (catXfers P a b) fun r => (a.loc r, b.loc r)) st) :
    (∀ r, st.prog r ≠ [] → MustStep st) ∧ n ≤ 2 * (catXfers P a b).length ∧
    ((∀ r, st.prog r = []) → st.loc = catMoved P a b ∧ ∀ s d t, st.chan s d t = []) := by
  have hplan : ∀ (chunk : Nat → Nat) (L : List (Nat × Nat)) (l : Nat → Nat) (plan : List (Nat × Nat × Nat)), (∀ p ∈ L, p.1 ≠ p.2) → (∀ t ∈ plan, t.1 ≠ t.2.1) →
      ∀ t ∈ (L.foldl (catStep chunk) (l, plan)).2, t.1 ≠ t.2.1 := by
    intro chunk L
    induction L with
    | nil => intro l plan _ h; exact h
    | cons p L ih =>
      intro l plan hL hp
      rw [List.foldl_cons]
      apply ih _ _ fun q hq => hL q (List.mem_cons_of_mem _ hq)
      dsimp only
      split
      · intro t ht
        rcases List.mem_append.1 ht with ht | ht
        · exact hp t ht
        · rw [List.mem_singleton.1 ht]
          exact hL p (List.mem_cons_self ..)
      · exact hp
  have hne : ∀ x ∈ catXfers P a b, x.src ≠ x.dst := by
    intro x hx
    unfold catXfers at hx
    rcases List.mem_append.1 hx with hx | hx
    · obtain ⟨t, ht, rfl⟩ := List.mem_map.1 hx
      cases a with
      | rep l => cases ht
      | along d => exact hplan _ (frontPairs P) _ [] frontPairs_ne (by simp) t ht
    · obtain ⟨t, ht, rfl⟩ := List.mem_map.1 hx
      cases b with
      | rep l => cases ht
      | along d => exact hplan _ (backPairs P) _ [] backPairs_ne (by simp) t ht
  have := ordered_transfers _ hne _ h
  exact ⟨this.1, ordered_transfers_terminate _ _ h, this.2⟩

/-- Without unit axes other than `axis`, the squeezed tensor has the right shape again. -/
theorem squeezeFits_of (shape : List Nat) (axis k : Nat) (hax : axis < shape.length) (hu : ∀ i < shape.length, i ≠ axis → shape.getD i 0 ≠ 1) :
    squeezeFits (shape.set axis k) axis = true := by
  have hsplit : shape.set axis k = shape.take axis ++ k :: shape.drop (axis + 1) := List.set_eq_take_append_cons_drop .. |>.trans (if_pos hax)
  have hpre : (shape.take axis).filter (· != 1) = shape.take axis := by
    rw [List.filter_eq_self]
    intro x hx
    obtain ⟨i, hi, rfl⟩ := List.mem_iff_getElem.1 hx
    rw [List.length_take] at hi
    rw [List.getElem_take]
    have := hu i (by omega) (by omega)
    rw [List.getD_eq_getElem?_getD, List.getElem?_eq_getElem (by omega)] at this
    simpa using this
  have hpost : (shape.drop (axis + 1)).filter (· != 1) = shape.drop (axis + 1) := by
    rw [List.filter_eq_self]
    intro x hx
    obtain ⟨i, hi, rfl⟩ := List.mem_iff_getElem.1 hx
    rw [List.length_drop] at hi
    rw [List.getElem_drop]
    have := hu (axis + 1 + i) (by omega) (by omega)
    rw [List.getD_eq_getElem?_getD, List.getElem?_eq_getElem (by omega)] at this
    simpa using this
  have hlen : (shape.take axis).length = axis := by rw [List.length_take]; omega
  have hsq : squeezed (shape.set axis k) axis = some (shape.set axis k) := by
    unfold squeezed
    dsimp only
    rw [hsplit]
    by_cases hk : k = 1
    · subst hk
      have hf : (shape.take axis ++ 1 :: shape.drop (axis + 1)).filter (· != 1) = shape.take axis ++ shape.drop (axis + 1) := by
        rw [List.filter_append, List.filter_cons, hpre, hpost]; simp
      rw [hf, if_pos (by rw [List.length_append, List.length_append, List.length_cons]; omega), if_pos (by rw [List.length_append, hlen]; omega)]
      congr 1
      rw [List.take_append_of_le_length (by omega), List.drop_append_of_le_length (by omega), List.take_of_length_le (by omega), List.drop_of_length_le (by omega),
        List.nil_append]
    · have hf : (shape.take axis ++ k :: shape.drop (axis + 1)).filter (· != 1) = shape.take axis ++ k :: shape.drop (axis + 1) := by
        rw [List.filter_append, List.filter_cons, hpre, hpost]; simp [hk]
      rw [hf, if_neg (by omega)]
  unfold squeezeFits
  rw [hsq]
  simp

/-- **C61 (along the split axis).** Two operands, each replicated or split along `axis` (not both replicated): if no rank holds more of an operand than its share
of the result, and no other axis has extent 1 in the mixed case, then the result is the global concatenation, in canonical distribution. -/
theorem concat2_spec_partial (P : Nat) (hP : 0 < P) (shape : List Nat) (axis : Nat) (hax : axis < shape.length) (a b : CatArr α) (hrep : (a.isRep && b.isRep) = false)
    (ha : a.Fits P ((a.glob P).length + (b.glob P).length)) (hb : b.Fits P ((a.glob P).length + (b.glob P).length))
    (hu : a.isRep = b.isRep ∨ ∀ i < shape.length, i ≠ axis → shape.getD i 0 ≠ 1) :
    ∃ d, concat2 P shape axis a b = .ok (.along d) ∧ content P d = a.glob P ++ b.glob P ∧ Balanced P d := by
  generalize hN : (a.glob P).length + (b.glob P).length = N at *
  have hlen : a.len P + b.len P = N := by rw [CatArr.len_glob, CatArr.len_glob, hN]
  let T : Nat → Nat := fun r => (chunkRange N r P).1
  have hT0 : T 0 = 0 := chunkRange_zero N P
  have hT : ∀ r, T (r + 1) = T r + catChunk N P r := chunkStart_succ N P
  have hTP : T P = N := chunkRange_at_P N P hP
  have hTm : ∀ {x y : Nat}, x ≤ y → T x ≤ T y := fun h => chunkRange_mono N P h
  -- local results
  have hres : ∀ r < P, catResult P shape axis a b r = .ok (((a.glob P ++ b.glob P).take (T (r + 1))).drop (T r)) := by
    intro r hr
    have hslice := slice_append (a.glob P) (b.glob P) (T r) (T (r + 1)) (hTm (by omega))
    unfold catResult
    rw [hlen]
    -- arr0 after front loading
    have hfront : ∀ d, a = .along d → ∀ q < P, (catMoved P a b q).1 = ((a.glob P).take (min (T (q + 1)) (a.glob P).length)).drop (min (T q) (a.glob P).length) := by
      rintro d rfl q hq
      rw [catMoved_eq, hlen]
      dsimp only
      obtain ⟨f1, f2⟩ := front_fold (catChunk N P) T hT0 hT d P (fun r hr => by rw [catChunk_eq]; exact ha r hr)
      rw [part_slice ((frontPairs P).foldl (fstep (catChunk N P)) d) P q hq, f1, f2 q (by omega), f2 (q + 1) (by omega)]
      rfl
    have hback : ∀ d, b = .along d → ∀ q < P, (catMoved P a b q).2 = ((b.glob P).take (T (q + 1) - (a.glob P).length)).drop (T q - (a.glob P).length) := by
      rintro d rfl q hq
      rw [catMoved_eq, hlen]
      dsimp only
      obtain ⟨f1, f2⟩ := back_fold (catChunk N P) T hT0 hT d P (fun r hr => by rw [catChunk_eq]; exact hb r hr)
      rw [part_slice ((backPairs P).foldl (bstep (catChunk N P)) d) P q hq, f1, f2 q (by omega), f2 (q + 1) (by omega), hTP]
      have : (CatArr.glob P (.along d)).length = (content P d).length := rfl
      rw [show N - (content P d).length = (a.glob P).length by omega]
      rfl
    cases a with
    | rep l =>
      cases b with
      | rep l' => simp [CatArr.isRep] at hrep
      | along d =>
        dsimp only
        have hl : (CatArr.glob P (CatArr.rep l)) = l := rfl
        have hneed : ∀ k ≤ P, cum (fun i => (catChunk N P i : Int) - ((catMoved P (.rep l) (.along d) i).2.length : Int)) k = ((min (T k) l.length : Nat) : Int) := by
          intro k
          induction k with
          | zero => intro _; rw [hT0]; simp [cum]
          | succ k ih =>
            intro hk
            rw [cum, ih (by omega), hback d rfl k (by omega), List.length_drop, List.length_take, hl]
            have h1 := hT k
            have h2 := hTm (show k + 1 ≤ P by omega)
            rw [hTP] at h2
            have h3 : (CatArr.glob P (.along d)).length = N - l.length := by rw [hl] at hN; omega
            rw [hl] at hN
            omega
        have hleft : catLeft (catChunk N P) l (fun i => (catMoved P (.rep l) (.along d) i).2.length) r = (l.take (min (T (r + 1)) l.length)).drop (min (T r) l.length) := by
          unfold catLeft
          dsimp only
          rw [hneed r (by omega), hneed (r + 1) (by omega), Int.toNat_natCast, Int.toNat_natCast]
        rw [hleft, hback d rfl r hr]
        rw [if_pos (squeezeFits_of shape axis _ hax (by rcases hu with h | h; cases h; exact h))]
        rw [hl] at hslice ⊢
        rw [hslice]
    | along d0 =>
      cases b with
      | along d =>
        dsimp only
        rw [hfront d0 rfl r hr, hback d rfl r hr, hslice]
      | rep l =>
        dsimp only
        have hl : (CatArr.glob P (CatArr.rep l)) = l := rfl
        have hneed : ∀ k ≤ P, cum (fun i => (catChunk N P i : Int) - ((catMoved P (.along d0) (.rep l) i).1.length : Int)) k = ((T k - (CatArr.glob P (.along d0)).length : Nat) : Int) := by
          intro k
          induction k with
          | zero => intro _; rw [hT0]; simp [cum]
          | succ k ih =>
            intro hk
            rw [cum, ih (by omega), hfront d0 rfl k (by omega), List.length_drop, List.length_take]
            have h1 := hT k
            omega
        have hright : catRight P (catChunk N P) l (fun i => (catMoved P (.along d0) (.rep l) i).1.length) r =
            (l.take (T (r + 1) - (CatArr.glob P (.along d0)).length)).drop (T r - (CatArr.glob P (.along d0)).length) := by
          unfold catRight
          dsimp only
          have h1 := hneed (r + 1) (by omega)
          have h2 := hneed P (Nat.le_refl _)
          have h3 := hneed r (by omega)
          rw [cum] at h1
          rw [h2, hTP, hneed (r + 1) (by omega)]
          rw [hl] at hN
          have h4 := hTm (show r + 1 ≤ P by omega)
          rw [hTP] at h4
          congr 1
          · omega
          · congr 1
            omega
        rw [hright, hfront d0 rfl r hr]
        rw [if_pos (squeezeFits_of shape axis _ hax (by rcases hu with h | h; cases h; exact h))]
        rw [hl] at hslice ⊢
        rw [hslice]
  have hnone : ((List.range P).any fun r => isErr (catResult P shape axis a b r)) = false := by
    rw [List.any_eq_false]
    intro r hr
    rw [hres r (List.mem_range.1 hr)]
    simp [isErr]
  have hcat : concat2 P shape axis a b = .ok (.along fun r => okOr [] (catResult P shape axis a b r)) := by
    unfold concat2
    cases a with
    | rep l =>
      cases b with
      | rep l' => simp [CatArr.isRep] at hrep
      | along d => dsimp only; rw [hnone]; rfl
    | along d0 => cases b <;> (dsimp only; rw [hnone]; rfl)
  refine ⟨_, hcat, ?_, ?_⟩
  · rw [content_congr (d' := fun r => ((a.glob P ++ b.glob P).take (T (r + 1))).drop (T r)) fun r hr => by rw [hres r hr]; rfl,
      content_slices _ T hT0 P (fun r _ => hTm (by omega)), hTP, List.take_of_length_le (by rw [List.length_append]; omega)]
  · have hcont : content P (fun r => okOr [] (catResult P shape axis a b r)) = a.glob P ++ b.glob P := by
      rw [content_congr (d' := fun r => ((a.glob P ++ b.glob P).take (T (r + 1))).drop (T r)) fun r hr => by rw [hres r hr]; rfl,
        content_slices _ T hT0 P (fun r _ => hTm (by omega)), hTP, List.take_of_length_le (by rw [List.length_append]; omega)]
    intro r hr
    rw [hcont]
    show (okOr [] (catResult P shape axis a b r)).length = _
    rw [hres r hr]
    show (List.drop (T r) _).length = _
    rw [List.length_drop, List.length_take, List.length_append, hN, ← catChunk_eq]
    have h1 := hT r
    have h2 := hTm (show r + 1 ≤ P by omega)
    rw [hTP] at h2
    omega

/-! ### Canonical operands: any number of arrays -/

/-- Two canonical operands. -/
theorem concat2_canonical (P : Nat) (hP : 0 < P) (shape : List Nat) (axis : Nat) (hax : axis < shape.length) (a b : CatArr α) (ha : a.Canonical P) (hb : b.Canonical P)
    (hu : a.isRep = b.isRep ∨ ∀ i < shape.length, i ≠ axis → shape.getD i 0 ≠ 1) :
    ∃ c, concat2 P shape axis a b = .ok c ∧ c.glob P = a.glob P ++ b.glob P ∧ c.Canonical P ∧ c.isRep = (a.isRep && b.isRep) := by
  by_cases h : (a.isRep && b.isRep) = true
  · cases a with
    | along d => simp [CatArr.isRep] at h
    | rep l =>
      cases b with
      | along d => simp [CatArr.isRep] at h
      | rep l' => exact ⟨.rep (l ++ l'), rfl, rfl, trivial, rfl⟩
  · have h : (a.isRep && b.isRep) = false := by simpa using h
    obtain ⟨d, h1, h2, h3⟩ := concat2_spec_partial P hP shape axis hax a b h (ha.fits (by omega)) (hb.fits (by omega)) hu
    exact ⟨.along d, h1, h2, h3, h.symm⟩

theorem concatMore_fold (P : Nat) (hP : 0 < P) (shape : List Nat) (axis : Nat) (hax : axis < shape.length) : ∀ (rest : List (CatArr α)) (c : CatArr α), c.Canonical P →
    (∀ x ∈ rest, x.Canonical P) → ((∀ x ∈ rest, x.isRep = c.isRep) ∨ ∀ i < shape.length, i ≠ axis → shape.getD i 0 ≠ 1) →
    ∃ e, rest.foldl (concatMore P shape axis) (.ok c) = .ok e ∧ e.glob P = c.glob P ++ (rest.map (CatArr.glob P)).flatten ∧ e.Canonical P ∧
      e.isRep = (c.isRep && rest.all CatArr.isRep)
  | [], c, hc, _, _ => ⟨c, rfl, by simp, hc, by simp⟩
  | x :: rest, c, hc, hr, hu => by
    obtain ⟨e, h1, h2, h3, h4⟩ := concat2_canonical P hP shape axis hax c x hc (hr x (List.mem_cons_self ..))
      (hu.imp (fun h => (h x (List.mem_cons_self ..)).symm) id)
    have hstep : concatMore P shape axis (.ok c) x = .ok e := h1
    obtain ⟨e', g1, g2, g3, g4⟩ := concatMore_fold P hP shape axis hax rest e h3 (fun y hy => hr y (List.mem_cons_of_mem _ hy))
      (hu.imp (fun h y hy => by rw [h4, h x (List.mem_cons_self ..), h y (List.mem_cons_of_mem _ hy)]; simp) id)
    refine ⟨e', ?_, ?_, g3, ?_⟩
    · rw [List.foldl_cons, hstep]; exact g1
    · rw [g2, h2, List.map_cons, List.flatten_cons, List.append_assoc]
    · rw [g4, h4, List.all_cons, Bool.and_assoc]

/-- **C61 (any number of arrays).** At least two operands, each replicated or split along `axis` in canonical distribution; in the mixed case no other axis has extent 1.
The result is the concatenation in the given order, in canonical distribution; it is replicated iff all operands are. -/
theorem concat_spec_partial (P : Nat) (hP : 0 < P) (shape : List Nat) (axis : Nat) (hax : axis < shape.length) (ops : List (CatArr α)) (h2 : 2 ≤ ops.length)
    (hc : ∀ x ∈ ops, x.Canonical P)
    (hu : (∀ x ∈ ops, ∀ y ∈ ops, x.isRep = y.isRep) ∨ ∀ i < shape.length, i ≠ axis → shape.getD i 0 ≠ 1) :
    ∃ c, concatN P shape axis ops = .ok c ∧ c.glob P = (ops.map (CatArr.glob P)).flatten ∧ c.Canonical P ∧ c.isRep = ops.all CatArr.isRep := by
  match ops, h2 with
  | a :: b :: rest, _ =>
    have ma : a ∈ a :: b :: rest := List.mem_cons_self ..
    have mb : b ∈ a :: b :: rest := List.mem_cons_of_mem _ (List.mem_cons_self ..)
    have mr : ∀ {x}, x ∈ rest → x ∈ a :: b :: rest := fun h => List.mem_cons_of_mem _ (List.mem_cons_of_mem _ h)
    obtain ⟨e, h1, h2, h3, h4⟩ := concat2_canonical P hP shape axis hax a b (hc a ma) (hc b mb) (hu.imp (fun h => h a ma b mb) id)
    obtain ⟨c, g1, g2, g3, g4⟩ := concatMore_fold P hP shape axis hax rest e h3 (fun y hy => hc y (mr hy))
      (hu.imp (fun h y hy => by rw [h4, h a ma b mb, h y (mr hy) b mb]; simp) id)
    refine ⟨c, ?_, ?_, g3, ?_⟩
    · show rest.foldl (concatMore P shape axis) (concat2 P shape axis a b) = _
      rw [h1]; exact g1
    · rw [g2, h2]; simp
    · rw [g4, h4]; simp [Bool.and_assoc]

/-- Fewer than two arrays are refused. -/
theorem concat_few (P : Nat) (shape : List Nat) (axis : Nat) (ops : List (CatArr α)) (h : ops.length < 2) : concatN P shape axis ops = .error .valueError := by
  match ops, h with
  | [], _ => rfl
  | [_], _ => rfl
  | _ :: _ :: _, h => simp at h; omega

/-! ### Operands split along another axis -/

/-- **C61 (across the split axis).** Both operands split along another axis: if every rank holds the same number of rows of both - in particular for canonical operands
- row `i` of the result is row `i` of arr0 followed by row `i` of arr1, and the distribution is that of the operands. -/
theorem concat_across (P : Nat) (d0 d1 : Nat → List (List α)) (h : ∀ r < P, (d0 r).length = (d1 r).length) :
    ∃ d, (∀ r < P, catLocalSplit d0 d1 r = .ok (d r) ∧ (d r).length = (d0 r).length) ∧ content P d = List.zipWith (· ++ ·) (content P d0) (content P d1) := by
  refine ⟨fun r => List.zipWith (· ++ ·) (d0 r) (d1 r), fun r hr => ⟨?_, ?_⟩, content_zipWith _ P d0 d1 h⟩
  · unfold catLocalSplit catRows; rw [if_pos (h r hr)]
  · rw [List.length_zipWith, h r hr, Nat.min_self]

/-- Otherwise an exception is raised: no wrong rows. -/
theorem concat_across_mismatch (d0 d1 : Nat → List (List α)) (r : Nat) (h : (d0 r).length ≠ (d1 r).length) : catLocalSplit d0 d1 r = .error .runtimeError := by
  unfold catLocalSplit catRows; rw [if_neg h]

theorem chunkRows_length (P : Nat) (hP : 0 < P) (rows : List (List α)) (r : Nat) (hr : r < P) : (chunkRows P rows r).length = evenSize rows.length P r := by
  unfold chunkRows
  have h1 := chunkRange_size rows.length r P
  have h2 := chunkRange_mono rows.length P (show r + 1 ≤ P by omega)
  rw [chunkRange_at_P _ _ hP, chunkRange_succ] at h2
  rw [List.length_drop, List.length_take, Nat.min_eq_left h2, h1]

theorem chunkRows_content (P : Nat) (hP : 0 < P) (rows : List (List α)) : content P (chunkRows P rows) = rows := by
  have h := content_slices rows (fun r => (chunkRange rows.length r P).1) (chunkRange_zero _ P) P (fun r _ => chunkRange_mono _ P (by omega))
  rw [chunkRange_at_P _ _ hP, List.take_length] at h
  rw [← h]
  apply content_congr
  intro r _
  unfold chunkRows
  rw [chunkRange_succ, h]

/-- arr0 replicated, arr1 split along another axis in canonical distribution. -/
theorem concat_across_left_partial (P : Nat) (hP : 0 < P) (rows0 : List (List α)) (d1 : Nat → List (List α)) (hn : rows0.length = (content P d1).length) (hb : Balanced P d1) :
    ∃ d, (∀ r < P, catSliceLeft P rows0 d1 r = .ok (d r) ∧ (d r).length = (d1 r).length) ∧ content P d = List.zipWith (· ++ ·) rows0 (content P d1) := by
  have hl : ∀ r < P, (chunkRows P rows0 r).length = (d1 r).length := fun r hr => by rw [chunkRows_length P hP rows0 r hr, hb r hr, hn]
  obtain ⟨d, h1, h2⟩ := concat_across P (chunkRows P rows0) d1 hl
  rw [chunkRows_content P hP] at h2
  exact ⟨d, fun r hr => ⟨(h1 r hr).1, by rw [(h1 r hr).2, hl r hr]⟩, h2⟩

/-- arr1 replicated, arr0 split along another axis in canonical distribution. -/
theorem concat_across_right_partial (P : Nat) (hP : 0 < P) (d0 : Nat → List (List α)) (rows1 : List (List α)) (hn : rows1.length = (content P d0).length) (hb : Balanced P d0) :
    ∃ d, (∀ r < P, catSliceRight P d0 rows1 r = .ok (d r) ∧ (d r).length = (d0 r).length) ∧ content P d = List.zipWith (· ++ ·) (content P d0) rows1 := by
  have hl : ∀ r < P, (d0 r).length = (chunkRows P rows1 r).length := fun r hr => by rw [chunkRows_length P hP rows1 r hr, hb r hr, hn]
  obtain ⟨d, h1, h2⟩ := concat_across P d0 (chunkRows P rows1) hl
  rw [chunkRows_content P hP] at h2
  exact ⟨d, h1, h2⟩

/-! ### Checks -/

/-- **C61 (checks).** `concatenate` accepts exactly the operands with a valid axis, equal numbers of axes, equal extents away from `axis`, and not both split along
different axes; it then takes the branch that belongs to the splits: in particular operands split along `axis` on one side are never concatenated locally. -/
theorem concat_path (shape0 shape1 : List Nat) (axis : Int) (s0 s1 : Option Nat) (ax : Nat) (p : CatPath) :
    catPath shape0 shape1 axis s0 s1 = .ok (ax, p) ↔
      (sanitizeAxis shape0.length (some axis) = .ok (some ax) ∧ shape0.length = shape1.length ∧ (∀ i < shape0.length, i ≠ ax → shape0.getD i 0 = shape1.getD i 0) ∧
        (∀ a b, s0 = some a → s1 = some b → a = b) ∧
        p = (if s0 = none ∧ s1 = none then .local else if s0 = some ax ∨ s1 = some ax then .exchange else if s0 = none ∨ s1 = none then .sliceBoth else .localSplit)) := by
  unfold catPath
  cases hs : sanitizeAxis shape0.length (some axis) with
  | error e => simp
  | ok o =>
    cases o with
    | none => simp
    | some ax' =>
      dsimp only
      by_cases hl : shape0.length = shape1.length
      · rw [if_neg (by simpa using hl)]
        by_cases hany : ((List.range shape0.length).any fun i => i != ax' && shape0.getD i 0 != shape1.getD i 0) = true
        · rw [if_pos hany]
          rw [List.any_eq_true] at hany
          obtain ⟨i, hi, hne⟩ := hany
          have hi := List.mem_range.1 hi
          rw [Bool.and_eq_true, bne_iff_ne, bne_iff_ne] at hne
          constructor
          · intro h; cases h
          · rintro ⟨h1, _, h3, _⟩
            cases h1
            exact absurd (h3 i hi hne.1) hne.2
        · rw [if_neg hany]
          have hall : ∀ i < shape0.length, i ≠ ax' → shape0.getD i 0 = shape1.getD i 0 := by
            intro i hi hne
            apply Decidable.byContradiction
            intro hc
            apply hany
            rw [List.any_eq_true]
            exact ⟨i, List.mem_range.2 hi, by rw [Bool.and_eq_true, bne_iff_ne, bne_iff_ne]; exact ⟨hne, hc⟩⟩
          have key : ∀ {A : Prop}, ((.ok (some ax') : Except Err (Option Nat)) = .ok (some ax) ∧ shape0.length = shape1.length ∧
              (∀ i < shape0.length, i ≠ ax → shape0.getD i 0 = shape1.getD i 0) ∧ A) ↔ (ax' = ax ∧ A) := by
            intro A
            constructor
            · rintro ⟨h1, _, _, h4⟩; cases h1; exact ⟨rfl, h4⟩
            · rintro ⟨rfl, h4⟩; exact ⟨rfl, hl, hall, h4⟩
          rw [key]
          cases s0 with
          | none =>
            cases s1 with
            | none => simp [eq_comm]
            | some b =>
              dsimp only
              by_cases hb : b = ax'
              · subst hb; rw [if_neg (by simp)]
                constructor
                · intro h; cases h; simp
                · rintro ⟨rfl, _, h⟩; simp at h; rw [h]
              · rw [if_pos hb]
                constructor
                · intro h; cases h; simp [hb]
                · rintro ⟨rfl, _, h⟩; simp [hb] at h; rw [h]
          | some a =>
            cases s1 with
            | none =>
              dsimp only
              by_cases hb : a = ax'
              · subst hb; rw [if_neg (by simp)]
                constructor
                · intro h; cases h; simp
                · rintro ⟨rfl, _, h⟩; simp at h; rw [h]
              · rw [if_pos hb]
                constructor
                · intro h; cases h; simp [hb]
                · rintro ⟨rfl, _, h⟩; simp [hb] at h; rw [h]
            | some b =>
              dsimp only
              by_cases hab : a = b
              · subst hab
                rw [if_neg (by simp)]
                by_cases hb : a = ax'
                · subst hb; rw [if_neg (by simp)]
                  constructor
                  · intro h; cases h; simp
                  · rintro ⟨rfl, _, h⟩; simp at h; rw [h]
                · rw [if_pos hb]
                  constructor
                  · intro h; cases h; simp [hb]
                  · rintro ⟨rfl, _, h⟩; simp [hb] at h; rw [h]
              · rw [if_pos hab]
                constructor
                · intro h; cases h
                · rintro ⟨_, h, _⟩
                  exact absurd (h a b rfl rfl) hab
      · rw [if_pos (by simpa using hl)]
        constructor
        · intro h; cases h
        · rintro ⟨_, h, _⟩; exact absurd h hl

/-! ### Where the claim fails -/

/-- What a user sees of a result. -/
def catOutcome (P : Nat) : Except Err (CatArr α) → Option (List α)
  | .ok c => some (c.glob P)
  | .error _ => none

/-- Without canonical distribution the order of the slabs may change: here on three ranks arr0 has 6, 4, 2 slabs; `abs` turns the 1 slab too many of rank 0 into one slab
that rank 0 asks for. -/
theorem concat_order_violated : ∃ (P : Nat) (d0 d1 : Nat → List Nat),
    ∃ l, catOutcome P (concat2 P [15] 0 (.along d0) (.along d1)) = some l ∧ l ≠ content P d0 ++ content P d1 := by
  refine ⟨3, fun r => ([[0, 1, 2, 3, 4, 5], [6, 7, 8, 9], [10, 11]] : List (List Nat)).getD r [], fun r => ([[12], [13], [14]] : List (List Nat)).getD r [],
    (catOutcome 3 (concat2 3 [15] 0 (.along fun r => ([[0, 1, 2, 3, 4, 5], [6, 7, 8, 9], [10, 11]] : List (List Nat)).getD r [])
      (.along fun r => ([[12], [13], [14]] : List (List Nat)).getD r []))).getD [], ?_, ?_⟩ <;> decide +kernel

/-- With a further axis of extent 1, a replicated operand and one split along `axis` raise an exception although both are canonical and the shapes agree. -/
theorem concat_unit_axis_violated : ∃ (P : Nat) (shape : List Nat) (axis : Nat) (a b : CatArr Nat), a.Canonical P ∧ b.Canonical P ∧ axis < shape.length ∧
    concat2 P shape axis a b = .error .runtimeError :=
  ⟨2, [4, 1], 0, .rep [0, 1, 2, 3], .along fun r => ([[4, 5], [6, 7]] : List (List Nat)).getD r [], trivial, by unfold CatArr.Canonical Balanced; decide +kernel, by decide, by
    have : catOutcome 2 (concat2 2 [4, 1] 0 (.rep [0, 1, 2, 3]) (.along fun r => ([[4, 5], [6, 7]] : List (List Nat)).getD r [])) = none := by decide +kernel
    revert this
    unfold concat2
    dsimp only
    split
    · intro _; rfl
    · intro h; cases h⟩

/-- Two operands split along another axis, one of them not in canonical distribution: an exception although the shapes agree. -/
theorem concat_across_violated : ∃ (P : Nat) (d0 d1 : Nat → List (List Nat)), (content P d0).length = (content P d1).length ∧ Balanced P d0 ∧
    ∃ r < P, catLocalSplit d0 d1 r = .error .runtimeError :=
  ⟨2, fun r => ([[[0], [1]], [[2], [3]]] : List (List (List Nat))).getD r [], fun r => ([[[4], [5], [6]], [[7]]] : List (List (List Nat))).getD r [],
    by decide +kernel, by unfold Balanced; decide +kernel, 0, by decide, by decide +kernel⟩

/-! ### The hypotheses are met -/

/-- Three operands on 3 ranks: 4 slabs split, 5 replicated, 3 split (shape of a slab: 2). -/
example : catOutcome 3 (concatN 3 [12, 2] 0 [.along fun r => ([[0, 1], [2], [3]] : List (List Nat)).getD r [], .rep [4, 5, 6, 7, 8],
    .along fun r => ([[9], [10], [11]] : List (List Nat)).getD r []]) = some [0, 1, 2, 3, 4, 5, 6, 7, 8, 9, 10, 11] ∧
    Balanced 3 (fun r => ([[0, 1], [2], [3]] : List (List Nat)).getD r []) ∧ ∀ i < 2, i ≠ 0 → ([12, 2] : List Nat).getD i 0 ≠ 1 := by
  unfold Balanced; decide +kernel

/-- Not canonical, but within the shares of the result (`Fits`): 0, 3, 2 + 4, 0, 3 on 3 ranks has shares 4, 4, 4. -/
example : CatArr.Fits 3 12 (.along fun r => ([[], [0, 1, 2], [3, 4]] : List (List Nat)).getD r []) ∧
    catOutcome 3 (concat2 3 [12] 0 (.along fun r => ([[], [0, 1, 2], [3, 4]] : List (List Nat)).getD r [])
      (.along fun r => ([[5, 6, 7, 8], [], [9, 10, 11]] : List (List Nat)).getD r [])) = some (List.range 12) := by
  unfold CatArr.Fits; decide +kernel

example : (catXfers 3 (.along fun r => ([[], [0, 1, 2], [3, 4]] : List (List Nat)).getD r []) (.along fun r => ([[5, 6, 7, 8], [], [9, 10, 11]] : List (List Nat)).getD r [])).length
    = 5 := by decide +kernel

example : catPath [4, 3] [4, 5] (-1) (some 1) none = .ok (1, .exchange) := by decide +kernel
example : catPath [4, 3] [4, 5] 1 (some 0) (some 0) = .ok (1, .localSplit) := by decide +kernel

end Heat
