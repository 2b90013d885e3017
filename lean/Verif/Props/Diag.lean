import Verif.Model.Diag
import Verif.Props.ND
import Verif.Props.Reshape
import Verif.Props.Halo
import Verif.Proof.Dist
import Verif.Proof.Datatype
import Mathlib.Data.List.Nodup
/-!
# C40, C43, C44, C45, C47: diagonals, non-zero positions, where, scalar conversion
-/
namespace Heat
open Spec
variable {α : Type}

theorem displs_getD (n P r : Nat) (hP : 0 < P) (hr : r < P) : (displsShape n P).getD r 0 = (chunkRange n r P).1 := by
  unfold displsShape
  rw [List.getD_eq_getElem?_getD, countsShape_eq _ _ hP, cumsumExcl_get _ _ _ (by simpa [evenSizes] using hr),
    before_evenSizes _ _ _ (by omega)]
  simp

/-! ## C45 fill_diagonal -/

/-- The loop with `break` keeps every rank whose displacement does not exceed `k`. -/
theorem lastProc_ge (displ : Nat → Nat) (k : Nat) (hm : ∀ i j, i ≤ j → displ i ≤ displ j) :
    ∀ n p proc, proc ≤ p → ∀ r, r < p + n → displ r ≤ k → r ≤ lastProc displ k n p proc ∨ (r < p ∧ proc < r) := by
  intro n
  induction n with
  | zero =>
    intro p proc hp r hr hd
    simp only [lastProc]; omega
  | succ n ih =>
    intro p proc hp r hr hd
    simp only [lastProc]
    split
    · rename_i hgt
      have : r < p := by
        apply Nat.lt_of_not_le
        intro hle
        have := hm p r hle
        omega
      omega
    · have := ih (p + 1) p (by omega) r (by omega) hd
      omega

theorem lastProc_zero (displ : Nat → Nat) (k P : Nat) (hm : ∀ i j, i ≤ j → j < P → displ i ≤ displ j) (r : Nat) (hr : r < P)
    (hd : displ r ≤ k) : r ≤ lastProc displ k P 0 0 := by
  have key : ∀ n p proc, p + n = P → proc ≤ p → lastProc displ k n p proc = lastProc (fun i => displ (min i (P - 1))) k n p proc := by
    intro n
    induction n with
    | zero => intro p proc _ _; rfl
    | succ n ih =>
      intro p proc hp hq
      simp only [lastProc]
      simp only [show min p (P - 1) = p by omega]
      rw [ih (p + 1) p (by omega) (by omega)]
  rw [key P 0 0 (by omega) (by omega)]
  have := lastProc_ge (fun i => displ (min i (P - 1))) k (by
    intro i j hij
    apply hm
    · omega
    · omega) P 0 0 (by omega) r (by omega) (by
      show displ (min r (P - 1)) ≤ k
      rw [show min r (P - 1) = r by omega]; exact hd)
  omega

/-- C45.  `fill_diagonal(v)` of a two-dimensional array that is not distributed, or has its canonical distribution along
either axis, sets exactly the elements with equal row and column number, on any number of processes. -/
theorem fill_diagonal_spec_partial (P : Nat) (hP : 0 < P) (x : DND α) (G : NArr α) (h : Rep P x G) (h2 : G.ndim = 2) (v : α)
    (hb : ∀ s, x.split = some s → BalancedND P x G s) :
    ∃ y T, fillDiagonal P x v = .ok y ∧ Rep P y T ∧ IsFilled G v T ∧ y.split = x.split := by
  obtain ⟨hG, g1, g2, g3, g4⟩ := h
  let T : NArr α := ⟨G.ndim, G.dim, fun idx => if idx 0 = idx 1 then v else G.get idx⟩
  have hT : IsFilled G v T := ⟨rfl, fun _ _ => rfl, fun _ => rfl⟩
  have hL : Local T := by
    intro i j hij
    have h0 := hij 0 (by show 0 < G.ndim; omega)
    have h1 := hij 1 (by show 1 < G.ndim; omega)
    show (if i 0 = i 1 then v else G.get i) = if j 0 = j 1 then v else G.get j
    rw [h0, h1, hG i j hij]
  have hlen : x.gshape.length = 2 := by omega
  unfold fillDiagonal
  rw [if_neg (by omega)]
  cases hs : x.split with
  | none =>
    rw [hs] at g4
    refine ⟨_, T, rfl, ⟨hL, g1, g2, g3, ?_⟩, hT, rfl⟩
    intro r hr
    refine ⟨(g4 r hr).1, ?_⟩
    intro idx hin
    show (if idx 0 = idx 1 then v else (x.loc r).get idx) = if idx 0 = idx 1 then v else G.get idx
    rw [(g4 r hr).2 idx hin]
  | some s =>
    rw [hs] at g4
    obtain ⟨hsn, htot, hr4⟩ := g4
    have hbal := hb s hs
    have hst : ∀ r ≤ P, axisStart x.loc s r = (chunkRange (G.dim s) r P).1 := fun r hr => axisStart_even x.loc s (G.dim s) P hbal r hr
    by_cases hP1 : P ≤ 1
    · have hP1' : P = 1 := by omega
      subst hP1'
      refine ⟨_, T, if_pos hP1, ⟨hL, g1, g2, g3, ?_⟩, hT, rfl⟩
      refine ⟨hsn, htot, ?_⟩
      intro r hr
      refine ⟨(hr4 r hr).1, ?_⟩
      intro idx hin
      have hr0 : r = 0 := by omega
      subst hr0
      have hz : axisStart x.loc s 0 = 0 := rfl
      have hsh : shift s 0 idx = idx := by funext k; simp [shift]
      have e := (hr4 0 hr).2 idx hin
      rw [hz, hsh] at e
      show (if idx 0 = idx 1 then v else (x.loc 0).get idx) = T.get (shift s (axisStart x.loc s 0) idx)
      rw [hz, hsh, e]
    · refine ⟨_, T, if_neg hP1, ⟨hL, g1, g2, g3, ?_⟩, hT, rfl⟩
      refine ⟨hsn, htot, ?_⟩
      intro r hr
      refine ⟨(hr4 r hr).1, ?_⟩
      intro idx hin
      have e := (hr4 r hr).2 idx hin
      have hst' : axisStart x.loc s r = (chunkRange (G.dim s) r P).1 := hst r (by omega)
      have hgs : x.gshape.getD s 0 = G.dim s := g2 s hsn
      have hd : ∀ q < P, (displsShape (x.gshape.getD s 0) P).getD q 0 = (chunkRange (G.dim s) q P).1 := by
        intro q hq; rw [displs_getD _ _ _ hP hq, hgs]
      have hi0 : idx 0 < (x.loc r).dim 0 := hin 0 (by rw [show _ = (x.loc r).ndim from rfl, g3 r hr]; omega)
      have hi1 : idx 1 < (x.loc r).dim 1 := hin 1 (by rw [show _ = (x.loc r).ndim from rfl, g3 r hr]; omega)
      have hbr : (x.loc r).dim s = evenSize (G.dim s) P r := hbal r hr
      have hsucc : (chunkRange (G.dim s) (r + 1) P).1 = (chunkRange (G.dim s) r P).1 + evenSize (G.dim s) P r := by
        rw [chunkRange_succ, chunkRange_snd]
      have hmonoP := chunkRange_mono (G.dim s) P (show r + 1 ≤ P by omega)
      rw [chunkRange_at_P _ _ hP] at hmonoP
      have hK : min (x.gshape.getD 0 0) (x.gshape.getD 1 0) = min (G.dim 0) (G.dim 1) := by rw [g2 0 (by omega), g2 1 (by omega)]
      have hproc : (chunkRange (G.dim s) r P).1 ≤ min (G.dim 0) (G.dim 1) →
          r ≤ lastProc (fun p => (displsShape (x.gshape.getD s 0) P).getD p 0) (min (x.gshape.getD 0 0) (x.gshape.getD 1 0)) P 0 0 := by
        intro hle
        apply lastProc_zero _ _ P _ r hr
        · rw [hd r hr, hK]; exact hle
        · intro i j hij hj
          show (displsShape (x.gshape.getD s 0) P).getD i 0 ≤ (displsShape (x.gshape.getD s 0) P).getD j 0
          rw [hd i (by omega), hd j hj]
          exact chunkRange_mono _ _ hij
      have hb' : (if r + 1 ≠ P then (displsShape (x.gshape.getD s 0) P).getD (r + 1) 0 else min (x.gshape.getD 0 0) (x.gshape.getD 1 0)) =
          if r + 1 ≠ P then (chunkRange (G.dim s) (r + 1) P).1 else min (G.dim 0) (G.dim 1) := by
        by_cases hq : r + 1 ≠ P
        · rw [if_pos hq, if_pos hq, hd _ (by omega)]
        · rw [if_neg hq, if_neg hq, hK]
      show (if r ≤ lastProc (fun p => (displsShape (x.gshape.getD s 0) P).getD p 0) (min (x.gshape.getD 0 0) (x.gshape.getD 1 0)) P 0 0 ∧
          (displsShape (x.gshape.getD s 0) P).getD r 0 ≤ idx (1 - s) ∧
          idx (1 - s) < (if r + 1 ≠ P then (displsShape (x.gshape.getD s 0) P).getD (r + 1) 0 else min (x.gshape.getD 0 0) (x.gshape.getD 1 0)) ∧
          idx s = idx (1 - s) - (displsShape (x.gshape.getD s 0) P).getD r 0 then v else (x.loc r).get idx) =
        if shift s (axisStart x.loc s r) idx 0 = shift s (axisStart x.loc s r) idx 1 then v else G.get (shift s (axisStart x.loc s r) idx)
      rw [e, hb', hd r hr, hst']
      have hiff : (r ≤ lastProc (fun p => (displsShape (x.gshape.getD s 0) P).getD p 0) (min (x.gshape.getD 0 0) (x.gshape.getD 1 0)) P 0 0 ∧
          (chunkRange (G.dim s) r P).1 ≤ idx (1 - s) ∧
          idx (1 - s) < (if r + 1 ≠ P then (chunkRange (G.dim s) (r + 1) P).1 else min (G.dim 0) (G.dim 1)) ∧
          idx s = idx (1 - s) - (chunkRange (G.dim s) r P).1) ↔
          shift s (chunkRange (G.dim s) r P).1 idx 0 = shift s (chunkRange (G.dim s) r P).1 idx 1 := by
        have hs01 : s = 0 ∨ s = 1 := by omega
        rcases hs01 with hs0 | hs0 <;> subst hs0
        · have hd1 : (x.loc r).dim 1 = G.dim 1 := (hr4 r hr).1 1 (by omega) (by omega)
          simp only [shift, if_true, show (1 : Nat) ≠ 0 by omega, if_false, Nat.sub_zero]
          constructor
          · rintro ⟨_, h1, _, h3⟩; omega
          · intro he
            refine ⟨hproc ?_, by omega, ?_, by omega⟩
            · omega
            · split <;> omega
        · have hd1 : (x.loc r).dim 0 = G.dim 0 := (hr4 r hr).1 0 (by omega) (by omega)
          simp only [shift, if_true, show (0 : Nat) ≠ 1 by omega, if_false, Nat.sub_self]
          constructor
          · rintro ⟨_, h1, _, h3⟩; omega
          · intro he
            refine ⟨hproc ?_, by omega, ?_, by omega⟩
            · omega
            · split <;> omega
      exact if_congr hiff rfl rfl

/-- C45.  Arrays that are not two-dimensional are rejected. -/
theorem fill_diagonal_invalid (P : Nat) (x : DND α) (v : α) (h : x.gshape.length ≠ 2) : fillDiagonal P x v = .error .valueError := by
  unfold fillDiagonal; rw [if_pos h]

/-- The 3×3 zero matrix with all rows on rank 0 of 2. -/
def ex30 : DND Nat := ⟨[3, 3], some 0, fun r => ⟨2, fun k => if k = 0 then (if r = 0 then 3 else 0) else 3, fun _ => 0⟩, some false⟩

/-- C45 fails for arrays that are not balanced: element (2, 2) keeps its value. -/
theorem fill_diagonal_unbalanced_violated : Rep 2 ex30 ⟨2, fun _ => 3, fun _ => 0⟩ ∧
    (fillDiagonal 2 ex30 7).map (fun y => ((y.loc 0).get fun _ => 1, (y.loc 0).get fun _ => 2)) = .ok (7, 0) := by
  refine ⟨⟨fun _ _ _ => rfl, rfl, ?_, fun _ _ => rfl, by decide, by decide, ?_⟩, by rfl⟩
  · intro k hk; have : k = 0 ∨ k = 1 := by have : k < 2 := hk; omega
    rcases this with h | h <;> subst h <;> rfl
  · intro r hr
    refine ⟨?_, fun _ _ => rfl⟩
    intro k hk hne
    simp [ex30, hne]

/-- A 3×4 matrix split over 2 ranks along the columns. -/
def ex34c : DND Nat := ⟨[3, 4], some 1, fun r => ⟨2, fun k => if k = 0 then 3 else 2, fun i => 10 * i 0 + i 1 + 2 * r⟩, some true⟩

example : Rep 2 ex34c ⟨2, fun k => if k = 0 then 3 else 4, fun i => 10 * i 0 + i 1⟩ ∧
    BalancedND 2 ex34c ⟨2, fun k => if k = 0 then 3 else 4, fun i => 10 * i 0 + i 1⟩ 1 := by
  refine ⟨⟨?_, rfl, ?_, fun _ _ => rfl, by decide, by decide, ?_⟩, ?_⟩
  · intro i j hij
    show 10 * i 0 + i 1 = 10 * j 0 + j 1
    rw [hij 0 (by show 0 < 2; omega), hij 1 (by show 1 < 2; omega)]
  · intro k hk; have : k = 0 ∨ k = 1 := by have : k < 2 := hk; omega
    rcases this with h | h <;> subst h <;> rfl
  · intro r hr
    refine ⟨?_, ?_⟩
    · intro k hk hne; have : k = 0 := by have : k < 2 := hk; omega
      subst this; rfl
    · intro idx _
      have : r = 0 ∨ r = 1 := by omega
      rcases this with h | h <;> subst h
      · simp [ex34c, shift, axisStart]
      · simp [ex34c, shift, axisStart]; omega
  · intro r hr
    have : r = 0 ∨ r = 1 := by omega
    rcases this with h | h <;> subst h <;> rfl

/-! ## C47 scalar conversion -/

/-- C47.  An array with one element converts to that element on every rank, whichever rank holds it. -/
theorem cast_spec (P : Nat) (hP : 0 < P) (parts : Nat → List α) (v : α) (h : content P parts = [v]) (r : Nat) (hr : r < P) :
    castScalar P 1 true parts r = .ok (some v) := by
  have key : ∀ k, (content k parts).length ≤ 1 → ((List.range k).map fun q => if (parts q).length = 0 then 0 else q).sum < max k 1 ∧
      ∀ w, content k parts = [w] → parts (((List.range k).map fun q => if (parts q).length = 0 then 0 else q).sum) = [w] := by
    intro k
    induction k with
    | zero => intro _; simp [content_zero]
    | succ k ih =>
      intro hl
      rw [content_succ, List.length_append] at hl
      obtain ⟨i1, i2⟩ := ih (by omega)
      rw [List.range_succ, List.map_append, List.sum_append]
      simp only [List.map_cons, List.map_nil, List.sum_cons, List.sum_nil, Nat.add_zero]
      by_cases he : (parts k).length = 0
      · rw [if_pos he]
        refine ⟨by omega, ?_⟩
        intro w hw
        rw [content_succ, List.eq_nil_of_length_eq_zero he, List.append_nil] at hw
        simpa using i2 w hw
      · rw [if_neg he]
        have hzero : ((List.range k).map fun q => if (parts q).length = 0 then 0 else q).sum = 0 := by
          have hall : ∀ q < k, (parts q).length = 0 := by
            intro q hq
            have h1 := content_length_mono parts (show q + 1 ≤ k by omega)
            rw [content_succ, List.length_append] at h1
            omega
          have : (List.range k).map (fun q => if (parts q).length = 0 then 0 else q) = (List.range k).map fun _ => 0 := by
            apply List.map_congr_left
            intro q hq
            rw [if_pos (hall q (List.mem_range.1 hq))]
          rw [this]
          clear * -
          induction k with
          | zero => rfl
          | succ k ih => rw [List.range_succ, List.map_append, List.sum_append, ih]; rfl
        rw [hzero]
        refine ⟨by omega, ?_⟩
        intro w hw
        rw [content_succ] at hw
        have : content k parts = [] := List.eq_nil_of_length_eq_zero (by omega)
        rw [this, List.nil_append] at hw
        simpa using hw
  unfold castScalar
  rw [if_neg (by decide)]
  by_cases hP1 : P ≤ 1
  · have : P = 1 := by omega
    subst this
    rw [if_pos (Or.inr (by omega))]
    have : r = 0 := by omega
    subst this
    have : parts 0 = [v] := by simpa [content] using h
    rw [this]; rfl
  · rw [if_neg (by rintro (h | h); cases h; omega)]
    have := (key P (by rw [h]; exact Nat.le_refl 1)).2 v h
    show Except.ok (parts _).head? = _
    rw [this]; rfl

/-- C47.  A replicated one-element array. -/
theorem cast_replicated (P : Nat) (parts : Nat → List α) (v : α) (r : Nat) (h : parts r = [v]) : castScalar P 1 false parts r = .ok (some v) := by
  unfold castScalar
  rw [if_neg (by decide), if_pos (Or.inl rfl), h]; rfl

/-- C47.  Any other number of elements is a TypeError. -/
theorem cast_invalid (P n : Nat) (dist : Bool) (parts : Nat → List α) (r : Nat) (h : n ≠ 1) : castScalar P n dist parts r = .error .typeError := by
  unfold castScalar; rw [if_pos h]

example : content 4 (fun r => if r = 2 then [5] else []) = [5] := by rfl

/-! ## C44 where -/

/-- A finite number. -/
def Fl.isFin : Fl → Bool
  | .fin _ => true
  | _ => false

/-- C44.  For a condition with values 0 and 1 and finite values where they are *not* selected, `where(cond, x, y)` is `x` where the condition
is true and `y` elsewhere. -/
theorem where_spec_partial (c x y : Fl) (hc : c = .fin 0 ∨ c = .fin 1) (hx : c = .fin 0 → x.isFin) (hy : c = .fin 1 → y.isFin) :
    whereElem c x y = if c ≠ .fin 0 then x else y := by
  rcases hc with h | h <;> subst h
  · have hx' := hx rfl
    cases x <;> simp only [Fl.isFin, Bool.false_eq_true] at hx'
    cases y <;> simp [whereElem, Fl.mul, Fl.add]
  · have hy' := hy rfl
    cases y <;> simp only [Fl.isFin, Bool.false_eq_true] at hy'
    cases x <;> simp [whereElem, Fl.mul, Fl.add]

/-- C44 fails for conditions that are true but not 1: the value is multiplied by the condition. -/
theorem where_nonbool_violated : whereElem (.fin 2) (.fin 3) (.fin 5) = .fin 6 := by rfl

/-- C44 fails for a value that is not finite where it is not selected. -/
theorem where_inf_violated : whereElem (.fin 0) .inf (.fin 5) = .nan ∧ whereElem (.fin 1) (.fin 5) .inf = .nan := by decide

/-! ## C43 nonzero -/

theorem indices_nodup : ∀ sh : List Nat, (indices sh).Nodup
  | [] => by simp [indices]
  | n :: sh => by
    unfold indices
    rw [List.nodup_flatMap]
    refine ⟨fun i _ => (indices_nodup sh).map (fun a b h => by injection h), ?_⟩
    refine List.Pairwise.imp ?_ (List.nodup_range (n := n))
    intro a b hne l h1 h2
    obtain ⟨l1, _, rfl⟩ := List.mem_map.1 h1
    obtain ⟨l2, _, h⟩ := List.mem_map.1 h2
    injection h with h _
    exact hne h.symm

theorem addAt_getD (s off : Nat) (l : List Nat) (hs : s < l.length) (k : Nat) : (addAt s off l).getD k 0 = shift s off (fun k => l.getD k 0) k := by
  unfold addAt shift
  by_cases h : k = s
  · subst h; simp [List.getD_eq_getElem?_getD, hs]
  · simp only [h, if_false, List.getD_eq_getElem?_getD]
    rw [List.getElem?_set_ne (by omega)]

theorem addAt_inj (s off : Nat) (a b : List Nat) (ha : s < a.length) (hb : s < b.length) (h : addAt s off a = addAt s off b) : a = b := by
  have hl : a.length = b.length := by simpa [addAt] using congrArg List.length h
  apply List.ext_getElem hl
  intro k h1 h2
  have := congrArg (fun l => l.getD k 0) h
  simp only [addAt_getD s off a ha, addAt_getD s off b hb] at this
  simp only [shift, List.getD_eq_getElem?_getD, List.getElem?_eq_getElem h1, List.getElem?_eq_getElem h2, Option.getD_some] at this
  split at this <;> omega

/-- Membership in the positions of the elements with `p`. -/
theorem mem_positions (p : α → Bool) (G : NArr α) (l : List Nat) :
    l ∈ positions p G ↔ l.length = G.ndim ∧ (∀ k < G.ndim, l.getD k 0 < G.dim k) ∧ p (G.get fun k => l.getD k 0) = true := by
  unfold positions
  rw [List.mem_filter, mem_indices, shape_length, and_assoc]
  constructor
  · rintro ⟨h1, h2, h3⟩
    exact ⟨h1, fun k hk => by rw [← shape_getD G k hk]; exact h2 k hk, h3⟩
  · rintro ⟨h1, h2, h3⟩
    exact ⟨h1, fun k hk => by rw [shape_getD G k hk]; exact h2 k hk, h3⟩

theorem nodup_filter' {β : Type} {l : List β} (q : β → Bool) (h : l.Nodup) : (l.filter q).Nodup := List.Nodup.filter q h

/-- The lists of positions of the ranks. -/
theorem mem_nonzeroLocal {P : Nat} {x : DND α} {G : NArr α} (h : Rep P x G) (p : α → Bool) (s : Nat) (hs : x.split = some s)
    (hb : BalancedND P x G s) (r : Nat) (hr : r < P) (l : List Nat) :
    l ∈ nonzeroLocal P p x r ↔ l ∈ positions p G ∧ axisStart x.loc s r ≤ l.getD s 0 ∧ l.getD s 0 < axisStart x.loc s (r + 1) := by
  obtain ⟨hG, h1, h2, h3, h4⟩ := h
  rw [hs] at h4
  obtain ⟨hs1, hs2, hs3⟩ := h4
  obtain ⟨d, e⟩ := hs3 r hr
  have hst : (chunkRange (x.gshape.getD s 0) r P).1 = axisStart x.loc s r := by
    rw [h2 s hs1, axisStart_even x.loc s (G.dim s) P hb r (by omega)]
  have hsucc := axisStart_succ x.loc s r
  have hle := axisStart_mono x.loc s (show r + 1 ≤ P by omega)
  unfold nonzeroLocal
  simp only [hs, hst]
  rw [List.mem_map]
  constructor
  · rintro ⟨a, ha, rfl⟩
    obtain ⟨a1, a2, a3⟩ := (mem_positions p _ _).1 ha
    rw [h3 r hr] at a1 a2
    have hsl : s < a.length := by omega
    have hget : (fun k => (addAt s (axisStart x.loc s r) a).getD k 0) = shift s (axisStart x.loc s r) fun k => a.getD k 0 := by
      funext k; exact addAt_getD s _ a hsl k
    have has := a2 s hs1
    refine ⟨(mem_positions p G _).2 ⟨by simpa [addAt] using a1, ?_, ?_⟩, ?_, ?_⟩
    · intro k hk
      rw [addAt_getD s _ a hsl]
      unfold shift
      by_cases hks : k = s
      · subst hks; simp only [if_true]; omega
      · simp only [hks, if_false]
        rw [← d k hk hks]; exact a2 k hk
    · rw [hget, ← e]
      · exact a3
      · intro k hk; rw [h3 r hr] at hk; exact a2 k hk
    · rw [addAt_getD s _ a hsl]; simp [shift]
    · rw [addAt_getD s _ a hsl]; simp only [shift, if_true]; omega
  · rintro ⟨hl, hlo, hhi⟩
    obtain ⟨l1, l2, l3⟩ := (mem_positions p _ _).1 hl
    have hsl : s < l.length := by omega
    have hseta : ∀ k, (l.set s (l.getD s 0 - axisStart x.loc s r)).getD k 0 = if k = s then l.getD s 0 - axisStart x.loc s r else l.getD k 0 := by
      intro k
      by_cases hk : k = s
      · subst hk; simp [List.getD_eq_getElem?_getD, hsl]
      · simp only [hk, if_false, List.getD_eq_getElem?_getD]
        rw [List.getElem?_set_ne (by omega)]
    have hback : addAt s (axisStart x.loc s r) (l.set s (l.getD s 0 - axisStart x.loc s r)) = l := by
      unfold addAt
      rw [hseta s, if_pos rfl, List.set_set, Nat.sub_add_cancel hlo]
      rw [List.getD_eq_getElem?_getD, List.getElem?_eq_getElem hsl]
      simp
    refine ⟨l.set s (l.getD s 0 - axisStart x.loc s r), (mem_positions p _ _).2 ⟨?_, ?_, ?_⟩, hback⟩
    · rw [List.length_set, h3 r hr]; exact l1
    · intro k hk
      rw [h3 r hr] at hk
      rw [hseta]
      by_cases hks : k = s
      · subst hks; simp only [if_true]; omega
      · simp only [hks, if_false]; rw [d k hk hks]; exact l2 k hk
    · rw [e]
      · rw [← l3]
        congr 2
        funext k
        unfold shift
        simp only [hseta]
        by_cases hks : k = s
        · subst hks; simp only [if_true]; omega
        · simp only [hks, if_false]
      · intro k hk
        rw [h3 r hr] at hk
        show (l.set s _).getD k 0 < _
        rw [hseta]
        by_cases hks : k = s
        · subst hks; simp only [if_true]; omega
        · simp only [hks, if_false]; rw [d k hk hks]; exact l2 k hk

/-- C43.  `nonzero` of an array in its canonical distribution along any axis: the ranks together list every position of a non-zero
element exactly once, and nothing else. -/
theorem nonzero_spec_partial {P : Nat} {x : DND α} {G : NArr α} (h : Rep P x G) (p : α → Bool) (s : Nat) (hs : x.split = some s)
    (hb : BalancedND P x G s) : (content P (nonzeroLocal P p x)).Perm (positions p G) := by
  have hpos : (positions p G).Nodup := nodup_filter' _ (indices_nodup _)
  have hmem := fun r hr l => mem_nonzeroLocal h p s hs hb r hr l
  have hs1 : s < G.ndim := by have h4 := h.2.2.2.2; rw [hs] at h4; exact h4.1
  have htot : axisStart x.loc s P = G.dim s := by have h4 := h.2.2.2.2; rw [hs] at h4; exact h4.2.1
  have hloc : ∀ r < P, (nonzeroLocal P p x r).Nodup := by
    intro r hr
    unfold nonzeroLocal
    simp only [hs]
    apply List.Nodup.map_on _ (nodup_filter' _ (indices_nodup _))
    intro a ha b hb' hab
    have la := ((mem_positions p _ _).1 ha).1
    have lb := ((mem_positions p _ _).1 hb').1
    rw [h.2.2.2.1 r hr] at la lb
    exact addAt_inj s _ a b (by omega) (by omega) hab
  have key : ∀ k ≤ P, (content k (nonzeroLocal P p x)).Nodup ∧
      ∀ l, l ∈ content k (nonzeroLocal P p x) ↔ l ∈ positions p G ∧ l.getD s 0 < axisStart x.loc s k := by
    intro k
    induction k with
    | zero =>
      intro _
      refine ⟨by simp [content_zero], fun l => ?_⟩
      simp [content_zero, axisStart]
    | succ k ih =>
      intro hk
      obtain ⟨i1, i2⟩ := ih (by omega)
      have hmono := axisStart_succ x.loc s k
      rw [content_succ]
      refine ⟨List.nodup_append.2 ⟨i1, hloc k (by omega), ?_⟩, ?_⟩
      · intro a ha b hb' hab
        subst hab
        have h1 := (i2 a).1 ha
        have h2 := (hmem k (by omega) a).1 hb'
        omega
      · intro l
        rw [List.mem_append, i2, hmem k (by omega)]
        constructor
        · rintro (⟨a, b⟩ | ⟨a, _, c⟩)
          · exact ⟨a, by omega⟩
          · exact ⟨a, c⟩
        · rintro ⟨a, b⟩
          by_cases hc : l.getD s 0 < axisStart x.loc s k
          · exact Or.inl ⟨a, hc⟩
          · exact Or.inr ⟨a, by omega, b⟩
  obtain ⟨k1, k2⟩ := key P (Nat.le_refl _)
  rw [List.perm_ext_iff_of_nodup k1 hpos]
  intro l
  rw [k2]
  constructor
  · exact fun h => h.1
  · intro hl
    refine ⟨hl, ?_⟩
    rw [htot]
    exact ((mem_positions p _ _).1 hl).2.1 s hs1

/-- C43.  For an array split along axis 0 (canonical distribution) the positions come in row-major order. -/
theorem nonzero_order_partial {P : Nat} {x : DND α} {G : NArr α} (h : Rep P x G) (p : α → Bool) (hs : x.split = some 0)
    (hb : BalancedND P x G 0) : content P (nonzeroLocal P p x) = positions p G := by
  obtain ⟨hG, h1, h2, h3, h4⟩ := h
  rw [hs] at h4
  obtain ⟨hs1, hs2, hs3⟩ := h4
  have hn : G.ndim ≠ 0 := by omega
  let rest := (List.range (G.ndim - 1)).map fun k => G.dim (k + 1)
  let g : Nat → List (List Nat) := fun i => ((indices rest).map (i :: ·)).filter fun l => p (G.get fun k => l.getD k 0)
  have hloc : ∀ r < P, nonzeroLocal P p x r = (List.range ((x.loc r).dim 0)).flatMap fun i => g (axisStart x.loc 0 r + i) := by
    intro r hr
    obtain ⟨d, e⟩ := hs3 r hr
    have hst : (chunkRange (x.gshape.getD 0 0) r P).1 = axisStart x.loc 0 r := by
      rw [h2 0 hs1, axisStart_even x.loc 0 (G.dim 0) P hb r (by omega)]
    have hrest : ((List.range ((x.loc r).ndim - 1)).map fun k => (x.loc r).dim (k + 1)) = rest := by
      rw [h3 r hr]
      apply List.map_congr_left
      intro k hk
      exact d (k + 1) (by have := List.mem_range.1 hk; omega) (by omega)
    unfold nonzeroLocal positions
    simp only [hs, hst]
    rw [shape_cons _ (by rw [h3 r hr]; exact hn), hrest]
    simp only [indices, List.filter_flatMap, List.map_flatMap]
    apply List.flatMap_congr
    intro i hi
    show _ = g (axisStart x.loc 0 r + i)
    simp only [g, List.filter_map, List.map_map]
    have hfun : ((fun l => addAt 0 (axisStart x.loc 0 r) l) ∘ fun (l : List Nat) => i :: l) = fun l => (axisStart x.loc 0 r + i) :: l := by
      funext l; simp [addAt, Nat.add_comm]
    show List.map ((fun l => addAt 0 (axisStart x.loc 0 r) l) ∘ fun l => i :: l) _ = _
    rw [hfun]
    congr 1
    apply List.filter_congr
    intro l hl
    simp only [Function.comp]
    rw [e]
    · congr 1
      apply hG
      intro k _
      unfold shift
      cases k with
      | zero => simp [Nat.add_comm]
      | succ k => simp
    · intro k hk
      rw [h3 r hr] at hk
      cases k with
      | zero => simpa using hi
      | succ k =>
        have hk' : k < rest.length := by simp [rest]; omega
        have := (mem_indices.1 hl).2 k hk'
        rw [d (k + 1) hk (by omega)]
        simp only [rest, List.getD_eq_getElem?_getD, List.getElem?_map, List.getElem?_range (show k < G.ndim - 1 by omega),
          Option.map_some, Option.getD_some] at this
        simpa [List.getD_eq_getElem?_getD] using this
  rw [content_congr hloc, content_rows, hs2]
  unfold positions
  rw [shape_cons _ hn]
  simp only [indices, List.filter_flatMap, g]
  rfl

/-- C43.  Of an array that is not split, every rank gets all positions in row-major order. -/
theorem nonzero_replicated {P : Nat} {x : DND α} {G : NArr α} (h : Rep P x G) (p : α → Bool) (hs : x.split = none) (r : Nat) (hr : r < P) :
    nonzeroLocal P p x r = positions p G := by
  obtain ⟨hG, h1, h2, h3, h4⟩ := h
  rw [hs] at h4
  obtain ⟨d, e⟩ := h4 r hr
  have hsh : (x.loc r).shape = G.shape := by
    unfold NArr.shape; rw [h3 r hr]
    apply List.map_congr_left
    intro k hk; exact d k (List.mem_range.1 hk)
  unfold nonzeroLocal positions
  simp only [hs, hsh]
  apply List.filter_congr
  intro l hl
  rw [e]
  intro k hk
  rw [h3 r hr] at hk
  have := (mem_indices.1 hl).2 k (by rw [shape_length]; exact hk)
  rw [shape_getD G k hk] at this
  rw [d k hk]; exact this

/-- The vector (0, 0, 7) with two elements on rank 0 of 2, and the same vector with no element on rank 0. -/
def ex007 (m : Nat) : DND Nat := ⟨[3], some 0, fun r => ⟨1, fun _ => if r = 0 then m else 3 - m, fun i => if i 0 + r * m = 2 then 7 else 0⟩, none⟩

example : BalancedND 2 (ex007 2) ⟨1, fun _ => 3, fun i => if i 0 = 2 then 7 else 0⟩ 0 ∧
    content 2 (nonzeroLocal 2 (fun v => v != 0) (ex007 2)) = [[2]] := by
  refine ⟨?_, by decide +kernel⟩
  intro r hr
  have : r = 0 ∨ r = 1 := by omega
  rcases this with h | h <;> subst h <;> rfl

/-- C43 fails for arrays that are not balanced: the only non-zero element is at position 2, reported is a position out of bounds. -/
theorem nonzero_unbalanced_violated : content 2 (nonzeroLocal 2 (fun v => v != 0) (ex007 0)) = [[4]] ∧
    positions (fun v => v != 0) (⟨1, fun _ => 3, fun i => if i 0 = 2 then 7 else 0⟩ : NArr Nat) = [[2]] := by decide +kernel

/-- For a split along axis 1 the order is not row-major (2×2 matrix of ones on 2 ranks). -/
theorem nonzero_order_violated :
    content 2 (nonzeroLocal 2 (fun (v : Nat) => v != 0) (⟨[2, 2], some 1, fun _ => ⟨2, fun k => if k = 0 then 2 else 1, fun _ => 1⟩, some true⟩)) =
      [[0, 0], [1, 0], [0, 1], [1, 1]] := by decide +kernel

/-! ## C40 diagonal -/

theorem diagonal_symm (a : NArr α) (off : Int) {d1 d2 : Nat} (h : d1 ≠ d2) : a.diagonal off d1 d2 = a.diagonal (-off) d2 d1 := by
  have hk : ((List.range a.ndim).filter fun k => k ∉ [d1, d2]) = (List.range a.ndim).filter fun k => k ∉ [d2, d1] := by
    apply List.filter_congr
    intro k _
    simp [and_comm]
  unfold NArr.diagonal
  simp only [hk, Int.neg_neg, NArr.mk.injEq, true_and]
  refine ⟨?_, ?_⟩
  · funext k
    rw [Nat.min_comm]
  · funext idx
    congr 1
    funext k
    by_cases h1 : k = d1
    · subst h1; simp [h]
    · by_cases h2 : k = d2
      · subst h2; simp [h1]
      · simp [h1, h2]

section
variable {n d1 d2 : Nat}

theorem keep2_length (h1 : d1 < n) (h2 : d2 < n) (hne : d1 ≠ d2) : (keepAxes n [d1, d2]).length + 2 = n := by
  have := (keep_perm n [d1, d2] (by simp [hne]) (by intro a ha; simp at ha; omega)).length_eq
  rw [List.length_append, List.length_range] at this
  have h' : ((List.range n).filter fun k => k ∉ [d1, d2]).length = (keepAxes n [d1, d2]).length := rfl
  simp only [List.length_cons, List.length_nil] at this
  omega

theorem keep_strict (gone : List Nat) {i j : Nat} (hij : i < j) (hj : j < (keepAxes n gone).length) :
    (keepAxes n gone).getD i 0 < (keepAxes n gone).getD j 0 := by
  have hp : (keepAxes n gone).Pairwise (· < ·) := List.Pairwise.filter _ List.pairwise_lt_range
  have := List.pairwise_iff_getElem.1 hp i j (by omega) hj hij
  simpa [List.getD_eq_getElem?_getD, List.getElem?_eq_getElem hj, List.getElem?_eq_getElem (show i < (keepAxes n gone).length by omega)] using this

/-- Position of an axis that is neither `d1` nor `d2` in the result. -/
theorem keep2_idxOf {s : Nat} (hne : d1 ≠ d2) (hs : s < n) (h1 : s ≠ d1) (h2 : s ≠ d2) :
    diagonalSplit (some s) n d1 d2 = some ((keepAxes n [d1, d2]).idxOf s) := by
  have h := keepAxes_idxOf (n := n) (gone := [d1, d2]) (by simp [hne]) s hs (by simp [h1, h2])
  unfold diagonalSplit
  by_cases a : d1 < s <;> by_cases b : d2 < s <;> simp [a, b, List.filter_cons] at h ⊢
  · rw [if_neg (by omega), if_neg (by omega), if_pos (by omega)]; congr 1; omega
  · rw [if_neg (by omega), if_pos (by omega)]; congr 1; omega
  · rw [if_neg (by omega), if_pos (by omega)]; congr 1; omega
  · rw [if_pos (by omega)]; congr 1; omega
end

theorem diagonal_isDiagonal (G : NArr α) (hG : Local G) (off : Int) {d1 d2 : Nat} (h1 : d1 < G.ndim) (h2 : d2 < G.ndim) (hne : d1 ≠ d2) :
    IsDiagonal G off d1 d2 (G.diagonal off d1 d2) := by
  have hlen := keep2_length h1 h2 hne
  have hnd : (G.diagonal off d1 d2).ndim = (keepAxes G.ndim [d1, d2]).length + 1 := rfl
  refine ⟨by omega, ?_, (fun k => (keepAxes G.ndim [d1, d2]).getD k 0), ?_, ?_, ?_⟩
  · intro t
    rw [hnd]
    show t < (if (keepAxes G.ndim [d1, d2]).length + 1 - 1 < (keepAxes G.ndim [d1, d2]).length then _ else min (G.dim d1 - (-off).toNat) (G.dim d2 - off.toNat)) ↔ _
    rw [if_neg (by omega)]
    omega
  · intro i j hij hj
    exact keep_strict _ hij (by omega)
  · intro k hk
    have hk' : k < (keepAxes G.ndim [d1, d2]).length := by omega
    have := keepAxes_getD hk'
    simp only [List.mem_cons, List.not_mem_nil, or_false, not_or] at this
    refine ⟨this.1, this.2.1, this.2.2, ?_⟩
    show (if k < (keepAxes G.ndim [d1, d2]).length then _ else _) = _
    rw [if_pos hk']; rfl
  · intro idx hin hd
    rw [hnd, Nat.add_sub_cancel]
    show G.get (fun k => if k = d1 then (if (keepAxes G.ndim [d1, d2]).length = (keepAxes G.ndim [d1, d2]).length then min (idx d1) (idx d2) else _) + (-off).toNat else
      if k = d2 then (if (keepAxes G.ndim [d1, d2]).length = (keepAxes G.ndim [d1, d2]).length then min (idx d1) (idx d2) else _) + off.toNat else
      (if (keepAxes G.ndim [d1, d2]).idxOf k = (keepAxes G.ndim [d1, d2]).length then min (idx d1) (idx d2) else
        idx ((keepAxes G.ndim [d1, d2]).getD ((keepAxes G.ndim [d1, d2]).idxOf k) 0))) = _
    apply hG
    intro k hk
    simp only [if_true]
    by_cases hk1 : k = d1
    · subst hk1; rw [if_pos rfl]; omega
    · rw [if_neg hk1]
      by_cases hk2 : k = d2
      · subst hk2; rw [if_pos rfl]; omega
      · rw [if_neg hk2]
        have hm : k ∈ keepAxes G.ndim [d1, d2] := keepAxes_mem.2 ⟨hk, by simp [hk1, hk2]⟩
        have := List.idxOf_lt_length_of_mem hm
        rw [if_neg (by omega), idxOf_getD hm]

/-- Elements of the diagonal depend only on existing axes. -/
theorem diagonal_local (G : NArr α) (hG : Local G) (off : Int) (d1 d2 : Nat) : Local (G.diagonal off d1 d2) := by
  intro i j hij
  have hnd : (G.diagonal off d1 d2).ndim = (keepAxes G.ndim [d1, d2]).length + 1 := rfl
  rw [hnd] at hij
  apply hG
  intro k _
  have e1 : i (keepAxes G.ndim [d1, d2]).length = j (keepAxes G.ndim [d1, d2]).length := hij _ (by omega)
  have e2 : i ((keepAxes G.ndim [d1, d2]).idxOf k) = j ((keepAxes G.ndim [d1, d2]).idxOf k) :=
    hij _ (Nat.lt_succ_of_le List.idxOf_le_length)
  show (if k = d1 then i (keepAxes G.ndim [d1, d2]).length + _ else if k = d2 then i (keepAxes G.ndim [d1, d2]).length + _ else i ((keepAxes G.ndim [d1, d2]).idxOf k)) =
    (if k = d1 then j (keepAxes G.ndim [d1, d2]).length + _ else if k = d2 then j (keepAxes G.ndim [d1, d2]).length + _ else j ((keepAxes G.ndim [d1, d2]).idxOf k))
  rw [e1, e2]

theorem isSplitShape_length (P : Nat) (loc : Nat → NArr α) (split : Option Nat) : (isSplitShape P loc split).length = (loc 0).ndim := by
  simp [isSplitShape]

theorem isSplitShape_getD (P : Nat) (loc : Nat → NArr α) (split : Option Nat) (k : Nat) (hk : k < (loc 0).ndim) :
    (isSplitShape P loc split).getD k 0 = if split = some k then axisStart loc k P else (loc 0).dim k := by
  simp [isSplitShape, List.getD_eq_getElem?_getD, hk]

/-- Diagonal over two axes, none of which is the split axis. -/
theorem rep_diagonal_other {P : Nat} (hP : 0 < P) {x : DND α} {G : NArr α} (h : Rep P x G) (off : Int) {d1 d2 : Nat} (h1 : d1 < G.ndim) (h2 : d2 < G.ndim)
    (hne : d1 ≠ d2) (hs : ∀ s, x.split = some s → s ≠ d1 ∧ s ≠ d2) (b : Option Bool) :
    Rep P ⟨isSplitShape P (fun r => (x.loc r).diagonal off d1 d2) (diagonalSplit x.split G.ndim d1 d2),
      diagonalSplit x.split G.ndim d1 d2, fun r => (x.loc r).diagonal off d1 d2, b⟩ (G.diagonal off d1 d2) := by
  obtain ⟨hG, g1, g2, g3, g4⟩ := h
  have hlen := keep2_length h1 h2 hne
  have hkeep : ∀ r < P, ((List.range (x.loc r).ndim).filter fun k => k ∉ [d1, d2]) = keepAxes G.ndim [d1, d2] := by
    intro r hr; rw [g3 r hr]; rfl
  have hnd : (G.diagonal off d1 d2).ndim = (keepAxes G.ndim [d1, d2]).length + 1 := rfl
  have hndl : ∀ r < P, ((x.loc r).diagonal off d1 d2).ndim = (keepAxes G.ndim [d1, d2]).length + 1 := by
    intro r hr
    show ((List.range (x.loc r).ndim).filter fun k => k ∉ [d1, d2]).length + 1 = _
    rw [hkeep r hr]
  have hdl : ∀ r < P, ∀ k, ((x.loc r).diagonal off d1 d2).dim k = if k < (keepAxes G.ndim [d1, d2]).length then (x.loc r).dim ((keepAxes G.ndim [d1, d2]).getD k 0)
      else min ((x.loc r).dim d1 - (-off).toNat) ((x.loc r).dim d2 - off.toNat) := by
    intro r hr k
    simp only [NArr.diagonal, hkeep r hr]
  have hdg : ∀ k, (G.diagonal off d1 d2).dim k = if k < (keepAxes G.ndim [d1, d2]).length then G.dim ((keepAxes G.ndim [d1, d2]).getD k 0)
      else min (G.dim d1 - (-off).toNat) (G.dim d2 - off.toNat) := fun k => rfl
  let emb : (Nat → Nat) → Nat → Nat := fun idx k => if k = d1 then idx (keepAxes G.ndim [d1, d2]).length + (-off).toNat
    else if k = d2 then idx (keepAxes G.ndim [d1, d2]).length + off.toNat else idx ((keepAxes G.ndim [d1, d2]).idxOf k)
  have hgl : ∀ r < P, ∀ idx, ((x.loc r).diagonal off d1 d2).get idx = (x.loc r).get (emb idx) := by
    intro r hr idx
    simp only [NArr.diagonal, hkeep r hr, emb]
  have hgg : ∀ idx, (G.diagonal off d1 d2).get idx = G.get (emb idx) := fun idx => rfl
  have hidx : ∀ k, k < G.ndim → k ≠ d1 → k ≠ d2 → (keepAxes G.ndim [d1, d2]).idxOf k < (keepAxes G.ndim [d1, d2]).length ∧
      (keepAxes G.ndim [d1, d2]).getD ((keepAxes G.ndim [d1, d2]).idxOf k) 0 = k := by
    intro k hk ha hb
    have hm : k ∈ keepAxes G.ndim [d1, d2] := keepAxes_mem.2 ⟨hk, by simp [ha, hb]⟩
    exact ⟨List.idxOf_lt_length_of_mem hm, idxOf_getD hm⟩
  have hin : ∀ r < P, ∀ idx, InB ((x.loc r).diagonal off d1 d2) idx → InB (x.loc r) (emb idx) := by
    intro r hr idx hi k hk
    rw [g3 r hr] at hk
    simp only [emb]
    have hlast := hi (keepAxes G.ndim [d1, d2]).length (by rw [hndl r hr]; omega)
    rw [hdl r hr, if_neg (by omega)] at hlast
    by_cases a : k = d1
    · rw [if_pos a]; subst a; omega
    · rw [if_neg a]
      by_cases b : k = d2
      · rw [if_pos b]; subst b; omega
      · rw [if_neg b]
        obtain ⟨k1, k2⟩ := hidx k hk a b
        have := hi _ (by rw [hndl r hr]; omega : (keepAxes G.ndim [d1, d2]).idxOf k < _)
        rw [hdl r hr, if_pos k1, k2] at this
        exact this
  refine ⟨diagonal_local G hG off d1 d2, ?_, ?_, ?_, ?_⟩
  · show (isSplitShape P _ _).length = _
    rw [isSplitShape_length, hndl 0 hP, hnd]
  · intro k hk
    show (isSplitShape P _ _).getD k 0 = _
    rw [hnd] at hk
    rw [isSplitShape_getD _ _ _ _ (by rw [hndl 0 hP]; exact hk), hdg]
    cases hsp : x.split with
    | none =>
      rw [hsp] at g4
      rw [if_neg (by simp [diagonalSplit]), hdl 0 hP]
      split
      · rename_i hk'
        exact (g4 0 hP).1 _ (keepAxes_getD hk').1
      · rw [(g4 0 hP).1 d1 h1, (g4 0 hP).1 d2 h2]
    | some s =>
      rw [hsp] at g4
      obtain ⟨s1, s2⟩ := hs s hsp
      rw [keep2_idxOf hne g4.1 s1 s2]
      obtain ⟨i1, i2⟩ := hidx s g4.1 s1 s2
      by_cases hk' : (keepAxes G.ndim [d1, d2]).idxOf s = k
      · rw [if_pos (by rw [hk']), if_pos (by omega), ← hk', i2, ← g4.2.1]
        unfold axisStart
        congr 1
        apply List.map_congr_left
        intro q hq
        rw [hdl q (List.mem_range.1 hq), if_pos i1, i2]
      · rw [if_neg (by simpa using hk'), hdl 0 hP]
        split
        · rename_i hk''
          refine (g4.2.2 0 hP).1 _ (keepAxes_getD hk'').1 ?_
          intro he
          apply hk'
          rw [← he, idxOf_of_getD (keepAxes_nodup _ _) hk'']
        · rw [(g4.2.2 0 hP).1 d1 h1 (Ne.symm s1), (g4.2.2 0 hP).1 d2 h2 (Ne.symm s2)]
  · intro r hr; rw [hnd]; exact hndl r hr
  · cases hsp : x.split with
    | none =>
      rw [hsp] at g4
      show ∀ r < P, _
      intro r hr
      obtain ⟨d, e⟩ := g4 r hr
      refine ⟨?_, ?_⟩
      · intro k hk
        show ((x.loc r).diagonal off d1 d2).dim k = _
        rw [hdl r hr, hdg]
        split
        · rename_i hk'
          exact d _ (keepAxes_getD hk').1
        · rw [d d1 h1, d d2 h2]
      · intro idx hi
        show ((x.loc r).diagonal off d1 d2).get idx = _
        rw [hgl r hr, hgg, e _ (hin r hr idx hi)]
    | some s =>
      rw [hsp] at g4
      obtain ⟨s1, s2⟩ := hs s hsp
      obtain ⟨i1, i2⟩ := hidx s g4.1 s1 s2
      rw [keep2_idxOf hne g4.1 s1 s2]
      have hax : ∀ r ≤ P, axisStart (fun r => (x.loc r).diagonal off d1 d2) ((keepAxes G.ndim [d1, d2]).idxOf s) r = axisStart x.loc s r := by
        intro r hr
        unfold axisStart
        congr 1
        apply List.map_congr_left
        intro q hq
        rw [hdl q (by have := List.mem_range.1 hq; omega), if_pos i1, i2]
      refine ⟨by rw [hnd]; omega, ?_, ?_⟩
      · rw [hax P (Nat.le_refl _), g4.2.1, hdg, if_pos i1, i2]
      · intro r hr
        obtain ⟨d, e⟩ := g4.2.2 r hr
        refine ⟨?_, ?_⟩
        · intro k hk hks
          show ((x.loc r).diagonal off d1 d2).dim k = _
          rw [hdl r hr, hdg]
          split
          · rename_i hk'
            refine d _ (keepAxes_getD hk').1 ?_
            intro he
            apply hks
            rw [← he, idxOf_of_getD (keepAxes_nodup _ _) hk']
          · rw [d d1 h1 (Ne.symm s1), d d2 h2 (Ne.symm s2)]
        · intro idx hi
          show ((x.loc r).diagonal off d1 d2).get idx = _
          rw [hax r (by omega), hgl r hr, hgg, e _ (hin r hr idx hi)]
          apply hG
          intro k hk
          simp only [shift, emb]
          have hlast : (keepAxes G.ndim [d1, d2]).length ≠ (keepAxes G.ndim [d1, d2]).idxOf s := by omega
          by_cases a : k = d1
          · subst a; rw [if_neg (Ne.symm s1), if_pos rfl, if_pos rfl, if_neg hlast]
          · by_cases b : k = d2
            · subst b; rw [if_neg (Ne.symm s2), if_neg a, if_pos rfl, if_neg a, if_pos rfl, if_neg hlast]
            · rw [if_neg a, if_neg b, if_neg a, if_neg b]
              by_cases c : k = s
              · subst c; rw [if_pos rfl, if_pos rfl]
              · rw [if_neg c, if_neg]
                intro he
                apply c
                rw [← (hidx k hk a b).2, he, i2]

/-- Diagonal over the split axis `d1` and another axis `d2`, canonical distribution. -/
theorem rep_diagonal_split {P : Nat} (hP : 0 < P) {x : DND α} {G : NArr α} (h : Rep P x G) (off : Int) {d1 d2 : Nat} (h1 : d1 < G.ndim) (h2 : d2 < G.ndim)
    (hne : d1 ≠ d2) (hs : x.split = some d1) (loc : Nat → NArr α)
    (hloc : ∀ r < P, loc r = (x.loc r).diagonal (off + (axisStart x.loc d1 r : Int)) d1 d2) (b : Option Bool) :
    Rep P ⟨isSplitShape P loc (some (G.ndim - 2)), some (G.ndim - 2), loc, b⟩ (G.diagonal off d1 d2) := by
  obtain ⟨hG, g1, g2, g3, g4⟩ := h
  rw [hs] at g4
  obtain ⟨_, htot, g5⟩ := g4
  have hlen := keep2_length h1 h2 hne
  have hkeep : ∀ r < P, ((List.range (x.loc r).ndim).filter fun k => k ∉ [d1, d2]) = keepAxes G.ndim [d1, d2] := by
    intro r hr; rw [g3 r hr]; rfl
  have hK : G.ndim - 2 = (keepAxes G.ndim [d1, d2]).length := by omega
  rw [hK]
  have hnd : (G.diagonal off d1 d2).ndim = (keepAxes G.ndim [d1, d2]).length + 1 := rfl
  have hndl : ∀ r < P, (loc r).ndim = (keepAxes G.ndim [d1, d2]).length + 1 := by
    intro r hr
    rw [hloc r hr]
    show ((List.range (x.loc r).ndim).filter fun k => k ∉ [d1, d2]).length + 1 = _
    rw [hkeep r hr]
  have hdl : ∀ r < P, ∀ k, (loc r).dim k = if k < (keepAxes G.ndim [d1, d2]).length then G.dim ((keepAxes G.ndim [d1, d2]).getD k 0)
      else min ((x.loc r).dim d1 - (-(off + (axisStart x.loc d1 r : Int))).toNat) (G.dim d2 - (off + (axisStart x.loc d1 r : Int)).toNat) := by
    intro r hr k
    rw [hloc r hr]
    simp only [NArr.diagonal, hkeep r hr]
    rw [(g5 r hr).1 d2 h2 (Ne.symm hne)]
    split
    · rename_i hk
      have := keepAxes_getD hk
      refine (g5 r hr).1 _ this.1 ?_
      intro he
      exact this.2 (by rw [he]; simp)
    · rfl
  have hdg : ∀ k, (G.diagonal off d1 d2).dim k = if k < (keepAxes G.ndim [d1, d2]).length then G.dim ((keepAxes G.ndim [d1, d2]).getD k 0)
      else min (G.dim d1 - (-off).toNat) (G.dim d2 - off.toNat) := fun k => rfl
  have hgl : ∀ r < P, ∀ idx, (loc r).get idx = (x.loc r).get fun k =>
      if k = d1 then idx (keepAxes G.ndim [d1, d2]).length + (-(off + (axisStart x.loc d1 r : Int))).toNat
      else if k = d2 then idx (keepAxes G.ndim [d1, d2]).length + (off + (axisStart x.loc d1 r : Int)).toNat else idx ((keepAxes G.ndim [d1, d2]).idxOf k) := by
    intro r hr idx
    rw [hloc r hr]
    simp only [NArr.diagonal, hkeep r hr]
  have hax : ∀ r ≤ P, axisStart loc (keepAxes G.ndim [d1, d2]).length r =
      min (axisStart x.loc d1 r) ((G.dim d2 : Int) - off).toNat - (-off).toNat := by
    intro r
    induction r with
    | zero => intro _; simp [axisStart]
    | succ r ih =>
      intro hr
      rw [axisStart_succ, ih (by omega), axisStart_succ, hdl r (by omega), if_neg (by omega)]
      omega
  refine ⟨diagonal_local G hG off d1 d2, ?_, ?_, ?_, ?_⟩
  · show (isSplitShape P _ _).length = _
    rw [isSplitShape_length, hndl 0 hP, hnd]
  · intro k hk
    show (isSplitShape P _ _).getD k 0 = _
    rw [hnd] at hk
    rw [isSplitShape_getD _ _ _ _ (by rw [hndl 0 hP]; exact hk), hdg]
    by_cases hk' : k < (keepAxes G.ndim [d1, d2]).length
    · rw [if_neg (by simp; omega), if_pos hk', hdl 0 hP, if_pos hk']
    · have : k = (keepAxes G.ndim [d1, d2]).length := by omega
      subst this
      rw [if_pos rfl, if_neg hk', hax P (Nat.le_refl _), htot]
      omega
  · intro r hr; rw [hnd]; exact hndl r hr
  · refine ⟨by rw [hnd]; omega, ?_, ?_⟩
    · rw [hdg, if_neg (by omega), hax P (Nat.le_refl _), htot]
      omega
    · intro r hr
      refine ⟨?_, ?_⟩
      · intro k hk hks
        show (loc r).dim k = _
        have hk' : k < (keepAxes G.ndim [d1, d2]).length := by rw [hnd] at hk; omega
        rw [hdl r hr, hdg, if_pos hk', if_pos hk']
      · intro idx hi
        have hlast := hi (keepAxes G.ndim [d1, d2]).length (by show _ < (loc r).ndim; rw [hndl r hr]; omega)
        rw [show (DND.loc ⟨isSplitShape P loc (some (keepAxes G.ndim [d1, d2]).length), some (keepAxes G.ndim [d1, d2]).length, loc, b⟩ r) = loc r from rfl,
          hdl r hr, if_neg (by omega)] at hlast
        show (loc r).get idx = _
        rw [hgl r hr, hax r (by omega), (g5 r hr).2]
        · show _ = G.get _
          apply hG
          intro k hk
          show _ = (if k = d1 then shift (keepAxes G.ndim [d1, d2]).length (min (axisStart x.loc d1 r) ((G.dim d2 : Int) - off).toNat - (-off).toNat) idx
                (keepAxes G.ndim [d1, d2]).length + (-off).toNat else
            if k = d2 then shift (keepAxes G.ndim [d1, d2]).length (min (axisStart x.loc d1 r) ((G.dim d2 : Int) - off).toNat - (-off).toNat) idx
                (keepAxes G.ndim [d1, d2]).length + off.toNat else
            shift (keepAxes G.ndim [d1, d2]).length (min (axisStart x.loc d1 r) ((G.dim d2 : Int) - off).toNat - (-off).toNat) idx
                ((keepAxes G.ndim [d1, d2]).idxOf k))
          simp only [shift, if_true]
          by_cases a : k = d1
          · simp only [a, if_true]; omega
          · by_cases c : k = d2
            · simp only [c, if_true]; rw [if_neg (Ne.symm hne), if_neg (Ne.symm hne), if_neg (Ne.symm hne)]; omega
            · have hm : k ∈ keepAxes G.ndim [d1, d2] := keepAxes_mem.2 ⟨hk, by simp [a, c]⟩
              have hlt := List.idxOf_lt_length_of_mem hm
              rw [if_neg a, if_neg a, if_neg c, if_neg a, if_neg c, if_neg (by omega)]
        · intro k hk
          rw [g3 r hr] at hk
          by_cases a : k = d1
          · simp only [a, if_true]; omega
          · by_cases c : k = d2
            · simp only [c, if_true]; rw [if_neg (Ne.symm hne), (g5 r hr).1 d2 h2 (Ne.symm hne)]; omega
            · have hm : k ∈ keepAxes G.ndim [d1, d2] := keepAxes_mem.2 ⟨hk, by simp [a, c]⟩
              have hlt := List.idxOf_lt_length_of_mem hm
              have := hi ((keepAxes G.ndim [d1, d2]).idxOf k) (by show _ < (loc r).ndim; rw [hndl r hr]; omega)
              rw [show (DND.loc ⟨isSplitShape P loc (some (keepAxes G.ndim [d1, d2]).length), some (keepAxes G.ndim [d1, d2]).length, loc, b⟩ r) = loc r from rfl,
                hdl r hr, if_pos hlt, idxOf_getD hm] at this
              simp only [a, c, if_false]
              rw [(g5 r hr).1 k hk a]; exact this

/-- C40.  `diagonal(a, offset, dim1, dim2)` represents the diagonal of the array, in order, for every shape, offset and pair of different axes
(negative numbers count from the end), not split, split along another axis in any distribution, or split along one of the two axes
in the canonical distribution. -/
theorem diagonal_spec_partial {P : Nat} (hP : 0 < P) {x : DND α} {G : NArr α} (h : Rep P x G) (off : Int) (dim1 dim2 : Int) (d1 d2 : Nat)
    (h1 : d1 < G.ndim) (h2 : d2 < G.ndim) (hne : d1 ≠ d2) (e1 : dim1 = d1 ∨ dim1 = d1 - (G.ndim : Int)) (e2 : dim2 = d2 ∨ dim2 = d2 - (G.ndim : Int))
    (hb : x.split = some d1 ∨ x.split = some d2 → ∀ s, x.split = some s → BalancedND P x G s) :
    ∃ y T, diagonal P x off dim1 dim2 = .ok y ∧ Rep P y T ∧ IsDiagonal G off d1 d2 T := by
  have hlen : x.gshape.length = G.ndim := h.2.1
  have hmod : ∀ (d : Nat) (i : Int), d < G.ndim → (i = d ∨ i = d - (G.ndim : Int)) → (i % (G.ndim : Int)).toNat = d := by
    intro d i hd hi
    have hm : i % (G.ndim : Int) = d := by
      rcases hi with hi | hi
      · rw [hi]; exact Int.emod_eq_of_lt (by omega) (by omega)
      · rw [hi, Int.sub_emod_right]; exact Int.emod_eq_of_lt (by omega) (by omega)
    rw [hm]; simp
  have hsan : sanitizeAxes x.gshape.length [dim1, dim2] = .ok (some [d1, d2]) := by
    rw [hlen, sanitizeAxes_complete (by omega) (by intro a ha; simp at ha; omega)]
    simp only [List.map_cons, List.map_nil]
    rw [hmod d1 dim1 h1 e1, hmod d2 dim2 h2 e2]
  have hsp : ∀ s, x.split = some s → s < G.ndim ∧ axisStart x.loc s P = G.dim s := by
    intro s hs; have := h.2.2.2.2; rw [hs] at this; exact ⟨this.1, this.2.1⟩
  unfold diagonal
  rw [hsan]
  simp only [hne, if_false]
  refine ⟨_, G.diagonal off d1 d2, rfl, ?_, diagonal_isDiagonal G h.1 off h1 h2 hne⟩
  rw [hlen]
  by_cases hc1 : x.split = some d1
  · have hloc : ∀ r < P, (x.loc r).diagonal (diagonalOffset P x.gshape x.split off d1 d2 r) d1 d2 =
        (x.loc r).diagonal (off + (axisStart x.loc d1 r : Int)) d1 d2 := by
      intro r hr
      simp only [hc1, diagonalOffset, if_true]
      rw [h.2.2.1 d1 h1, axisStart_even x.loc d1 (G.dim d1) P (hb (Or.inl hc1) d1 hc1) r (by omega)]
    have hds : diagonalSplit x.split G.ndim d1 d2 = some (G.ndim - 2) := by
      simp only [hc1, diagonalSplit]
      rw [if_neg (by omega), if_neg (by omega), if_neg (by omega)]
    rw [hds]
    exact rep_diagonal_split hP h off h1 h2 hne hc1 _ hloc none
  · by_cases hc2 : x.split = some d2
    · have hloc : ∀ r < P, (x.loc r).diagonal (diagonalOffset P x.gshape x.split off d1 d2 r) d1 d2 =
          (x.loc r).diagonal (-off + (axisStart x.loc d2 r : Int)) d2 d1 := by
        intro r hr
        rw [diagonal_symm _ _ hne]
        simp only [hc2, diagonalOffset, if_true, if_neg (Ne.symm hne)]
        rw [h.2.2.1 d2 h2, axisStart_even x.loc d2 (G.dim d2) P (hb (Or.inr hc2) d2 hc2) r (by omega)]
        congr 1
        omega
      have hds : diagonalSplit x.split G.ndim d1 d2 = some (G.ndim - 2) := by
        simp only [hc2, diagonalSplit]
        rw [if_neg (by omega), if_neg (by omega), if_neg (by omega)]
      rw [hds, diagonal_symm G off hne]
      exact rep_diagonal_split hP h (-off) h2 h1 (Ne.symm hne) hc2 _ hloc none
    · have hloc : (fun r => (x.loc r).diagonal (diagonalOffset P x.gshape x.split off d1 d2 r) d1 d2) = fun r => (x.loc r).diagonal off d1 d2 := by
        funext r
        cases hs : x.split with
        | none => rfl
        | some s =>
          simp only [diagonalOffset]
          rw [if_neg (by rintro rfl; exact hc1 hs), if_neg (by rintro rfl; exact hc2 hs)]
      rw [hloc]
      exact rep_diagonal_other hP h off h1 h2 hne (by
        intro s hs
        exact ⟨by rintro rfl; exact hc1 hs, by rintro rfl; exact hc2 hs⟩) none

/-- C40.  Equal axes are rejected. -/
theorem diagonal_equal_axes (P : Nat) (x : DND α) (off : Int) (d : Nat) (hd : d < x.gshape.length) : diagonal P x off d d = .error .valueError := by
  unfold diagonal
  rw [sanitizeAxes_complete (by omega) (by intro a ha; simp at ha; omega)]
  simp

/-- C40 holds with offset 1 for a matrix split evenly along the columns: rank 0 has 1 element, rank 1 the two others. -/
example : (diagonal 2 (⟨[4, 4], some 1, fun r => ⟨2, fun k => if k = 0 then 4 else 2, fun i => 10 * i 0 + i 1 + 2 * r⟩, some true⟩ : DND Nat) 1 0 1).map
    (fun y => (y.gshape, y.split, (y.loc 0).flat, (y.loc 1).flat)) = .ok ([3], some 0, [1], [12, 23]) := by decide +kernel

/-- C40 fails for arrays that are not balanced: with the rows of the 4×4 matrix (10·i+j) distributed 0 + 4, rank 1 takes its diagonal two columns
too far to the right and the result is (2, 13) instead of (0, 11, 22, 33). -/
theorem diagonal_unbalanced_violated :
    (diagonal 2 (⟨[4, 4], some 0, fun r => ⟨2, fun k => if k = 0 then 4 * r else 4, fun i => 10 * i 0 + i 1⟩, some false⟩ : DND Nat) 0 0 1).map
      (fun y => (y.gshape, (y.loc 0).flat, (y.loc 1).flat)) = .ok ([2], [], [2, 13]) := by decide +kernel

/-! ## C40 diag of a vector -/

theorem diagVec_entry (P : Nat) (hP : 0 < P) (zero : α) (dist : Bool) (v pad : List α) (off : Int) (hp : pad.length = off.natAbs) (r : Nat) (hr : r < P) :
    ∃ a, diagVec P zero dist v pad off r = some a ∧ a.ndim = 2 ∧
      a.dim 0 = (if dist then evenSize (v.length + off.natAbs) P r else v.length + off.natAbs) ∧ a.dim 1 = v.length + off.natAbs ∧
      ∀ idx, InB a idx → a.get idx =
        if (idx 1 : Int) = (idx 0 + (if dist then (chunkRange (v.length + off.natAbs) r P).1 else 0) : Nat) + off then
          v.getD (min (idx 0 + (if dist then (chunkRange (v.length + off.natAbs) r P).1 else 0)) (idx 1)) zero else zero := by
  have hc : ∃ c0 rows, (if dist then chunkRange (v.length + off.natAbs) r P else (0, v.length + off.natAbs)) = (c0, c0 + rows) ∧
      c0 + rows ≤ v.length + off.natAbs ∧ rows = (if dist then evenSize (v.length + off.natAbs) P r else v.length + off.natAbs) ∧
      c0 = (if dist then (chunkRange (v.length + off.natAbs) r P).1 else 0) := by
    cases dist with
    | false => exact ⟨0, v.length + off.natAbs, by simp, by simp, rfl, rfl⟩
    | true =>
      refine ⟨(chunkRange (v.length + off.natAbs) r P).1, evenSize (v.length + off.natAbs) P r, ?_, ?_, rfl, rfl⟩
      · simp only [if_true]
        rw [← chunkRange_snd]
      · have := chunkRange_mono (v.length + off.natAbs) P (show r + 1 ≤ P by omega)
        rw [chunkRange_at_P _ _ hP, chunkRange_succ, chunkRange_snd] at this
        exact this
  obtain ⟨c0, rows, e1, e2, e3, e4⟩ := hc
  unfold diagVec
  simp only [e1, Nat.add_sub_cancel_left, ← e3, ← e4]
  have hpl : (if off > 0 then v ++ pad else if off < 0 then pad ++ v else v).length = v.length + off.natAbs := by
    split
    · rw [List.length_append, hp]
    · split
      · rw [List.length_append, hp]; omega
      · omega
  have hll : (((if off > 0 then v ++ pad else if off < 0 then pad ++ v else v).take (c0 + rows)).drop c0).length = rows := by
    rw [List.length_drop, List.length_take, hpl]; omega
  rw [hll, if_pos (by split <;> omega)]
  refine ⟨_, rfl, rfl, rfl, rfl, ?_⟩
  intro idx hin
  have i0 : idx 0 < rows := hin 0 (by decide : (0 : Nat) < 2)
  have i1 : idx 1 < v.length + off.natAbs := hin 1 (by decide : (1 : Nat) < 2)
  show (if _ ∧ _ ∧ _ then _ else zero) = _
  have hiff : ((if off < 0 then max 0 (min ((off.natAbs : Int) - c0) rows) else 0) ≤ (idx 0 : Int) ∧
      (idx 0 : Int) < (if off > 0 then min (rows : Int) (max (((v.length + off.natAbs : Nat) : Int) - c0 - off) 0) else rows) ∧
      (idx 1 : Int) = idx 0 + c0 + off) ↔ (idx 1 : Int) = ((idx 0 + c0 : Nat) : Int) + off := by
    constructor
    · rintro ⟨_, _, h⟩; omega
    · intro h
      refine ⟨?_, ?_, by omega⟩
      · split <;> omega
      · split <;> omega
  by_cases hd : (idx 1 : Int) = ((idx 0 + c0 : Nat) : Int) + off
  · rw [if_pos (hiff.2 hd), if_pos hd, List.getD_eq_getElem?_getD, List.getD_eq_getElem?_getD, List.getElem?_drop, List.getElem?_take_of_lt (by omega)]
    by_cases h0 : off > 0
    · rw [if_pos h0, List.getElem?_append_left (by omega), show min (idx 0 + c0) (idx 1) = c0 + idx 0 by omega]
    · rw [if_neg h0]
      by_cases h1 : off < 0
      · rw [if_pos h1, List.getElem?_append_right (by omega), show min (idx 0 + c0) (idx 1) = c0 + idx 0 - pad.length by omega]
      · rw [if_neg h1, show min (idx 0 + c0) (idx 1) = c0 + idx 0 by omega]
  · rw [if_neg (fun hh => hd (hiff.1 hh)), if_neg hd]

/-- C40.  `diag(v, offset)` of a vector, split or not: the ranks' local matrices together are the matrix with `v` on the given diagonal. -/
theorem diag_vector_spec (P : Nat) (hP : 0 < P) (zero : α) (dist : Bool) (v pad : List α) (off : Int) (hp : pad.length = off.natAbs) :
    ∃ (loc : Nat → NArr α) (T : NArr α), (∀ r < P, diagVec P zero dist v pad off r = some (loc r)) ∧ IsDiagMatrix zero v off T ∧
      Rep P ⟨isSplitShape P loc (if dist then some 0 else none), if dist then some 0 else none, loc, none⟩ T := by
  let n := v.length + off.natAbs
  let T : NArr α := ⟨2, fun _ => n, fun idx => if (idx 1 : Int) = idx 0 + off then v.getD (min (idx 0) (idx 1)) zero else zero⟩
  have hE := fun r (hr : r < P) => diagVec_entry P hP zero dist v pad off hp r hr
  let loc : Nat → NArr α := fun r => (diagVec P zero dist v pad off r).getD ⟨2, fun _ => 0, fun _ => zero⟩
  have hl : ∀ r < P, diagVec P zero dist v pad off r = some (loc r) := by
    intro r hr
    obtain ⟨a, ha, _⟩ := hE r hr
    simp only [loc, ha, Option.getD_some]
  have hA : ∀ r < P, (loc r).ndim = 2 ∧ (loc r).dim 0 = (if dist then evenSize n P r else n) ∧ (loc r).dim 1 = n ∧
      ∀ idx, InB (loc r) idx → (loc r).get idx = if (idx 1 : Int) = (idx 0 + (if dist then (chunkRange n r P).1 else 0) : Nat) + off then
          v.getD (min (idx 0 + (if dist then (chunkRange n r P).1 else 0)) (idx 1)) zero else zero := by
    intro r hr
    obtain ⟨a, ha, h⟩ := hE r hr
    have : loc r = a := by simp only [loc, ha, Option.getD_some]
    rw [this]; exact h
  have hLT : Local T := by
    intro i j hij
    show (if (i 1 : Int) = i 0 + off then v.getD (min (i 0) (i 1)) zero else zero) = if (j 1 : Int) = j 0 + off then v.getD (min (j 0) (j 1)) zero else zero
    rw [hij 0 (by decide : (0 : Nat) < 2), hij 1 (by decide : (1 : Nat) < 2)]
  have hk2 : ∀ k, k < 2 → k = 0 ∨ k = 1 := by omega
  refine ⟨loc, T, hl, ⟨rfl, rfl, rfl, ?_⟩, hLT, ?_, ?_, ?_, ?_⟩
  · intro idx hin
    have i0 : idx 0 < n := hin 0 (by decide : (0 : Nat) < 2)
    have i1 : idx 1 < n := hin 1 (by decide : (1 : Nat) < 2)
    have hn : n = v.length + off.natAbs := rfl
    split
    · rename_i hd
      show _ = some (if (idx 1 : Int) = idx 0 + off then v.getD (min (idx 0) (idx 1)) zero else zero)
      rw [if_pos hd, List.getD_eq_getElem?_getD, List.getElem?_eq_getElem (by omega)]
      rfl
    · rename_i hd
      show (if (idx 1 : Int) = idx 0 + off then v.getD (min (idx 0) (idx 1)) zero else zero) = zero
      rw [if_neg hd]
  · show (isSplitShape P loc _).length = 2
    rw [isSplitShape_length, (hA 0 hP).1]
  · intro k hk
    show (isSplitShape P loc _).getD k 0 = n
    rw [isSplitShape_getD _ _ _ _ (by rw [(hA 0 hP).1]; exact hk)]
    cases dist with
    | false =>
      rw [if_neg (by simp)]
      rcases hk2 k hk with h | h <;> subst h
      · exact (hA 0 hP).2.1
      · exact (hA 0 hP).2.2.1
    | true =>
      rcases hk2 k hk with h | h <;> subst h
      · rw [if_pos rfl]
        exact (axisStart_even loc 0 n P (fun r hr => (hA r hr).2.1) P (Nat.le_refl _)).trans (chunkRange_at_P _ _ hP)
      · rw [if_neg (by simp)]; exact (hA 0 hP).2.2.1
  · intro r hr; exact (hA r hr).1
  · cases dist with
    | false =>
      show ∀ r < P, _
      intro r hr
      obtain ⟨a1, a2, a3, a4⟩ := hA r hr
      refine ⟨?_, ?_⟩
      · intro k hk
        rcases hk2 k hk with h | h <;> subst h
        · exact a2
        · exact a3
      · intro idx hin
        show (loc r).get idx = _
        rw [a4 idx hin]
        simp only [Bool.false_eq_true, if_false, Nat.add_zero]; rfl
    | true =>
      refine ⟨Nat.zero_lt_two, ?_, ?_⟩
      · show axisStart loc 0 P = n
        rw [axisStart_even loc 0 n P (fun r hr => (hA r hr).2.1) P (Nat.le_refl _), chunkRange_at_P _ _ hP]
      · intro r hr
        obtain ⟨a1, a2, a3, a4⟩ := hA r hr
        refine ⟨?_, ?_⟩
        · intro k hk hne
          rcases hk2 k hk with h | h <;> subst h
          · exact absurd rfl hne
          · exact a3
        · intro idx hin
          show (loc r).get idx = T.get (shift 0 (axisStart loc 0 r) idx)
          rw [a4 idx hin, axisStart_even loc 0 n P (fun r hr => (hA r hr).2.1) r (by omega)]
          show _ = if ((shift 0 (chunkRange n r P).1 idx 1 : Nat) : Int) = shift 0 (chunkRange n r P).1 idx 0 + off then
            v.getD (min (shift 0 (chunkRange n r P).1 idx 0) (shift 0 (chunkRange n r P).1 idx 1)) zero else zero
          simp [shift]

example : (List.range 3).map (fun r => (diagVec 3 0 true [1, 2, 3] [9, 9] (-2) r).map fun a => a.flat) =
    [some [0, 0, 0, 0, 0, 0, 0, 0, 0, 0], some [1, 0, 0, 0, 0, 0, 2, 0, 0, 0], some [0, 0, 3, 0, 0]] := by decide +kernel

end Heat
