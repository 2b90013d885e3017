import Verif.Model.LinAlg
import Verif.Props.Diag
import Verif.Props.Outer
/-!
# C65 tril/triu, C66 trace, C67 dot
-/
namespace Heat

open Spec

variable {α : Type}

/-! ## C65: tril, triu -/

theorem triKeep_iff (lower : Bool) (k : Int) (i j : Nat) :
    triKeep lower k i j = true ↔ (lower = true ∧ (j : Int) - i ≤ k) ∨ (lower = false ∧ k ≤ (j : Int) - i) := by
  cases lower <;> simp [triKeep]

/-- The triangle of the whole array. -/
theorem isTri_tri (G : NArr α) (lower : Bool) (zero : α) (k : Int) : IsTri lower zero k G (G.tri lower zero k) := by
  refine ⟨rfl, fun _ _ => rfl, ?_⟩
  intro idx _
  simp only [NArr.tri]
  by_cases h : triKeep lower k (idx (G.ndim - 2)) (idx (G.ndim - 1)) = true
  · rw [if_pos h, if_pos ((triKeep_iff _ _ _ _).1 h)]
  · rw [if_neg h, if_neg (fun hh => h ((triKeep_iff _ _ _ _).2 hh))]

theorem tri_local (G : NArr α) (hG : Local G) (h2 : 2 ≤ G.ndim) (lower : Bool) (zero : α) (k : Int) : Local (G.tri lower zero k) := by
  intro i j h
  have h : ∀ k < G.ndim, i k = j k := h
  simp only [NArr.tri]
  rw [h (G.ndim - 2) (by omega), h (G.ndim - 1) (by omega), hG i j h]

theorem rep_tri {P : Nat} {x : DND α} {G : NArr α} (h : Rep P x G) (h2 : 2 ≤ G.ndim) (lower : Bool) (zero : α) (k : Int) (kl : Nat → Int)
    (hk : ∀ r < P, match x.split with
      | none => kl r = k
      | some s => kl r = if s + 1 = G.ndim - 1 then k + axisStart x.loc s r else if s = G.ndim - 1 then k - axisStart x.loc s r else k) :
    Rep P ⟨x.gshape, x.split, fun r => (x.loc r).tri lower zero (kl r), x.balanced⟩ (G.tri lower zero k) := by
  obtain ⟨hG, g1, g2, g3, g4⟩ := h
  refine ⟨tri_local G hG h2 lower zero k, g1, g2, g3, ?_⟩
  cases hs : x.split with
  | none =>
    simp only [hs] at g4 hk ⊢
    intro r hr
    obtain ⟨a, b⟩ := g4 r hr
    refine ⟨a, fun idx hi => ?_⟩
    have hb := b idx hi
    simp only [NArr.tri, g3 r hr, hk r hr, hb]
  | some s =>
    simp only [hs] at g4 hk ⊢
    obtain ⟨c1, c2, c3⟩ := g4
    refine ⟨c1, c2, fun r hr => ?_⟩
    obtain ⟨a, b⟩ := c3 r hr
    refine ⟨a, fun idx hi => ?_⟩
    have hb := b idx hi
    have hax : axisStart (fun r => (x.loc r).tri lower zero (kl r)) s r = axisStart x.loc s r := rfl
    simp only [NArr.tri, g3 r hr, hk r hr, hb]
    show (if _ then _ else zero) = if triKeep lower k (shift s (axisStart x.loc s r) idx (G.ndim - 2)) (shift s (axisStart x.loc s r) idx (G.ndim - 1)) = true then
      G.get (shift s (axisStart x.loc s r) idx) else zero
    have e : triKeep lower (if s + 1 = G.ndim - 1 then k + axisStart x.loc s r else if s = G.ndim - 1 then k - axisStart x.loc s r else k) (idx (G.ndim - 2)) (idx (G.ndim - 1)) =
        triKeep lower k (shift s (axisStart x.loc s r) idx (G.ndim - 2)) (shift s (axisStart x.loc s r) idx (G.ndim - 1)) := by
      rw [Bool.eq_iff_iff, triKeep_iff, triKeep_iff]
      unfold shift
      by_cases e1 : s + 1 = G.ndim - 1
      · rw [if_pos e1, if_pos (show G.ndim - 2 = s by omega), if_neg (show ¬ G.ndim - 1 = s by omega)]
        push_cast
        constructor <;> (rintro (⟨p, q⟩ | ⟨p, q⟩) <;> [left; right] <;> exact ⟨p, by omega⟩)
      · rw [if_neg e1, if_neg (show ¬ G.ndim - 2 = s by omega)]
        by_cases e2 : s = G.ndim - 1
        · rw [if_pos e2, if_pos e2.symm]
          push_cast
          constructor <;> (rintro (⟨p, q⟩ | ⟨p, q⟩) <;> [left; right] <;> exact ⟨p, by omega⟩)
        · rw [if_neg e2, if_neg (Ne.symm e2)]
    rw [e]

/-- **C65.**  `tril(m, k)` / `triu(m, k)` of an array with two or more dimensions represents its triangle for every shape, diagonal and split: any distribution if
the split axis is not one of the last two, the canonical one otherwise. -/
theorem tri_spec_partial {P : Nat} {x : DND α} {G : NArr α} (h : Rep P x G) (h2 : 2 ≤ G.ndim) (lower : Bool) (zero : α) (k : Int)
    (hb : ∀ s, x.split = some s → G.ndim - 2 ≤ s → BalancedND P x G s) :
    ∃ y T, triOp P x lower zero k = .ok y ∧ y.split = x.split ∧ y.gshape = x.gshape ∧ Rep P y T ∧ IsTri lower zero k G T := by
  have hlen : x.gshape.length = G.ndim := h.2.1
  have hop : triOp P x lower zero k = .ok ⟨x.gshape, x.split, fun r => (x.loc r).tri lower zero (triDiag x k (triOffset P x r)), x.balanced⟩ := by
    unfold triOp
    split
    · rename_i e; rw [e] at hlen; simp at hlen; omega
    · rename_i e; rw [e] at hlen; simp at hlen; omega
    · rfl
  refine ⟨_, _, hop, rfl, rfl, rep_tri h h2 lower zero k _ ?_, isTri_tri G lower zero k⟩
  intro r hr
  cases hs : x.split with
  | none => simp [triDiag, hs]
  | some s =>
    have g4 := h.2.2.2.2
    simp only [hs] at g4
    simp only [triDiag, triOffset, hs, hlen]
    by_cases e : G.ndim - 2 ≤ s
    · rw [h.2.2.1 s g4.1, axisStart_even x.loc s (G.dim s) P (hb s hs e) r (by omega)]
    · rw [if_neg (by omega), if_neg (by omega), if_neg (by omega), if_neg (by omega)]

theorem rep_expandRows {P : Nat} {x : DND α} {G : NArr α} (h : Rep P x G) (h1 : G.ndim = 1) :
    Rep P ⟨[G.dim 0, G.dim 0], x.split.map fun _ => 1, fun r => (x.loc r).expandRows (G.dim 0), x.balanced⟩ (G.expandRows (G.dim 0)) := by
  obtain ⟨hG, g1, g2, g3, g4⟩ := h
  refine ⟨?_, rfl, ?_, fun _ _ => rfl, ?_⟩
  · intro i j hij
    have : i 1 = j 1 := hij 1 (by show 1 < 2; omega)
    simp [NArr.expandRows, this]
  · intro k hk
    have hk : k < 2 := hk
    match k, hk with
    | 0, _ => rfl
    | 1, _ => rfl
  · cases hs : x.split with
    | none =>
      simp only [hs] at g4
      simp only [Option.map]
      intro r hr
      obtain ⟨a, b⟩ := g4 r hr
      constructor
      · intro k _
        simp only [NArr.expandRows]
        rw [a 0 (by omega)]
      · intro idx hi
        have hi1 : idx 1 < (x.loc r).dim 0 := hi 1 (by show 1 < 2; omega)
        exact b _ (fun k hk => by rw [g3 r hr, h1] at hk; obtain rfl : k = 0 := by omega
                                  exact hi1)
    | some s =>
      simp only [hs] at g4
      obtain ⟨c1, c2, c3⟩ := g4
      obtain rfl : s = 0 := by omega
      have hax : ∀ r, axisStart (fun r => (x.loc r).expandRows (G.dim 0)) 1 r = axisStart x.loc 0 r := fun r => rfl
      simp only [Option.map]
      refine ⟨by show 1 < 2; omega, by rw [hax, c2]; rfl, fun r hr => ?_⟩
      obtain ⟨a, b⟩ := c3 r hr
      constructor
      · intro k hk hne
        have hk : k < 2 := hk
        obtain rfl : k = 0 := by omega
        rfl
      · intro idx hi
        have hi1 : idx 1 < (x.loc r).dim 0 := hi 1 (by show 1 < 2; omega)
        have := b (fun _ => idx 1) (fun k hk => by rw [g3 r hr, h1] at hk; obtain rfl : k = 0 := by omega
                                                   exact hi1)
        simp only [NArr.expandRows, hax]
        rw [this]
        apply hG
        intro k hk
        obtain rfl : k = 0 := by omega
        simp only [shift, if_true]
        rfl

/-- **C65, vectors.**  `tril(v, k)` / `triu(v, k)` of a vector is the triangle of the matrix whose rows are `v`, split along axis 1 if `v` was split. -/
theorem tri_vector_spec_partial {P : Nat} {x : DND α} {G : NArr α} (h : Rep P x G) (h1 : G.ndim = 1) (lower : Bool) (zero : α) (k : Int)
    (hb : ∀ s, x.split = some s → BalancedND P x G s) :
    ∃ y M T, triOp P x lower zero k = .ok y ∧ y.split = x.split.map (fun _ => 1) ∧ Rep P y T ∧ IsRowRepeat G M ∧ IsTri lower zero k M T := by
  have hlen : x.gshape.length = 1 := by rw [h.2.1, h1]
  obtain ⟨n, hn⟩ : ∃ n, x.gshape = [n] := by
    match hx : x.gshape, hlen with
    | [n], _ => exact ⟨n, rfl⟩
  have hn' : n = G.dim 0 := by have := h.2.2.1 0 (by omega); rw [hn] at this; simpa using this
  subst hn'
  have hop : triOp P x lower zero k = .ok ⟨[G.dim 0, G.dim 0], x.split.map fun _ => 1, fun r => ((x.loc r).expandRows (G.dim 0)).tri lower zero (k - triOffset P x r), x.balanced⟩ := by
    unfold triOp; rw [hn]
  refine ⟨_, G.expandRows (G.dim 0), _, hop, rfl, rep_tri (rep_expandRows h h1) (Nat.le_refl 2) lower zero k _ ?_, ⟨rfl, rfl, rfl, fun _ => rfl⟩, isTri_tri _ lower zero k⟩
  intro r hr
  cases hs : x.split with
  | none => simp [triOffset, hs]
  | some s =>
    have g4 := h.2.2.2.2
    simp only [hs] at g4
    obtain rfl : s = 0 := by omega
    simp only [Option.map, triOffset, hs]
    rw [h.2.2.1 0 (by omega), ← axisStart_even x.loc 0 (G.dim 0) P (hb 0 hs) r (by omega)]
    rfl

/-- C65 fails for arrays that are not balanced: the rows of a 4×4 matrix of ones are distributed 0 + 4; `tril` keeps two columns too many on rank 1. -/
theorem tri_unbalanced_violated :
    (triOp 2 (⟨[4, 4], some 0, fun r => ⟨2, fun k => if k = 0 then 4 * r else 4, fun _ => 1⟩, some false⟩ : DND Nat) true 0 0).map
      (fun y => (y.loc 1).flat) = .ok [1, 1, 1, 0, 1, 1, 1, 1, 1, 1, 1, 1, 1, 1, 1, 1] := by decide +kernel

/-- Non-vacuity and an instance: a 3×4 matrix split evenly along the columns. -/
example : (triOp 2 ex34c false 0 1).map (fun y => ((y.loc 0).flat, (y.loc 1).flat)) = .ok ([0, 1, 0, 0, 0, 0], [2, 3, 12, 13, 0, 23]) := by decide +kernel

/-! ## C66: trace -/

theorem sumTo_zero (f : Nat → Int) : sumTo 0 f = 0 := rfl

theorem sumTo_succ (n : Nat) (f : Nat → Int) : sumTo (n + 1) f = sumTo n f + f n := by
  simp [sumTo, List.range_succ]

theorem sumTo_congr {n : Nat} {f g : Nat → Int} (h : ∀ i < n, f i = g i) : sumTo n f = sumTo n g := by
  induction n with
  | zero => rfl
  | succ n ih => rw [sumTo_succ, sumTo_succ, ih (fun i hi => h i (by omega)), h n (by omega)]

theorem sumTo_add (a b : Nat) (f : Nat → Int) : sumTo (a + b) f = sumTo a f + sumTo b fun t => f (a + t) := by
  induction b with
  | zero => simp [sumTo_zero]
  | succ b ih => rw [← Nat.add_assoc, sumTo_succ, ih, sumTo_succ]; omega

theorem sumTo_window (n lo hi : Nat) (f : Nat → Int) : sumTo n (fun i => if lo ≤ i ∧ i < hi then f i else 0) = sumTo (min n hi - lo) fun t => f (lo + t) := by
  induction n with
  | zero => simp [sumTo_zero]
  | succ n ih =>
    rw [sumTo_succ, ih]
    by_cases h : lo ≤ n ∧ n < hi
    · rw [if_pos h, show min (n + 1) hi - lo = min n hi - lo + 1 by omega, sumTo_succ, show lo + (min n hi - lo) = n by omega]
    · rw [if_neg h]
      by_cases h1 : lo ≤ n
      · rw [show min (n + 1) hi = min n hi by omega]; omega
      · rw [show min (n + 1) hi - lo = 0 by omega, show min n hi - lo = 0 by omega]; rfl

/-- Sum over all ranks of the sums over their positions along the axis. -/
theorem sumTo_ranks (loc : Nat → NArr α) (s : Nat) (F : Nat → Int) : ∀ P, sumTo P (fun r => sumTo ((loc r).dim s) fun i => F (axisStart loc s r + i)) = sumTo (axisStart loc s P) F
  | 0 => rfl
  | P + 1 => by
    rw [sumTo_succ, sumTo_ranks loc s F P, axisStart_succ, sumTo_add]

/-- The diagonal of a matrix by rows. -/
theorem localTrace_rows (a : NArr Int) (hl : a.ndim = 2) (ha : Local a) (off : Int) :
    localTrace a off = sumTo (a.dim 0) fun i => if 0 ≤ (i : Int) + off ∧ (i : Int) + off < a.dim 1 then a.get fun k => if k = 0 then i else ((i : Int) + off).toNat else 0 := by
  have e : ∀ i : Nat, (0 ≤ (i : Int) + off ∧ (i : Int) + off < a.dim 1) ↔ ((-off).toNat ≤ i ∧ i < ((a.dim 1 : Int) - off).toNat) := by intro i; omega
  have e2 : (sumTo (a.dim 0) fun i => if 0 ≤ (i : Int) + off ∧ (i : Int) + off < a.dim 1 then a.get fun k => if k = 0 then i else ((i : Int) + off).toNat else 0) =
      sumTo (a.dim 0) fun i => if (-off).toNat ≤ i ∧ i < ((a.dim 1 : Int) - off).toNat then a.get fun k => if k = 0 then i else ((i : Int) + off).toNat else 0 := by
    apply sumTo_congr; intro i _; simp only [e]
  rw [e2, sumTo_window (a.dim 0) (-off).toNat ((a.dim 1 : Int) - off).toNat (fun i => a.get fun k => if k = 0 then i else ((i : Int) + off).toNat)]
  unfold localTrace
  by_cases h1 : 0 < off
  · rw [if_pos h1]
    simp only []
    have e3 : min (a.dim 0) (a.dim 1 - min off.toNat (a.dim 1)) = min (a.dim 0) ((a.dim 1 : Int) - off).toNat - (-off).toNat := by omega
    rw [e3]
    apply sumTo_congr
    intro t ht
    apply ha
    intro k hk
    rw [hl] at hk
    match k, hk with
    | 0, _ => simp; omega
    | 1, _ => simp; omega
  · rw [if_neg h1]
    by_cases h2 : off < 0
    · rw [if_pos h2]
      simp only []
      have e3 : min (a.dim 0 - min (-off).toNat (a.dim 0)) (a.dim 1) = min (a.dim 0) ((a.dim 1 : Int) - off).toNat - (-off).toNat := by omega
      rw [e3]
      apply sumTo_congr
      intro t ht
      apply ha
      intro k hk
      rw [hl] at hk
      match k, hk with
      | 0, _ => simp; omega
      | 1, _ => simp; omega
    · rw [if_neg h2]
      obtain rfl : off = 0 := by omega
      have e3 : min (a.dim 0) (a.dim 1) = min (a.dim 0) ((a.dim 1 : Int) - 0).toNat - (-0 : Int).toNat := by omega
      rw [e3]
      apply sumTo_congr
      intro t ht
      apply ha
      intro k hk
      rw [hl] at hk
      match k, hk with
      | 0, _ => simp
      | 1, _ => simp

/-- The diagonal of a matrix by columns. -/
theorem rows_eq_cols (d0 d1 : Nat) (off : Int) (g : Nat → Nat → Int) :
    (sumTo d0 fun i => if 0 ≤ (i : Int) + off ∧ (i : Int) + off < d1 then g i ((i : Int) + off).toNat else 0) =
      sumTo d1 fun j => if 0 ≤ (j : Int) - off ∧ (j : Int) - off < d0 then g ((j : Int) - off).toNat j else 0 := by
  have e1 : (sumTo d0 fun i => if 0 ≤ (i : Int) + off ∧ (i : Int) + off < d1 then g i ((i : Int) + off).toNat else 0) =
      sumTo d0 fun i => if (-off).toNat ≤ i ∧ i < ((d1 : Int) - off).toNat then g i ((i : Int) + off).toNat else 0 := by
    apply sumTo_congr; intro i _
    have : (0 ≤ (i : Int) + off ∧ (i : Int) + off < d1) ↔ ((-off).toNat ≤ i ∧ i < ((d1 : Int) - off).toNat) := by omega
    simp only [this]
  have e2 : (sumTo d1 fun j => if 0 ≤ (j : Int) - off ∧ (j : Int) - off < d0 then g ((j : Int) - off).toNat j else 0) =
      sumTo d1 fun j => if off.toNat ≤ j ∧ j < ((d0 : Int) + off).toNat then g ((j : Int) - off).toNat j else 0 := by
    apply sumTo_congr; intro i _
    have : (0 ≤ (i : Int) - off ∧ (i : Int) - off < d0) ↔ (off.toNat ≤ i ∧ i < ((d0 : Int) + off).toNat) := by omega
    simp only [this]
  rw [e1, e2, sumTo_window d0 _ _ (fun i => g i ((i : Int) + off).toNat), sumTo_window d1 _ _ (fun j => g ((j : Int) - off).toNat j),
    show min d1 ((d0 : Int) + off).toNat - off.toNat = min d0 ((d1 : Int) - off).toNat - (-off).toNat by omega]
  apply sumTo_congr
  intro t ht
  congr 1 <;> omega

/-- **C66, matrices.**  `trace(a, offset)` of a matrix is, on every rank, the sum of the elements `a[i, i + offset]`, for every shape and offset, not split or split
canonically along either axis. -/
theorem trace_matrix_spec_partial {P : Nat} {x : DND Int} {G : NArr Int} (h : Rep P x G) (h2 : G.ndim = 2) (hloc : ∀ r < P, Local (x.loc r)) (off : Int)
    (hb : ∀ s, x.split = some s → BalancedND P x G s) (r : Nat) (hr : r < P) : traceMatrix P x off r = trace2 G off := by
  obtain ⟨hG, g1, g2, g3, g4⟩ := h
  have hg0 := g2 0 (by omega)
  have hg1 := g2 1 (by omega)
  unfold traceMatrix
  by_cases hz : off ≤ -((x.gshape.getD 0 0 : Nat) : Int) ∨ ((x.gshape.getD 1 0 : Nat) : Int) ≤ off
  · simp only [hz, if_true]
    have e0 : sumTo P (fun _ => 0) = 0 := by clear * -; induction P with
      | zero => rfl
      | succ P ih => rw [sumTo_succ, ih]; rfl
    have : trace2 G off = 0 := by
      unfold trace2
      have : ∀ n, n ≤ G.dim 0 → (sumTo n fun i => if 0 ≤ (i : Int) + off ∧ (i : Int) + off < G.dim 1 then G.get fun a => if a = 0 then i else ((i : Int) + off).toNat else 0) = 0 := by
        intro n hn
        induction n with
        | zero => rfl
        | succ n ih => rw [sumTo_succ, ih (by omega), if_neg (by omega)]; rfl
      exact this _ (Nat.le_refl _)
    rw [this, e0]; simp
  · simp only [hz, if_false]
    cases hs : x.split with
    | none =>
      simp only [hs] at g4
      obtain ⟨a, b⟩ := g4 r hr
      simp only [Option.isSome_none, Bool.false_eq_true, false_and, if_false, traceOffset, hs]
      rw [localTrace_rows _ (by rw [g3 r hr, h2]) (hloc r hr), trace2, a 0 (by omega), a 1 (by omega)]
      apply sumTo_congr
      intro i hi
      by_cases hc : 0 ≤ (i : Int) + off ∧ (i : Int) + off < G.dim 1
      · rw [if_pos hc, if_pos hc]
        apply b
        intro k hk
        rw [g3 r hr, h2] at hk
        match k, hk with
        | 0, _ => simp; rw [a 0 (by omega)]; omega
        | 1, _ => simp; rw [a 1 (by omega)]; omega
      · rw [if_neg hc, if_neg hc]
    | some s =>
      simp only [hs] at g4
      obtain ⟨c1, c2, c3⟩ := g4
      have hstart : ∀ q < P, (chunkRange (x.gshape.getD s 0) q P).1 = axisStart x.loc s q := by
        intro q hq
        rw [g2 s c1, axisStart_even x.loc s (G.dim s) P (hb s hs) q (by omega)]
      have hoff : ∀ q < P, traceOffset P x off q = if s = 0 then off + (axisStart x.loc s q : Int) else off - (axisStart x.loc s q : Int) := by
        intro q hq
        simp only [traceOffset, hs, hstart q hq]
        by_cases hP : P ≤ 1
        · obtain rfl : q = 0 := by omega
          rw [if_pos hP]
          simp [axisStart]
        · rw [if_neg hP]
      have hmain : sumTo P (fun q => localTrace (x.loc q) (traceOffset P x off q)) = trace2 G off := by
        have hs2 : s = 0 ∨ s = 1 := by omega
        rcases hs2 with rfl | rfl
        · have e : ∀ q < P, localTrace (x.loc q) (traceOffset P x off q) = sumTo ((x.loc q).dim 0) fun i => (fun g : Nat =>
              if 0 ≤ (g : Int) + off ∧ (g : Int) + off < G.dim 1 then G.get fun a => if a = 0 then g else ((g : Int) + off).toNat else 0) (axisStart x.loc 0 q + i) := by
            intro q hq
            obtain ⟨a, b⟩ := c3 q hq
            rw [hoff q hq, if_pos rfl, localTrace_rows _ (by rw [g3 q hq, h2]) (hloc q hq), a 1 (by omega) (by omega)]
            apply sumTo_congr
            intro i hi
            have ec : (0 ≤ (i : Int) + (off + (axisStart x.loc 0 q : Int)) ∧ (i : Int) + (off + (axisStart x.loc 0 q : Int)) < G.dim 1) ↔
                (0 ≤ ((axisStart x.loc 0 q + i : Nat) : Int) + off ∧ ((axisStart x.loc 0 q + i : Nat) : Int) + off < G.dim 1) := by omega
            by_cases hc : 0 ≤ ((axisStart x.loc 0 q + i : Nat) : Int) + off ∧ ((axisStart x.loc 0 q + i : Nat) : Int) + off < G.dim 1
            · rw [if_pos (ec.2 hc)]
              simp only []
              rw [if_pos hc, b]
              · apply hG
                intro k hk
                rw [h2] at hk
                match k, hk with
                | 0, _ => simp [shift]; omega
                | 1, _ => simp [shift]; omega
              · intro k hk
                rw [g3 q hq, h2] at hk
                match k, hk with
                | 0, _ => simpa using hi
                | 1, _ => simp; rw [a 1 (by omega) (by omega)]; omega
            · rw [if_neg (fun hh => hc (ec.1 hh))]
              simp only []
              rw [if_neg hc]
          rw [sumTo_congr e, sumTo_ranks x.loc 0 (fun g : Nat => if 0 ≤ (g : Int) + off ∧ (g : Int) + off < G.dim 1 then G.get fun a => if a = 0 then g else ((g : Int) + off).toNat else 0) P, c2]
          rfl
        · have e : ∀ q < P, localTrace (x.loc q) (traceOffset P x off q) = sumTo ((x.loc q).dim 1) fun j => (fun g : Nat =>
              if 0 ≤ (g : Int) - off ∧ (g : Int) - off < G.dim 0 then G.get fun a => if a = 0 then ((g : Int) - off).toNat else g else 0) (axisStart x.loc 1 q + j) := by
            intro q hq
            obtain ⟨a, b⟩ := c3 q hq
            rw [hoff q hq, if_neg (by omega), localTrace_rows _ (by rw [g3 q hq, h2]) (hloc q hq), a 0 (by omega) (by omega)]
            rw [rows_eq_cols (G.dim 0) ((x.loc q).dim 1) (off - (axisStart x.loc 1 q : Int)) (fun i j => (x.loc q).get fun k => if k = 0 then i else j)]
            apply sumTo_congr
            intro j hj
            have ec : (0 ≤ (j : Int) - (off - (axisStart x.loc 1 q : Int)) ∧ (j : Int) - (off - (axisStart x.loc 1 q : Int)) < G.dim 0) ↔
                (0 ≤ ((axisStart x.loc 1 q + j : Nat) : Int) - off ∧ ((axisStart x.loc 1 q + j : Nat) : Int) - off < G.dim 0) := by omega
            by_cases hc : 0 ≤ ((axisStart x.loc 1 q + j : Nat) : Int) - off ∧ ((axisStart x.loc 1 q + j : Nat) : Int) - off < G.dim 0
            · rw [if_pos (ec.2 hc)]
              simp only []
              rw [if_pos hc, b]
              · apply hG
                intro k hk
                rw [h2] at hk
                match k, hk with
                | 0, _ => simp [shift]; omega
                | 1, _ => simp [shift]; omega
              · intro k hk
                rw [g3 q hq, h2] at hk
                match k, hk with
                | 0, _ => simp; rw [a 0 (by omega) (by omega)]; omega
                | 1, _ => simpa using hj
            · rw [if_neg (fun hh => hc (ec.1 hh))]
              simp only []
              rw [if_neg hc]
          rw [sumTo_congr e, sumTo_ranks x.loc 1 (fun g : Nat => if 0 ≤ (g : Int) - off ∧ (g : Int) - off < G.dim 0 then G.get fun a => if a = 0 then ((g : Int) - off).toNat else g else 0) P, c2]
          rw [trace2, rows_eq_cols (G.dim 0) (G.dim 1) off (fun i j => G.get fun k => if k = 0 then i else j)]
      by_cases hP : 1 < P
      · rw [if_pos ⟨by simp, hP⟩]; exact hmain
      · rw [if_neg (by simp; omega)]
        obtain rfl : P = 1 := by omega
        obtain rfl : r = 0 := by omega
        rw [← hmain, sumTo_succ, sumTo_zero]; simp

/-- C66 fails for arrays that are not balanced: the 4×4 identity with its rows distributed 0 + 4 has trace 0 instead of 4. -/
theorem trace_unbalanced_violated :
    traceMatrix 2 ⟨[4, 4], some 0, fun r => ⟨2, fun k => if k = 0 then 4 * r else 4, fun i => if i 0 = i 1 then 1 else 0⟩, some false⟩ 0 0 = 0 := by decide +kernel

/-- C66 fails for a matrix if the axes are given in the order (1, 0): they are ignored, so with offset 1 the elements `a[i, i+1]` are added instead of `a[i+1, i]`. -/
theorem trace_axes_violated : ∃ x : DND Int, ∃ G : NArr Int, Rep 1 x G ∧ traceMatrix 1 x 1 0 = 5 ∧
    trace2 ⟨2, G.dim, fun i => G.get fun k => if k = 0 then i 1 else i 0⟩ 1 = 7 := by
  refine ⟨⟨[2, 2], none, fun _ => ⟨2, fun _ => 2, fun i => if i 0 = 0 ∧ i 1 = 1 then 5 else if i 0 = 1 ∧ i 1 = 0 then 7 else 0⟩, some true⟩,
    ⟨2, fun _ => 2, fun i => if i 0 = 0 ∧ i 1 = 1 then 5 else if i 0 = 1 ∧ i 1 = 0 then 7 else 0⟩, ⟨?_, rfl, ?_, fun _ _ => rfl, ?_⟩, by decide +kernel, by decide +kernel⟩
  · intro i j hij
    have h0 := hij 0 (by show 0 < 2; omega)
    have h1 := hij 1 (by show 1 < 2; omega)
    simp [h0, h1]
  · intro k hk
    have hk : k < 2 := hk
    match k, hk with
    | 0, _ => rfl
    | 1, _ => rfl
  · intro r _
    exact ⟨fun _ _ => rfl, fun _ _ => rfl⟩

theorem sumLast_isSumLast (D : NArr Int) (h : 1 ≤ D.ndim) : IsSumLast D D.sumLast := by
  refine ⟨by simp [NArr.sumLast]; omega, fun _ _ => rfl, fun _ _ => rfl⟩

theorem rep_sumLast {P : Nat} (hP : 0 < P) {y : DND Int} {D : NArr Int} (h : Rep P y D) (h1 : 1 ≤ D.ndim) (hs : ∀ s, y.split = some s → s ≠ D.ndim - 1) (b : Option Bool) :
    Rep P ⟨isSplitShape P (fun r => (y.loc r).sumLast) y.split, y.split, fun r => (y.loc r).sumLast, b⟩ D.sumLast := by
  obtain ⟨hD, g1, g2, g3, g4⟩ := h
  have hnd : ∀ r < P, ((y.loc r).sumLast).ndim = D.ndim - 1 := by intro r hr; simp [NArr.sumLast, g3 r hr]
  have hext : ∀ (r : Nat), r < P → ∀ (idx : Nat → Nat) (t : Nat), InB ((y.loc r).sumLast) idx → t < (y.loc r).dim (D.ndim - 1) → InB (y.loc r) fun k => if k = D.ndim - 1 then t else idx k := by
    intro r hr idx t hi ht k hk
    rw [g3 r hr] at hk
    by_cases e : k = D.ndim - 1
    · simp only [e, if_true]; exact ht
    · simp only [e, if_false]
      exact hi k (by rw [hnd r hr]; omega)
  refine ⟨?_, by rw [isSplitShape_length, hnd 0 hP]; rfl, ?_, hnd, ?_⟩
  · intro i j hij
    simp only [NArr.sumLast] at hij ⊢
    apply sumTo_congr
    intro t _
    apply hD
    intro k hk
    by_cases e : k = D.ndim - 1
    · simp [e]
    · simp only [e, if_false]; exact hij k (by omega)
  · intro k hk
    have hk : k < D.ndim - 1 := hk
    show (isSplitShape P (fun r => (y.loc r).sumLast) y.split).getD k 0 = D.dim k
    rw [isSplitShape_getD P _ _ k (by rw [hnd 0 hP]; exact hk)]
    cases hsp : y.split with
    | none =>
      simp only [hsp] at g4
      simp only [reduceCtorEq, if_false]
      exact (g4 0 hP).1 k (by omega)
    | some s =>
      simp only [hsp] at g4
      by_cases e : s = k
      · subst e; rw [if_pos rfl]; exact g4.2.1
      · rw [if_neg (by simpa using e)]; exact (g4.2.2 0 hP).1 k (by omega) (Ne.symm e)
  · cases hsp : y.split with
    | none =>
      simp only [hsp] at g4 ⊢
      intro r hr
      obtain ⟨a, b⟩ := g4 r hr
      refine ⟨fun k hk => a k (by have : k < D.ndim - 1 := hk; omega), fun idx hi => ?_⟩
      simp only [NArr.sumLast, g3 r hr]
      rw [a (D.ndim - 1) (by omega)]
      apply sumTo_congr
      intro t ht
      exact b _ (hext r hr idx t hi (by rw [a (D.ndim - 1) (by omega)]; exact ht))
    | some s =>
      simp only [hsp] at g4 ⊢
      obtain ⟨c1, c2, c3⟩ := g4
      have hsne := hs s hsp
      refine ⟨by show s < D.ndim - 1; omega, c2, fun r hr => ?_⟩
      obtain ⟨a, b⟩ := c3 r hr
      refine ⟨fun k hk hne => a k (by have : k < D.ndim - 1 := hk; omega) hne, fun idx hi => ?_⟩
      simp only [NArr.sumLast, g3 r hr]
      rw [a (D.ndim - 1) (by omega) (Ne.symm hsne)]
      apply sumTo_congr
      intro t ht
      rw [b _ (hext r hr idx t hi (by rw [a (D.ndim - 1) (by omega) (Ne.symm hsne)]; exact ht))]
      congr 1
      funext k
      unfold shift
      by_cases e : k = s
      · subst e; simp only [if_true]; rw [if_neg hsne, if_neg hsne]; rfl
      · simp only [e, if_false]

/-- **C66, more dimensions.**  If the split axis is not a trace axis, `trace(a, offset, axis1, axis2)` is the sum over the diagonal, for every shape and distribution, provided
that the axes are given in increasing order or the offset is 0, and that the split axis does not lie between them (except for the last but one axis). -/
theorem trace_nd_spec_partial {P : Nat} (hP : 0 < P) {x : DND Int} {G : NArr Int} (h : Rep P x G) (off : Int) (axis1 axis2 : Nat) (h3 : 3 ≤ G.ndim)
    (h1 : axis1 < G.ndim) (h2 : axis2 < G.ndim) (hne : axis1 ≠ axis2) (hord : axis1 < axis2 ∨ off = 0)
    (hs : ∀ s, x.split = some s → s ≠ axis1 ∧ s ≠ axis2 ∧ (min axis1 axis2 < s → s < max axis1 axis2 → s = G.ndim - 2)) :
    ∃ D T, IsDiagonal G off axis1 axis2 D ∧ IsSumLast D T ∧ Rep P (traceND P x off axis1 axis2) T := by
  have hlen : x.gshape.length = G.ndim := h.2.1
  have hsym : G.diagonal off axis1 axis2 = G.diagonal off (min axis1 axis2) (max axis1 axis2) := by
    rcases hord with h | h
    · rw [Nat.min_eq_left (by omega), Nat.max_eq_right (by omega)]
    · subst h
      by_cases h : axis1 < axis2
      · rw [Nat.min_eq_left (by omega), Nat.max_eq_right (by omega)]
      · rw [Nat.min_eq_right (by omega), Nat.max_eq_left (by omega), diagonal_symm G 0 hne]; rfl
  have hk := keep2_length (show min axis1 axis2 < G.ndim by omega) (show max axis1 axis2 < G.ndim by omega) (show min axis1 axis2 ≠ max axis1 axis2 by omega)
  have hnd : (G.diagonal off (min axis1 axis2) (max axis1 axis2)).ndim = G.ndim - 1 := by
    show (keepAxes G.ndim [min axis1 axis2, max axis1 axis2]).length + 1 = _
    omega
  refine ⟨G.diagonal off axis1 axis2, (G.diagonal off (min axis1 axis2) (max axis1 axis2)).sumLast, diagonal_isDiagonal G h.1 off h1 h2 hne, by rw [hsym]; exact sumLast_isSumLast _ (by omega), ?_⟩
  have hrep := rep_diagonal_other hP h off (d1 := min axis1 axis2) (d2 := max axis1 axis2) (by omega) (by omega) (by omega)
    (by intro s hsp; have := hs s hsp; constructor <;> omega) none
  have hsp : ∀ s, diagonalSplit x.split G.ndim (min axis1 axis2) (max axis1 axis2) = some s → s ≠ (G.diagonal off (min axis1 axis2) (max axis1 axis2)).ndim - 1 := by
    intro s' e
    rw [hnd]
    cases hsx : x.split with
    | none => rw [hsx] at e; cases e
    | some s =>
      have := hs s hsx
      have hlt : s < G.ndim := by have g := h.2.2.2.2; rw [hsx] at g; exact g.1
      rw [hsx] at e
      simp only [diagonalSplit] at e
      split at e <;> [skip; split at e <;> [skip; split at e]] <;> (have := Option.some.inj e; omega)
  have hfin := rep_sumLast hP hrep (by omega) hsp none
  have hsplit : traceSplit x.split x.gshape.length (max axis1 axis2) = diagonalSplit x.split G.ndim (min axis1 axis2) (max axis1 axis2) := by
    cases hsx : x.split with
    | none => rfl
    | some s =>
      have := hs s hsx
      have hlt : s < G.ndim := by have g := h.2.2.2.2; rw [hsx] at g; exact g.1
      simp only [traceSplit, diagonalSplit, Option.map, hlen]
      by_cases c1 : s < min axis1 axis2
      · rw [if_pos (show s < max axis1 axis2 by omega), if_neg (by omega), if_pos (by omega)]
      · by_cases c2 : s < max axis1 axis2
        · rw [if_pos c2, if_pos (by omega), if_neg (by omega), if_pos (by omega)]; congr 1; omega
        · rw [if_neg c2, if_neg (by omega), if_neg (by omega), if_neg (by omega), if_pos (by omega)]
  unfold traceND
  simp only [hsplit]
  exact hfin

/-- C66 fails if the split axis lies between the trace axes and is not the last but one: a 1×2×1×3 array split over two ranks along axis 1, traced over axes 0 and 2, comes back
as a 1×6 array split along axis 1 instead of a 2×3 array split along axis 0. -/
theorem trace_gather_axis_violated :
    (fun y : DND Int => (y.gshape, y.split)) (traceND 2 ⟨[1, 2, 1, 3], some 1, fun _ => ⟨4, fun k => if k = 3 then 3 else 1, fun _ => 1⟩, some true⟩ 0 0 2) = ([1, 6], some 1) := by
  decide +kernel

/-- C66 fails if the axes are given in decreasing order and the offset is not 0: the offset is not negated. -/
theorem trace_order_violated : ∃ x : DND Int, ((traceND 1 x 1 1 0).loc 0).flat = [5] ∧ ((x.loc 0).diagonal 1 1 0).sumLast.flat = [7] :=
  ⟨⟨[2, 2, 1], none, fun _ => ⟨3, fun k => if k = 2 then 1 else 2, fun i => if i 0 = 0 ∧ i 1 = 1 then 5 else if i 0 = 1 ∧ i 1 = 0 then 7 else 0⟩, some true⟩,
    by decide +kernel, by decide +kernel⟩

/-- C66 fails if the split axis is a trace axis: as soon as a rank holds two or more diagonal elements (here a 4×4×2 array on two ranks) the function raises. -/
theorem trace_split_axis_violated :
    traceSplitAxis 2 ⟨[4, 4, 2], some 0, fun r => ⟨3, fun k => if k = 0 then 2 else if k = 1 then 4 else 2, fun i => ((i 0 + 2 * r + i 1 + i 2 : Nat) : Int)⟩, some true⟩ 0 0 1 = .error .runtimeError := by
  decide +kernel

/-- Non-vacuity: trace of a matrix split along its columns, and of a 3-D array. -/
example : (fun y : DND Int => (y.gshape, y.split, (y.loc 0).flat, (y.loc 1).flat))
    (traceND 2 ⟨[2, 2, 4], some 2, fun r => ⟨3, fun _ => 2, fun i => ((100 * i 0 + 10 * i 1 + i 2 + 2 * r : Nat) : Int)⟩, some true⟩ 0 0 1) = ([4], some 0, [110, 112], [114, 116]) := by
  decide +kernel

/-! ## C67: dot -/

theorem inner_append {a b c d : List Int} (h : a.length = b.length) : inner (a ++ c) (b ++ d) = inner a b + inner c d := by
  simp [inner, List.zip_append h]

theorem foldlM_dot (f : Nat → Except Err Int) (g : Nat → Int) : ∀ P, (∀ r < P, f r = .ok (g r)) →
    (List.range P).foldlM (fun acc r => (f r).map fun v => acc + v) 0 = .ok (sumTo P g)
  | 0, _ => rfl
  | P + 1, h => by
    rw [List.range_succ, List.foldlM_append, foldlM_dot f g P (fun r hr => h r (by omega))]
    rw [sumTo_succ]
    have := h P (by omega)
    simp only [List.foldlM_cons, List.foldlM_nil, this]
    rfl

theorem dotSlice_canonical (P n r : Nat) (hr : r < P) (a : CatArr Int) (hn : (a.glob P).length = n) (hc : a.Canonical P) :
    dotSlice P n r a = ((a.glob P).take (chunkRange n r P).2).drop (chunkRange n r P).1 := by
  cases a with
  | rep l => rfl
  | along d =>
    have hb : Balanced P d := hc
    have hn : (content P d).length = n := hn
    show (d r).take _ = ((content P d).take _).drop _
    have hl := hb r hr
    rw [hn] at hl
    rw [chunkRange_size, ← hl, List.take_length]
    have h1 := balanced_chunk_start hb r (by omega)
    have h2 := balanced_chunk_start hb (r + 1) (by omega)
    rw [hn] at h1 h2
    rw [← chunkRange_succ, ← h1, ← h2]
    exact part_slice d P r hr

/-- **C67.**  `dot(a, b)` of two vectors of the same length is their inner product on every rank, for every number of ranks, each operand replicated or split in the canonical
distribution. -/
theorem dot_spec_partial (P : Nat) (hP : 0 < P) (a b : CatArr Int) (hlen : (a.glob P).length = (b.glob P).length) (ha : a.Canonical P) (hb : b.Canonical P) :
    dotVec P a b = .ok (inner (a.glob P) (b.glob P)) := by
  have hgen : (List.range P).foldlM (fun acc r => (torchDot (dotSlice P (vecLen P a) r a) (dotSlice P (vecLen P a) r b)).map fun v => acc + v) 0 =
      .ok (inner (a.glob P) (b.glob P)) := by
    have hv : vecLen P a = (a.glob P).length := CatArr.len_glob P a
    rw [hv]
    generalize hn : (a.glob P).length = n
    rw [hn] at hlen
    have hsl : ∀ r < P, torchDot (dotSlice P n r a) (dotSlice P n r b) =
        .ok (inner (((a.glob P).take (chunkRange n r P).2).drop (chunkRange n r P).1) (((b.glob P).take (chunkRange n r P).2).drop (chunkRange n r P).1)) := by
      intro r hr
      rw [dotSlice_canonical P n r hr a hn ha, dotSlice_canonical P n r hr b hlen.symm hb]
      unfold torchDot
      rw [if_pos (by simp [hn, ← hlen])]
    rw [foldlM_dot _ _ P hsl]
    congr 1
    have hpre : ∀ k ≤ P, sumTo k (fun r => inner (((a.glob P).take (chunkRange n r P).2).drop (chunkRange n r P).1) (((b.glob P).take (chunkRange n r P).2).drop (chunkRange n r P).1)) =
        inner ((a.glob P).take (chunkRange n k P).1) ((b.glob P).take (chunkRange n k P).1) := by
      intro k hk
      induction k with
      | zero => simp [chunkRange_zero, sumTo_zero, inner]
      | succ k ih =>
        rw [sumTo_succ, ih (by omega)]
        have hbd := chunk_bounds n P k (by omega)
        rw [chunkRange_succ, ← inner_append (by simp [hn, ← hlen])]
        have hj : ∀ l : List Int, l.take (chunkRange n k P).1 ++ (l.take (chunkRange n k P).2).drop (chunkRange n k P).1 = l.take (chunkRange n k P).2 := by
          intro l
          have := List.take_append_drop (chunkRange n k P).1 (l.take (chunkRange n k P).2)
          rw [List.take_take, Nat.min_eq_left hbd.1] at this
          exact this
        rw [hj, hj]
    rw [hpre P (Nat.le_refl _), chunkRange_at_P n P hP, List.take_of_length_le (by omega), List.take_of_length_le (by omega)]
  unfold dotVec
  split
  · simp only [torchDot]
    simp only [CatArr.glob] at hlen ⊢
    rw [if_pos hlen]
  · exact hgen

/-- C67 fails for arrays that are not balanced: with all four elements on rank 0 of two the last two products are silently dropped. -/
theorem dot_unbalanced_violated : ∃ a : CatArr Int, a.glob 2 = [1, 1, 1, 1] ∧ dotVec 2 a a = .ok 2 :=
  ⟨.along fun r => if r = 0 then [1, 1, 1, 1] else [], by decide +kernel, by decide +kernel⟩

/-- C67: different lengths are not rejected when an operand is split: (1, 1)·(1, 2, 3, 4) gives 3 (`b` replicated) or 1 + 3 (`b` split). -/
theorem dot_length_violated : dotVec 2 (.along fun _ => [1]) (.rep [1, 2, 3, 4]) = .ok 3 ∧
    dotVec 2 (.along fun _ => [1]) (.along fun r => if r = 0 then [1, 2] else [3, 4]) = .ok 4 := ⟨by decide +kernel, by decide +kernel⟩

/-- Non-vacuity: one operand replicated, one split over three ranks (2 + 1 + 1). -/
example : (CatArr.along fun r => if r = 0 then [1, 2] else if r = 1 then [3] else if r = 2 then [4] else ([] : List Int)).Canonical 3 ∧
    dotVec 3 (.along fun r => if r = 0 then [1, 2] else if r = 1 then [3] else [4]) (.rep [10, 20, 30, 40]) = .ok 300 := by
  refine ⟨?_, by decide +kernel⟩
  intro r hr
  match r, hr with
  | 0, _ => simp [content_succ, content_zero, evenSize]
  | 1, _ => simp [content_succ, content_zero, evenSize]
  | 2, _ => simp [content_succ, content_zero, evenSize]

end Heat
