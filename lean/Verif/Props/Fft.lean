import Verif.Model.Fft
import Verif.Props.Reshape
import Verif.Props.StrideTricks
import Mathlib.RingTheory.RootsOfUnity.PrimitiveRoots
import Mathlib.Algebra.Field.GeomSum
import Mathlib.Tactic.IntervalCases
import Mathlib.Tactic.NormNum
/-!
# Properties of the one-dimensional transforms (C129)
-/
namespace Heat
open Spec
variable {K : Type}

/-- The result of a transform with argument `n` depends only on the elements of the line. -/
def Spec.Reads (f : (Nat → K) → Nat → K) (N : Nat) : Prop := ∀ v w, (∀ i < N, v i = w i) → ∀ j, f v j = f w j

/-- All extents are positive. -/
def Spec.Pos (G : NArr K) : Prop := ∀ k < G.ndim, 0 < G.dim k

/-- Representations agree when the arrays do. -/
theorem rep_congrG {P : Nat} {x : DND K} {G H : NArr K} (h : Rep P x G) (hn : H.ndim = G.ndim) (hd : ∀ k < G.ndim, H.dim k = G.dim k) (hg : ∀ idx, H.get idx = G.get idx) : Rep P x H := by
  obtain ⟨h0, h1, h2, h3, h4⟩ := h
  refine ⟨?_, by rw [hn]; exact h1, ?_, ?_, ?_⟩
  · intro i j hij
    rw [hg, hg]
    exact h0 i j (by rw [← hn]; exact hij)
  · rw [hn]
    intro k hk
    rw [hd k hk]
    exact h2 k hk
  · rw [hn]; exact h3
  · cases hs : x.split with
    | none =>
      rw [hs] at h4
      dsimp only at h4 ⊢
      intro r hr
      rw [hn]
      refine ⟨fun k hk => by rw [hd k hk]; exact (h4 r hr).1 k hk, fun idx hi => by rw [hg]; exact (h4 r hr).2 idx hi⟩
    | some s =>
      rw [hs] at h4
      dsimp only at h4 ⊢
      obtain ⟨ha, hb, hc⟩ := h4
      rw [hn, hd s ha]
      refine ⟨ha, hb, ?_⟩
      intro r hr
      refine ⟨fun k hk hks => by rw [hd k hk]; exact (hc r hr).1 k hk hks, fun idx hi => by rw [hg]; exact (hc r hr).2 idx hi⟩

/-- Representations agree when the local parts do. -/
theorem rep_congrL {P : Nat} {x : DND K} {G : NArr K} (h : Rep P x G) (loc : Nat → NArr K) (b : Option Bool) (hn : ∀ r < P, (loc r).ndim = (x.loc r).ndim) (hd : ∀ r < P, ∀ k < G.ndim, (loc r).dim k = (x.loc r).dim k)
    (hg : ∀ r < P, ∀ idx, InB (x.loc r) idx → (loc r).get idx = (x.loc r).get idx) : Rep P ⟨x.gshape, x.split, loc, b⟩ G := by
  obtain ⟨h0, h1, h2, h3, h4⟩ := h
  have hin : ∀ r < P, ∀ idx, InB (loc r) idx → InB (x.loc r) idx := by
    intro r hr idx hi k hk
    rw [h3 r hr] at hk
    have := hi k (by rw [hn r hr, h3 r hr]; exact hk)
    rwa [hd r hr k hk] at this
  refine ⟨h0, h1, h2, fun r hr => by rw [show (DND.mk x.gshape x.split loc b).loc r = loc r from rfl, hn r hr, h3 r hr], ?_⟩
  dsimp only
  cases hs : x.split with
  | none =>
    rw [hs] at h4
    dsimp only at h4 ⊢
    intro r hr
    exact ⟨fun k hk => by rw [hd r hr k hk]; exact (h4 r hr).1 k hk, fun idx hi => by rw [hg r hr idx (hin r hr idx hi)]; exact (h4 r hr).2 idx (hin r hr idx hi)⟩
  | some s =>
    rw [hs] at h4
    dsimp only at h4 ⊢
    obtain ⟨ha, hb, hc⟩ := h4
    have hst : ∀ r ≤ P, axisStart loc s r = axisStart x.loc s r := by
      intro r hr
      unfold axisStart
      congr 1
      apply List.map_congr_left
      intro q hq
      exact hd q (by have := List.mem_range.1 hq; omega) s ha
    refine ⟨ha, by rw [hst P le_rfl, hb], ?_⟩
    intro r hr
    refine ⟨fun k hk hks => by rw [hd r hr k hk]; exact (hc r hr).1 k hk hks, fun idx hi => ?_⟩
    rw [hg r hr idx (hin r hr idx hi), hst r hr.le]
    exact (hc r hr).2 idx (hin r hr idx hi)

theorem along_local {G : NArr K} (h : Local G) (a m : Nat) (ha : a < G.ndim) (f : (Nat → K) → Nat → K) : Local (G.along a m f) := by
  intro i j hij
  have hij' : ∀ k < G.ndim, i k = j k := hij
  unfold NArr.along
  dsimp only
  rw [hij' a ha]
  congr 1
  funext t
  apply h
  intro k hk
  by_cases hka : k = a
  · subst hka; rw [Function.update_self, Function.update_self]
  · rw [Function.update_of_ne hka, Function.update_of_ne hka]; exact hij' k hk

/-- A transform along an axis that is not distributed acts on the local parts. -/
theorem rep_along {P : Nat} {x : DND K} {G : NArr K} (h : Rep P x G) {a : Nat} (ha : a < G.ndim) (hs : P = 1 ∨ x.split ≠ some a) (m : Nat) (f : (Nat → K) → Nat → K) (hf : Reads f (G.dim a)) (b : Option Bool) :
    Rep P ⟨x.gshape.set a m, x.split, fun r => (x.loc r).along a m f, b⟩ (G.along a m f) := by
  obtain ⟨h0, h1, h2, h3, h4⟩ := h
  refine ⟨along_local h0 a m ha f, by rw [List.length_set]; exact h1, ?_, fun r hr => h3 r hr, ?_⟩
  · intro k hk
    have hk : k < G.ndim := hk
    dsimp only [NArr.along]
    by_cases hka : k = a
    · subst hka
      rw [Function.update_self, List.getD_eq_getElem?_getD, List.getElem?_set_self (by omega)]
      rfl
    · rw [Function.update_of_ne hka, List.getD_eq_getElem?_getD, List.getElem?_set_ne (fun h => hka h.symm), ← List.getD_eq_getElem?_getD]
      exact h2 k hk
  · dsimp only
    cases hsp : x.split with
    | none =>
      rw [hsp] at h4
      dsimp only at h4 ⊢
      intro r hr
      obtain ⟨hd, hg⟩ := h4 r hr
      refine ⟨?_, ?_⟩
      · intro k hk
        have hk : k < G.ndim := hk
        dsimp only [NArr.along]
        by_cases hka : k = a
        · subst hka; rw [Function.update_self, Function.update_self]
        · rw [Function.update_of_ne hka, Function.update_of_ne hka]; exact hd k hk
      · intro idx hi
        dsimp only [NArr.along]
        apply hf
        intro i hia
        apply hg
        intro k hk
        by_cases hka : k = a
        · subst hka; rw [Function.update_self, hd _ ha]; exact hia
        · rw [Function.update_of_ne hka]
          have := hi k hk
          dsimp only [NArr.along] at this
          rwa [Function.update_of_ne hka] at this
    | some s =>
      rw [hsp] at h4 hs
      dsimp only at h4 ⊢
      obtain ⟨hsn, htot, hc⟩ := h4
      by_cases hsa : s = a
      · subst hsa
        have hP : P = 1 := by
          rcases hs with h | h
          · exact h
          · exact absurd rfl h
        subst hP
        have hd0 : (x.loc 0).dim s = G.dim s := by
          have := htot
          unfold axisStart at this
          simpa using this
        refine ⟨hsn, ?_, ?_⟩
        · unfold axisStart
          simp [NArr.along]
        · intro r hr
          have hr0 : r = 0 := by omega
          subst hr0
          obtain ⟨hd, hg⟩ := hc 0 hr
          refine ⟨?_, ?_⟩
          · intro k hk hks
            dsimp only [NArr.along]
            rw [Function.update_of_ne hks, Function.update_of_ne hks]
            exact hd k hk hks
          · intro idx hi
            have e : axisStart (fun r => (x.loc r).along s m f) s 0 = 0 := rfl
            rw [e]
            have e2 : axisStart x.loc s 0 = 0 := rfl
            have hsh : ∀ idx, shift s 0 idx = idx := by
              intro idx; funext k; unfold shift; split <;> rfl
            rw [hsh]
            dsimp only [NArr.along]
            apply hf
            intro i hia
            rw [hg, e2, hsh]
            intro k hk
            by_cases hka : k = s
            · subst hka; rw [Function.update_self, hd0]; exact hia
            · rw [Function.update_of_ne hka]
              have := hi k hk
              dsimp only [NArr.along] at this
              rwa [Function.update_of_ne hka] at this
      · have hst : ∀ r, axisStart (fun r => (x.loc r).along a m f) s r = axisStart x.loc s r := by
          intro r
          unfold axisStart
          congr 1
          apply List.map_congr_left
          intro q _
          dsimp only [NArr.along]
          rw [Function.update_of_ne hsa]
        refine ⟨hsn, ?_, ?_⟩
        · rw [hst, htot]
          dsimp only [NArr.along]
          rw [Function.update_of_ne hsa]
        · intro r hr
          obtain ⟨hd, hg⟩ := hc r hr
          refine ⟨?_, ?_⟩
          · intro k hk hks
            have hk : k < G.ndim := hk
            dsimp only [NArr.along]
            by_cases hka : k = a
            · subst hka; rw [Function.update_self, Function.update_self]
            · rw [Function.update_of_ne hka, Function.update_of_ne hka]; exact hd k hk hks
          · intro idx hi
            rw [hst]
            dsimp only [NArr.along]
            have e : shift s (axisStart x.loc s r) idx a = idx a := by unfold shift; rw [if_neg (fun h => hsa h.symm)]
            rw [e]
            apply hf
            intro i hia
            rw [hg]
            · congr 1
              funext k
              unfold shift
              by_cases hka : k = a
              · subst hka; rw [if_neg (fun h => hsa h.symm), Function.update_self, Function.update_self]
              · rw [Function.update_of_ne hka, Function.update_of_ne hka]
            · intro k hk
              by_cases hka : k = a
              · subst hka; rw [Function.update_self, hd _ ha (fun h => hsa h.symm)]; exact hia
              · rw [Function.update_of_ne hka]
                have := hi k hk
                dsimp only [NArr.along] at this
                rwa [Function.update_of_ne hka] at this

theorem rep_ndim {P : Nat} {x : DND K} {G : NArr K} (h : Rep P x G) : x.gshape.length = G.ndim := h.2.1

theorem rep_gdim {P : Nat} {x : DND K} {G : NArr K} (h : Rep P x G) {k : Nat} (hk : k < G.ndim) : x.gshape.getD k 0 = G.dim k := h.2.2.1 k hk

theorem rep_dim2 {P : Nat} {x : DND K} {G : NArr K} (h : Rep P x G) {r k : Nat} (hr : r < P) (hk : k < G.ndim) (hs : x.split ≠ some k) : (x.loc r).dim k = G.dim k := by
  obtain ⟨-, -, -, -, h4⟩ := h
  cases hsp : x.split with
  | none => rw [hsp] at h4; exact (h4 r hr).1 k hk
  | some s =>
    rw [hsp] at h4 hs
    exact (h4.2.2 r hr).1 k hk fun e => hs (by rw [e])

/-- With positive extents a part is empty exactly when it has nothing along the split axis. -/
theorem empty_iff {P : Nat} {x : DND K} {G : NArr K} (h : Rep P x G) (hp : Pos G) {r : Nat} (hr : r < P) : (x.loc r).isEmpty = true ↔ ∃ s, x.split = some s ∧ (x.loc r).dim s = 0 := by
  unfold NArr.isEmpty
  rw [decide_eq_true_iff, h.2.2.2.1 r hr]
  constructor
  · rintro ⟨k, hk, h0⟩
    by_cases hs : x.split = some k
    · exact ⟨k, hs, h0⟩
    · have := rep_dim2 h hr hk hs
      have := hp k hk
      omega
  · rintro ⟨s, hs, h0⟩
    have h4 := h.2.2.2.2
    rw [hs] at h4
    exact ⟨s, h4.1, h0⟩

/-- A transform along an axis that is not distributed. -/
theorem fftLocal_spec {P : Nat} (op : FftOp K) {X : FD K} {G : NArr K} (h : Rep P X.x G) (hp : Pos G) {a : Nat} (ha : a < G.ndim) (hs : P = 1 ∨ X.x.split ≠ some a) {n : Nat} (hn : 0 < n) (hf : Reads (op.run (G.dim a) n) (G.dim a)) :
    ∃ Y, fftLocal P op X n a = .ok Y ∧ Rep P Y.x (G.along a (op.out n) (op.run (G.dim a) n)) ∧ Y.x.split = X.x.split ∧ (∀ r < P, ¬ (X.x.loc r).isEmpty → Y.cplx r = op.cplx) ∧
      (∀ r < P, (X.x.loc r).isEmpty → Y.cplx r = X.cplx r) ∧ (∀ r < P, ∀ s, X.x.split = some s → s ≠ a → (Y.x.loc r).dim s = (X.x.loc r).dim s) := by
  have he := fun r hr => empty_iff h hp (r := r) hr
  unfold fftLocal
  dsimp only
  rw [if_neg, if_neg]
  · refine ⟨_, rfl, ?_, rfl, ?_, ?_, ?_⟩
    · apply rep_congrL (rep_along h ha hs (op.out n) (op.run (G.dim a) n) hf X.x.balanced)
      · intro r hr
        dsimp only
        split <;> rfl
      · intro r hr k hk
        have hk : k < G.ndim := hk
        dsimp only
        by_cases hem : (X.x.loc r).isEmpty = true
        · rw [if_pos hem]
          obtain ⟨s, hs1, hs0⟩ := (he r hr).1 hem
          rw [hs1]
          dsimp only [emptyLoc, Option.getD, NArr.along]
          have hsa : s ≠ a := by
            intro e
            subst e
            rcases hs with h1 | h1
            · subst h1
              have hr0 : r = 0 := by omega
              subst hr0
              have h4 := h.2.2.2.2
              rw [hs1] at h4
              have := h4.2.1
              unfold axisStart at this
              simp at this
              have := hp s h4.1
              omega
            · exact h1 hs1
          by_cases hks : k = s
          · subst hks
            rw [if_pos rfl, Function.update_of_ne hsa, hs0]
          · rw [if_neg hks]
            by_cases hka : k = a
            · subst hka
              rw [Function.update_self, List.getD_eq_getElem?_getD, List.getElem?_set_self (by rw [rep_ndim h]; exact ha)]
              rfl
            · rw [Function.update_of_ne hka, List.getD_eq_getElem?_getD, List.getElem?_set_ne (fun h => hka h.symm), ← List.getD_eq_getElem?_getD, rep_gdim h hk]
              exact (rep_dim2 h hr hk (by rw [hs1]; intro e; exact hks (Option.some.inj e).symm)).symm
        · rw [if_neg hem]
          dsimp only [NArr.along]
      · intro r hr idx hi
        dsimp only
        by_cases hem : (X.x.loc r).isEmpty = true
        · exfalso
          obtain ⟨s, hs1, hs0⟩ := (he r hr).1 hem
          have h4 := h.2.2.2.2
          rw [hs1] at h4
          have := hi s (by show s < (X.x.loc r).ndim; rw [h.2.2.2.1 r hr]; exact h4.1)
          dsimp only [NArr.along] at this
          by_cases hsa : s = a
          · subst hsa
            rcases hs with h1 | h1
            · subst h1
              have hr0 : r = 0 := by omega
              subst hr0
              have h5 := h4.2.1
              unfold axisStart at h5
              simp at h5
              have := hp s h4.1
              omega
            · exact h1 hs1
          · rw [Function.update_of_ne hsa] at this
            omega
        · rw [if_neg hem]
          dsimp only [NArr.along]
          have e : (X.x.loc r).dim a = G.dim a := by
            rcases hs with h1 | h1
            · subst h1
              have hr0 : r = 0 := by omega
              subst hr0
              by_cases hsp : X.x.split = some a
              · have h4 := h.2.2.2.2
                rw [hsp] at h4
                have h5 := h4.2.1
                unfold axisStart at h5
                simpa using h5
              · exact rep_dim2 h hr ha hsp
            · exact rep_dim2 h hr ha h1
          rw [e]
    · intro r hr hem
      dsimp only
      rw [if_neg hem]
    · intro r hr hem
      dsimp only
      rw [if_pos hem]
    · intro r hr s hs1 hsa
      dsimp only
      by_cases hem : (X.x.loc r).isEmpty = true
      · rw [if_pos hem]
        obtain ⟨s', hs1', hs0⟩ := (he r hr).1 hem
        rw [hs1] at hs1' ⊢
        obtain rfl := Option.some.inj hs1'
        dsimp only [emptyLoc, Option.getD]
        rw [if_pos rfl, hs0]
      · rw [if_neg hem]
        dsimp only [NArr.along]
        rw [Function.update_of_ne hsa]
  · rintro ⟨r, -, -, h0⟩
    omega
  · rintro ⟨r, hr, hem, hno⟩
    obtain ⟨s, hs1, -⟩ := (he r hr).1 hem
    rw [hno] at hs1
    exact absurd hs1 (by simp)

/-- The order after exchanging axes 0 and `a`. -/
def sw (a k : Nat) : Nat := if k = a then 0 else if k = 0 then a else k

theorem sw_sw (a k : Nat) : sw a (sw a k) = k := by
  unfold sw
  by_cases h1 : k = a
  · rw [if_pos h1]
    by_cases h2 : 0 = a
    · rw [if_pos h2, h1, h2]
    · rw [if_neg h2, if_pos rfl, h1]
  · rw [if_neg h1]
    by_cases h2 : k = 0
    · rw [if_pos h2, if_pos rfl, h2]
    · rw [if_neg h2, if_neg h1, if_neg h2]

theorem sw_lt {a k n : Nat} (ha : a < n) (hk : k < n) : sw a k < n := by
  unfold sw
  split
  · omega
  · split <;> omega

/-- An array with axes 0 and `a` exchanged. -/
def NArr.swap (G : NArr K) (a : Nat) : NArr K := ⟨G.ndim, fun k => G.dim (sw a k), fun idx => G.get fun k => idx (sw a k)⟩

theorem swap_swap (G : NArr K) (a : Nat) : (G.swap a).swap a = G := by
  unfold NArr.swap
  dsimp only
  congr 1
  · funext k; rw [sw_sw]
  · funext idx; congr 1; funext k; rw [sw_sw]

/-- Transforms move with the axes. -/
theorem along_swap (G : NArr K) (a m : Nat) (f : (Nat → K) → Nat → K) : ((G.swap a).along 0 m f).swap a = G.along a m f := by
  have h0 : sw a 0 = a := by unfold sw; split <;> [assumption; rfl]
  have ha : sw a a = 0 := by unfold sw; rw [if_pos rfl]
  unfold NArr.swap NArr.along
  dsimp only
  congr 1
  · funext k
    by_cases hk : k = a
    · subst hk; rw [ha, Function.update_self, Function.update_self]
    · have : sw a k ≠ 0 := by intro e; apply hk; rw [← sw_sw a k, e, h0]
      rw [Function.update_of_ne hk, Function.update_of_ne this, sw_sw]
  · funext idx
    rw [h0]
    congr 1
    funext i
    congr 1
    funext k
    by_cases hk : k = a
    · subst hk; rw [ha, Function.update_self, Function.update_self]
    · have : sw a k ≠ 0 := by intro e; apply hk; rw [← sw_sw a k, e, h0]
      rw [Function.update_of_ne hk, Function.update_of_ne this, sw_sw]

theorem idxOf_cast (l : List Nat) (s : Nat) : (l.map fun (k : Nat) => (k : Int)).idxOf (s : Int) = l.idxOf s := by
  induction l with
  | nil => rfl
  | cons a l ih =>
    rw [List.map_cons, List.idxOf_cons, List.idxOf_cons, ih]
    by_cases h : a = s
    · subst h; simp
    · have h1 : ((a : Int) == (s : Int)) = false := beq_eq_false_iff_ne.2 fun e => h (by omega)
      have h2 : (a == s) = false := by simpa using h
      rw [h1, h2]

theorem fdSwap_spec {P : Nat} {X : FD K} {G : NArr K} (h : Rep P X.x G) {a : Nat} (ha : a < G.ndim) :
    ∃ Y, fdSwap X a = .ok Y ∧ Rep P Y.x (G.swap a) ∧ Y.cplx = X.cplx ∧ (∀ s, X.x.split = some s → Y.x.split = some (sw a s)) ∧ ∀ r, ∀ k < G.ndim, (Y.x.loc r).dim k = (X.x.loc r).dim (sw a k) := by
  unfold fdSwap
  by_cases h0 : a = 0
  · subst h0
    rw [if_pos rfl]
    have e : ∀ k, sw 0 k = k := by intro k; unfold sw; by_cases h : k = 0 <;> simp [h]
    refine ⟨X, rfl, rep_congrG h rfl ?_ ?_, rfl, ?_, ?_⟩
    · intro k hk; show G.dim (sw 0 k) = _; rw [e]
    · intro idx; show G.get (fun k => idx (sw 0 k)) = _; simp only [e]
    · intro s hs; rw [e]; exact hs
    · intro r k hk; rw [e]
  · rw [if_neg h0]
    have hn := rep_ndim h
    have hget : ∀ k < G.ndim, (swapOrder G.ndim 0 a).getD k 0 = sw a k := by
      intro k hk
      rw [List.getD_eq_getElem?_getD, swapOrder_get _ _ _ _ (by omega) ha, if_pos hk]
      rfl
    obtain ⟨y, T, hy, hT, hR⟩ := transpose_nat P X.x G h (swapOrder G.ndim 0 a) (swapOrder_perm G.ndim 0 a (by omega) ha)
    rw [hn, hy]
    refine ⟨⟨y, X.cplx⟩, rfl, ?_, rfl, ?_, ?_⟩
    · obtain ⟨t1, t2, t3⟩ := hT
      apply rep_congrG hR
      · exact t1.symm
      · intro k hk
        rw [t1] at hk
        rw [t2 k hk]
        dsimp only
        rw [hget k hk]
        rfl
      · intro idx
        have := t3 (fun k => idx (sw a k))
        show G.get (fun k => idx (sw a k)) = _
        rw [← this]
        apply hR.1
        intro k hk
        rw [t1] at hk
        dsimp only
        rw [hget k hk, sw_sw]
    all_goals
      unfold transpose at hy
      dsimp only at hy
      rw [if_neg (by simp [swapOrder, hn])] at hy
      have hsh : shiftAxes X.x.gshape.length ((swapOrder G.ndim 0 a).map fun (k : Nat) => (k : Int)) = (swapOrder G.ndim 0 a).map fun (k : Nat) => (k : Int) := by
        unfold shiftAxes
        rw [List.map_map]
        apply List.map_congr_left
        intro k _
        simp
      rw [hsh] at hy
    · intro s hs
      rw [hs] at hy
      dsimp only at hy
      have hsn : s < G.ndim := by
        have h4 := h.2.2.2.2
        rw [hs] at h4
        exact h4.1
      have hnd : (swapOrder G.ndim 0 a).Nodup := (swapOrder_perm G.ndim 0 a (by omega) ha).nodup_iff.2 List.nodup_range
      have hlen : (swapOrder G.ndim 0 a).length = G.ndim := by simp [swapOrder]
      have hix : (swapOrder G.ndim 0 a).idxOf s = sw a s := by
        have := idxOf_of_getD hnd (k := sw a s) (by rw [hlen]; exact sw_lt ha hsn)
        rwa [hget _ (sw_lt ha hsn), sw_sw] at this
      have hix2 : ((swapOrder G.ndim 0 a).map fun (k : Nat) => (k : Int)).idxOf (s : Int) = sw a s := by
        rw [← hix, idxOf_cast]
      have hmem : (s : Int) ∈ (swapOrder G.ndim 0 a).map fun (k : Nat) => (k : Int) := by
        apply List.mem_map_of_mem
        exact ((swapOrder_perm G.ndim 0 a (by omega) ha).mem_iff).2 (List.mem_range.2 hsn)
      rw [if_pos hmem, hix2] at hy
      dsimp only at hy
      split at hy
      · exact absurd hy (by simp)
      · have := Except.ok.inj hy
        rw [← this]
    · intro r k hk
      split at hy
      · exact absurd hy (by simp)
      · split at hy
        · exact absurd hy (by simp)
        · rename_i l hl
          have e := Except.ok.inj hy
          have hp := permuteAxes_spec hl (by simp [swapOrder, hn])
          have hl2 : l = swapOrder G.ndim 0 a := by
            rw [hp.1, hn]
            exact natMod_map _ fun b hb => List.mem_range.1 ((swapOrder_perm G.ndim 0 a (by omega) ha).mem_iff.1 hb)
          rw [← e]
          dsimp only [NArr.permute]
          rw [hl2, hget k hk]


theorem evenSize_pos_iff {n P r : Nat} (hr : r < P) : 0 < evenSize n P r ↔ r < n := by
  unfold evenSize
  constructor
  · intro h
    by_contra hn
    have hnP : n < P := by omega
    rw [Nat.div_eq_of_lt hnP, Nat.mod_eq_of_lt hnP, if_neg hn] at h
    omega
  · intro h
    by_cases hnP : n < P
    · rw [Nat.mod_eq_of_lt hnP, if_pos h]; exact Nat.succ_pos _
    · have : 0 < n / P := Nat.div_pos (by omega) (by omega)
      omega

theorem resplitTo_dim (P : Nat) (x : DND K) {ax : Nat} (hs : x.split ≠ some ax) (r : Nat) : ((resplitTo P x ax).loc r).dim ax = evenSize (x.gshape.getD ax 0) P r := by
  unfold resplitTo
  rw [if_neg hs]
  dsimp only [NArr.slice]
  rw [if_pos rfl, chunkRange_len]

theorem swap_pos {G : NArr K} (h : Pos G) {a : Nat} (ha : a < G.ndim) : Pos (G.swap a) := fun k hk => h _ (sw_lt ha hk)

theorem along_pos {G : NArr K} (h : Pos G) (a : Nat) {m : Nat} (hm : 0 < m) (f : (Nat → K) → Nat → K) : Pos (G.along a m f) := by
  intro k hk
  dsimp only [NArr.along]
  by_cases hka : k = a
  · subst hka; rw [Function.update_self]; exact hm
  · rw [Function.update_of_ne hka]; exact h k hk

/-- The axis along which the array is distributed while its split axis `a` is transformed: the second axis, after `a` has become the first one. -/
def Spec.otherAxis (a : Nat) : Nat := if a = 1 then 0 else 1

/-- Along the split axis: what happens before the redistribution back. -/
theorem fft_front {P : Nat} (hP : 0 < P) (op : FftOp K) {X : FD K} {G : NArr K} (h : Rep P X.x G) (hp : Pos G) {c : Bool} (hc : ∀ r < P, X.cplx r = c) {a : Nat} (hs : X.x.split = some a) (hd : 1 < G.ndim)
    {m : Nat} (hm : 0 < m) (hf : Reads (op.run (G.dim a) m) (G.dim a)) :
    ∃ X1 X2 X3, fdSwap X a = .ok X1 ∧ fdAway P X1 = .ok X2 ∧ fftLocal P op.generic X2 m 0 = .ok X3 ∧ Rep P X3.x ((G.swap a).along 0 m (op.run (G.dim a) m)) ∧ X3.x.split = some 1 ∧
      (∀ r < P, (X3.x.loc r).dim 1 = evenSize (G.dim (otherAxis a)) P r) ∧ (∀ r < P, X3.cplx r = if r < G.dim (otherAxis a) then op.cplx else c) := by
  have ha : a < G.ndim := by have h4 := h.2.2.2.2; rw [hs] at h4; exact h4.1
  obtain ⟨X1, e1, R1, c1, s1, d1⟩ := fdSwap_spec h ha
  have s1' := s1 a hs
  have hsw : sw a a = 0 := by unfold sw; rw [if_pos rfl]
  rw [hsw] at s1'
  have h0 : sw a 0 = a := by unfold sw; split <;> [assumption; rfl]
  have hsw1 : sw a 1 = otherAxis a := by
    unfold sw otherAxis
    by_cases h1 : a = 1
    · rw [if_pos h1.symm, if_pos h1]
    · rw [if_neg (fun h => h1 h.symm), if_neg h1, if_neg (by omega)]
  have hg1 : X1.x.gshape.length = G.ndim := (rep_ndim R1).trans rfl
  obtain ⟨R2, s2⟩ := rep_resplitTo hP R1 1 hd
  have e2 : fdAway P X1 = .ok ⟨resplitTo P X1.x 1, X1.cplx⟩ := by
    unfold fdAway
    rw [if_pos (by omega)]
    unfold fdResplit
    rw [s1']
    dsimp only
    rw [if_neg (by omega), if_neg]
    rintro ⟨p, hp, q, hq, hne, -⟩
    rw [c1, hc p hp, hc q hq] at hne
    exact hne rfl
  have hdim0 : (G.swap a).dim 0 = G.dim a := by show G.dim (sw a 0) = _; rw [h0]
  obtain ⟨X3, e3, R3, s3, t3, t3', d3⟩ := fftLocal_spec op.generic (X := ⟨resplitTo P X1.x 1, X1.cplx⟩) R2 (swap_pos hp ha) (a := 0) (show 0 < G.ndim by omega) (.inr (by rw [s2]; simp)) hm (by rw [hdim0]; exact hf)
  rw [hdim0] at R3
  refine ⟨X1, _, X3, e1, e2, e3, R3, by rw [s3, s2], ?_, ?_⟩
  · intro r hr
    rw [d3 r hr 1 s2 (by omega)]
    rw [resplitTo_dim P X1.x (by rw [s1']; simp) r, rep_gdim R1 hd]
    show evenSize (G.dim (sw a 1)) P r = _
    rw [hsw1]
  · intro r hr
    have hdim : ((resplitTo P X1.x 1).loc r).dim 1 = evenSize (G.dim (otherAxis a)) P r := by
      rw [resplitTo_dim P X1.x (by rw [s1']; simp) r, rep_gdim R1 hd]
      show evenSize (G.dim (sw a 1)) P r = _
      rw [hsw1]
    by_cases hcol : r < G.dim (otherAxis a)
    · rw [if_pos hcol, t3 r hr]
      · rfl
      · intro hem
        obtain ⟨s, hs1, hs0⟩ := (empty_iff R2 (swap_pos hp ha) hr).1 hem
        rw [s2] at hs1
        obtain rfl := Option.some.inj hs1
        have := (evenSize_pos_iff hr).2 hcol
        omega
    · rw [if_neg hcol, t3' r hr]
      · show X1.cplx r = c
        rw [c1]; exact hc r hr
      · apply (empty_iff R2 (swap_pos hp ha) hr).2
        refine ⟨1, s2, ?_⟩
        have := mt (evenSize_pos_iff hr).1 hcol
        show ((resplitTo P X1.x 1).loc r).dim 1 = 0
        omega

/-- **C129, one-dimensional transforms.** For every transform of lines, number of processes, distribution, extents, axis and length: the result represents the global array transformed along the axis, with the
split of the input, and the type of the transform on every process that has elements. Missing: `rfft`/`ihfft` along the split axis, and along a split axis of a type-changing transform with fewer lines on the other axis than
processes and outputs (both fail, see below). -/
theorem fft_partial {P : Nat} (hP : 0 < P) (op : FftOp K) {X : FD K} {G : NArr K} (h : Rep P X.x G) (hp : Pos G) {c : Bool} (hc : ∀ r < P, X.cplx r = c) {axis : Int}
    {a : Nat} (ha : a < G.ndim) (hax : axis = a ∨ axis = (a : Int) - G.ndim) (n : Option Nat) (hn : n ≠ some 0) {m : Nat} (hm : m = n.getD (G.dim a)) (hf : Reads (op.run (G.dim a) m) (G.dim a))
    (hreal : 1 < P → X.x.split = some a → op.real = false) (hcol : 1 < P → X.x.split = some a → 1 < G.ndim → c = op.cplx ∨ P ≤ G.dim (otherAxis a) ∨ m ≤ G.dim (otherAxis a)) :
    ∃ Y, fftOp P op X n axis = .ok Y ∧ Rep P Y.x (G.along a (op.out m) (op.run (G.dim a) m)) ∧ Y.x.split = X.x.split ∧ (∀ r < P, ¬ (Y.x.loc r).isEmpty → Y.cplx r = op.cplx) ∧ (c = op.cplx → ∀ r < P, Y.cplx r = op.cplx) := by
  have hlen := rep_ndim h
  have han := ha
  have hd : 0 < G.ndim := by omega
  have hsan : sanitizeAxis G.ndim (some axis) = .ok (some a) := (sanitize_axis_ok_iff G.ndim axis a hd).2 ⟨ha, hax⟩
  have hmp : 0 < m := by
    rw [hm]
    cases n with
    | none => exact hp a han
    | some v => exact Nat.pos_of_ne_zero fun e => hn (congrArg some e)
  unfold fftOp
  rw [hlen, hsan]
  dsimp only
  rw [rep_gdim h han, ← hm]
  by_cases hloc : P ≤ 1 ∨ X.x.split ≠ some a
  · rw [if_pos hloc]
    have hloc' : P = 1 ∨ X.x.split ≠ some a := hloc.imp_left (by omega)
    obtain ⟨Y, e, R, s, t, t', d⟩ := fftLocal_spec op h hp han hloc' hmp hf
    refine ⟨Y, e, R, s, ?_, ?_⟩
    swap
    · intro hcc r hr
      by_cases hem : (X.x.loc r).isEmpty = true
      · rw [t' r hr hem, hc r hr, hcc]
      · exact t r hr hem
    intro r hr hne
    apply t r hr
    intro hem
    apply hne
    obtain ⟨s', hs1, hs0⟩ := (empty_iff h hp hr).1 hem
    have hpos : Pos (G.along a (op.out m) (op.run (G.dim a) m)) := along_pos hp a (by unfold FftOp.out; split <;> omega) _
    apply (empty_iff R hpos hr).2
    by_cases hsa : s' = a
    · exfalso
      subst hsa
      rcases hloc' with h1 | h1
      · subst h1
        have h4 := h.2.2.2.2
        rw [hs1] at h4
        have h5 := h4.2.1
        unfold axisStart at h5
        have hr0 : r = 0 := by omega
        subst hr0
        simp at h5
        have := hp s' h4.1
        omega
      · exact h1 hs1
    · exact ⟨s', by rw [s, hs1], by rw [d r hr s' hs1 hsa, hs0]⟩
  · rw [if_neg hloc]
    have hP1 : 1 < P := by omega
    have hs : X.x.split = some a := by
      by_contra hh
      exact hloc (.inr hh)
    have hre := hreal hP1 hs
    have hout : op.out m = m := by unfold FftOp.out; rw [hre]; rfl
    rw [hout]
    have h0 : sw a 0 = a := by unfold sw; split <;> [assumption; rfl]
    have hsw : sw a a = 0 := by unfold sw; rw [if_pos rfl]
    by_cases hnd : 1 < G.ndim
    · obtain ⟨X1, X2, X3, e1, e2, e3, R3, s3, d3, t3⟩ := fft_front hP op h hp hc hs hnd hmp hf
      rw [e1]
      dsimp only
      rw [e2]
      dsimp only
      rw [e3]
      dsimp only
      set T := (G.swap a).along 0 m (op.run (G.dim a) m) with hT
      obtain ⟨R4, s4⟩ := rep_resplitTo hP R3 0 (show 0 < G.ndim from hd)
      have hdT : T.dim 0 = m := by rw [hT]; exact Function.update_self 0 m (G.swap a).dim
      have hTp : Pos T := along_pos (swap_pos hp han) 0 hmp _
      have e4 : fdResplit P X3 0 = .ok ⟨resplitTo P X3.x 0, X3.cplx⟩ := by
        unfold fdResplit
        rw [s3]
        dsimp only
        rw [if_neg (by omega), if_neg]
        rintro ⟨p, hpP, q, hq, hne, hblk, hch⟩
        rw [t3 p hpP, t3 q hq] at hne
        have hp1 := hblk 1 (by rw [R3.2.2.2.1 p hpP]; exact hnd) (by omega)
        rw [d3 p hpP] at hp1
        have hpc : p < G.dim (otherAxis a) := (evenSize_pos_iff hpP).1 (by omega)
        rw [if_pos hpc] at hne
        by_cases hqc : q < G.dim (otherAxis a)
        · rw [if_pos hqc] at hne; exact hne rfl
        · rw [if_neg hqc] at hne
          have hq0 : 0 < evenSize m P q := by
            rw [← chunkRange_len]
            rw [rep_gdim R3 (show 0 < G.ndim from hd), hdT] at hch
            omega
          have := (evenSize_pos_iff hq).1 hq0
          rcases hcol hP1 hs hnd with h1 | h1 | h1
          · exact hne h1.symm
          · omega
          · omega
      rw [e4]
      dsimp only
      obtain ⟨X5, e5, R5, c5, s5, d5⟩ := fdSwap_spec (X := ⟨resplitTo P X3.x 0, X3.cplx⟩) R4 (show a < T.ndim from han)
      rw [e5]
      dsimp only
      rw [hre]
      have s5' := s5 0 s4
      rw [h0] at s5'
      rw [hT, along_swap] at R5
      refine ⟨X5, rfl, R5, by rw [s5', hs], ?_, ?_⟩
      swap
      · intro hcc r hr
        rw [c5]
        show X3.cplx r = _
        rw [t3 r hr, hcc, ite_self]
      intro r hr hne
      rw [c5]
      show X3.cplx r = _
      rw [t3 r hr]
      by_cases hrc : r < G.dim (otherAxis a)
      · rw [if_pos hrc]
      · rw [if_neg hrc]
        rcases hcol hP1 hs hnd with h1 | h1 | h1
        · exact h1
        · omega
        · exfalso
          apply hne
          apply (empty_iff R5 (along_pos hp a hmp _) hr).2
          refine ⟨a, s5', ?_⟩
          rw [d5 r a (show a < T.ndim from han), hsw]
          show ((resplitTo P X3.x 0).loc r).dim 0 = 0
          rw [resplitTo_dim P X3.x (by rw [s3]; simp) r, rep_gdim R3 (show 0 < G.ndim from hd), hdT]
          have := mt (evenSize_pos_iff (n := m) hr).1 (by omega)
          omega
    · have hn1 : G.ndim = 1 := by omega
      have ha0 : a = 0 := by omega
      subst ha0
      have e1 : fdSwap X 0 = .ok X := by unfold fdSwap; rw [if_pos rfl]
      rw [e1]
      dsimp only
      have e2 : fdAway P X = .ok ⟨resplitNone P X.x, X.cplx⟩ := by unfold fdAway; rw [if_neg (by omega)]
      rw [e2]
      dsimp only
      have R2 := rep_resplitNone P X.x G h
      have s2 := resplitNone_split P X.x
      obtain ⟨X3, e3, R3, s3, t3, -, -⟩ := fftLocal_spec op.generic (X := ⟨resplitNone P X.x, X.cplx⟩) R2 hp han (.inr (by rw [s2]; simp)) hmp hf
      rw [e3]
      dsimp only
      have s3' : X3.x.split = none := by rw [s3, s2]
      have e4 : fdResplit P X3 0 = .ok ⟨resplitTo P X3.x 0, X3.cplx⟩ := by unfold fdResplit; rw [s3']
      rw [e4]
      dsimp only
      obtain ⟨R4, s4⟩ := rep_resplitTo hP R3 0 (show 0 < G.ndim from hd)
      have e5 : fdSwap (⟨resplitTo P X3.x 0, X3.cplx⟩ : FD K) 0 = .ok ⟨resplitTo P X3.x 0, X3.cplx⟩ := by unfold fdSwap; rw [if_pos rfl]
      rw [e5]
      dsimp only
      rw [hre]
      have key : ∀ r < P, X3.cplx r = op.cplx := ?_
      · exact ⟨_, rfl, R4, by rw [s4, hs], fun r hr _ => key r hr, fun _ r hr => key r hr⟩
      intro r hr
      rw [t3 r hr]
      · rfl
      · intro hem
        obtain ⟨s', hs1, -⟩ := (empty_iff R2 hp hr).1 hem
        rw [s2] at hs1
        exact absurd hs1 (by simp)

/-- **C129, violated for `rfft` and `ihfft` along the split axis**: on more than one process they never return, whatever the array. -/
theorem rfft_split_violated {P : Nat} (hP : 1 < P) (op : FftOp K) (hr : op.real = true) {X : FD K} {a : Nat} (hs : X.x.split = some a) {axis : Int} (ha : a < X.x.gshape.length)
    (hax : axis = a ∨ axis = (a : Int) - X.x.gshape.length) (n : Option Nat) : ∃ e, fftOp P op X n axis = .error e := by
  have hsan := (sanitize_axis_ok_iff X.x.gshape.length axis a (by omega)).2 ⟨ha, hax⟩
  unfold fftOp
  rw [hsan]
  dsimp only
  rw [if_neg (by rw [hs]; simp; omega), hr]
  split
  · exact ⟨_, rfl⟩
  · split
    · exact ⟨_, rfl⟩
    · split
      · exact ⟨_, rfl⟩
      · split
        · exact ⟨_, rfl⟩
        · split
          · exact ⟨_, rfl⟩
          · exact ⟨_, rfl⟩

/-- **C129, violated for few lines**: a transform that changes the type (a real array to complex numbers, or back), along the split axis of an array whose other axis has fewer entries than there are processes and outputs,
fails: processes without lines receive with buffers of the wrong type. -/
theorem fft_few_lines_violated {P : Nat} (op : FftOp K) {X : FD K} {G : NArr K} (h : Rep P X.x G) (hp : Pos G) {c : Bool} (hc : ∀ r < P, X.cplx r = c) (hcc : c ≠ op.cplx) {axis : Int} (hd : 1 < G.ndim)
    {a : Nat} (ha : a < G.ndim) (hax : axis = a ∨ axis = (a : Int) - G.ndim) (hs : X.x.split = some a) (n : Option Nat) {m : Nat} (hm : m = n.getD (G.dim a)) (hf : Reads (op.run (G.dim a) m) (G.dim a))
    (hPc : G.dim (otherAxis a) < P) (hmc : G.dim (otherAxis a) < m) : fftOp P op X n axis = .error .runtimeError := by
  have hlen := rep_ndim h
  have han := ha
  have hoth : otherAxis a < G.ndim := by unfold otherAxis; split <;> omega
  have hop := hp _ hoth
  have hsan : sanitizeAxis G.ndim (some axis) = .ok (some a) := (sanitize_axis_ok_iff G.ndim axis a (by omega)).2 ⟨ha, hax⟩
  unfold fftOp
  rw [hlen, hsan]
  dsimp only
  rw [rep_gdim h han, ← hm, if_neg (by rw [hs]; simp; omega)]
  obtain ⟨X1, X2, X3, e1, e2, e3, R3, s3, d3, t3⟩ := fft_front (by omega) op h hp hc hs hd (show 0 < m by omega) hf
  rw [e1]
  dsimp only
  rw [e2]
  dsimp only
  rw [e3]
  dsimp only
  have hdT : ((G.swap a).along 0 m (op.run (G.dim a) m)).dim 0 = m := by
    show Function.update (G.swap a).dim 0 m 0 = m
    simp
  have e4 : fdResplit P X3 0 = .error .runtimeError := by
    unfold fdResplit
    rw [s3]
    dsimp only
    rw [if_neg (by omega), if_pos]
    refine ⟨0, by omega, G.dim (otherAxis a), hPc, ?_, ?_, ?_⟩
    · rw [t3 0 (by omega), t3 _ hPc, if_pos hop, if_neg (by omega)]
      exact fun e => hcc e.symm
    · intro k hk hk0
      rw [R3.2.2.2.1 0 (by omega)] at hk
      by_cases hk1 : k = 1
      · subst hk1
        rw [d3 0 (by omega)]
        have := (evenSize_pos_iff (n := G.dim (otherAxis a)) (show 0 < P by omega)).2 hop
        omega
      · rw [rep_dim2 R3 (by omega) hk (by rw [s3]; intro e; exact hk1 (Option.some.inj e).symm)]
        have := (along_pos (swap_pos hp han) 0 (show 0 < m by omega) (op.run (G.dim a) m)) k hk
        omega
    · have hq := (evenSize_pos_iff (n := m) hPc).2 hmc
      rw [← chunkRange_len] at hq
      rw [rep_gdim R3 (show 0 < G.ndim by omega), hdT]
      omega
  rw [e4]

/-- Arrays that agree within their bounds are represented alike. -/
theorem rep_congrIn {P : Nat} {x : DND K} {G H : NArr K} (h : Rep P x G) (hl : Local H) (hn : H.ndim = G.ndim) (hd : ∀ k < G.ndim, H.dim k = G.dim k) (hg : ∀ idx, InB H idx → G.get idx = H.get idx) : Rep P x H := by
  obtain ⟨h0, h1, h2, h3, h4⟩ := h
  refine ⟨hl, by rw [hn]; exact h1, ?_, ?_, ?_⟩
  · rw [hn]
    intro k hk
    rw [hd k hk]
    exact h2 k hk
  · rw [hn]; exact h3
  · cases hs : x.split with
    | none =>
      rw [hs] at h4
      dsimp only at h4 ⊢
      intro r hr
      rw [hn]
      refine ⟨fun k hk => by rw [hd k hk]; exact (h4 r hr).1 k hk, fun idx hi => ?_⟩
      rw [(h4 r hr).2 idx hi]
      apply hg
      intro k hk
      rw [hn] at hk
      have := hi k (by rw [h3 r hr]; exact hk)
      rw [(h4 r hr).1 k hk] at this
      rw [hd k hk]
      exact this
    | some s =>
      rw [hs] at h4
      dsimp only at h4 ⊢
      obtain ⟨ha, hb, hc⟩ := h4
      rw [hn, hd s ha]
      refine ⟨ha, hb, ?_⟩
      intro r hr
      refine ⟨fun k hk hks => by rw [hd k hk]; exact (hc r hr).1 k hk hks, fun idx hi => ?_⟩
      rw [(hc r hr).2 idx hi]
      apply hg
      intro k hk
      rw [hn] at hk
      have hb1 := hi k (by rw [h3 r hr]; exact hk)
      rw [hd k hk]
      unfold shift
      by_cases hks : k = s
      · subst hks
        rw [if_pos rfl]
        have e1 := axisStart_succ x.loc k r
        have e2 := axisStart_mono x.loc k (show r + 1 ≤ P by omega)
        omega
      · rw [if_neg hks]
        rwa [(hc r hr).1 k hk hks] at hb1

section Dft
open Finset
variable [Field K]

/-- The discrete Fourier transform of length `n` of a sequence of `N` elements, which is cut or padded with zeros; `w n` is a root of unity of order `n` (`exp(-2πi/n)`). This is `fft` with the default norm. -/
def Spec.dft (w : Nat → K) (N n : Nat) (v : Nat → K) (j : Nat) : K := ∑ i ∈ range (min N n), v i * w n ^ (i * j)

/-- `ifft` with the default norm. -/
def Spec.idft (w : Nat → K) (N n : Nat) (v : Nat → K) (j : Nat) : K := (n : K)⁻¹ * ∑ i ∈ range (min N n), v i * ((w n)⁻¹) ^ (i * j)

/-- `torch.fft.fft` (fft.py:381-417). -/
def torchFft (w : Nat → K) : FftOp K := ⟨Spec.dft w, false, true⟩
/-- `torch.fft.ifft` (fft.py:677-708). -/
def torchIfft (w : Nat → K) : FftOp K := ⟨Spec.idft w, false, true⟩
/-- `torch.fft.rfft` (fft.py:1002-1025). -/
def torchRfft (w : Nat → K) : FftOp K := ⟨Spec.dft w, true, true⟩

theorem dft_reads (w : Nat → K) (N n : Nat) : Reads (Spec.dft w N n) N := by
  intro v u h j
  unfold Spec.dft
  apply Finset.sum_congr rfl
  intro i hi
  rw [h i (by have := mem_range.1 hi; omega)]

theorem idft_reads (w : Nat → K) (N n : Nat) : Reads (Spec.idft w N n) N := by
  intro v u h j
  unfold Spec.idft
  congr 1
  apply Finset.sum_congr rfl
  intro i hi
  rw [h i (by have := mem_range.1 hi; omega)]

/-- The inverse transform undoes the transform of the same length. -/
theorem idft_dft (w : Nat → K) {n : Nat} (hw : IsPrimitiveRoot (w n) n) (hn : (n : K) ≠ 0) (v : Nat → K) {j : Nat} (hj : j < n) : Spec.idft w n n (Spec.dft w n n v) j = v j := by
  have hn0 : 0 < n := by omega
  have hne : w n ≠ 0 := hw.ne_zero (by omega)
  unfold Spec.idft Spec.dft
  simp only [min_self]
  have h1 : ∀ i ∈ range n, (∑ k ∈ range n, v k * w n ^ (k * i)) * (w n)⁻¹ ^ (i * j) = ∑ k ∈ range n, v k * (w n ^ k * (w n)⁻¹ ^ j) ^ i := by
    intro i _
    rw [sum_mul]
    apply sum_congr rfl
    intro k _
    rw [mul_pow, ← pow_mul, ← pow_mul, mul_comm i j, mul_assoc]
  rw [sum_congr rfl h1, sum_comm]
  have h2 : ∀ k ∈ range n, ∑ i ∈ range n, v k * (w n ^ k * (w n)⁻¹ ^ j) ^ i = if k = j then (n : K) * v j else 0 := by
    intro k hk
    rw [← mul_sum]
    by_cases hkj : k = j
    · subst hkj
      rw [if_pos rfl, ← mul_pow, mul_inv_cancel₀ hne, one_pow]
      simp [mul_comm]
    · rw [if_neg hkj]
      set z := w n ^ k * (w n)⁻¹ ^ j with hz
      have hz1 : z ≠ 1 := by
        intro e
        apply hkj
        apply hw.pow_inj (mem_range.1 hk) hj
        rw [inv_pow] at hz
        rw [hz, ← div_eq_mul_inv, div_eq_one_iff_eq (pow_ne_zero _ hne)] at e
        exact e
      have hzn : z ^ n = 1 := by
        rw [hz, mul_pow, ← pow_mul, ← pow_mul, mul_comm k n, mul_comm j n, pow_mul, pow_mul, hw.pow_eq_one, inv_pow, hw.pow_eq_one]
        simp
      have := mul_geom_sum z n
      rw [hzn, sub_self] at this
      rw [(mul_eq_zero.1 this).resolve_left (sub_ne_zero.2 hz1), mul_zero]
  rw [sum_congr rfl h2, sum_ite_eq' (range n) j, if_pos (mem_range.2 hj), inv_mul_cancel_left₀ hn]

/-- **C129, round trip.** `ifft(fft(x, axis=axis), axis=axis)` of a complex array is `x`, for all shapes with positive extents, distributions and axes. -/
theorem ifft_fft {P : Nat} (hP : 0 < P) (w : Nat → K) {X : FD K} {G : NArr K} (h : Rep P X.x G) (hp : Pos G) (hc : ∀ r < P, X.cplx r = true) {axis : Int} {a : Nat} (ha : a < G.ndim) (hax : axis = a ∨ axis = (a : Int) - G.ndim)
    (hw : IsPrimitiveRoot (w (G.dim a)) (G.dim a)) (hchar : ((G.dim a : Nat) : K) ≠ 0) :
    ∃ Y Z, fftOp P (torchFft w) X none axis = .ok Y ∧ fftOp P (torchIfft w) Y none axis = .ok Z ∧ Rep P Z.x G ∧ Z.x.split = X.x.split := by
  obtain ⟨Y, e1, R1, s1, -, t1⟩ := fft_partial hP (torchFft w) h hp hc ha hax none (by simp) rfl (dft_reads w _ _) (fun _ _ => rfl) (fun _ _ _ => .inl rfl)
  have hda : (G.along a ((torchFft w).out (Option.getD none (G.dim a))) ((torchFft w).run (G.dim a) (Option.getD none (G.dim a)))).dim a = G.dim a := by
    unfold NArr.along
    exact Function.update_self ..
  obtain ⟨Z, e2, R2, s2, -, -⟩ := fft_partial hP (torchIfft w) R1 (along_pos hp a (hp a ha) _) (t1 rfl) (a := a) ha hax none (by simp) rfl (idft_reads w _ _) (fun _ _ => rfl) (fun _ _ _ => .inl rfl)
  refine ⟨Y, Z, e1, e2, ?_, by rw [s2, s1]⟩
  refine rep_congrIn R2 h.1 rfl ?_ ?_
  · intro k hk
    rw [hda]
    show _ = Function.update (Function.update G.dim a (G.dim a)) a (G.dim a) k
    rw [Function.update_idem, Function.update_eq_self]
  · intro idx hi
    rw [hda]
    show Spec.idft w (G.dim a) (G.dim a) (fun i => Spec.dft w (G.dim a) (G.dim a) (fun i' => G.get (Function.update (Function.update idx a i) a i')) (Function.update idx a i a)) (idx a) = _
    simp only [Function.update_self, Function.update_idem]
    rw [idft_dft w hw hchar (fun i => G.get (Function.update idx a i)) (hi a ha), Function.update_eq_self]

end Dft

/-! ### Concrete cases -/

section Examples

/-- One column of three rows on two processes by rows. -/
def exFft (c : Bool) : FD ℚ :=
  ⟨⟨[3, 1], some 0, fun r => ⟨2, fun k => if k = 0 then (if r = 0 then 2 else 1) else 1, fun idx => (idx 0 : ℚ) + (if r = 0 then 0 else 2)⟩, some true⟩, fun _ => c⟩

def exFftG : NArr ℚ := ⟨2, fun k => if k = 0 then 3 else 1, fun idx => (idx 0 : ℚ)⟩

theorem exFft_rep (c : Bool) : Rep 2 (exFft c).x exFftG := by
  refine ⟨?_, rfl, ?_, fun _ _ => rfl, ?_⟩
  · intro i j h
    show (i 0 : ℚ) = (j 0 : ℚ)
    rw [h 0 (by decide)]
  · intro k hk
    have hk : k < 2 := hk
    interval_cases k <;> rfl
  · refine ⟨by decide, by rfl, ?_⟩
    intro r hr
    refine ⟨?_, ?_⟩
    · intro k hk h0
      show (if k = 0 then _ else 1) = if k = 0 then _ else 1
      rw [if_neg h0, if_neg h0]
    · intro idx hi
      show (idx 0 : ℚ) + _ = ((shift 0 _ idx 0 : Nat) : ℚ)
      unfold shift
      rw [if_pos rfl]
      interval_cases r
      · simp [axisStart]
      · simp [axisStart, exFft]

theorem exFft_pos : Pos exFftG := by
  intro k hk
  have hk : k < 2 := hk
  interval_cases k <;> decide

/-- Non-vacuity of `fft_partial`: complex input along the split axis (more processes than columns), and real input along the other axis. -/
example : ∃ Y, fftOp 2 (torchFft fun _ => (-1 : ℚ)) (exFft true) (some 2) 0 = .ok Y ∧ Rep 2 Y.x (exFftG.along 0 2 (Spec.dft (fun _ => (-1 : ℚ)) 3 2)) := by
  obtain ⟨Y, e, R, -⟩ := fft_partial (by decide) (torchFft fun _ => (-1 : ℚ)) (exFft_rep true) exFft_pos (fun _ _ => rfl) (a := 0) (by decide) (.inl rfl) (some 2) (by decide) rfl (dft_reads (fun _ => (-1 : ℚ)) 3 2) (fun _ _ => rfl) (fun _ _ _ => .inl rfl)
  exact ⟨Y, e, R⟩

/-- Non-vacuity of `fft_few_lines_violated`: the same array of real numbers. -/
example : fftOp 2 (torchFft fun _ => (-1 : ℚ)) (exFft false) (some 2) 0 = .error .runtimeError :=
  fft_few_lines_violated (torchFft fun _ => (-1 : ℚ)) (exFft_rep false) exFft_pos (fun _ _ => rfl) (by decide) (by decide) (a := 0) (by decide) (.inl rfl) rfl (some 2) rfl (dft_reads (fun _ => (-1 : ℚ)) 3 2) (by decide) (by decide)

/-- Non-vacuity of `rfft_split_violated`. -/
example : ∃ e, fftOp 2 (torchRfft fun _ => (-1 : ℚ)) (exFft false) none (-2) = .error e :=
  rfft_split_violated (by decide) _ rfl (a := 0) rfl (by decide) (.inr rfl) none

/-- Non-vacuity of `ifft_fft`: sequences of two elements over the rationals. -/
example : ∃ Y Z, fftOp 1 (torchFft fun _ => (-1 : ℚ)) ⟨⟨[2], none, fun _ => ⟨1, fun _ => 2, fun idx => idx 0⟩, some true⟩, fun _ => true⟩ none 0 = .ok Y ∧ fftOp 1 (torchIfft fun _ => (-1 : ℚ)) Y none 0 = .ok Z ∧
    Rep 1 Z.x ⟨1, fun _ => 2, fun idx => idx 0⟩ ∧ Z.x.split = none := by
  refine ifft_fft (P := 1) (by decide) (fun _ => (-1 : ℚ)) (X := ⟨⟨[2], none, fun _ => ⟨1, fun _ => 2, fun idx => (idx 0 : ℚ)⟩, some true⟩, fun _ => true⟩) (G := ⟨1, fun _ => 2, fun idx => (idx 0 : ℚ)⟩) ?_ ?_ (fun _ _ => rfl) (a := 0) (by decide) (.inl rfl) ?_ (by norm_num)
  · refine ⟨?_, rfl, ?_, fun _ _ => rfl, fun _ _ => ⟨fun _ _ => rfl, fun _ _ => rfl⟩⟩
    · intro i j h
      show (i 0 : ℚ) = (j 0 : ℚ)
      rw [h 0 (by decide)]
    · intro k hk
      have hk : k < 1 := hk
      interval_cases k
      rfl
  · intro k _
    show 0 < 2
    decide
  · exact IsPrimitiveRoot.neg_one 0 (by norm_num)

end Examples
end Heat
