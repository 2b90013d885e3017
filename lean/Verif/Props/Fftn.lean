import Verif.Model.Fftn
import Verif.Props.Fft
import Mathlib.Tactic.Ring
import Verif.Props.Factories
/-!
# Properties of the n-dimensional transforms (C130) and of the frequencies (C131)
-/
namespace Heat
open Spec Finset
variable {K : Type}

/-- Transforms of lines along several axes, one after the other: axis, extent of the result, transform. -/
def Spec.alongAll (G : NArr K) (l : List (Nat × Nat × ((Nat → K) → Nat → K))) : NArr K := l.foldl (fun T p => T.along p.1 p.2.1 p.2.2) G

/-- What an n-dimensional transform has to do with an array of extents `dim`: `first` along all listed axes but the last, `last` along the last one, which gets extent `out n`. -/
def Spec.plan (op : FftnOp K) (dim : Nat → Nat) : List (Nat × Nat) → List (Nat × Nat × ((Nat → K) → Nat → K))
  | [] => []
  | [(a, n)] => [(a, if op.half then n / 2 + 1 else n, op.last (dim a) n)]
  | (a, n) :: q :: rest => (a, n, op.first (dim a) n) :: Spec.plan op dim (q :: rest)

theorem plan_congr (op : FftnOp K) {d e : Nat → Nat} : ∀ ax : List (Nat × Nat), (∀ p ∈ ax, d p.1 = e p.1) → plan op d ax = plan op e ax
  | [], _ => rfl
  | [(a, n)], h => by unfold plan; rw [h (a, n) (by simp)]
  | (a, n) :: q :: rest, h => by
    unfold plan
    rw [h (a, n) (by simp), plan_congr op (q :: rest) fun p hp => h p (List.mem_cons_of_mem _ hp)]

theorem plan_fst (op : FftnOp K) (d : Nat → Nat) : ∀ ax : List (Nat × Nat), (plan op d ax).map Prod.fst = ax.map Prod.fst
  | [] => rfl
  | [(a, n)] => rfl
  | (a, n) :: q :: rest => by
    unfold plan
    rw [List.map_cons, plan_fst op d (q :: rest)]
    rfl

theorem alongAll_dim_ne (l : List (Nat × Nat × ((Nat → K) → Nat → K))) : ∀ (G : NArr K) (k : Nat), k ∉ l.map Prod.fst → (alongAll G l).dim k = G.dim k := by
  induction l with
  | nil => intro G k _; rfl
  | cons p l ih =>
    intro G k hk
    rw [List.map_cons, List.mem_cons, not_or] at hk
    show (alongAll (G.along p.1 p.2.1 p.2.2) l).dim k = _
    rw [ih _ k hk.2]
    exact Function.update_of_ne hk.1 ..

theorem alongAll_ndim (l : List (Nat × Nat × ((Nat → K) → Nat → K))) : ∀ G : NArr K, (alongAll G l).ndim = G.ndim := by
  induction l with
  | nil => intro G; rfl
  | cons p l ih => intro G; exact ih _

/-- The local transform does the plan of the local tensor. -/
theorem fftnApply_eq (op : FftnOp K) : ∀ (ax : List (Nat × Nat)) (x : NArr K), (ax.map Prod.fst).Nodup → fftnApply op x ax = alongAll x (plan op x.dim ax)
  | [], x, _ => rfl
  | [(a, n)], x, _ => rfl
  | (a, n) :: q :: rest, x, h => by
    rw [List.map_cons, List.nodup_cons] at h
    unfold fftnApply
    rw [fftnApply_eq op (q :: rest) _ h.2]
    rw [plan_congr op (d := (x.along a n (op.first (x.dim a) n)).dim) (e := x.dim) (q :: rest)]
    · rfl
    · intro p hp
      have : p.1 ≠ a := by
        intro e
        apply h.1
        show a ∈ _
        rw [← e]
        exact List.mem_map_of_mem hp
      exact Function.update_of_ne this ..

/-- Set the extents of a list of axes. -/
def setAll (sh : List Nat) (l : List (Nat × Nat × ((Nat → K) → Nat → K))) : List Nat := l.foldl (fun s p => s.set p.1 p.2.1) sh

theorem fftnShape_eq (op : FftnOp K) (d : Nat → Nat) : ∀ (ax : List (Nat × Nat)) (sh : List Nat), fftnShape op sh ax = setAll sh (plan op d ax)
  | [], sh => rfl
  | [(a, n)], sh => rfl
  | (a, n) :: q :: rest, sh => by
    unfold fftnShape
    rw [fftnShape_eq op d (q :: rest)]
    rfl

/-- Transforms along axes that are not distributed act on the local parts. -/
theorem rep_alongAll {P : Nat} (l : List (Nat × Nat × ((Nat → K) → Nat → K))) : ∀ {x : DND K} {G : NArr K}, Rep P x G → (∀ p ∈ l, p.1 < G.ndim) → (P = 1 ∨ ∀ p ∈ l, x.split ≠ some p.1) → (∀ p ∈ l, Reads p.2.2 (G.dim p.1)) → (l.map Prod.fst).Nodup →
    ∀ b, Rep P ⟨setAll x.gshape l, x.split, fun r => alongAll (x.loc r) l, b⟩ (alongAll G l) := by
  induction l with
  | nil =>
    intro x G h _ _ _ _ b
    exact rep_congrL h x.loc b (fun _ _ => rfl) (fun _ _ _ _ => rfl) fun _ _ _ _ => rfl
  | cons p l ih =>
    intro x G h hn hs hf hnd b
    rw [List.map_cons, List.nodup_cons] at hnd
    have h1 := rep_along h (hn p (by simp)) (hs.imp_right fun h => h p (by simp)) p.2.1 p.2.2 (hf p (by simp)) b
    refine ih h1 (fun q hq => hn q (List.mem_cons_of_mem _ hq)) (hs.imp_right fun h q hq => h q (List.mem_cons_of_mem _ hq)) ?_ hnd.2 b
    intro q hq
    have : q.1 ≠ p.1 := by
      intro e
      apply hnd.1
      rw [← e]
      exact List.mem_map_of_mem hq
    have e : (G.along p.1 p.2.1 p.2.2).dim q.1 = G.dim q.1 := Function.update_of_ne this ..
    rw [e]
    exact hf q (List.mem_cons_of_mem _ hq)

/-- Lengths in a plan. -/
theorem plan_mem (op : FftnOp K) (d : Nat → Nat) : ∀ (ax : List (Nat × Nat)) (p : Nat × Nat × ((Nat → K) → Nat → K)), p ∈ plan op d ax → ∃ q ∈ ax, q.1 = p.1 ∧ (p.2.1 = q.2 ∨ p.2.1 = q.2 / 2 + 1) ∧ (p.2.2 = op.first (d q.1) q.2 ∨ p.2.2 = op.last (d q.1) q.2)
  | [], p, h => by cases h
  | [(a, n)], p, h => by
    unfold plan at h
    rw [List.mem_singleton] at h
    subst h
    refine ⟨(a, n), by simp, rfl, ?_, .inr rfl⟩
    dsimp only
    split
    · exact .inr rfl
    · exact .inl rfl
  | (a, n) :: q :: rest, p, h => by
    unfold plan at h
    rw [List.mem_cons] at h
    rcases h with h | h
    · subst h
      exact ⟨(a, n), by simp, rfl, .inl rfl, .inl rfl⟩
    · obtain ⟨q', hq, h'⟩ := plan_mem op d (q :: rest) p h
      exact ⟨q', List.mem_cons_of_mem _ hq, h'⟩

/-- The transforms of an n-dimensional transform read only the elements of the line. -/
def Spec.OpReads (op : FftnOp K) : Prop := ∀ N n, 0 < N → Reads (op.first N n) N ∧ Reads (op.last N n) N

theorem alongAll_pos (l : List (Nat × Nat × ((Nat → K) → Nat → K))) : ∀ {G : NArr K}, Pos G → (∀ p ∈ l, 0 < p.2.1) → Pos (alongAll G l) := by
  induction l with
  | nil => intro G h _; exact h
  | cons p l ih =>
    intro G h hl
    exact ih (along_pos h p.1 (hl p (by simp)) p.2.2) fun q hq => hl q (List.mem_cons_of_mem _ hq)

theorem plan_pos (op : FftnOp K) (d : Nat → Nat) {ax : List (Nat × Nat)} (h : ∀ p ∈ ax, 0 < p.2) : ∀ p ∈ plan op d ax, 0 < p.2.1 := by
  intro p hp
  obtain ⟨q, hq, -, h1, -⟩ := plan_mem op d ax p hp
  have := h q hq
  omega

/-- Transform along axes that are not distributed. -/
theorem fftnLocal_spec {P : Nat} (op : FftnOp K) (hop : OpReads op) {X : FD K} {G : NArr K} (h : Rep P X.x G) (hp : Pos G) {ax : List (Nat × Nat)} (hn : (ax.map Prod.fst).Nodup) (hlt : ∀ p ∈ ax, p.1 < G.ndim) (hlen : ∀ p ∈ ax, 0 < p.2)
    (hs : P = 1 ∨ ∀ p ∈ ax, X.x.split ≠ some p.1) (he : ax = [] → op.half = false ∧ op.needAxis = false) :
    ∃ Y, fftnLocal P op X ax = .ok Y ∧ Rep P Y.x (alongAll G (plan op G.dim ax)) ∧ Y.x.split = X.x.split ∧ (∀ r < P, ¬ (X.x.loc r).isEmpty → Y.cplx r = op.cplx (X.cplx r)) ∧
      (∀ r < P, (X.x.loc r).isEmpty → Y.cplx r = op.emptyCplx) ∧ (∀ r < P, ∀ s, X.x.split = some s → s ∉ ax.map Prod.fst → (Y.x.loc r).dim s = (X.x.loc r).dim s) := by
  have hG := hp
  have hem := fun r hr => empty_iff h hp (r := r) hr
  have hdim : ∀ r < P, ∀ p ∈ ax, (X.x.loc r).dim p.1 = G.dim p.1 := by
    intro r hr p hp1
    rcases hs with h1 | h1
    · subst h1
      have hr0 : r = 0 := by omega
      subst hr0
      by_cases hsp : X.x.split = some p.1
      · have h4 := h.2.2.2.2
        rw [hsp] at h4
        have h5 := h4.2.1
        unfold axisStart at h5
        simpa using h5
      · exact rep_dim2 h hr (hlt p hp1) hsp
    · exact rep_dim2 h hr (hlt p hp1) (h1 p hp1)
  have hnosplit : ∀ r < P, (X.x.loc r).isEmpty = true → ∀ s, X.x.split = some s → s ∉ ax.map Prod.fst := by
    intro r hr hemp s hs1 hmem
    obtain ⟨p, hp1, hps⟩ := List.mem_map.1 hmem
    obtain ⟨s', hs1', hs0⟩ := (hem r hr).1 hemp
    rw [hs1] at hs1'
    obtain rfl := Option.some.inj hs1'
    have := hdim r hr p hp1
    have := hp p.1 (hlt p hp1)
    rw [hps] at this ‹(X.x.loc r).dim p.1 = G.dim p.1›
    omega
  have hmem : ∀ p ∈ plan op G.dim ax, ∃ q ∈ ax, q.1 = p.1 := fun p hp => by
    obtain ⟨q, hq, h1, -⟩ := plan_mem op G.dim ax p hp
    exact ⟨q, hq, h1⟩
  have hrep := rep_alongAll (P := P) (plan op G.dim ax) h (fun p hp => by obtain ⟨q, hq, e⟩ := hmem p hp; rw [← e]; exact hlt q hq)
    (hs.imp_right fun h1 p hp => by obtain ⟨q, hq, e⟩ := hmem p hp; rw [← e]; exact h1 q hq)
    (fun p hp => by
      obtain ⟨q, hq, e, -, h1⟩ := plan_mem op G.dim ax p hp
      rw [← e]
      rcases h1 with h1 | h1 <;> rw [h1]
      · exact (hop _ _ (hG _ (hlt q hq))).1
      · exact (hop _ _ (hG _ (hlt q hq))).2) (by rw [plan_fst]; exact hn) X.x.balanced
  unfold fftnLocal
  dsimp only
  rw [if_neg, if_neg, if_neg]
  · refine ⟨_, rfl, ?_, rfl, ?_, ?_, ?_⟩
    · rw [fftnShape_eq op G.dim]
      apply rep_congrL hrep
      · intro r hr
        dsimp only
        rw [alongAll_ndim]
        split
        · rfl
        · rw [fftnApply_eq op ax _ hn, alongAll_ndim]
      · intro r hr k hk
        dsimp only
        by_cases hemp : (X.x.loc r).isEmpty = true
        · rw [if_pos hemp]
          obtain ⟨s, hs1, hs0⟩ := (hem r hr).1 hemp
          have hsn := hnosplit r hr hemp s hs1
          rw [hs1]
          dsimp only [emptyLoc, Option.getD]
          by_cases hks : k = s
          · rw [if_pos hks, hks, alongAll_dim_ne _ _ _ (by rw [plan_fst]; exact hsn), hs0]
          · rw [if_neg hks]
            have e1 := rep_gdim hrep hk
            have e2 := rep_dim2 hrep hr hk (by show X.x.split ≠ _; rw [hs1]; intro e; exact hks (Option.some.inj e).symm)
            dsimp only at e1 e2
            rw [e1, e2]
        · rw [if_neg hemp, fftnApply_eq op ax _ hn, plan_congr op ax (hdim r hr)]
      · intro r hr idx hi
        dsimp only
        by_cases hemp : (X.x.loc r).isEmpty = true
        · exfalso
          obtain ⟨s, hs1, hs0⟩ := (hem r hr).1 hemp
          have hsn := hnosplit r hr hemp s hs1
          have h4 := h.2.2.2.2
          rw [hs1] at h4
          have := hi s (by show s < (alongAll (X.x.loc r) _).ndim; rw [alongAll_ndim, h.2.2.2.1 r hr]; exact h4.1)
          dsimp only at this
          rw [alongAll_dim_ne _ _ _ (by rw [plan_fst]; exact hsn), hs0] at this
          omega
        · rw [if_neg hemp, fftnApply_eq op ax _ hn, plan_congr op ax (hdim r hr)]
    · intro r hr hemp
      dsimp only
      rw [if_neg hemp]
    · intro r hr hemp
      dsimp only
      rw [if_pos hemp]
    · intro r hr s hs1 hsn
      dsimp only
      by_cases hemp : (X.x.loc r).isEmpty = true
      · rw [if_pos hemp]
        obtain ⟨s', hs1', hs0⟩ := (hem r hr).1 hemp
        rw [hs1] at hs1' ⊢
        obtain rfl := Option.some.inj hs1'
        dsimp only [emptyLoc, Option.getD]
        rw [if_pos rfl, hs0]
      · rw [if_neg hemp, fftnApply_eq op ax _ hn, alongAll_dim_ne _ _ _ (by rw [plan_fst]; exact hsn)]
  · rintro ⟨r, -, -, ⟨h1, h2⟩ | ⟨p, hp1, h0⟩⟩
    · rw [(he h2).2] at h1
      exact absurd h1 (by simp)
    · have := hlen p hp1
      omega
  · rintro ⟨r, hr, hemp, hno⟩
    obtain ⟨s, hs1, -⟩ := (hem r hr).1 hemp
    rw [hno] at hs1
    exact absurd hs1 (by simp)
  · rintro ⟨h1, h2⟩
    rw [(he h2).1] at h1
    exact absurd h1 (by simp)


section Kernel
variable [CommSemiring K]

/-- The transform is linear: a sum over the first `N` elements with weights that do not depend on the sequence. -/
def Spec.Kernel (f : (Nat → K) → Nat → K) (N : Nat) : Prop := ∃ W : Nat → Nat → K, ∀ v j, f v j = ∑ i ∈ range N, W j i * v i

theorem kernel_reads {f : (Nat → K) → Nat → K} {N : Nat} (h : Kernel f N) : Reads f N := by
  obtain ⟨W, hW⟩ := h
  intro v w hvw j
  rw [hW, hW]
  apply Finset.sum_congr rfl
  intro i hi
  rw [hvw i (mem_range.1 hi)]

/-- Linear transforms along different axes commute. -/
theorem along_comm (G : NArr K) {a b : Nat} (hab : a ≠ b) (m m' : Nat) {f g : (Nat → K) → Nat → K} {N N' : Nat} (hf : Kernel f N) (hg : Kernel g N') : (G.along a m f).along b m' g = (G.along b m' g).along a m f := by
  obtain ⟨W, hW⟩ := hf
  obtain ⟨V, hV⟩ := hg
  unfold NArr.along
  dsimp only
  congr 1
  · exact Function.update_comm hab ..
  · funext idx
    simp only [hW, hV, Function.update_of_ne hab, Function.update_of_ne hab.symm]
    simp only [mul_sum]
    rw [sum_comm]
    apply Finset.sum_congr rfl
    intro i _
    apply Finset.sum_congr rfl
    intro j _
    rw [Function.update_comm hab]
    ring

theorem alongAll_perm (G : NArr K) {l l' : List (Nat × Nat × ((Nat → K) → Nat → K))} (h : l.Perm l') (hn : (l.map Prod.fst).Nodup) (hk : ∀ p ∈ l, ∃ N, Kernel p.2.2 N) : alongAll G l = alongAll G l' := by
  unfold alongAll
  refine h.foldl_eq' ?_ G
  intro x hx y hy z
  by_cases hxy : x = y
  · rw [hxy]
  · obtain ⟨N, hN⟩ := hk x hx
    obtain ⟨N', hN'⟩ := hk y hy
    refine along_comm z ?_ _ _ hN hN'
    intro e
    exact hxy (List.inj_on_of_nodup_map hn hx hy e)

end Kernel

/-- Along the split axis, first pass: before the redistribution back. -/
theorem fftn_front {P : Nat} (hP : 0 < P) (op : FftnOp K) (hop : OpReads op) {X : FD K} {G : NArr K} (h : Rep P X.x G) (hp : Pos G) {c : Bool} (hc : ∀ r < P, X.cplx r = c) {a : Nat} (hs : X.x.split = some a) (hd : 1 < G.ndim)
    {n : Nat} (hn : 0 < n) :
    ∃ X1 X2 X3, fdSwap X a = .ok X1 ∧ X1.x.gshape.length = G.ndim ∧ fdAway P X1 = .ok X2 ∧ fftnLocal P op X2 [(0, n)] = .ok X3 ∧ Rep P X3.x ((G.swap a).along 0 (op.out n) (op.last (G.dim a) n)) ∧ X3.x.split = some 1 ∧
      (∀ r < P, (X3.x.loc r).dim 1 = evenSize (G.dim (otherAxis a)) P r) ∧ (∀ r < P, X3.cplx r = if r < G.dim (otherAxis a) then op.cplx c else op.emptyCplx) := by
  have ha : a < G.ndim := by have h4 := h.2.2.2.2; rw [hs] at h4; exact h4.1
  obtain ⟨X1, e1, R1, c1, s1, d1⟩ := fdSwap_spec h ha
  have s1' := s1 a hs
  have hsw : sw a a = 0 := by unfold sw; rw [if_pos rfl]
  rw [hsw] at s1'
  have h0 : sw a 0 = a := by unfold sw; split <;> [assumption; rfl]
  have hsw1 : sw a 1 = otherAxis a := by
    unfold sw otherAxis
    by_cases h1 : a = 1
    · rw [if_pos h1.symm, if_pos h1]
    · rw [if_neg (fun h => h1 h.symm), if_neg h1, if_neg (by omega)]
  have hg1 : X1.x.gshape.length = G.ndim := (rep_ndim R1).trans rfl
  obtain ⟨R2, s2⟩ := rep_resplitTo hP R1 1 hd
  have e2 : fdAway P X1 = .ok ⟨resplitTo P X1.x 1, X1.cplx⟩ := by
    unfold fdAway
    rw [if_pos (by omega)]
    unfold fdResplit
    rw [s1']
    dsimp only
    rw [if_neg (by omega), if_neg]
    rintro ⟨p, hp, q, hq, hne, -⟩
    rw [c1, hc p hp, hc q hq] at hne
    exact hne rfl
  have hdim0 : (G.swap a).dim 0 = G.dim a := by show G.dim (sw a 0) = _; rw [h0]
  obtain ⟨X3, e3, R3, s3, t3, t3', d3⟩ := fftnLocal_spec op hop (X := ⟨resplitTo P X1.x 1, X1.cplx⟩) R2 (swap_pos hp ha) (ax := [(0, n)]) (by simp) (by intro p hp; rw [List.mem_singleton] at hp; subst hp; show 0 < G.ndim; omega)
    (by intro p hp; rw [List.mem_singleton] at hp; subst hp; exact hn) (.inr (by intro p hp; rw [List.mem_singleton] at hp; subst hp; rw [s2]; simp)) (by simp)
  have R3' : Rep P X3.x ((G.swap a).along 0 (op.out n) (op.last (G.dim a) n)) := by rw [← hdim0]; exact R3
  have hdim : ∀ r, ((resplitTo P X1.x 1).loc r).dim 1 = evenSize (G.dim (otherAxis a)) P r := by
    intro r
    rw [resplitTo_dim P X1.x (by rw [s1']; simp) r, rep_gdim R1 hd]
    show evenSize (G.dim (sw a 1)) P r = _
    rw [hsw1]
  refine ⟨X1, _, X3, e1, hg1, e2, e3, R3', by rw [s3, s2], ?_, ?_⟩
  · intro r hr
    rw [d3 r hr 1 s2 (by simp)]
    exact hdim r
  · intro r hr
    by_cases hcol : r < G.dim (otherAxis a)
    · rw [if_pos hcol, t3 r hr]
      · show op.cplx (X1.cplx r) = _
        rw [c1, hc r hr]
      · intro hem
        obtain ⟨s, hs1, hs0⟩ := (empty_iff R2 (swap_pos hp ha) hr).1 hem
        rw [s2] at hs1
        obtain rfl := Option.some.inj hs1
        have := (evenSize_pos_iff hr).2 hcol
        have := hdim r
        omega
    · rw [if_neg hcol, t3' r hr]
      · apply (empty_iff R2 (swap_pos hp ha) hr).2
        refine ⟨1, s2, ?_⟩
        have := mt (evenSize_pos_iff hr).1 hcol
        have := hdim r
        show ((resplitTo P X1.x 1).loc r).dim 1 = 0
        omega

/-- Along the split axis: both passes. -/
theorem fftn_mid {P : Nat} (hP : 1 < P) (op : FftnOp K) (hop : OpReads op) {X : FD K} {G : NArr K} (h : Rep P X.x G) (hp : Pos G) {c : Bool} (hc : ∀ r < P, X.cplx r = c) {a : Nat} (hs : X.x.split = some a) (hd : 1 < G.ndim)
    {n : Nat} (hn : 0 < n) {ax : List (Nat × Nat)} (hfind : (ax.find? fun p => p.1 = a) = some (a, n)) (hcol : op.cplx c = op.emptyCplx ∨ P ≤ G.dim (otherAxis a) ∨ op.out n ≤ G.dim (otherAxis a)) :
    ∃ X5, fftnCore P op X ax = fftnLocal P op.second X5 (ax.filter fun p => p.1 ≠ a) ∧ Rep P X5.x (G.along a (op.out n) (op.last (G.dim a) n)) ∧ X5.x.split = some a := by
  have ha : a < G.ndim := by have h4 := h.2.2.2.2; rw [hs] at h4; exact h4.1
  obtain ⟨X1, X2, X3, e1, l1, e2, e3, R3, s3, d3, t3⟩ := fftn_front (by omega) op hop h hp hc hs hd hn
  have hout : 0 < op.out n := by unfold FftnOp.out; split <;> omega
  unfold fftnCore
  rw [hs]
  dsimp only
  rw [hfind]
  dsimp only
  rw [if_neg (by omega), e1]
  dsimp only
  rw [e2]
  dsimp only
  rw [if_neg (by omega), e3]
  dsimp only
  set T := (G.swap a).along 0 (op.out n) (op.last (G.dim a) n) with hT
  obtain ⟨R4, s4⟩ := rep_resplitTo (show 0 < P by omega) R3 0 (show 0 < G.ndim by omega)
  have hdT : T.dim 0 = op.out n := by
    rw [hT]
    show Function.update (G.swap a).dim 0 (op.out n) 0 = op.out n
    simp
  have e4 : fdResplit P X3 0 = .ok ⟨resplitTo P X3.x 0, X3.cplx⟩ := by
    unfold fdResplit
    rw [s3]
    dsimp only
    rw [if_neg (by omega), if_neg]
    rintro ⟨p, hpP, q, hq, hne, hblk, hch⟩
    rw [t3 p hpP, t3 q hq] at hne
    have hp1 := hblk 1 (by rw [R3.2.2.2.1 p hpP]; exact hd) (by omega)
    rw [d3 p hpP] at hp1
    have hpc : p < G.dim (otherAxis a) := (evenSize_pos_iff hpP).1 (by omega)
    rw [if_pos hpc] at hne
    by_cases hqc : q < G.dim (otherAxis a)
    · rw [if_pos hqc] at hne; exact hne rfl
    · rw [if_neg hqc] at hne
      have hq0 : 0 < evenSize (op.out n) P q := by
        rw [← chunkRange_len]
        rw [rep_gdim R3 (show 0 < G.ndim by omega), hdT] at hch
        omega
      have := (evenSize_pos_iff hq).1 hq0
      rcases hcol with h1 | h1 | h1
      · exact hne h1
      · omega
      · omega
  rw [e4]
  dsimp only
  obtain ⟨X5, e5, R5, c5, s5, d5⟩ := fdSwap_spec (X := ⟨resplitTo P X3.x 0, X3.cplx⟩) R4 (show a < T.ndim from ha)
  rw [e5]
  dsimp only
  have h0 : sw a 0 = a := by unfold sw; split <;> [assumption; rfl]
  have s5' := s5 0 s4
  rw [h0] at s5'
  rw [hT, along_swap] at R5
  exact ⟨X5, rfl, R5, s5'⟩

theorem find_of_nodup {ax : List (Nat × Nat)} (hn : (ax.map Prod.fst).Nodup) {a n : Nat} (h : (a, n) ∈ ax) : (ax.find? fun p => p.1 = a) = some (a, n) := by
  induction ax with
  | nil => cases h
  | cons p l ih =>
    rw [List.map_cons, List.nodup_cons] at hn
    rw [List.mem_cons] at h
    rcases h with h | h
    · subst h; simp
    · have hpa : ¬ p.1 = a := by
        intro e
        apply hn.1
        rw [e]
        exact List.mem_map_of_mem (f := Prod.fst) h
      rw [List.find?_cons_of_neg (by simpa using hpa)]
      exact ih hn.2 h

theorem perm_filter {ax : List (Nat × Nat)} (hn : (ax.map Prod.fst).Nodup) {a n : Nat} (h : (a, n) ∈ ax) : ax.Perm ((a, n) :: ax.filter fun p => p.1 ≠ a) := by
  induction ax with
  | nil => cases h
  | cons p l ih =>
    rw [List.map_cons, List.nodup_cons] at hn
    rw [List.mem_cons] at h
    rcases h with h | h
    · subst h
      have : (((a, n) :: l).filter fun p => p.1 ≠ a) = l := by
        rw [List.filter_cons_of_neg (by simp), List.filter_eq_self]
        intro q hq
        rw [decide_eq_true_iff]
        intro e
        apply hn.1
        show a ∈ _
        rw [← e]
        exact List.mem_map_of_mem hq
      rw [this]
    · have hpa : p.1 ≠ a := by
        intro e
        apply hn.1
        rw [e]
        exact List.mem_map_of_mem (f := Prod.fst) h
      rw [List.filter_cons_of_pos (by simpa using hpa)]
      exact ((ih hn.2 h).cons p).trans (List.Perm.swap ..)

/-- With the same transform along all axes the plan is a list of independent steps. -/
theorem plan_map (op : FftnOp K) (hh : op.half = false) (hfl : op.first = op.last) (d : Nat → Nat) : ∀ ax : List (Nat × Nat), plan op d ax = ax.map fun p => (p.1, p.2, op.first (d p.1) p.2)
  | [] => rfl
  | [(a, n)] => by unfold plan; rw [hh, hfl]; rfl
  | (a, n) :: q :: rest => by unfold plan; rw [plan_map op hh hfl d (q :: rest)]; rfl

/-- The plan ends with the last axis. -/
theorem plan_snoc (op : FftnOp K) (d : Nat → Nat) (a n : Nat) : ∀ ax : List (Nat × Nat), plan op d (ax ++ [(a, n)]) = (ax.map fun p => (p.1, p.2, op.first (d p.1) p.2)) ++ [(a, op.out n, op.last (d a) n)]
  | [] => rfl
  | [(b, m)] => rfl
  | (b, m) :: q :: rest => by
    rw [List.cons_append, List.cons_append]
    unfold plan
    rw [← List.cons_append, plan_snoc op d a n (q :: rest)]
    rfl

theorem alongAll_cons (G : NArr K) (p : Nat × Nat × ((Nat → K) → Nat → K)) (l : List (Nat × Nat × ((Nat → K) → Nat → K))) : alongAll G (p :: l) = alongAll (G.along p.1 p.2.1 p.2.2) l := rfl

section Main
variable [CommSemiring K]

/-- Both transforms are linear. -/
def Spec.OpKernel (op : FftnOp K) : Prop := ∀ N n, 0 < N → Kernel (op.first N n) N ∧ Kernel (op.last N n) N

theorem opKernel_reads {op : FftnOp K} (h : OpKernel op) : OpReads op := fun N n hN => ⟨kernel_reads (h N n hN).1, kernel_reads (h N n hN).2⟩

omit [CommSemiring K] in
theorem second_reads {op : FftnOp K} (h : OpReads op) : OpReads op.second := by
  unfold FftnOp.second
  split
  · exact fun N n hN => ⟨(h N n hN).1, (h N n hN).1⟩
  · exact h

/-- **C130, n-dimensional transforms**, on resolved arguments. -/
theorem fftnCore_partial {P : Nat} (hP : 0 < P) (op : FftnOp K) (hop : OpReads op) {X : FD K} {G : NArr K} (h : Rep P X.x G) (hp : Pos G) {c : Bool} (hc : ∀ r < P, X.cplx r = c) {ax : List (Nat × Nat)} (hn : (ax.map Prod.fst).Nodup)
    (hlt : ∀ p ∈ ax, p.1 < G.ndim) (hlen : ∀ p ∈ ax, 0 < p.2) (he : ax = [] → op.half = false ∧ op.needAxis = false)
    (hsplit : ∀ a n, 1 < P → 1 < G.ndim → X.x.split = some a → (a, n) ∈ ax → OpKernel op ∧ (op.cplx c = op.emptyCplx ∨ P ≤ G.dim (otherAxis a) ∨ op.out n ≤ G.dim (otherAxis a)) ∧
      (op.half = false ∧ op.first = op.last ∧ (op.needAxis = true → ∃ p ∈ ax, p.1 ≠ a) ∨ op.half = true ∧ ∃ init, ax = init ++ [(a, n)])) :
    ∃ Y, fftnCore P op X ax = .ok Y ∧ Rep P Y.x (alongAll G (plan op G.dim ax)) ∧ Y.x.split = X.x.split ∧ ((∀ c', op.cplx c' = true) → op.emptyCplx = true → ∀ r < P, Y.cplx r = true) := by
  by_cases hloc : P = 1 ∨ ∀ p ∈ ax, X.x.split ≠ some p.1
  · obtain ⟨Y, e, R, s, t, t', -⟩ := fftnLocal_spec op hop h hp hn hlt hlen hloc he
    refine ⟨Y, ?_, R, s, fun h1 h2 r hr => ?_⟩
    swap
    · by_cases hem : (X.x.loc r).isEmpty = true
      · rw [t' r hr hem, h2]
      · rw [t r hr hem, h1]
    rw [← e]
    unfold fftnCore
    cases hs : X.x.split with
    | none => rfl
    | some a =>
      dsimp only
      cases hf : ax.find? fun p => p.1 = a with
      | none => rfl
      | some p =>
        dsimp only
        rw [if_pos]
        rcases hloc with h1 | h1
        · omega
        · exfalso
          have := List.find?_some hf
          rw [decide_eq_true_iff] at this
          exact h1 p (List.mem_of_find?_eq_some hf) (by rw [hs, this])
  · have hP1 : 1 < P := by
      by_contra hh
      exact hloc (.inl (by omega))
    have hex : ∃ p ∈ ax, X.x.split = some p.1 := by
      by_contra hh
      apply hloc
      right
      intro p hp1 e
      exact hh ⟨p, hp1, e⟩
    obtain ⟨⟨a, n⟩, hmem, hs⟩ := hex
    dsimp only at hs
    have hfind := find_of_nodup hn hmem
    have ha : a < G.ndim := hlt _ hmem
    have hn0 : 0 < n := hlen _ hmem
    by_cases hd : 1 < G.ndim
    · obtain ⟨hker, hcol, hcase⟩ := hsplit a n hP1 hd hs hmem
      obtain ⟨X5, e5, R5, s5⟩ := fftn_mid hP1 op hop h hp hc hs hd hn0 hfind hcol
      rw [e5]
      have hout : 0 < op.out n := by unfold FftnOp.out; split <;> omega
      have hperm := perm_filter hn hmem
      have hsub : ∀ p ∈ ax.filter (fun p => p.1 ≠ a), p ∈ ax ∧ p.1 ≠ a := by
        intro p hp1
        rw [List.mem_filter, decide_eq_true_iff] at hp1
        exact hp1
      have hn2 : ((ax.filter fun p => p.1 ≠ a).map Prod.fst).Nodup := hn.sublist (List.filter_sublist.map _)
      have hsh : op.second.half = false := by
        unfold FftnOp.second
        by_cases hh : op.half = true
        · rw [if_pos hh]
        · rw [if_neg hh]; simpa using hh
      have hs2 : (ax.filter fun p => p.1 ≠ a) = [] → op.second.half = false ∧ op.second.needAxis = false := by
        intro hnil
        refine ⟨hsh, ?_⟩
        rcases hcase with ⟨hh, -, hneed⟩ | ⟨hh, -⟩
        · unfold FftnOp.second
          rw [hh]
          show op.needAxis = false
          by_contra hne
          obtain ⟨p, hp1, hpa⟩ := hneed (by simpa using hne)
          have : p ∈ ax.filter (fun p => p.1 ≠ a) := by rw [List.mem_filter, decide_eq_true_iff]; exact ⟨hp1, hpa⟩
          rw [hnil] at this
          cases this
        · unfold FftnOp.second
          rw [if_pos hh]
      obtain ⟨Y, e, R, s, t, t', -⟩ := fftnLocal_spec op.second (second_reads hop) R5 (along_pos hp a hout _) hn2 (fun p hp1 => hlt p (hsub p hp1).1) (fun p hp1 => hlen p (hsub p hp1).1)
        (.inr (by intro p hp1 e; rw [s5] at e; exact (hsub p hp1).2 (Option.some.inj e).symm)) hs2
      refine ⟨Y, e, ?_, by rw [s, s5, hs], fun h1 h2 r hr => ?_⟩
      swap
      · by_cases hem : (X5.x.loc r).isEmpty = true
        · rw [t' r hr hem]
          unfold FftnOp.second
          split
          · rfl
          · exact h2
        · rw [t r hr hem]
          unfold FftnOp.second
          split
          · rfl
          · exact h1 _
      have hpl : plan op.second (G.along a (op.out n) (op.last (G.dim a) n)).dim (ax.filter fun p => p.1 ≠ a) = (ax.filter fun p => p.1 ≠ a).map fun p => (p.1, p.2, op.first (G.dim p.1) p.2) := by
        rw [plan_congr op.second (d := (G.along a (op.out n) (op.last (G.dim a) n)).dim) (e := G.dim) _ (fun p hp1 => Function.update_of_ne (hsub p hp1).2 ..)]
        have hsf : op.second.first = op.first := by
          unfold FftnOp.second
          split <;> rfl
        have hsl : op.second.first = op.second.last := by
          unfold FftnOp.second
          rcases hcase with ⟨hh, hfl, -⟩ | ⟨hh, -⟩
          · rw [hh]; exact hfl
          · rw [if_pos hh]
        rw [plan_map op.second hsh hsl, hsf]
      rw [hpl] at R
      have hgoal : alongAll G (plan op G.dim ax) = alongAll G ((a, op.out n, op.last (G.dim a) n) :: (ax.filter fun p => p.1 ≠ a).map fun p => (p.1, p.2, op.first (G.dim p.1) p.2)) := by
        apply alongAll_perm
        · rcases hcase with ⟨hh, hfl, -⟩ | ⟨hh, init, hinit⟩
          · rw [plan_map op hh hfl]
            have := hperm.map fun p => (p.1, p.2, op.first (G.dim p.1) p.2)
            rw [List.map_cons] at this
            have ho : op.out n = n := by unfold FftnOp.out; rw [hh]; rfl
            rw [ho, ← hfl]
            exact this
          · have hfi : (ax.filter fun p => p.1 ≠ a) = init := by
              rw [hinit, List.filter_append, List.filter_cons_of_neg (by simp), List.filter_nil, List.append_nil, List.filter_eq_self]
              intro p hp1
              rw [decide_eq_true_iff]
              intro e
              rw [hinit, List.map_append, List.nodup_append] at hn
              exact hn.2.2 p.1 (List.mem_map_of_mem hp1) a (by simp) e
            rw [hfi, hinit, plan_snoc]
            exact List.perm_append_comm
        · rw [plan_fst]; exact hn
        · intro p hp1
          obtain ⟨q, hq, -, -, h1⟩ := plan_mem op G.dim ax p hp1
          rcases h1 with h1 | h1 <;> rw [h1]
          · exact ⟨_, (hker _ _ (hp _ (hlt q hq))).1⟩
          · exact ⟨_, (hker _ _ (hp _ (hlt q hq))).2⟩
      rw [hgoal, alongAll_cons]
      exact R
    · have hn1 : G.ndim = 1 := by omega
      have ha0 : a = 0 := by omega
      subst ha0
      have hlt1 : ∀ p ∈ ax, p.1 = 0 := fun p hp1 => by have := hlt p hp1; omega
      have e1 : fdSwap X 0 = .ok X := by unfold fdSwap; rw [if_pos rfl]
      have hlg := rep_ndim h
      have e2 : fdAway P X = .ok ⟨resplitNone P X.x, X.cplx⟩ := by unfold fdAway; rw [if_neg (by omega)]
      have R2 := rep_resplitNone P X.x G h
      have s2 := resplitNone_split P X.x
      obtain ⟨X3, e3, R3, s3, t, t', -⟩ := fftnLocal_spec op hop (X := ⟨resplitNone P X.x, X.cplx⟩) R2 hp hn hlt hlen (.inr (fun p _ => by rw [s2]; simp)) he
      have s3' : X3.x.split = none := by rw [s3, s2]
      have e4 : fdResplit P X3 0 = .ok ⟨resplitTo P X3.x 0, X3.cplx⟩ := by unfold fdResplit; rw [s3']
      obtain ⟨R4, s4⟩ := rep_resplitTo hP R3 0 (by rw [alongAll_ndim]; omega)
      refine ⟨⟨resplitTo P X3.x 0, X3.cplx⟩, ?_, R4, by rw [s4, hs], fun h1 h2 r hr => ?_⟩
      swap
      · show X3.cplx r = true
        by_cases hem : ((resplitNone P X.x).loc r).isEmpty = true
        · rw [t' r hr hem, h2]
        · rw [t r hr hem, h1]
      unfold fftnCore
      rw [hs]
      dsimp only
      rw [hfind]
      dsimp only
      rw [if_neg (by omega), e1]
      dsimp only
      rw [e2]
      dsimp only
      rw [if_pos (by omega), e3]
      dsimp only
      exact e4

end Main

/-- How the arguments are resolved: `ax` lists axes of the array, none twice, with lengths; the axes are the given ones (negative ones count from the end) or the last ones (all, if no lengths are given either), the lengths are the given ones or the extents. -/
theorem fftnAxes_sound {shift : Bool} {gshape : List Nat} {s : Option (List Nat)} {axes : Option (List Int)} {ax : List (Nat × Nat)} (h : fftnAxes shift gshape s axes = .ok ax) :
    (ax.map Prod.fst).Nodup ∧ (∀ p ∈ ax, p.1 < gshape.length) ∧
    (∀ l, axes = some l → (∀ v ∈ l, -(gshape.length : Int) ≤ v ∧ v < gshape.length) ∧ (ax.map Prod.fst) = l.map fun v : Int => (if v < 0 then v + (gshape.length : Int) else v).toNat) ∧
    (axes = none → ∃ m ≤ gshape.length, ax.map Prod.fst = (List.range gshape.length).drop (gshape.length - m) ∧ (shift = true ∨ s = none → m = gshape.length)) ∧
    (shift = false → ∀ l, s = some l → ax.map Prod.snd = l) ∧ (shift = true ∨ s = none → ∀ p ∈ ax, p.2 = gshape.getD p.1 0) := by
  unfold fftnAxes at h
  dsimp only at h
  set s' : Option (List Nat) := if shift = true then none else s with hs'
  by_cases h1 : ∃ l ∈ s', gshape.length < l.length
  · rw [if_pos h1] at h
    exact absurd h (by simp)
  rw [if_neg h1] at h
  have hsn : shift = true ∨ s = none → s' = none := by
    rintro (e | e)
    · rw [hs', if_pos e]
    · rw [hs', e, ite_self]
  split at h
  · exact absurd h (by simp)
  rename_i l hl
  by_cases h2 : (s'.getD (l.map fun a => gshape.getD a 0)).length < l.length
  · rw [if_pos h2] at h; exact absurd h (by simp)
  rw [if_neg h2] at h
  by_cases h3 : l.Nodup
  swap
  · rw [if_pos h3] at h; exact absurd h (by simp)
  rw [if_neg (not_not.2 h3)] at h
  by_cases h4 : l.length < (s'.getD (l.map fun a => gshape.getD a 0)).length
  · rw [if_pos h4] at h; exact absurd h (by simp)
  rw [if_neg h4] at h
  have e := Except.ok.inj h
  have hll : l.length = (s'.getD (l.map fun a => gshape.getD a 0)).length := by omega
  have hfst : ax.map Prod.fst = l := by rw [← e, List.map_fst_zip hll.le]
  have hsnd : ax.map Prod.snd = s'.getD (l.map fun a => gshape.getD a 0) := by rw [← e, List.map_snd_zip hll.ge]
  have hlr : ∀ v ∈ l, v < gshape.length := by
    cases axes with
    | none =>
      dsimp only at hl
      cases hsv : s' with
      | none =>
        rw [hsv] at hl
        rw [← Except.ok.inj hl]
        intro v hv
        exact List.mem_range.1 hv
      | some l' =>
        rw [hsv] at hl
        dsimp only at hl
        rw [← Except.ok.inj hl]
        intro v hv
        split at hv
        · exact List.mem_range.1 hv
        · exact List.mem_range.1 (List.mem_of_mem_drop hv)
    | some la =>
      dsimp only at hl
      cases hsa : sanitizeAxes gshape.length la with
      | error e => rw [hsa] at hl; exact absurd hl (by simp)
      | ok o =>
        rw [hsa] at hl
        cases o with
        | none => exact absurd hl (by simp)
        | some lb =>
          rw [← Except.ok.inj hl]
          unfold sanitizeAxes at hsa
          by_cases hn0 : gshape.length = 0
          · rw [if_pos hn0] at hsa; exact absurd hsa (by simp)
          rw [if_neg hn0] at hsa
          dsimp only at hsa
          split at hsa
          · exact absurd hsa (by simp)
          · rename_i hany
            have := Option.some.inj (Except.ok.inj hsa)
            rw [← this]
            intro v hv
            rw [List.mem_map] at hv
            obtain ⟨z, hz, rfl⟩ := hv
            rw [List.any_eq_true] at hany
            by_contra hh
            apply hany
            refine ⟨z, hz, ?_⟩
            rw [Bool.or_eq_true, decide_eq_true_iff, decide_eq_true_iff]
            omega
  refine ⟨by rw [hfst]; exact h3, ?_, ?_, ?_, ?_, ?_⟩
  · intro p hp
    exact hlr p.1 (by rw [← hfst]; exact List.mem_map_of_mem hp)
  · rintro la rfl
    dsimp only at hl
    cases hsa : sanitizeAxes gshape.length la with
    | error e => rw [hsa] at hl; exact absurd hl (by simp)
    | ok o =>
      rw [hsa] at hl
      cases o with
      | none => exact absurd hl (by simp)
      | some lb =>
        have hlb := Except.ok.inj hl
        unfold sanitizeAxes at hsa
        by_cases hn0 : gshape.length = 0
        · rw [if_pos hn0] at hsa; exact absurd hsa (by simp)
        rw [if_neg hn0] at hsa
        dsimp only at hsa
        split at hsa
        · exact absurd hsa (by simp)
        · rename_i hany
          have := Option.some.inj (Except.ok.inj hsa)
          rw [hfst, ← hlb, ← this, List.map_map]
          refine ⟨?_, rfl⟩
          intro v hv
          rw [List.any_eq_true] at hany
          by_contra hh
          apply hany
          refine ⟨if v < 0 then v + (gshape.length : Int) else v, List.mem_map_of_mem hv, ?_⟩
          rw [Bool.or_eq_true, decide_eq_true_iff, decide_eq_true_iff]
          by_cases hv0 : v < 0
          · rw [if_pos hv0]; omega
          · rw [if_neg hv0]; omega
  · rintro rfl
    dsimp only at hl
    cases hsv : s' with
    | none =>
      rw [hsv] at hl
      refine ⟨gshape.length, le_rfl, ?_, fun _ => rfl⟩
      rw [hfst, Nat.sub_self, List.drop_zero]
      exact (Except.ok.inj hl).symm
    | some l' =>
      rw [hsv] at hl
      dsimp only at hl
      have hle : l'.length ≤ gshape.length := by
        by_contra hh
        exact h1 ⟨l', by rw [hsv]; rfl, by omega⟩
      have hno : ¬ (shift = true ∨ s = none) := fun hh => by rw [hsn hh] at hsv; exact absurd hsv (by simp)
      by_cases hl0 : l'.length = 0
      · rw [if_pos hl0] at hl
        refine ⟨gshape.length, le_rfl, ?_, fun hh => absurd hh hno⟩
        rw [hfst, Nat.sub_self, List.drop_zero]
        exact (Except.ok.inj hl).symm
      · rw [if_neg hl0] at hl
        refine ⟨l'.length, hle, ?_, fun hh => absurd hh hno⟩
        rw [hfst]
        exact (Except.ok.inj hl).symm
  · rintro hsh l' rfl
    rw [hsnd, hs', hsh]
    rfl
  · intro hh p hp
    rw [hsn hh] at e
    rw [← e] at hp
    dsimp only [Option.getD] at hp
    have hz : l.zip (l.map fun a => gshape.getD a 0) = l.map fun a => (a, gshape.getD a 0) := by
      have := List.zip_map' (f := fun a : Nat => a) (g := fun a => gshape.getD a 0) (l := l)
      rwa [List.map_id'] at this
    rw [hz, List.mem_map] at hp
    obtain ⟨q, -, rfl⟩ := hp
    rfl

section Main2
variable [CommSemiring K]

/-- **C130, n-dimensional transforms.** For linear transforms of lines (`fftn`, `ifftn`, `fft2`, `ifft2`, shifts, `rfftn`, `ihfftn`), all arrays with positive extents, numbers of processes, distributions, axes and lengths: the result represents the global array
transformed along all listed axes, with the split of the input. Missing, and failing or wrong (see below): a split axis that is transformed while (a) it is not the last of the axes of a real-to-complex transform, (b) it is the only axis of a shift of an array of several
dimensions, (c) a shift of real numbers leaves processes without lines, (d) the transform is complex-to-real (not linear over the complex numbers). -/
theorem fftn_partial {P : Nat} (hP : 0 < P) (op : FftnOp K) (hker : OpKernel op) {X : FD K} {G : NArr K} (h : Rep P X.x G) (hp : Pos G) {c : Bool} (hc : ∀ r < P, X.cplx r = c) {s : Option (List Nat)} {axes : Option (List Int)}
    {ax : List (Nat × Nat)} (hax : fftnAxes op.shift X.x.gshape s axes = .ok ax) (hlen : ∀ p ∈ ax, 0 < p.2) (he : ax = [] → op.half = false ∧ op.needAxis = false)
    (hsplit : ∀ a n, 1 < P → 1 < G.ndim → X.x.split = some a → (a, n) ∈ ax → (op.cplx c = op.emptyCplx ∨ P ≤ G.dim (otherAxis a) ∨ op.out n ≤ G.dim (otherAxis a)) ∧
      (op.half = false ∧ op.first = op.last ∧ (op.needAxis = true → ∃ p ∈ ax, p.1 ≠ a) ∨ op.half = true ∧ ∃ init, ax = init ++ [(a, n)])) :
    ∃ Y, fftnOp P op X s axes = .ok Y ∧ Rep P Y.x (alongAll G (plan op G.dim ax)) ∧ Y.x.split = X.x.split ∧ ((∀ c', op.cplx c' = true) → op.emptyCplx = true → ∀ r < P, Y.cplx r = true) := by
  obtain ⟨h1, h2, -⟩ := fftnAxes_sound hax
  rw [rep_ndim h] at h2
  unfold fftnOp
  rw [hax]
  exact fftnCore_partial hP op (opKernel_reads hker) h hp hc h1 h2 hlen he fun a n ha hb hs hm => ⟨hker, hsplit a n ha hb hs hm⟩

end Main2

/-- Some process has elements. -/
theorem exists_nonempty {P : Nat} {x : DND K} {G : NArr K} (h : Rep P x G) (hp : Pos G) (hP : 0 < P) : ∃ r < P, ¬ (x.loc r).isEmpty = true := by
  by_contra hall
  push Not at hall
  obtain ⟨s, hs, -⟩ := (empty_iff h hp hP).1 (hall 0 hP)
  have h4 := h.2.2.2.2
  rw [hs] at h4
  have hz : axisStart x.loc s P = 0 := by
    unfold axisStart
    rw [List.sum_eq_zero_iff]
    intro v hv
    obtain ⟨r, hr, rfl⟩ := List.mem_map.1 hv
    obtain ⟨s', hs', h0⟩ := (empty_iff h hp (List.mem_range.1 hr)).1 (hall r (List.mem_range.1 hr))
    rw [hs] at hs'
    obtain rfl := Option.some.inj hs'
    exact h0
  have := hp s h4.1
  omega

/-- **C130, violated for real-to-complex transforms** (`rfftn`, `rfft2`, `ihfftn`, `ihfft2`) whose split axis `a` is transformed but is not the last one: the split axis is halved and the last axis `b` is not. -/
theorem rfftn_split_violated {P : Nat} (hP : 1 < P) (op : FftnOp K) (hop : OpReads op) (hh : op.half = true) {X : FD K} {G : NArr K} (h : Rep P X.x G) (hp : Pos G) {c : Bool} (hc : ∀ r < P, X.cplx r = c) (hd : 1 < G.ndim)
    {s : Option (List Nat)} {axes : Option (List Int)} {init : List (Nat × Nat)} {b m : Nat} (hax : fftnAxes op.shift X.x.gshape s axes = .ok (init ++ [(b, m)])) (hlen : ∀ p ∈ init ++ [(b, m)], 0 < p.2)
    {a n : Nat} (hs : X.x.split = some a) (hmem : (a, n) ∈ init) (hcol : op.cplx c = op.emptyCplx ∨ P ≤ G.dim (otherAxis a) ∨ op.out n ≤ G.dim (otherAxis a)) :
    ∃ Y H, fftnOp P op X s axes = .ok Y ∧ Rep P Y.x H ∧ H.dim a = n / 2 + 1 ∧ H.dim b = m := by
  obtain ⟨hn, hlt, -⟩ := fftnAxes_sound hax
  rw [rep_ndim h] at hlt
  have hmem' : (a, n) ∈ init ++ [(b, m)] := List.mem_append_left _ hmem
  have hn0 : 0 < n := hlen _ hmem'
  obtain ⟨X5, e5, R5, s5⟩ := fftn_mid hP op hop h hp hc hs hd hn0 (find_of_nodup hn hmem') hcol
  have hab : b ≠ a := by
    intro e
    subst e
    rw [List.map_append, List.nodup_append] at hn
    exact hn.2.2 b (List.mem_map_of_mem (f := Prod.fst) hmem) b (by simp) rfl
  have hout : op.out n = n / 2 + 1 := by unfold FftnOp.out; rw [if_pos hh]
  have hsub : ∀ p ∈ (init ++ [(b, m)]).filter (fun p => p.1 ≠ a), p ∈ init ++ [(b, m)] ∧ p.1 ≠ a := by
    intro p hp1
    rw [List.mem_filter, decide_eq_true_iff] at hp1
    exact hp1
  have hfil : (init ++ [(b, m)]).filter (fun p => p.1 ≠ a) = init.filter (fun p => p.1 ≠ a) ++ [(b, m)] := by
    rw [List.filter_append, List.filter_cons_of_pos (by simpa using hab), List.filter_nil]
  have hsec : op.second.half = false := by unfold FftnOp.second; rw [if_pos hh]
  have hn2 : (((init ++ [(b, m)]).filter fun p => p.1 ≠ a).map Prod.fst).Nodup := hn.sublist (List.filter_sublist.map _)
  obtain ⟨Y, e, R, -⟩ := fftnLocal_spec op.second (second_reads hop) R5 (along_pos hp a (by omega) _) hn2 (fun p hp1 => hlt p (hsub p hp1).1) (fun p hp1 => hlen p (hsub p hp1).1)
    (.inr (by intro p hp1 e; rw [s5] at e; exact (hsub p hp1).2 (Option.some.inj e).symm)) (by rw [hfil]; simp)
  refine ⟨Y, _, ?_, R, ?_, ?_⟩
  · unfold fftnOp
    rw [hax]
    dsimp only
    rw [e5, e]
  · rw [alongAll_dim_ne]
    · rw [← hout]
      exact Function.update_self ..
    · rw [plan_fst]
      intro hh
      obtain ⟨p, hp1, hpa⟩ := List.mem_map.1 hh
      exact (hsub p hp1).2 hpa
  · rw [hfil, plan_snoc]
    unfold alongAll
    rw [List.foldl_append]
    have e : ∀ T : NArr K, (T.along b (op.second.out m) (op.second.last ((G.along a (op.out n) (op.last (G.dim a) n)).dim b) m)).dim b = op.second.out m := fun T => Function.update_self ..
    refine (e _).trans ?_
    unfold FftnOp.out
    rw [hsec]
    rfl

/-- **C130, violated for shifts of the split axis only**: `fftshift(x, axes=(a,))` of an array of several dimensions distributed along `a` fails: the second pass has no axes left. -/
theorem fftshift_axis_violated {P : Nat} (hP : 1 < P) (op : FftnOp K) (hop : OpReads op) (hh : op.half = false) (hneed : op.needAxis = true) {X : FD K} {G : NArr K} (h : Rep P X.x G) (hp : Pos G) {c : Bool} (hc : ∀ r < P, X.cplx r = c) (hd : 1 < G.ndim)
    {s : Option (List Nat)} {axes : Option (List Int)} {a n : Nat} (hax : fftnAxes op.shift X.x.gshape s axes = .ok [(a, n)]) (hn0 : 0 < n) (hs : X.x.split = some a)
    (hcol : op.cplx c = op.emptyCplx ∨ P ≤ G.dim (otherAxis a) ∨ op.out n ≤ G.dim (otherAxis a)) : fftnOp P op X s axes = .error .runtimeError := by
  obtain ⟨X5, e5, R5, s5⟩ := fftn_mid hP op hop h hp hc hs hd hn0 (ax := [(a, n)]) (by simp) hcol
  unfold fftnOp
  rw [hax]
  dsimp only
  rw [e5]
  have hsec : op.second = op := by unfold FftnOp.second; rw [hh]; rfl
  have hnil : ([(a, n)].filter fun p => p.1 ≠ a) = [] := by simp
  rw [hsec, hnil]
  have hout : op.out n = n := by unfold FftnOp.out; rw [hh]; rfl
  obtain ⟨r, hr, hne⟩ := exists_nonempty R5 (along_pos hp a (by omega) _) (by omega)
  unfold fftnLocal
  dsimp only
  rw [hh, if_neg (by simp), if_neg, if_pos]
  · exact ⟨r, hr, hne, .inl ⟨hneed, rfl⟩⟩
  · rintro ⟨_, -, -, e⟩
    rw [s5] at e
    exact absurd e (by simp)

/-- **C130, violated for few lines**: a transform whose result has another type than the one given to empty parts (`fftshift` of real numbers, `hfftn`), along the split axis of an array whose other axis has fewer entries than there are processes and outputs, fails. -/
theorem fftn_few_lines_violated {P : Nat} (op : FftnOp K) (hop : OpReads op) {X : FD K} {G : NArr K} (h : Rep P X.x G) (hp : Pos G) {c : Bool} (hc : ∀ r < P, X.cplx r = c) (hcc : op.cplx c ≠ op.emptyCplx) (hd : 1 < G.ndim)
    {s : Option (List Nat)} {axes : Option (List Int)} {ax : List (Nat × Nat)} (hax : fftnAxes op.shift X.x.gshape s axes = .ok ax) {a n : Nat} (hmem : (a, n) ∈ ax) (hn0 : 0 < n) (hs : X.x.split = some a)
    (hPc : G.dim (otherAxis a) < P) (hmc : G.dim (otherAxis a) < op.out n) : fftnOp P op X s axes = .error .runtimeError := by
  obtain ⟨hn, hlt, -⟩ := fftnAxes_sound hax
  rw [rep_ndim h] at hlt
  have han : a < G.ndim := hlt _ hmem
  have hoth : otherAxis a < G.ndim := by unfold otherAxis; split <;> omega
  have hop' := hp _ hoth
  obtain ⟨X1, X2, X3, e1, l1, e2, e3, R3, s3, d3, t3⟩ := fftn_front (show 0 < P by omega) op hop h hp hc hs hd hn0
  unfold fftnOp
  rw [hax]
  dsimp only
  unfold fftnCore
  rw [hs]
  dsimp only
  rw [find_of_nodup hn hmem]
  dsimp only
  rw [if_neg (by omega), e1]
  dsimp only
  rw [e2]
  dsimp only
  rw [if_neg (by omega), e3]
  dsimp only
  have hdT : ((G.swap a).along 0 (op.out n) (op.last (G.dim a) n)).dim 0 = op.out n := by
    show Function.update (G.swap a).dim 0 (op.out n) 0 = op.out n
    simp
  have e4 : fdResplit P X3 0 = .error .runtimeError := by
    unfold fdResplit
    rw [s3]
    dsimp only
    rw [if_neg (by omega), if_pos]
    refine ⟨0, by omega, G.dim (otherAxis a), hPc, ?_, ?_, ?_⟩
    · rw [t3 0 (by omega), t3 _ hPc, if_pos hop', if_neg (by omega)]
      exact hcc
    · intro k hk hk0
      rw [R3.2.2.2.1 0 (by omega)] at hk
      by_cases hk1 : k = 1
      · subst hk1
        rw [d3 0 (by omega)]
        have := (evenSize_pos_iff (n := G.dim (otherAxis a)) (show 0 < P by omega)).2 hop'
        omega
      · rw [rep_dim2 R3 (by omega) hk (by rw [s3]; intro e; exact hk1 (Option.some.inj e).symm)]
        have := (along_pos (swap_pos hp han) 0 (show 0 < op.out n by omega) (op.last (G.dim a) n)) k hk
        omega
    · have hq := (evenSize_pos_iff (n := op.out n) hPc).2 hmc
      rw [← chunkRange_len] at hq
      rw [rep_gdim R3 (show 0 < G.ndim by omega), hdT]
      omega
  rw [e4]

/-- Two arrays agree within their bounds. -/
def Spec.EqIn (G H : NArr K) : Prop := H.ndim = G.ndim ∧ (∀ k < G.ndim, H.dim k = G.dim k) ∧ ∀ idx, InB G idx → H.get idx = G.get idx

theorem along_eqIn {G H : NArr K} (h : EqIn G H) {a : Nat} (ha : a < G.ndim) (m : Nat) {f : (Nat → K) → Nat → K} (hf : Reads f (G.dim a)) : EqIn (G.along a m f) (H.along a m f) := by
  obtain ⟨h1, h2, h3⟩ := h
  refine ⟨h1, ?_, ?_⟩
  · intro k hk
    dsimp only [NArr.along]
    by_cases hka : k = a
    · subst hka; rw [Function.update_self, Function.update_self]
    · rw [Function.update_of_ne hka, Function.update_of_ne hka]; exact h2 k hk
  · intro idx hi
    dsimp only [NArr.along]
    apply hf
    intro i hia
    apply h3
    intro k hk
    by_cases hka : k = a
    · subst hka; rw [Function.update_self]; exact hia
    · rw [Function.update_of_ne hka]
      have := hi k hk
      dsimp only [NArr.along] at this
      rwa [Function.update_of_ne hka] at this

theorem alongAll_eqIn (l : List (Nat × Nat × ((Nat → K) → Nat → K))) : ∀ {G H : NArr K}, EqIn G H → (∀ p ∈ l, p.1 < G.ndim) → (∀ p ∈ l, Reads p.2.2 (G.dim p.1)) → (l.map Prod.fst).Nodup → EqIn (alongAll G l) (alongAll H l) := by
  induction l with
  | nil => intro G H h _ _ _; exact h
  | cons p l ih =>
    intro G H h hlt hr hn
    rw [List.map_cons, List.nodup_cons] at hn
    refine ih (along_eqIn h (hlt p (by simp)) p.2.1 (hr p (by simp))) (fun q hq => hlt q (List.mem_cons_of_mem _ hq)) ?_ hn.2
    intro q hq
    have : q.1 ≠ p.1 := by
      intro e
      apply hn.1
      rw [← e]
      exact List.mem_map_of_mem hq
    have e : (G.along p.1 p.2.1 p.2.2).dim q.1 = G.dim q.1 := Function.update_of_ne this ..
    rw [e]
    exact hr q (List.mem_cons_of_mem _ hq)

/-- **C130, violated for complex-to-real transforms** (`irfftn`, `irfft2`, `hfftn`, `hfft2`) whose split axis is transformed. The first pass applies the transform meant for the last axis to the split axis; such a transform of length `n` reads only `n / 2 + 1` entries.
So two arrays that differ only in later entries along the split axis get results that represent the same array `H`, although the transform is one-to-one along all axes but the last. -/
theorem irfftn_split_violated {P : Nat} (hP : 1 < P) (op : FftnOp K) (hop : OpReads op) (hh : op.half = false) {X X' : FD K} {G G' : NArr K} (h : Rep P X.x G) (h' : Rep P X'.x G') (hp : Pos G) {c : Bool} (hc : ∀ r < P, X.cplx r = c) (hc' : ∀ r < P, X'.cplx r = c) (hd : 1 < G.ndim)
    {s : Option (List Nat)} {axes : Option (List Int)} {ax : List (Nat × Nat)} (hax : fftnAxes op.shift X.x.gshape s axes = .ok ax) (hax' : fftnAxes op.shift X'.x.gshape s axes = .ok ax) (hlen : ∀ p ∈ ax, 0 < p.2)
    {a n : Nat} (hs : X.x.split = some a) (hs' : X'.x.split = some a) (hmem : (a, n) ∈ ax) (hcol : op.cplx c = op.emptyCplx ∨ P ≤ G.dim (otherAxis a) ∨ op.out n ≤ G.dim (otherAxis a)) (hneed : op.needAxis = true → ∃ p ∈ ax, p.1 ≠ a)
    (hread : Reads (op.last (G.dim a) n) (n / 2 + 1)) (hnd : G'.ndim = G.ndim) (hdim : ∀ k < G.ndim, G'.dim k = G.dim k) (hsame : ∀ idx, (∀ k < G.ndim, k ≠ a → idx k < G.dim k) → idx a < n / 2 + 1 → G'.get idx = G.get idx) :
    ∃ Y Y' H, fftnOp P op X s axes = .ok Y ∧ fftnOp P op X' s axes = .ok Y' ∧ Rep P Y.x H ∧ Rep P Y'.x H := by
  obtain ⟨hn, hlt, -⟩ := fftnAxes_sound hax
  rw [rep_ndim h] at hlt
  have hn0 : 0 < n := hlen _ hmem
  have ha : a < G.ndim := hlt _ hmem
  have hoth : otherAxis a < G.ndim := by unfold otherAxis; split <;> omega
  have hp' : Pos G' := by
    intro k hk
    rw [hnd] at hk
    rw [hdim k hk]
    exact hp k hk
  obtain ⟨X5, e5, R5, s5⟩ := fftn_mid hP op hop h hp hc hs hd hn0 (find_of_nodup hn hmem) hcol
  obtain ⟨X6, e6, R6, s6⟩ := fftn_mid hP op hop h' hp' hc' hs' (by omega) hn0 (find_of_nodup hn hmem) (by rw [hdim _ hoth]; exact hcol)
  have hout : op.out n = n := by unfold FftnOp.out; rw [hh]; rfl
  have hsec : op.second = op := by unfold FftnOp.second; rw [hh]; rfl
  rw [hsec] at e5 e6
  rw [hout] at R5 R6
  have hsub : ∀ p ∈ ax.filter (fun p => p.1 ≠ a), p ∈ ax ∧ p.1 ≠ a := by
    intro p hp1
    rw [List.mem_filter, decide_eq_true_iff] at hp1
    exact hp1
  have hnil : (ax.filter fun p => p.1 ≠ a) = [] → op.half = false ∧ op.needAxis = false := by
    intro hnil
    refine ⟨hh, ?_⟩
    by_contra hne
    obtain ⟨p, hp1, hpa⟩ := hneed (by simpa using hne)
    have : p ∈ ax.filter (fun p => p.1 ≠ a) := by rw [List.mem_filter, decide_eq_true_iff]; exact ⟨hp1, hpa⟩
    rw [hnil] at this
    cases this
  have hn2 : ((ax.filter fun p => p.1 ≠ a).map Prod.fst).Nodup := hn.sublist (List.filter_sublist.map _)
  obtain ⟨Y, e, R, -⟩ := fftnLocal_spec op hop R5 (along_pos hp a hn0 _) hn2 (fun p hp1 => hlt p (hsub p hp1).1) (fun p hp1 => hlen p (hsub p hp1).1)
    (.inr (by intro p hp1 e; rw [s5] at e; exact (hsub p hp1).2 (Option.some.inj e).symm)) hnil
  obtain ⟨Y', e', R', -⟩ := fftnLocal_spec op hop R6 (along_pos hp' a hn0 _) hn2 (fun p hp1 => by show p.1 < G'.ndim; rw [hnd]; exact hlt p (hsub p hp1).1) (fun p hp1 => hlen p (hsub p hp1).1)
    (.inr (by intro p hp1 e; rw [s6] at e; exact (hsub p hp1).2 (Option.some.inj e).symm)) hnil
  refine ⟨Y, Y', _, ?_, ?_, R, ?_⟩
  · unfold fftnOp
    rw [hax]
    dsimp only
    rw [e5, e]
  · unfold fftnOp
    rw [hax']
    dsimp only
    rw [e6, e']
  · have heq : EqIn (G.along a n (op.last (G.dim a) n)) (G'.along a n (op.last (G'.dim a) n)) := by
      rw [hdim a ha]
      refine ⟨hnd, ?_, ?_⟩
      · intro k hk
        dsimp only [NArr.along]
        by_cases hka : k = a
        · subst hka; rw [Function.update_self, Function.update_self]
        · rw [Function.update_of_ne hka, Function.update_of_ne hka]; exact hdim k hk
      · intro idx hi
        dsimp only [NArr.along]
        apply hread
        intro i hia
        apply hsame
        · intro k hk hka
          rw [Function.update_of_ne hka]
          have := hi k hk
          dsimp only [NArr.along] at this
          rwa [Function.update_of_ne hka] at this
        · rw [Function.update_self]; exact hia
    have hpl : plan op (G'.along a n (op.last (G'.dim a) n)).dim (ax.filter fun p => p.1 ≠ a) = plan op (G.along a n (op.last (G.dim a) n)).dim (ax.filter fun p => p.1 ≠ a) := by
      apply plan_congr
      intro p hp1
      exact heq.2.1 p.1 (hlt p (hsub p hp1).1)
    rw [hpl] at R'
    have key := alongAll_eqIn (plan op (G.along a n (op.last (G.dim a) n)).dim (ax.filter fun p => p.1 ≠ a)) heq
      (fun p hp1 => by obtain ⟨q, hq, e, -⟩ := plan_mem _ _ _ p hp1; rw [← e]; exact hlt q (hsub q hq).1)
      (fun p hp1 => by
        obtain ⟨q, hq, e, -, h1⟩ := plan_mem _ _ _ p hp1
        have hpos : 0 < (G.along a n (op.last (G.dim a) n)).dim q.1 := along_pos hp a hn0 _ q.1 (hlt q (hsub q hq).1)
        rw [← e]
        rcases h1 with h1 | h1 <;> rw [h1]
        · exact (hop _ _ hpos).1
        · exact (hop _ _ hpos).2) (by rw [plan_fst]; exact hn2)
    refine rep_congrIn R' R.1 key.1.symm ?_ ?_
    · intro k hk
      rw [key.1] at hk
      exact (key.2.1 k hk).symm
    · intro idx hi
      exact key.2.2 idx hi


/-! ### The transforms -/

section Ops
variable [Field K]

/-- `fftn`, `fft2` (fft.py:420-453, 494-528). -/
def torchFftn (w : Nat → K) : FftnOp K := ⟨Spec.dft w, Spec.dft w, false, false, false, fun _ => true, true⟩
/-- `ifftn`, `ifft2` (fft.py:711-774). -/
def torchIfftn (w : Nat → K) : FftnOp K := ⟨Spec.idft w, Spec.idft w, false, false, false, fun _ => true, true⟩
/-- `rfftn`, `rfft2` (fft.py:1028-1050, 1087-1110). -/
def torchRfftn (w : Nat → K) : FftnOp K := ⟨Spec.dft w, Spec.dft w, true, false, true, fun _ => true, true⟩

omit [Field K] in
/-- `numpy.fft.fftshift` of a line of `N` elements: entry `j` of the result is entry `j - N / 2` (cyclically). -/
def Spec.fshift (N _n : Nat) (v : Nat → K) (j : Nat) : K := v ((j + (N - N / 2)) % N)
/-- `numpy.fft.ifftshift`: entry `j` of the result is entry `j + N / 2` (cyclically). -/
def Spec.ifshift (N _n : Nat) (v : Nat → K) (j : Nat) : K := v ((j + N / 2) % N)

/-- `fftshift` (fft.py:531-553). -/
def torchFftshift : FftnOp K := ⟨Spec.fshift, Spec.fshift, false, true, true, id, true⟩
/-- `ifftshift` (fft.py:777-796). -/
def torchIfftshift : FftnOp K := ⟨Spec.ifshift, Spec.ifshift, false, true, true, id, true⟩

theorem dft_kernel (w : Nat → K) (N n : Nat) : Kernel (Spec.dft w N n) N := by
  refine ⟨fun j i => if i < n then w n ^ (i * j) else 0, ?_⟩
  intro v j
  unfold Spec.dft
  have : range (min N n) = (range N).filter fun i => i < n := by
    ext i
    simp
  rw [this, sum_filter]
  apply Finset.sum_congr rfl
  intro i _
  dsimp only
  by_cases h : i < n
  · rw [if_pos h, if_pos h]; ring
  · rw [if_neg h, if_neg h, zero_mul]

theorem idft_kernel (w : Nat → K) (N n : Nat) : Kernel (Spec.idft w N n) N := by
  refine ⟨fun j i => if i < n then (n : K)⁻¹ * (w n)⁻¹ ^ (i * j) else 0, ?_⟩
  intro v j
  unfold Spec.idft
  have : range (min N n) = (range N).filter fun i => i < n := by
    ext i
    simp
  rw [this, sum_filter, mul_sum]
  apply Finset.sum_congr rfl
  intro i _
  dsimp only
  by_cases h : i < n
  · rw [if_pos h, if_pos h]; ring
  · rw [if_neg h, if_neg h, zero_mul, mul_zero]

theorem pick_kernel {N : Nat} (g : Nat → Nat) (hg : ∀ j, g j < N) : Kernel (fun (v : Nat → K) j => v (g j)) N := by
  refine ⟨fun j i => if i = g j then 1 else 0, ?_⟩
  intro v j
  simp only [ite_mul, one_mul, zero_mul]
  rw [sum_ite_eq' (range N) (g j), if_pos (mem_range.2 (hg j))]

theorem fshift_kernel {N : Nat} (hN : 0 < N) (n : Nat) : Kernel (Spec.fshift (K := K) N n) N := pick_kernel _ fun _ => Nat.mod_lt _ hN
theorem ifshift_kernel {N : Nat} (hN : 0 < N) (n : Nat) : Kernel (Spec.ifshift (K := K) N n) N := pick_kernel _ fun _ => Nat.mod_lt _ hN

omit [Field K] in
theorem ifshift_fshift {N n n' : Nat} (v : Nat → K) {j : Nat} (hj : j < N) : Spec.ifshift N n (Spec.fshift N n' v) j = v j := by
  unfold Spec.ifshift Spec.fshift
  congr 1
  rw [Nat.mod_add_mod, show j + N / 2 + (N - N / 2) = j + N by omega, Nat.add_mod_right, Nat.mod_eq_of_lt hj]

/-- **C130, `fftn`/`fft2`/`ifftn`/`ifft2`** (any linear transform with complex results): the result represents the array transformed along all listed axes, for every distribution; all processes agree on the type. -/
theorem fftn_spec {P : Nat} (hP : 0 < P) (run : Nat → Nat → (Nat → K) → Nat → K) (hrun : ∀ N n, Kernel (run N n) N) {X : FD K} {G : NArr K} (h : Rep P X.x G) (hp : Pos G) {c : Bool} (hc : ∀ r < P, X.cplx r = c) {s : Option (List Nat)} {axes : Option (List Int)}
    {ax : List (Nat × Nat)} (hax : fftnAxes false X.x.gshape s axes = .ok ax) (hlen : ∀ p ∈ ax, 0 < p.2) :
    ∃ Y, fftnOp P ⟨run, run, false, false, false, fun _ => true, true⟩ X s axes = .ok Y ∧ Rep P Y.x (alongAll G (ax.map fun p => (p.1, p.2, run (G.dim p.1) p.2))) ∧ Y.x.split = X.x.split ∧ ∀ r < P, Y.cplx r = true := by
  obtain ⟨Y, e, R, sp, t⟩ := fftn_partial hP ⟨run, run, false, false, false, fun _ => true, true⟩ (fun N n _ => ⟨hrun N n, hrun N n⟩) h hp hc hax hlen (fun _ => ⟨rfl, rfl⟩)
    fun a n _ _ _ _ => ⟨.inl rfl, .inl ⟨rfl, rfl, fun h => absurd h (by simp)⟩⟩
  rw [plan_map _ rfl rfl] at R
  exact ⟨Y, e, R, sp, t (fun _ => rfl) rfl⟩

/-- **C130, `rfftn`** on the part of its domain where it works: the split axis is not transformed, or is the last of the axes. The last axis keeps the first `n / 2 + 1` entries of the transform. -/
theorem rfftn_partial {P : Nat} (hP : 0 < P) (w : Nat → K) {X : FD K} {G : NArr K} (h : Rep P X.x G) (hp : Pos G) {c : Bool} (hc : ∀ r < P, X.cplx r = c) {s : Option (List Nat)} {axes : Option (List Int)}
    {init : List (Nat × Nat)} {b m : Nat} (hax : fftnAxes false X.x.gshape s axes = .ok (init ++ [(b, m)])) (hlen : ∀ p ∈ init ++ [(b, m)], 0 < p.2) (hs : 1 < P → 1 < G.ndim → ∀ p ∈ init, X.x.split ≠ some p.1) :
    ∃ Y, fftnOp P (torchRfftn w) X s axes = .ok Y ∧ Rep P Y.x (alongAll G ((init.map fun p => (p.1, p.2, Spec.dft w (G.dim p.1) p.2)) ++ [(b, m / 2 + 1, Spec.dft w (G.dim b) m)])) ∧ Y.x.split = X.x.split := by
  obtain ⟨Y, e, R, sp, -⟩ := fftn_partial hP (torchRfftn w) (fun N n _ => ⟨dft_kernel w N n, dft_kernel w N n⟩) h hp hc hax hlen (by simp)
    (by
      intro a n h1 h2 h3 h4
      refine ⟨.inl rfl, .inr ⟨rfl, init, ?_⟩⟩
      rw [List.mem_append, List.mem_singleton] at h4
      rcases h4 with h4 | h4
      · exact absurd h3 (hs h1 h2 _ h4)
      · rw [h4])
  rw [plan_snoc] at R
  exact ⟨Y, e, R, sp⟩

/-- **C130, `fftshift`/`ifftshift`** where they work: complex arrays, enough lines, or a split axis that is not shifted; and more axes than the split axis unless the array has one dimension. -/
theorem fftshift_partial {P : Nat} (hP : 0 < P) {X : FD K} {G : NArr K} (h : Rep P X.x G) (hp : Pos G) {c : Bool} (hc : ∀ r < P, X.cplx r = c) {axes : Option (List Int)}
    {ax : List (Nat × Nat)} (hax : fftnAxes true X.x.gshape none axes = .ok ax) (hne : ax ≠ [])
    (hs : ∀ a n, 1 < P → 1 < G.ndim → X.x.split = some a → (a, n) ∈ ax → (c = true ∨ P ≤ G.dim (otherAxis a) ∨ n ≤ G.dim (otherAxis a)) ∧ ∃ p ∈ ax, p.1 ≠ a) :
    (∃ Y, fftnOp P torchFftshift X none axes = .ok Y ∧ Rep P Y.x (alongAll G (ax.map fun p => (p.1, G.dim p.1, Spec.fshift (G.dim p.1) (G.dim p.1)))) ∧ Y.x.split = X.x.split) ∧
    ∃ Y, fftnOp P torchIfftshift X none axes = .ok Y ∧ Rep P Y.x (alongAll G (ax.map fun p => (p.1, G.dim p.1, Spec.ifshift (G.dim p.1) (G.dim p.1)))) ∧ Y.x.split = X.x.split := by
  obtain ⟨h1, h2, -, -, -, h3⟩ := fftnAxes_sound hax
  rw [rep_ndim h] at h2
  have hd : ∀ p ∈ ax, p.2 = G.dim p.1 := fun p hp1 => by rw [h3 (.inl rfl) p hp1, rep_gdim h (h2 p hp1)]
  have hlen : ∀ p ∈ ax, 0 < p.2 := fun p hp1 => by rw [hd p hp1]; exact hp _ (h2 p hp1)
  have hm : ∀ run : Nat → Nat → (Nat → K) → Nat → K, (ax.map fun p => (p.1, p.2, run (G.dim p.1) p.2)) = ax.map fun p => (p.1, G.dim p.1, run (G.dim p.1) (G.dim p.1)) := by
    intro run
    apply List.map_congr_left
    intro p hp1
    rw [hd p hp1]
  constructor
  · obtain ⟨Y, e, R, sp, -⟩ := fftn_partial hP (torchFftshift (K := K)) (fun N n hN => ⟨fshift_kernel hN n, fshift_kernel hN n⟩) h hp hc hax hlen (fun h => absurd h hne)
      fun a n ha hb hsp hmem => ⟨(hs a n ha hb hsp hmem).1, .inl ⟨rfl, rfl, fun _ => (hs a n ha hb hsp hmem).2⟩⟩
    rw [plan_map _ rfl rfl] at R
    have := hm Spec.fshift
    exact ⟨Y, e, by rw [← this]; exact R, sp⟩
  · obtain ⟨Y, e, R, sp, -⟩ := fftn_partial hP (torchIfftshift (K := K)) (fun N n hN => ⟨ifshift_kernel hN n, ifshift_kernel hN n⟩) h hp hc hax hlen (fun h => absurd h hne)
      fun a n ha hb hsp hmem => ⟨(hs a n ha hb hsp hmem).1, .inl ⟨rfl, rfl, fun _ => (hs a n ha hb hsp hmem).2⟩⟩
    rw [plan_map _ rfl rfl] at R
    have := hm Spec.ifshift
    exact ⟨Y, e, by rw [← this]; exact R, sp⟩

/-- Transforms along all axes followed by their inverses give the array back. -/
theorem alongAll_inverse (f g : Nat → Nat → (Nat → K) → Nat → K) (N : Nat → Nat) (hg : ∀ k, 0 < N k → Kernel (g (N k) (N k)) (N k)) : ∀ (ax : List Nat) {G : NArr K}, ax.Nodup → Pos G → (∀ a ∈ ax, a < G.ndim ∧ G.dim a = N a) →
    (∀ a ∈ ax, ∀ v, ∀ j < N a, g (N a) (N a) (f (N a) (N a) v) j = v j) →
    EqIn G (alongAll (alongAll G (ax.map fun a => (a, N a, f (N a) (N a)))) ((ax.map fun a => (a, N a, g (N a) (N a))).reverse)) := by
  intro ax
  induction ax with
  | nil => intro G _ _ _ _; exact ⟨rfl, fun _ _ => rfl, fun _ _ => rfl⟩
  | cons a ax ih =>
    intro G hn hp hd hinv
    rw [List.nodup_cons] at hn
    have ha := hd a (by simp)
    have hNa : 0 < N a := by rw [← ha.2]; exact hp a ha.1
    rw [List.map_cons, List.map_cons, List.reverse_cons, alongAll_cons]
    have hsn : ∀ (T : NArr K) l p, alongAll T (l ++ [p]) = (alongAll T l).along p.1 p.2.1 p.2.2 := by
      intro T l p
      unfold alongAll
      rw [List.foldl_append]
      rfl
    rw [hsn]
    dsimp only
    have hih := ih (G := G.along a (N a) (f (N a) (N a))) hn.2 (along_pos hp a hNa _)
      (fun b hb => ⟨(hd b (List.mem_cons_of_mem _ hb)).1, by
        have : b ≠ a := fun e => hn.1 (e ▸ hb)
        rw [← (hd b (List.mem_cons_of_mem _ hb)).2]
        exact Function.update_of_ne this ..⟩) (fun b hb => hinv b (List.mem_cons_of_mem _ hb))
    have hda : (G.along a (N a) (f (N a) (N a))).dim a = N a := Function.update_self ..
    have h1 := along_eqIn hih (a := a) ha.1 (N a) (f := g (N a) (N a)) (by rw [hda]; exact kernel_reads (hg a hNa))
    have h2 : EqIn G ((G.along a (N a) (f (N a) (N a))).along a (N a) (g (N a) (N a))) := by
      refine ⟨rfl, ?_, ?_⟩
      · intro k hk
        show Function.update (Function.update G.dim a (N a)) a (N a) k = G.dim k
        rw [Function.update_idem, ← ha.2, Function.update_eq_self]
      · intro idx hi
        have hia := hi a ha.1
        rw [ha.2] at hia
        show g (N a) (N a) (fun i => f (N a) (N a) (fun i' => G.get (Function.update (Function.update idx a i) a i')) (Function.update idx a i a)) (idx a) = _
        simp only [Function.update_self, Function.update_idem]
        have := hinv a (by simp) (fun i => G.get (Function.update idx a i)) (idx a) hia
        rw [this, Function.update_eq_self]
    refine ⟨h1.1.trans h2.1, fun k hk => (h1.2.1 k hk).trans (h2.2.1 k hk), fun idx hi => ?_⟩
    rw [h1.2.2 idx ?_, h2.2.2 idx hi]
    intro k hk
    rw [h2.2.1 k hk]
    exact hi k hk

/-- **C130, round trip.** `ifftn(fftn(x, axes=axes), axes=axes)` is `x`, for all shapes with positive extents, distributions and axes, real or complex. -/
theorem ifftn_fftn {P : Nat} (hP : 0 < P) (w : Nat → K) {X : FD K} {G : NArr K} (h : Rep P X.x G) (hp : Pos G) {c : Bool} (hc : ∀ r < P, X.cplx r = c) {axes : Option (List Int)}
    {ax : List (Nat × Nat)} (hax : fftnAxes false X.x.gshape none axes = .ok ax) (hw : ∀ p ∈ ax, IsPrimitiveRoot (w (G.dim p.1)) (G.dim p.1)) (hchar : ∀ p ∈ ax, ((G.dim p.1 : Nat) : K) ≠ 0) :
    ∃ Y Z, fftnOp P (torchFftn w) X none axes = .ok Y ∧ fftnOp P (torchIfftn w) Y none axes = .ok Z ∧ Rep P Z.x G ∧ Z.x.split = X.x.split := by
  obtain ⟨h1, h2, -, -, -, h3⟩ := fftnAxes_sound hax
  rw [rep_ndim h] at h2
  have hd : ∀ p ∈ ax, p.2 = G.dim p.1 := fun p hp1 => by rw [h3 (.inr rfl) p hp1, rep_gdim h (h2 p hp1)]
  have hlen : ∀ p ∈ ax, 0 < p.2 := fun p hp1 => by rw [hd p hp1]; exact hp _ (h2 p hp1)
  obtain ⟨Y, e, R, sp, t⟩ := fftn_spec hP (Spec.dft w) (dft_kernel w) h hp hc hax hlen
  set T := alongAll G (ax.map fun p => (p.1, p.2, Spec.dft w (G.dim p.1) p.2)) with hT
  have hTn : T.ndim = G.ndim := alongAll_ndim ..
  have hTd : ∀ k < G.ndim, T.dim k = G.dim k := by
    intro k hk
    have key : ∀ (l : List (Nat × Nat)), (∀ p ∈ l, p.2 = G.dim p.1) → ∀ U : NArr K, U.dim k = G.dim k → (alongAll U (l.map fun p => (p.1, p.2, Spec.dft w (G.dim p.1) p.2))).dim k = G.dim k := by
      intro l
      induction l with
      | nil => intro _ U hU; exact hU
      | cons p l ih =>
        intro hl U hU
        rw [List.map_cons, alongAll_cons]
        apply ih fun q hq => hl q (List.mem_cons_of_mem _ hq)
        show Function.update U.dim p.1 p.2 k = _
        by_cases hk' : k = p.1
        · rw [hk', Function.update_self, hl p (by simp)]
        · rw [Function.update_of_ne hk', hU]
    exact key ax hd G rfl
  have hTp : Pos T := by
    intro k hk
    rw [hTn] at hk
    rw [hTd k hk]
    exact hp k hk
  have hYg : Y.x.gshape = X.x.gshape := by
    apply List.ext_getElem?
    intro k
    have ly := rep_ndim R
    have lx := rep_ndim h
    rw [hTn] at ly
    by_cases hk : k < G.ndim
    · have a1 := rep_gdim R (k := k) (by rw [hTn]; exact hk)
      have a2 := rep_gdim h hk
      rw [hTd k hk, ← a2] at a1
      rw [List.getD_eq_getElem?_getD, List.getD_eq_getElem?_getD, List.getElem?_eq_getElem (by omega), List.getElem?_eq_getElem (by omega), Option.getD_some, Option.getD_some] at a1
      rw [List.getElem?_eq_getElem (by omega), List.getElem?_eq_getElem (by omega), a1]
    · rw [List.getElem?_eq_none (by omega), List.getElem?_eq_none (by omega)]
  obtain ⟨Z, e2, R2, sp2, -⟩ := fftn_spec hP (Spec.idft w) (idft_kernel w) R hTp t (s := none) (axes := axes) (ax := ax) (by rw [hYg]; exact hax) hlen
  refine ⟨Y, Z, e, e2, ?_, by rw [sp2, sp]⟩
  have hb : ∀ (run : Nat → Nat → (Nat → K) → Nat → K) (d : Nat → Nat), (∀ p ∈ ax, d p.1 = G.dim p.1) → (ax.map fun p => (p.1, p.2, run (d p.1) p.2)) = (ax.map Prod.fst).map fun a => (a, G.dim a, run (G.dim a) (G.dim a)) := by
    intro run d hdd
    rw [List.map_map]
    apply List.map_congr_left
    intro p hp1
    dsimp only [Function.comp]
    rw [hd p hp1, hdd p hp1]
  have hlt : ∀ a ∈ ax.map Prod.fst, a < G.ndim ∧ G.dim a = G.dim a := by
    intro a ha
    obtain ⟨p, hp1, rfl⟩ := List.mem_map.1 ha
    exact ⟨h2 p hp1, rfl⟩
  have hinv := alongAll_inverse (Spec.dft w) (Spec.idft w) G.dim (fun k _ => idft_kernel w _ _) (ax.map Prod.fst) h1 hp hlt
    (by
      intro a ha v j hj
      obtain ⟨p, hp1, rfl⟩ := List.mem_map.1 ha
      exact idft_dft w (hw p hp1) (hchar p hp1) v hj)
  rw [hb (Spec.idft w) T.dim fun p hp1 => hTd _ (h2 p hp1)] at R2
  have hTe : T = alongAll G ((ax.map Prod.fst).map fun a => (a, G.dim a, Spec.dft w (G.dim a) (G.dim a))) := by rw [hT, hb (Spec.dft w) G.dim fun _ _ => rfl]
  rw [← hTe] at hinv
  rw [← alongAll_perm T (List.reverse_perm _).symm (by
    have : ∀ l : List Nat, ((l.map fun a => (a, G.dim a, Spec.idft w (G.dim a) (G.dim a))).map Prod.fst) = l := by
      intro l
      rw [List.map_map]
      exact List.map_id' l
    rw [this]
    exact h1) (by
    intro p hp1
    obtain ⟨a, -, rfl⟩ := List.mem_map.1 hp1
    exact ⟨_, idft_kernel w _ _⟩)] at hinv
  refine rep_congrIn R2 h.1 hinv.1.symm ?_ ?_
  · intro k hk
    rw [hinv.1] at hk
    exact (hinv.2.1 k hk).symm
  · intro idx hi
    exact hinv.2.2 idx hi

end Ops

/-! ### Frequencies -/

/-- The numerators of `numpy.fft.fftfreq(n)`: `0, 1, ..., (n-1)/2, -(n/2), ..., -1`. -/
def Spec.fftfreq (n : Nat) : List Int := (List.range ((n + 1) / 2)).map (fun (i : Nat) => (i : Int)) ++ (List.range (n / 2)).map fun (i : Nat) => (i : Int) - (n / 2 : Nat)
/-- The numerators of `numpy.fft.rfftfreq(n)`: `0, 1, ..., n/2`. -/
def Spec.rfftfreq (n : Nat) : List Int := (List.range (n / 2 + 1)).map fun (i : Nat) => (i : Int)

/-- **C131, `fftfreq`** distributed over any number of processes: the parts together are the frequencies of numpy. -/
theorem fftfreq_spec (P n : Nat) (hP : 0 < P) : content P (freqSplit P n false) = Spec.fftfreq n := by
  have hc : content P (freqSplit P n false) = (List.range n).map fun g : Nat => if middleChannel n ≤ g then (g : Int) - n else g := by
    rw [← content_chunks n P hP]
    unfold freqSplit freqPart
    apply content_congr
    intro r _
    have := chunkRange_size
    simp [chunkRange_size]
  rw [hc]
  unfold Spec.fftfreq
  have hm : middleChannel n = (n + 1) / 2 := by unfold middleChannel; split <;> omega
  apply List.ext_getElem?
  intro i
  rw [List.getElem?_map]
  by_cases hi : i < n
  · rw [List.getElem?_range hi]
    by_cases h2 : i < (n + 1) / 2
    · rw [List.getElem?_append_left (by simpa using h2), List.getElem?_map, List.getElem?_range h2]
      simp only [Option.map_some]
      rw [if_neg (by omega)]
    · rw [List.getElem?_append_right (by simp; omega), List.getElem?_map, List.length_map, List.length_range, List.getElem?_range (by omega)]
      simp only [Option.map_some]
      rw [if_pos (by omega)]
      congr 1
      omega
  · rw [List.getElem?_eq_none (by simpa using hi), List.getElem?_eq_none (by simp; omega)]
    rfl

/-- **C131, `rfftfreq`** distributed: right for odd `n`. -/
theorem rfftfreq_partial (P n : Nat) (hP : 0 < P) (hn : n % 2 = 1) : content P (freqSplit P n true) = Spec.rfftfreq n := by
  have hc : content P (freqSplit P n true) = (List.range (middleChannel n)).map fun g : Nat => (g : Int) := by
    rw [← content_chunks (middleChannel n) P hP]
    unfold freqSplit freqPart
    apply content_congr
    intro r _
    have := chunkRange_size
    simp [chunkRange_size]
  rw [hc]
  unfold Spec.rfftfreq middleChannel
  rw [if_neg (by omega)]

/-- **C131, violated by `rfftfreq` with `split=0` and even `n`**: the last frequency is missing, on every number of processes. -/
theorem rfftfreq_violated (P n : Nat) (hP : 0 < P) (hn : n % 2 = 0) : Spec.rfftfreq n = content P (freqSplit P n true) ++ [((n / 2 : Nat) : Int)] := by
  have hc : content P (freqSplit P n true) = (List.range (middleChannel n)).map fun g : Nat => (g : Int) := by
    rw [← content_chunks (middleChannel n) P hP]
    unfold freqSplit freqPart
    apply content_congr
    intro r _
    have := chunkRange_size
    simp [chunkRange_size]
  rw [hc]
  unfold Spec.rfftfreq middleChannel
  rw [if_pos hn, List.range_succ, List.map_append]
  rfl

/-- Other splits are refused. -/
theorem fftfreq_split (s : Option Int) : (∃ b, freqCheck s = .ok b) ↔ s = none ∨ s = some 0 := by
  unfold freqCheck
  cases s with
  | none => simp
  | some v =>
    dsimp only
    by_cases h : v = 0
    · rw [if_pos h]; simp [h]
    · rw [if_neg h]; simp [h]

example : content 3 (freqSplit 3 5 false) = [0, 1, 2, -2, -1] := by decide +kernel
example : content 2 (freqSplit 2 4 true) = [0, 1] ∧ Spec.rfftfreq 4 = [0, 1, 2] := by decide +kernel

/-! ### Concrete cases -/

/-- Non-vacuity of `ifftn_fftn` and `fftn_spec`: a column of two rows, on two processes by rows, real numbers. -/
def exTwo (c : Bool) : FD ℚ := ⟨⟨[2, 2], some 0, fun r => ⟨2, fun k => if k = 0 then 1 else 2, fun idx => (r : ℚ) * 2 + idx 1⟩, some true⟩, fun _ => c⟩

def exTwoG : NArr ℚ := ⟨2, fun _ => 2, fun idx => (idx 0 : ℚ) * 2 + idx 1⟩

theorem exTwo_rep (c : Bool) : Rep 2 (exTwo c).x exTwoG := by
  refine ⟨?_, rfl, ?_, fun _ _ => rfl, by decide, by rfl, ?_⟩
  · intro i j h
    show (i 0 : ℚ) * 2 + i 1 = (j 0 : ℚ) * 2 + j 1
    rw [h 0 (by decide), h 1 (by decide)]
  · intro k hk
    have hk : k < 2 := hk
    interval_cases k <;> rfl
  · intro r hr
    refine ⟨?_, ?_⟩
    · intro k hk h0
      show (if k = 0 then _ else 2) = 2
      rw [if_neg h0]
    · intro idx hi
      have h0 : idx 0 < 1 := hi 0 (show 0 < 2 by decide)
      show (r : ℚ) * 2 + idx 1 = ((shift 0 _ idx 0 : Nat) : ℚ) * 2 + ((shift 0 _ idx 1 : Nat) : ℚ)
      unfold shift
      rw [if_pos rfl, if_neg (by decide)]
      interval_cases r
      · simp [axisStart]; omega
      · have : idx 0 = 0 := by omega
        simp [axisStart, exTwo, this]

theorem exTwo_pos : Pos exTwoG := fun k _ => by show 0 < 2; decide

example : ∃ Y Z, fftnOp 2 (torchFftn fun _ => (-1 : ℚ)) (exTwo false) none none = .ok Y ∧ fftnOp 2 (torchIfftn fun _ => (-1 : ℚ)) Y none none = .ok Z ∧ Rep 2 Z.x exTwoG ∧ Z.x.split = some 0 :=
  ifftn_fftn (by decide) _ (exTwo_rep false) exTwo_pos (fun _ _ => rfl) (ax := [(0, 2), (1, 2)]) (by decide +kernel) (fun _ _ => IsPrimitiveRoot.neg_one 0 (by norm_num)) (fun _ _ => by show ((2 : Nat) : ℚ) ≠ 0; norm_num)

/-- Non-vacuity of `fftshift_partial`. -/
example : ∃ Y, fftnOp 2 (torchFftshift (K := ℚ)) (exTwo false) none none = .ok Y := by
  obtain ⟨⟨Y, e, -⟩, -⟩ := fftshift_partial (K := ℚ) (by decide) (exTwo_rep false) exTwo_pos (fun _ _ => rfl) (axes := none) (ax := [(0, 2), (1, 2)]) (by decide +kernel) (by simp)
    (fun a n _ _ hs _ => ⟨.inr (.inl (by show 2 ≤ 2; decide)), (1, 2), by simp, by
      have : a = 0 := (Option.some.inj hs).symm
      subst this
      decide⟩)
  exact ⟨Y, e⟩

/-- Non-vacuity of `fftshift_axis_violated`. -/
example : fftnOp 2 (torchFftshift (K := ℚ)) (exTwo false) none (some [0]) = .error .runtimeError :=
  fftshift_axis_violated (by decide) _ (opKernel_reads fun _ n hN => ⟨fshift_kernel hN n, fshift_kernel hN n⟩) rfl rfl (exTwo_rep false) exTwo_pos (c := false) (fun _ _ => rfl) (by decide) (a := 0) (n := 2) (by decide +kernel) (by decide) rfl
    (.inr (.inl (by show 2 ≤ 2; decide)))

/-- Non-vacuity of `fftn_few_lines_violated`: a column of three real numbers. -/
example : fftnOp 2 (torchFftshift (K := ℚ)) (exFft false) none none = .error .runtimeError :=
  fftn_few_lines_violated _ (opKernel_reads fun _ n hN => ⟨fshift_kernel hN n, fshift_kernel hN n⟩) (exFft_rep false) exFft_pos (c := false) (fun _ _ => rfl) (by decide) (by decide) (ax := [(0, 3), (1, 1)]) (by decide +kernel) (a := 0) (n := 3) (by simp) (by decide) rfl
    (by show 1 < 2; decide) (by show 1 < 3; decide)

/-- Non-vacuity of `rfftn_partial`: the split axis is the last one; and of `rfftn_split_violated`: it is not. -/
example : ∃ Y, fftnOp 2 (torchRfftn fun _ => (-1 : ℚ)) (exTwo false) none (some [1, 0]) = .ok Y := by
  obtain ⟨Y, e, -⟩ := rfftn_partial (by decide) (fun _ => (-1 : ℚ)) (exTwo_rep false) exTwo_pos (c := false) (fun _ _ => rfl) (s := none) (axes := some [1, 0]) (init := [(1, 2)]) (b := 0) (m := 2) (by decide +kernel) (by decide)
    (fun _ _ p hp => by rw [List.mem_singleton] at hp; subst hp; decide)
  exact ⟨Y, e⟩

example : ∃ Y H, fftnOp 2 (torchRfftn fun _ => (-1 : ℚ)) (exTwo false) (some [2, 4]) none = .ok Y ∧ Rep 2 Y.x H ∧ H.dim 0 = 2 / 2 + 1 ∧ H.dim 1 = 4 :=
  rfftn_split_violated (by decide) (torchRfftn fun _ => (-1 : ℚ)) (opKernel_reads fun N n _ => ⟨dft_kernel (fun _ => (-1 : ℚ)) N n, dft_kernel (fun _ => (-1 : ℚ)) N n⟩) rfl (exTwo_rep false) exTwo_pos (c := false) (fun _ _ => rfl) (by decide) (init := [(0, 2)]) (b := 1) (m := 4) (by decide +kernel)
    (by decide) rfl (by simp) (.inl rfl)

/-- A complex-to-real transform of length 1 reads one entry: the inverse transform of a constant. -/
def exIrfft : FftnOp ℚ := ⟨Spec.idft fun _ => 1, fun _ _ v _ => v 0, false, false, true, fun _ => false, false⟩

/-- The array of `exTwo` with another second row. -/
def exOther : FD ℚ := ⟨⟨[2, 2], some 0, fun r => ⟨2, fun k => if k = 0 then 1 else 2, fun idx => (r : ℚ) * 7 + idx 1⟩, some true⟩, fun _ => true⟩

/-- Non-vacuity of `irfftn_split_violated`: with length 1 along the split axis the second row is ignored, which the inverse transform of length 1 along the first axis does as well; the arrays here differ in the second row only. -/
example : ∃ Y Y' H, fftnOp 2 exIrfft (exTwo true) (some [1, 2]) none = .ok Y ∧ fftnOp 2 exIrfft exOther (some [1, 2]) none = .ok Y' ∧ Rep 2 Y.x H ∧ Rep 2 Y'.x H := by
  have hrep : Rep 2 exOther.x ⟨2, fun _ => 2, fun idx => (idx 0 : ℚ) * 7 + idx 1⟩ := by
    refine ⟨?_, rfl, ?_, fun _ _ => rfl, by decide, by rfl, ?_⟩
    · intro i j h
      show (i 0 : ℚ) * 7 + i 1 = (j 0 : ℚ) * 7 + j 1
      rw [h 0 (by decide), h 1 (by decide)]
    · intro k hk
      have hk : k < 2 := hk
      interval_cases k <;> rfl
    · intro r hr
      refine ⟨?_, ?_⟩
      · intro k hk h0
        show (if k = 0 then _ else 2) = 2
        rw [if_neg h0]
      · intro idx hi
        have h0 : idx 0 < 1 := hi 0 (show 0 < 2 by decide)
        show (r : ℚ) * 7 + idx 1 = ((shift 0 _ idx 0 : Nat) : ℚ) * 7 + ((shift 0 _ idx 1 : Nat) : ℚ)
        unfold shift
        rw [if_pos rfl, if_neg (by decide)]
        interval_cases r
        · simp [axisStart]; omega
        · have : idx 0 = 0 := by omega
          simp [axisStart, exOther, this]
  refine irfftn_split_violated (by decide) exIrfft ?_ rfl (exTwo_rep true) hrep exTwo_pos (c := true) (fun _ _ => rfl) (fun _ _ => rfl) (by decide) (s := some [1, 2]) (axes := none) (ax := [(0, 1), (1, 2)]) (by decide +kernel) (by decide +kernel) (by decide) (a := 0) (n := 1) rfl rfl
    (by simp) (.inl rfl) (fun _ => ⟨(1, 2), by simp, by decide⟩) ?_ rfl (fun _ _ => rfl) ?_
  · intro N n hN
    refine ⟨idft_reads (fun _ => (1 : ℚ)) N n, ?_⟩
    intro v w h _
    exact h 0 hN
  · intro v w h _
    exact h 0 (by decide)
  · intro idx _ h0
    have : idx 0 = 0 := by omega
    show (idx 0 : ℚ) * 7 + idx 1 = (idx 0 : ℚ) * 2 + idx 1
    rw [this]
    simp

end Heat
