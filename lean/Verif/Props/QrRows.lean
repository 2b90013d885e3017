import Verif.Model.QrRows
import Verif.Props.QrCols
import Verif.Props.Unique
import Mathlib.Tactic.IntervalCases
/-!
# QR decomposition of a matrix split along the rows that is not tall (C124)
-/
namespace Heat
open Spec Finset
variable {K : Type} [CommRing K]

/-! ## The blocks of columns -/

theorem filter_range_prefix (f : Nat → Nat) (N P : Nat) (hf : ∀ r s, r ≤ s → f r ≤ f s) :
    ∃ n ≤ P, ((List.range P).map f).filter (fun x => decide (x < N)) = (List.range n).map f ∧ (∀ r < n, f r < N) ∧ (∀ r, n ≤ r → r < P → N ≤ f r) := by
  induction P with
  | zero => exact ⟨0, by omega, by simp, by omega, by omega⟩
  | succ P ih =>
    obtain ⟨n, hn, e, h1, h2⟩ := ih
    rw [List.range_succ, List.map_append, List.filter_append, e]
    by_cases h : f P < N
    · have : n = P := by
        by_contra hc
        have := h2 n (Nat.le_refl _) (by omega)
        have := hf n P hn
        omega
      subst this
      refine ⟨n + 1, by omega, ?_, fun r hr => ?_, by omega⟩
      · rw [List.range_succ, List.map_append]
        simp [h]
      · have := hf r n (by omega)
        omega
    · refine ⟨n, by omega, by simp [h], h1, fun r hr hr' => ?_⟩
      rcases Nat.lt_or_ge r P with h3 | h3
      · exact h2 r hr h3
      · have : r = P := by omega
        subst this
        omega

/-- The blocks begin at the first rows of the processes; the last one ends at `N`. -/
theorem bgCuts_eq (N P : Nat) (l : Nat → Nat) : ∃ n ≤ P, (bgCuts N P l).length = n + 2 ∧ (∀ k ≤ n, (bgCuts N P l).getD k 0 = colOff l k) ∧
    (bgCuts N P l).getD (n + 1) 0 = N ∧ (∀ k, 0 < k → k ≤ n → colOff l k < N) ∧ (n < P → N ≤ colOff l (n + 1)) := by
  obtain ⟨n, hn, e, h1, h2⟩ := filter_range_prefix (fun r => colOff l (r + 1)) N P (fun r s h => colOff_mono l (by omega))
  refine ⟨n, hn, ?_, ?_, ?_, ?_, ?_⟩
  · unfold bgCuts
    rw [e]
    simp
  · intro k hk
    unfold bgCuts
    rw [e]
    rcases Nat.eq_zero_or_pos k with h | h
    · subst h
      simp [colOff]
    · obtain ⟨k', rfl⟩ : ∃ k', k = k' + 1 := ⟨k - 1, by omega⟩
      rw [List.getD_cons_succ, List.getD_eq_getElem?_getD, List.getElem?_append_left (by simp; omega)]
      simp [show k' < n by omega]
  · unfold bgCuts
    rw [e, List.getD_cons_succ, List.getD_eq_getElem?_getD, List.getElem?_append_right (by simp)]
    simp
  · intro k h0 hk
    have := h1 (k - 1) (by omega)
    simpa [show k - 1 + 1 = k by omega] using this
  · intro h
    exact h2 n (Nat.le_refl _) h

variable [StarRing K]

/-- The inner product of two distributed columns. -/
def bgIp (P : Nat) (l : Nat → Nat) (u v : Nat → Nat → K) : K := ∑ r ∈ range P, ∑ i ∈ range (l r), star (u r i) * v r i

theorem bgIp_congr {P : Nat} {l : Nat → Nat} {u u' v v' : Nat → Nat → K} (hu : ∀ r < P, ∀ i < l r, u r i = u' r i) (hv : ∀ r < P, ∀ i < l r, v r i = v' r i) : bgIp P l u v = bgIp P l u' v' := by
  unfold bgIp
  refine sum_congr rfl fun r hr => sum_congr rfl fun i hi => ?_
  rw [hu r (mem_range.1 hr) i (mem_range.1 hi), hv r (mem_range.1 hr) i (mem_range.1 hi)]

theorem bgIp_star {P : Nat} {l : Nat → Nat} (u v : Nat → Nat → K) : star (bgIp P l u v) = bgIp P l v u := by
  unfold bgIp
  rw [star_sum]
  refine sum_congr rfl fun r _ => ?_
  rw [star_sum]
  refine sum_congr rfl fun i _ => ?_
  rw [star_mul, star_star]

theorem bgIp_sub {P : Nat} {l : Nat → Nat} (u v w : Nat → Nat → K) : bgIp P l u (fun r i => v r i - w r i) = bgIp P l u v - bgIp P l u w := by
  unfold bgIp
  rw [← sum_sub_distrib]
  refine sum_congr rfl fun r _ => ?_
  rw [← sum_sub_distrib]
  exact sum_congr rfl fun i _ => mul_sub _ _ _

theorem bgIp_sum {P n : Nat} {l : Nat → Nat} (u : Nat → Nat → K) (q : Nat → Nat → Nat → K) (c : Nat → K) : bgIp P l u (fun r i => ∑ t ∈ range n, q r i t * c t) = ∑ t ∈ range n, bgIp P l u (fun r i => q r i t) * c t := by
  unfold bgIp
  simp only [sum_mul, mul_sum]
  have : ∀ r ∈ range P, ∑ i ∈ range (l r), ∑ t ∈ range n, star (u r i) * (q r i t * c t) = ∑ t ∈ range n, ∑ i ∈ range (l r), star (u r i) * q r i t * c t := by
    intro r _
    rw [sum_comm]
    exact sum_congr rfl fun t _ => sum_congr rfl fun i _ => by ring
  rw [sum_congr rfl this, sum_comm]

omit [StarRing K] in
theorem cols_at {A : DMat K} {a b i : Nat} (hi : i < A.rows.length) (j : Nat) : (A.cols a b).at i j = A.at i (a + j) := by
  unfold DMat.cols DMat.at
  simp [List.getD_eq_getElem?_getD, hi]

omit [StarRing K] in
theorem hcat_at {A B : DMat K} {i : Nat} (hA : i < A.rows.length) (hB : i < B.rows.length) (j : Nat) : (A.hcat B).at i j = if j < A.width then A.at i j else B.at i (j - A.width) := by
  unfold DMat.hcat DMat.at
  simp [List.getD_eq_getElem?_getD, hA, hB]

omit [StarRing K] in
theorem map_range_at {w n i : Nat} (f : Nat → Nat → K) (hi : i < n) (j : Nat) : (⟨w, (List.range n).map f⟩ : DMat K).at i j = f i j := by
  unfold DMat.at
  simp [List.getD_eq_getElem?_getD, hi]

theorem bgNewA_at {P b : Nat} {upd : Bool} {A Qn : Nat → DMat K} {w r i : Nat} (hi : i < (A r).rows.length) (j : Nat) :
    (bgNewA P b upd A Qn w r).at i j = if upd ∧ b ≤ j then (A r).at i j - ∑ t ∈ range w, (Qn r).at i t * bgCoeffs P A Qn t j else (A r).at i j := by
  unfold bgNewA
  rw [map_range_at _ hi]

theorem bgNewR_at {P k a b : Nat} {upd : Bool} {A Qn : Nat → DMat K} {Rn R : DMat K} {r i : Nat} (hi : i < R.rows.length) (j : Nat) :
    (bgNewR P k a b upd A Qn Rn R r).at i j = if r = k then
      if upd ∧ b ≤ j then bgCoeffs P A Qn i j
      else if a ≤ j ∧ j < b ∧ i < b - a then Rn.at i (j - a) else R.at i j
    else if k < r ∧ a ≤ j ∧ j < b then 0 else R.at i j := by
  unfold bgNewR
  rw [map_range_at _ hi]

/-- The state after `k` blocks, which have `o` columns; `ρ` are the rows of `R` that are final. -/
structure BgInv (N P : Nat) (l : Nat → Nat) (A : Nat → DMat K) (o k : Nat) (st : BgState K) (ρ : Nat → Nat → K) : Prop where
  aw : ∀ r < P, (st.A r).width = N ∧ (st.A r).rows.length = l r
  rw : ∀ r < P, (st.R r).width = N ∧ (st.R r).rows.length = l r
  qw : 0 < k → ∀ r < P, (st.Q r).width = o ∧ (st.Q r).rows.length = l r
  arem : ∀ r < P, ∀ i < l r, ∀ j, o ≤ j → j < N → (st.A r).at i j = (A r).at i j - ∑ t ∈ range o, (st.Q r).at i t * ρ t j
  done : ∀ r < P, ∀ i < l r, ∀ j < o, ∑ t ∈ range o, (st.Q r).at i t * ρ t j = (A r).at i j
  rrow : ∀ r < P, ∀ i < l r, colOff l r + i < o → ∀ j < N, (st.R r).at i j = ρ (colOff l r + i) j
  rzero : ∀ r < P, k ≤ r → ∀ i < l r, ∀ j < o, (st.R r).at i j = 0
  tri : ∀ t < o, ∀ j < t, ρ t j = 0
  orth : (∀ j < o, ρ j j ≠ 0) →
    (∀ a < o, ∀ b < o, bgIp P l (fun r i => (st.Q r).at i a) (fun r i => (st.Q r).at i b) = if a = b then 1 else 0) ∧
    (∀ a < o, ∀ j, o ≤ j → j < N → bgIp P l (fun r i => (st.Q r).at i a) (fun r i => (st.A r).at i j) = 0)

theorem bgStep_inv [NoZeroDivisors K] (qr : DMat K → DMat K × DMat K) {N m P k a b : Nat} {cuts : List Nat} {l : Nat → Nat} (hm : 2 ≤ m) (A : Nat → DMat K)
    (hq : ∀ n, ∀ B : DMat K, B.width = n → QrOk n B (qr B).1 (qr B).2) (hk : k < P) (ha : cuts.getD k 0 = a) (hb : cuts.getD (k + 1) 0 = b) (hao : a = colOff l k)
    (hab : a ≤ b) (hbl : b ≤ a + l k) (hbN : b ≤ N) (hu : k + 2 < cuts.length → b = a + l k) (hnu : ¬ k + 2 < cuts.length → b = N) (hhalf : ∀ r < P, l k ≤ 2 * l r)
    (st : BgState K) (ρ : Nat → Nat → K) (inv : BgInv N P l A a k st ρ) :
    ∃ st' ρ', bgStep qr m P cuts k st = some st' ∧ BgInv N P l A b (k + 1) st' ρ' := by
  obtain ⟨w, hw⟩ : ∃ w, b = a + w := ⟨b - a, by omega⟩
  have hwb : b - a = w := by omega
  have hwl : w ≤ l k := by omega
  have hBl : ∀ r < P, ((st.A r).cols a b).rows.length = l r := by
    intro r hr
    rw [← (inv.aw r hr).2]
    simp [DMat.cols]
  obtain ⟨Qn, Rn, eT, hRl, -, hRt, hQs, hprod, horth⟩ := tsqr_partial qr (n := w) (m := m) (P := P) (by omega) hm (fun r => (st.A r).cols a b) (hq w)
    (fun r hr => hwb) (fun r hr => by rw [hBl r hr]; have := hhalf r hr; omega) ⟨k, hk, by rw [hBl k hk]; omega⟩
  have hQs' : ∀ r < P, (Qn r).rows.length = l r ∧ (Qn r).width = w := fun r hr => ⟨by rw [(hQs r hr).1, hBl r hr], (hQs r hr).2⟩
  have hprod' : ∀ r < P, ∀ i < l r, ∀ j < w, ∑ t ∈ range w, (Qn r).at i t * Rn.at t j = (st.A r).at i (a + j) := by
    intro r hr i hi j hj
    rw [hprod r hr i (by rw [hBl r hr]; exact hi) j hj, cols_at (by rw [(inv.aw r hr).2]; exact hi)]
  have horth' : ∀ x < w, ∀ y < w, bgIp P l (fun r i => (Qn r).at i x) (fun r i => (Qn r).at i y) = if x = y then 1 else 0 := by
    intro x hx y hy
    rw [← horth x hx y hy]
    unfold bgIp
    refine sum_congr rfl fun r hr => ?_
    rw [hBl r (mem_range.1 hr)]
  have hco : ∀ t j, bgCoeffs P st.A Qn t j = bgIp P l (fun r i => (Qn r).at i t) (fun r i => (st.A r).at i j) := by
    intro t j
    unfold bgCoeffs bgIp
    refine sum_congr rfl fun r hr => ?_
    rw [(inv.aw r (mem_range.1 hr)).2]
  obtain ⟨upd, hupd⟩ : ∃ upd, upd = decide (k + 2 < cuts.length) := ⟨_, rfl⟩
  have hut : ∀ j, b ≤ j → j < N → upd = true := by
    intro j h1 h2
    rw [hupd, decide_eq_true_iff]
    by_contra hc
    have := hnu hc
    omega
  obtain ⟨st', hst'⟩ : ∃ st' : BgState K, st' = ⟨bgNewA P b upd st.A Qn w, fun r => bgNewR P k a b upd st.A Qn Rn (st.R r) r, fun r => if k = 0 then Qn r else (st.Q r).hcat (Qn r)⟩ := ⟨_, rfl⟩
  have hA' : ∀ r < P, ∀ i < l r, ∀ j, b ≤ j → j < N → (st'.A r).at i j = (st.A r).at i j - ∑ t ∈ range w, (Qn r).at i t * bgCoeffs P st.A Qn t j := by
    intro r hr i hi j h1 h2
    rw [hst']
    dsimp only
    rw [bgNewA_at (by rw [(inv.aw r hr).2]; exact hi), if_pos ⟨hut j h1 h2, h1⟩]
  have hQ' : ∀ r < P, ∀ i < l r, ∀ t, (st'.Q r).at i t = if t < a then (st.Q r).at i t else (Qn r).at i (t - a) := by
    intro r hr i hi t
    rw [hst']
    dsimp only
    rcases Nat.eq_zero_or_pos k with h | h
    · subst h
      have ha0 : a = 0 := by rw [hao]; simp [colOff]
      rw [if_pos rfl, ha0]
      simp
    · rw [if_neg (by omega), hcat_at (by rw [(inv.qw h r hr).2]; exact hi) (by rw [(hQs' r hr).1]; exact hi), (inv.qw h r hr).1]
  have hQl : ∀ r < P, ∀ i < l r, ∀ t < a, (st'.Q r).at i t = (st.Q r).at i t := by
    intro r hr i hi t ht
    rw [hQ' r hr i hi, if_pos ht]
  have hQh : ∀ r < P, ∀ i < l r, ∀ s, (st'.Q r).at i (a + s) = (Qn r).at i s := by
    intro r hr i hi s
    rw [hQ' r hr i hi, if_neg (by omega), Nat.add_sub_cancel_left]
  obtain ⟨ρ', hρ⟩ : ∃ ρ' : Nat → Nat → K, ρ' = fun t j => if t < a then ρ t j else if j < a then 0 else if j < b then Rn.at (t - a) (j - a) else bgCoeffs P st.A Qn (t - a) j := ⟨_, rfl⟩
  have r1 : ∀ t < a, ∀ j, ρ' t j = ρ t j := by
    intro t ht j
    rw [hρ]
    dsimp only
    rw [if_pos ht]
  have r2 : ∀ s, ∀ j < a, ρ' (a + s) j = 0 := by
    intro s j hj
    rw [hρ]
    dsimp only
    rw [if_neg (by omega), if_pos hj]
  have r3 : ∀ s, ∀ j < w, ρ' (a + s) (a + j) = Rn.at s j := by
    intro s j hj
    rw [hρ]
    dsimp only
    rw [if_neg (by omega), if_neg (by omega), if_pos (by omega), Nat.add_sub_cancel_left, Nat.add_sub_cancel_left]
  have r4 : ∀ s j, b ≤ j → ρ' (a + s) j = bgCoeffs P st.A Qn s j := by
    intro s j hj
    rw [hρ]
    dsimp only
    rw [if_neg (by omega), if_neg (by omega), if_neg (by omega), Nat.add_sub_cancel_left]
  have hsplit : ∀ r < P, ∀ i < l r, ∀ j, ∑ t ∈ range b, (st'.Q r).at i t * ρ' t j = ∑ t ∈ range a, (st.Q r).at i t * ρ t j + ∑ s ∈ range w, (Qn r).at i s * ρ' (a + s) j := by
    intro r hr i hi j
    rw [hw, sum_range_add]
    congr 1
    · refine sum_congr rfl fun t ht => ?_
      rw [hQl r hr i hi t (mem_range.1 ht), r1 t (mem_range.1 ht)]
    · refine sum_congr rfl fun s _ => ?_
      rw [hQh r hr i hi]
  refine ⟨st', ρ', ?_, ?_⟩
  · unfold bgStep
    dsimp only
    rw [ha, hb, hwb, ← hupd, if_pos, eT, Option.map_some, hst']
    refine ⟨⟨k, hk, by rw [(inv.aw k hk).2]; exact hwl⟩, fun h _ => ?_⟩
    rw [(inv.rw k hk).2]
    rw [hupd, decide_eq_true_iff] at h
    have := hu h
    omega
  · constructor
    · intro r hr
      rw [hst', ← (inv.aw r hr).2]
      exact ⟨(inv.aw r hr).1, by simp [bgNewA]⟩
    · intro r hr
      rw [hst', ← (inv.rw r hr).2]
      exact ⟨(inv.rw r hr).1, by simp [bgNewR]⟩
    · intro _ r hr
      rw [hst']
      dsimp only
      rcases Nat.eq_zero_or_pos k with h | h
      · subst h
        have ha0 : a = 0 := by rw [hao]; simp [colOff]
        rw [if_pos rfl]
        exact ⟨by rw [(hQs' r hr).2]; omega, (hQs' r hr).1⟩
      · rw [if_neg (by omega)]
        constructor
        · show (st.Q r).width + (Qn r).width = b
          rw [(inv.qw h r hr).1, (hQs' r hr).2, hw]
        · unfold DMat.hcat
          simp [(inv.qw h r hr).2, (hQs' r hr).1]
    · intro r hr i hi j h1 h2
      rw [hA' r hr i hi j h1 h2, hsplit r hr i hi j, inv.arem r hr i hi j (by omega) h2]
      have : ∑ s ∈ range w, (Qn r).at i s * ρ' (a + s) j = ∑ t ∈ range w, (Qn r).at i t * bgCoeffs P st.A Qn t j :=
        sum_congr rfl fun s _ => by rw [r4 s j h1]
      rw [this]
      ring
    · intro r hr i hi j hj
      rw [hsplit r hr i hi j]
      rcases Nat.lt_or_ge j a with h | h
      · rw [inv.done r hr i hi j h]
        have : ∑ s ∈ range w, (Qn r).at i s * ρ' (a + s) j = 0 := sum_eq_zero fun s _ => by rw [r2 s j h, mul_zero]
        rw [this, add_zero]
      · obtain ⟨j', rfl⟩ : ∃ j', j = a + j' := ⟨j - a, by omega⟩
        have : ∑ s ∈ range w, (Qn r).at i s * ρ' (a + s) (a + j') = (st.A r).at i (a + j') := by
          rw [← hprod' r hr i hi j' (by omega)]
          exact sum_congr rfl fun s _ => by rw [r3 s j' (by omega)]
        rw [this, inv.arem r hr i hi (a + j') h (by omega)]
        ring
    · intro r hr i hi hrow j hj
      rw [hst']
      dsimp only
      rw [bgNewR_at (by rw [(inv.rw r hr).2]; exact hi)]
      rcases Nat.lt_trichotomy r k with h | h | h
      · have h0 := colOff_mono l (show r + 1 ≤ k by omega)
        rw [colOff_succ] at h0
        rw [if_neg (by omega), if_neg (by omega), r1 _ (by omega), inv.rrow r hr i hi (by omega) j hj]
      · subst h
        rw [if_pos rfl, ← hao]
        rcases Nat.lt_or_ge j a with h1 | h1
        · rw [if_neg (by omega), if_neg (by omega), r2 i j h1, inv.rzero r hr (Nat.le_refl _) i hi j h1]
        · rcases Nat.lt_or_ge j b with h2 | h2
          · rw [if_neg (by omega), if_pos ⟨h1, h2, by omega⟩]
            obtain ⟨j', rfl⟩ : ∃ j', j = a + j' := ⟨j - a, by omega⟩
            rw [r3 i j' (by omega), Nat.add_sub_cancel_left]
          · rw [if_pos ⟨hut j h2 hj, h2⟩, r4 i j h2]
      · exfalso
        have h0 := colOff_mono l (show k + 1 ≤ r by omega)
        rw [colOff_succ] at h0
        omega
    · intro r hr hkr i hi j hj
      rw [hst']
      dsimp only
      rw [bgNewR_at (by rw [(inv.rw r hr).2]; exact hi), if_neg (by omega)]
      rcases Nat.lt_or_ge j a with h1 | h1
      · rw [if_neg (by omega), inv.rzero r hr (by omega) i hi j h1]
      · rw [if_pos ⟨by omega, h1, hj⟩]
    · intro t ht j hj
      rcases Nat.lt_or_ge t a with h | h
      · rw [r1 t h, inv.tri t h j hj]
      · obtain ⟨s, rfl⟩ : ∃ s, t = a + s := ⟨t - a, by omega⟩
        rcases Nat.lt_or_ge j a with h1 | h1
        · exact r2 s j h1
        · obtain ⟨j', rfl⟩ : ∃ j', j = a + j' := ⟨j - a, by omega⟩
          rw [r3 s j' (by omega)]
          exact hRt s (by omega) j' (by omega) (by omega)
    · intro hd
      obtain ⟨o1, o2⟩ := inv.orth (fun j hj => by rw [← r1 j hj]; exact hd j (by omega))
      have hdn : ∀ j < w, Rn.at j j ≠ 0 := fun j hj => by rw [← r3 j j hj]; exact hd (a + j) (by omega)
      have cross : ∀ x < a, ∀ s < w, bgIp P l (fun r i => (st.Q r).at i x) (fun r i => (Qn r).at i s) = 0 := by
        intro x hx
        refine tri_cancel w (fun s => bgIp P l (fun r i => (st.Q r).at i x) (fun r i => (Qn r).at i s)) (fun t j => Rn.at t j) hRt hdn ?_
        intro j hj
        rw [← bgIp_sum, ← o2 x hx (a + j) (by omega) (by omega)]
        exact bgIp_congr (fun _ _ _ _ => rfl) (fun r hr i hi => hprod' r hr i hi j hj)
      constructor
      · intro x hx y hy
        rcases Nat.lt_or_ge x a with h1 | h1
        · rcases Nat.lt_or_ge y a with h2 | h2
          · rw [← o1 x h1 y h2]
            exact bgIp_congr (fun r hr i hi => hQl r hr i hi x h1) (fun r hr i hi => hQl r hr i hi y h2)
          · obtain ⟨y', rfl⟩ : ∃ y', y = a + y' := ⟨y - a, by omega⟩
            rw [if_neg (by omega), ← cross x h1 y' (by omega)]
            exact bgIp_congr (fun r hr i hi => hQl r hr i hi x h1) (fun r hr i hi => hQh r hr i hi y')
        · obtain ⟨x', rfl⟩ : ∃ x', x = a + x' := ⟨x - a, by omega⟩
          rcases Nat.lt_or_ge y a with h2 | h2
          · rw [if_neg (by omega), ← star_zero, ← cross y h2 x' (by omega), bgIp_star]
            exact bgIp_congr (fun r hr i hi => hQh r hr i hi x') (fun r hr i hi => hQl r hr i hi y h2)
          · obtain ⟨y', rfl⟩ : ∃ y', y = a + y' := ⟨y - a, by omega⟩
            have := horth' x' (by omega) y' (by omega)
            have e : (if a + x' = a + y' then (1 : K) else 0) = if x' = y' then 1 else 0 := by simp
            rw [e, ← this]
            exact bgIp_congr (fun r hr i hi => hQh r hr i hi x') (fun r hr i hi => hQh r hr i hi y')
      · intro x hx j h1 h2
        rw [bgIp_congr (v := fun r i => (st'.A r).at i j) (v' := fun r i => (st.A r).at i j - ∑ t ∈ range w, (Qn r).at i t * bgCoeffs P st.A Qn t j) (fun _ _ _ _ => rfl) (fun r hr i hi => hA' r hr i hi j h1 h2), bgIp_sub,
          bgIp_sum (q := fun r i t => (Qn r).at i t)]
        rcases Nat.lt_or_ge x a with h3 | h3
        · rw [bgIp_congr (u := fun r i => (st'.Q r).at i x) (fun r hr i hi => hQl r hr i hi x h3) (fun _ _ _ _ => rfl), o2 x h3 j (by omega) h2]
          rw [zero_sub, neg_eq_zero]
          refine sum_eq_zero fun t ht => ?_
          rw [bgIp_congr (u := fun r i => (st'.Q r).at i x) (fun r hr i hi => hQl r hr i hi x h3) (fun _ _ _ _ => rfl), cross x h3 t (mem_range.1 ht), zero_mul]
        · obtain ⟨x', rfl⟩ : ∃ x', x = a + x' := ⟨x - a, by omega⟩
          rw [bgIp_congr (u := fun r i => (st'.Q r).at i (a + x')) (fun r hr i hi => hQh r hr i hi x') (fun _ _ _ _ => rfl), ← hco]
          have : ∀ t ∈ range w, bgIp P l (fun r i => (st'.Q r).at i (a + x')) (fun r i => (Qn r).at i t) * bgCoeffs P st.A Qn t j = if x' = t then bgCoeffs P st.A Qn t j else 0 := by
            intro t ht
            rw [bgIp_congr (u := fun r i => (st'.Q r).at i (a + x')) (fun r hr i hi => hQh r hr i hi x') (fun _ _ _ _ => rfl), horth' x' (by omega) t (mem_range.1 ht)]
            split <;> simp
          rw [sum_congr rfl this, sum_ite_eq, if_pos (mem_range.2 (by omega)), sub_self]

theorem bgLoop_inv [NoZeroDivisors K] (qr : DMat K → DMat K × DMat K) {N m P n : Nat} (hm : 2 ≤ m) (A : Nat → DMat K) (hq : ∀ n, ∀ B : DMat K, B.width = n → QrOk n B (qr B).1 (qr B).2) {l : Nat → Nat} (hl : ∀ r, (A r).rows.length = l r)
    (hw : ∀ r < P, (A r).width = N) (hhalf : ∀ r < P, ∀ s < P, l s ≤ 2 * l r) (hlen : (bgCuts N P l).length = n + 2) (hc : ∀ k ≤ n, (bgCuts N P l).getD k 0 = colOff l k)
    (hcl : (bgCuts N P l).getD (n + 1) 0 = N) (hlt : ∀ k, 0 < k → k ≤ n → colOff l k < N) (hend : n < P → N ≤ colOff l (n + 1)) :
    ∀ k ≤ P, k ≤ n + 1 → ∃ st ρ, bgLoop qr m P (bgCuts N P l) k ⟨A, A, A⟩ = some st ∧ BgInv N P l A ((bgCuts N P l).getD k 0) k st ρ := by
  intro k
  induction k with
  | zero =>
    intro _ _
    refine ⟨_, fun _ _ => 0, rfl, ?_⟩
    have h0 : (bgCuts N P l).getD 0 0 = 0 := by rw [hc 0 (by omega)]; simp [colOff]
    rw [h0]
    constructor
    · exact fun r hr => ⟨hw r hr, hl r⟩
    · exact fun r hr => ⟨hw r hr, hl r⟩
    · intro h; omega
    · intro r hr i hi j _ _
      simp
    · intro r hr i hi j hj; omega
    · intro r hr i hi h; omega
    · intro r hr _ i hi j hj; omega
    · intro t ht; omega
    · intro _
      exact ⟨fun a ha => by omega, fun a ha => by omega⟩
  | succ k ih =>
    intro hkP hkn
    obtain ⟨st, ρ, e, inv⟩ := ih (by omega) (by omega)
    have hs := colOff_succ l k
    have ha := hc k (by omega)
    have hle : colOff l k ≤ N := by
      rcases Nat.eq_zero_or_pos k with h | h
      · subst h
        simp [colOff]
      · have := hlt k h (by omega)
        omega
    have hb : (bgCuts N P l).getD (k + 1) 0 = if k < n then colOff l (k + 1) else N := by
      split
      · exact hc (k + 1) (by omega)
      · rw [show k = n by omega, hcl]
    rw [ha] at inv
    obtain ⟨st', ρ', e', inv'⟩ := bgStep_inv qr hm A hq (show k < P by omega) ha rfl rfl (by rw [hb]; split <;> omega) (by
        rw [hb]
        split
        · omega
        · have := hend (by omega)
          rw [show n = k by omega] at this
          omega) (by
        rw [hb]
        split
        · exact Nat.le_of_lt (hlt (k + 1) (by omega) (by omega))
        · omega) (by
        intro h
        rw [hb, if_pos (by omega), hs]) (by
        intro h
        rw [hb, if_neg (by omega)]) (fun r hr => hhalf r hr k (by omega)) st ρ inv
    refine ⟨st', ρ', ?_, inv'⟩
    rw [bgLoop, e]
    exact e'

omit [StarRing K] in
/-- The rows of all processes, one after the other. -/
theorem content_at {P N : Nat} {l : Nat → Nat} (R : Nat → DMat K) (hl : ∀ r < P, (R r).rows.length = l r) {r i : Nat} (hr : r < P) (hi : i < l r) (j : Nat) :
    (⟨N, content P (fun r => (R r).rows)⟩ : DMat K).at (colOff l r + i) j = (R r).at i j := by
  have e : startOf (fun r => (R r).rows) r = colOff l r := by
    rw [startOf_eq_sum]
    unfold colOff
    congr 1
    apply List.map_congr_left
    intro k hk
    exact hl k (by have := List.mem_range.1 hk; omega)
  unfold DMat.at
  dsimp only
  rw [List.getD_eq_getElem?_getD, List.getD_eq_getElem?_getD, ← show (content r (fun r => (R r).rows)).length = colOff l r from e, content_get_at (fun r => (R r).rows) hr (by rw [hl r hr]; exact hi)]

omit [CommRing K] [StarRing K] in
theorem content_rows_length {P : Nat} {l : Nat → Nat} (R : Nat → DMat K) (hl : ∀ r < P, (R r).rows.length = l r) : (content P (fun r => (R r).rows)).length = colOff l P := by
  have e : startOf (fun r => (R r).rows) P = colOff l P := by
    rw [startOf_eq_sum]
    unfold colOff
    congr 1
    apply List.map_congr_left
    intro k hk
    exact hl k (List.mem_range.1 hk)
  exact e

/-- **C124** (`_partial`: the numbers of rows of two processes differ at most by a factor of two; the orthonormality of `Q` needs a diagonal of `R` without zeros): at most as many columns as rows. -/
theorem bgQr_partial [NoZeroDivisors K] (qr : DMat K → DMat K × DMat K) {N m P : Nat} (hP : 0 < P) (hm : 2 ≤ m) (A : Nat → DMat K) (hq : ∀ n, ∀ B : DMat K, B.width = n → QrOk n B (qr B).1 (qr B).2)
    (hw : ∀ r < P, (A r).width = N) (hhalf : ∀ r < P, ∀ s < P, (A s).rows.length ≤ 2 * (A r).rows.length) (hN : N ≤ (content P (fun r => (A r).rows)).length) :
    ∃ Q R, bgQr qr N m P A = some (Q, R) ∧ R.rows.length = N ∧ R.width = N ∧ (∀ i < N, ∀ j < i, R.at i j = 0) ∧
      (∀ r < P, (Q r).rows.length = (A r).rows.length ∧ (Q r).width = N) ∧
      (∀ r < P, ∀ i < (A r).rows.length, ∀ j < N, ∑ t ∈ range N, (Q r).at i t * R.at t j = (A r).at i j) ∧
      ((∀ j < N, R.at j j ≠ 0) →
        ∀ a < N, ∀ b < N, ∑ r ∈ range P, ∑ i ∈ range (A r).rows.length, star ((Q r).at i a) * (Q r).at i b = if a = b then 1 else 0) := by
  obtain ⟨l, hl⟩ : ∃ l, l = fun r => (A r).rows.length := ⟨_, rfl⟩
  have hl' : ∀ r, (A r).rows.length = l r := fun r => by rw [hl]
  rw [content_rows_length (P := P) (l := l) A (fun r _ => hl' r)] at hN
  simp only [hl'] at hhalf ⊢
  obtain ⟨n, hn, hlen, hc, hcl, hlt, hend⟩ := bgCuts_eq N P l
  have hnP : n < P := by
    by_contra hc
    have := hlt P hP (by omega)
    omega
  obtain ⟨st, ρ, e, inv⟩ := bgLoop_inv qr hm A hq hl' hw hhalf hlen hc hcl hlt hend (n + 1) (by omega) (Nat.le_refl _)
  rw [hcl] at inv
  have hRl := content_rows_length (P := P) (l := l) st.R (fun r hr => (inv.rw r hr).2)
  obtain ⟨R, hR⟩ : ∃ R : DMat K, R = ⟨N, if N < colOff l P then (content P (fun r => (st.R r).rows)).take N else content P (fun r => (st.R r).rows)⟩ := ⟨_, rfl⟩
  have hRρ : ∀ t < N, ∀ j < N, R.at t j = ρ t j := by
    intro t ht j hj
    obtain ⟨r, i, hr, hi, et⟩ := colOff_owner l (show t < colOff l P by omega)
    have h1 := inv.rrow r hr i hi (by omega) j hj
    have h2 := content_at (N := N) st.R (fun r hr => (inv.rw r hr).2) hr hi j
    rw [← et] at h1 h2
    rw [← h1, ← h2, hR]
    unfold DMat.at
    dsimp only
    split
    · rw [List.getD_eq_getElem?_getD, List.getD_eq_getElem?_getD, List.getElem?_take_of_lt ht]
    · rfl
  refine ⟨st.Q, R, ?_, ?_, by rw [hR], ?_, ?_, ?_, ?_⟩
  · unfold bgQr
    dsimp only
    rw [← hl, if_pos hN, hlen, show n + 2 - 1 = n + 1 by omega, e, Option.map_some, hR]
  · rw [hR]
    dsimp only
    split
    · rw [List.length_take, hRl]
      omega
    · omega
  · intro i hi j hj
    rw [hRρ i hi j (by omega), inv.tri i hi j hj]
  · intro r hr
    exact ⟨(inv.qw (by omega) r hr).2, (inv.qw (by omega) r hr).1⟩
  · intro r hr i hi j hj
    rw [← inv.done r hr i hi j hj]
    exact sum_congr rfl fun t ht => by rw [hRρ t (mem_range.1 ht) j hj]
  · intro hd
    exact (inv.orth (fun j hj => by rw [← hRρ j hj j hj]; exact hd j hj)).1

/-- **C124** (`_partial`: the numbers of rows of two processes differ at most by a factor of two; all but triangularity and the first columns of the product needs a diagonal of `R` without zeros): more columns than rows. -/
theorem bgQr_wide_partial [NoZeroDivisors K] (qr : DMat K → DMat K × DMat K) {N M m P : Nat} (hP : 0 < P) (hm : 2 ≤ m) (A : Nat → DMat K) (hq : ∀ n, ∀ B : DMat K, B.width = n → QrOk n B (qr B).1 (qr B).2)
    (hw : ∀ r < P, (A r).width = N) (hhalf : ∀ r < P, ∀ s < P, (A s).rows.length ≤ 2 * (A r).rows.length) (hM : (content P (fun r => (A r).rows)).length = M) (hN : M < N) :
    ∃ Q R, bgQr qr N m P A = some (Q, R) ∧ R.rows.length = M ∧ R.width = N ∧ (∀ i < M, ∀ j < i, R.at i j = 0) ∧
      (∀ r < P, (Q r).rows.length = (A r).rows.length ∧ (Q r).width = M) ∧
      (∀ r < P, ∀ i < (A r).rows.length, ∀ j < M, ∑ t ∈ range M, (Q r).at i t * R.at t j = (A r).at i j) ∧
      ((∀ j < M, R.at j j ≠ 0) →
        (∀ r < P, ∀ i < (A r).rows.length, ∀ j < N, ∑ t ∈ range M, (Q r).at i t * R.at t j = (A r).at i j) ∧
        ∀ a < M, ∀ b < M, ∑ r ∈ range P, ∑ i ∈ range (A r).rows.length, star ((Q r).at i a) * (Q r).at i b = if a = b then 1 else 0) := by
  obtain ⟨l, hl⟩ : ∃ l, l = fun r => (A r).rows.length := ⟨_, rfl⟩
  have hl' : ∀ r, (A r).rows.length = l r := fun r => by rw [hl]
  rw [content_rows_length (P := P) (l := l) A (fun r _ => hl' r)] at hM
  simp only [hl'] at hhalf ⊢
  obtain ⟨n, hn, hlen, hc, hcl, hlt, hend⟩ := bgCuts_eq N P l
  have hnP : n = P := by
    by_contra hc
    have := hend (by omega)
    have := colOff_mono l (show n + 1 ≤ P by omega)
    omega
  subst hnP
  obtain ⟨st, ρ, e, inv⟩ := bgLoop_inv qr hm A hq hl' hw hhalf hlen hc hcl hlt hend n (Nat.le_refl _) (by omega)
  rw [hc n (Nat.le_refl _), hM] at inv
  have hRl := content_rows_length (P := n) (l := l) st.R (fun r hr => (inv.rw r hr).2)
  obtain ⟨R, hR⟩ : ∃ R : DMat K, R = ⟨N, content n (fun r => (st.R r).rows)⟩ := ⟨_, rfl⟩
  have hRρ : ∀ t < M, ∀ j < N, R.at t j = ρ t j := by
    intro t ht j hj
    obtain ⟨r, i, hr, hi, et⟩ := colOff_owner l (show t < colOff l n by omega)
    have h1 := inv.rrow r hr i hi (by omega) j hj
    have h2 := content_at (N := N) st.R (fun r hr => (inv.rw r hr).2) hr hi j
    rw [← et] at h1 h2
    rw [← h1, ← h2, hR]
  have prodM : ∀ r < n, ∀ i < l r, ∀ j < M, ∑ t ∈ range M, (st.Q r).at i t * R.at t j = (A r).at i j := by
    intro r hr i hi j hj
    rw [← inv.done r hr i hi j hj]
    exact sum_congr rfl fun t ht => by rw [hRρ t (mem_range.1 ht) j (by omega)]
  refine ⟨st.Q, R, ?_, ?_, by rw [hR], ?_, ?_, prodM, ?_⟩
  · unfold bgQr
    dsimp only
    rw [← hl, hM, if_neg (by omega), hlen, Nat.add_sub_cancel, e, Option.map_some, hR, if_neg (by omega)]
  · rw [hR]
    dsimp only
    omega
  · intro i hi j hj
    rw [hRρ i hi j (by omega), inv.tri i hi j hj]
  · intro r hr
    exact ⟨(inv.qw hP r hr).2, (inv.qw hP r hr).1⟩
  · intro hd
    obtain ⟨o1, o2⟩ := inv.orth (fun j hj => by rw [← hRρ j hj j (by omega)]; exact hd j hj)
    refine ⟨?_, o1⟩
    -- flat rows
    have hQl : ∀ r < n, (st.Q r).rows.length = l r := fun r hr => (inv.qw hP r hr).2
    have hAl : ∀ r < n, (st.A r).rows.length = l r := fun r hr => (inv.aw r hr).2
    obtain ⟨u, hu⟩ : ∃ u : Nat → Nat → K, u = fun x t => (⟨M, content n (fun r => (st.Q r).rows)⟩ : DMat K).at x t := ⟨_, rfl⟩
    obtain ⟨v, hv⟩ : ∃ v : Nat → Nat → K, v = fun x t => (⟨N, content n (fun r => (st.A r).rows)⟩ : DMat K).at x t := ⟨_, rfl⟩
    have huat : ∀ r < n, ∀ i < l r, ∀ t, u (colOff l r + i) t = (st.Q r).at i t := fun r hr i hi t => by rw [hu]; exact content_at st.Q hQl hr hi t
    have hvat : ∀ r < n, ∀ i < l r, ∀ t, v (colOff l r + i) t = (st.A r).at i t := fun r hr i hi t => by rw [hv]; exact content_at st.A hAl hr hi t
    have flat : ∀ (f g : Nat → Nat → K) (f' g' : Nat → K), (∀ r < n, ∀ i < l r, f' (colOff l r + i) = f r i) → (∀ r < n, ∀ i < l r, g' (colOff l r + i) = g r i) →
        ∑ x ∈ range M, star (f' x) * g' x = bgIp n l f g := by
      intro f g f' g' hf hg
      rw [← hM, sum_colOff]
      unfold bgIp
      refine sum_congr rfl fun r hr => sum_congr rfl fun i hi => ?_
      rw [hf r (mem_range.1 hr) i (mem_range.1 hi), hg r (mem_range.1 hr) i (mem_range.1 hi)]
    have rowsO := orth_cols_rows M u (by
      intro a ha b hb
      rw [← o1 a ha b hb]
      exact flat (fun r i => (st.Q r).at i a) (fun r i => (st.Q r).at i b) (fun x => u x a) (fun x => u x b) (fun r hr i hi => huat r hr i hi a) (fun r hr i hi => huat r hr i hi b))
    have vzero : ∀ j, M ≤ j → j < N → ∀ y < M, v y j = 0 := by
      intro j h1 h2 y hy
      have e1 : v y j = ∑ x ∈ range M, (∑ g ∈ range M, u y g * star (u x g)) * v x j := by
        have : ∀ x ∈ range M, (∑ g ∈ range M, u y g * star (u x g)) * v x j = if y = x then v x j else 0 := by
          intro x hx
          rw [rowsO y hy x (mem_range.1 hx)]
          split <;> simp
        rw [sum_congr rfl this, sum_ite_eq, if_pos (mem_range.2 hy)]
      have e2 : ∑ x ∈ range M, (∑ g ∈ range M, u y g * star (u x g)) * v x j = ∑ g ∈ range M, u y g * ∑ x ∈ range M, star (u x g) * v x j := by
        simp only [sum_mul, mul_sum]
        rw [sum_comm]
        exact sum_congr rfl fun g _ => sum_congr rfl fun x _ => by ring
      rw [e1, e2]
      refine sum_eq_zero fun g hg => ?_
      rw [flat (fun r i => (st.Q r).at i g) (fun r i => (st.A r).at i j) (fun x => u x g) (fun x => v x j) (fun r hr i hi => huat r hr i hi g) (fun r hr i hi => hvat r hr i hi j),
        o2 g (mem_range.1 hg) j h1 h2, mul_zero]
    intro r hr i hi j hj
    rcases Nat.lt_or_ge j M with h | h
    · exact prodM r hr i hi j h
    · have h1 := inv.arem r hr i hi j h hj
      have hlt : colOff l r + i < M := by
        have := colOff_mono l (show r + 1 ≤ n by omega)
        rw [colOff_succ] at this
        omega
      rw [← hvat r hr i hi j, vzero j h hj _ hlt] at h1
      have h2 := sub_eq_zero.1 h1.symm
      rw [h2]
      exact sum_congr rfl fun t ht => by rw [hRρ t (mem_range.1 ht) j hj]

/-- **C124** for a balanced matrix with at least as many rows as processes and as columns: `qr` of a matrix split along the rows, whatever branch is taken. -/
theorem qrRows_partial [NoZeroDivisors K] (qr : DMat K → DMat K × DMat K) {N m P M : Nat} (hP : 0 < P) (hm : 2 ≤ m) (A : Nat → DMat K) (hq : ∀ n, ∀ B : DMat K, B.width = n → QrOk n B (qr B).1 (qr B).2)
    (hw : ∀ r < P, (A r).width = N) (hb : ∀ r < P, (A r).rows.length = evenSize M P r) (hM : (content P (fun r => (A r).rows)).length = M) (hN : N ≤ M) (hPM : P ≤ M) :
    ∃ Q R, qrRows qr N m P A = some (Q, R) ∧ R.rows.length = N ∧ R.width = N ∧ (∀ i < N, ∀ j < i, R.at i j = 0) ∧
      (∀ r < P, (Q r).rows.length = (A r).rows.length ∧ (Q r).width = N) ∧
      (∀ r < P, ∀ i < (A r).rows.length, ∀ j < N, ∑ t ∈ range N, (Q r).at i t * R.at t j = (A r).at i j) ∧
      ((∀ j < N, R.at j j ≠ 0) →
        ∀ a < N, ∀ b < N, ∑ r ∈ range P, ∑ i ∈ range (A r).rows.length, star ((Q r).at i a) * (Q r).at i b = if a = b then 1 else 0) := by
  have hhalf : ∀ r < P, ∀ s < P, (A s).rows.length ≤ 2 * (A r).rows.length := by
    intro r hr s hs
    rw [hb r hr, hb s hs]
    have := Nat.div_pos hPM hP
    unfold evenSize
    split <;> split <;> omega
  unfold qrRows
  split
  · rename_i h
    obtain ⟨r0, hr0, h0⟩ := h
    obtain ⟨Q, R, e, h1, h2, h3, h4, h5, h6⟩ := tsqr_partial qr hP hm A (hq N) hw (fun r hr => by have := hhalf r hr r0 hr0; omega) ⟨r0, hr0, h0⟩
    exact ⟨Q, R, e, h1, h2, fun i hi j hj => h3 i hi j (by omega) hj, h4, h5, fun _ => h6⟩
  · exact bgQr_partial qr hP hm A hq hw hhalf (by omega)

/-- **C124** is violated for a balanced matrix with fewer rows than processes: shape `(2, 2)` on four processes, merging two, raises. -/
theorem qrRows_few_violated (qr : DMat K → DMat K × DMat K) (A : Nat → DMat K) (hq : ∀ n, ∀ B : DMat K, B.width = n → QrOk n B (qr B).1 (qr B).2)
    (hb : ∀ r < 4, (A r).rows.length = evenSize 2 4 r) : qrRows qr 2 2 4 A = none := by
  have h0 : (A 0).rows.length = 1 := hb 0 (by omega)
  have h1 : (A 1).rows.length = 1 := hb 1 (by omega)
  have h2 : (A 2).rows.length = 0 := hb 2 (by omega)
  have h3 : (A 3).rows.length = 0 := hb 3 (by omega)
  have hc : bgCuts 2 4 (fun r => (A r).rows.length) = [0, 1, 2] := by
    simp [bgCuts, List.range_succ, colOff, h0, h1, h2, h3]
  have hM : colOff (fun r => (A r).rows.length) 4 = 2 := by
    simp [List.range_succ, colOff, h0, h1, h2, h3]
  unfold qrRows
  rw [if_neg (by
    rintro ⟨r, hr, h⟩
    interval_cases r <;> omega)]
  unfold bgQr
  dsimp only
  rw [hc, hM]
  have hs : bgStep qr 2 4 [0, 1, 2] 0 ⟨A, A, A⟩ = none := by
    unfold bgStep
    dsimp only
    split
    · rw [Option.map_eq_none_iff]
      have e2 : (A 2).rows = [] := List.length_eq_zero_iff.1 h2
      have e3 : (A 3).rows = [] := List.length_eq_zero_iff.1 h3
      exact tsqr_empty_violated qr _ (hq 1) rfl (by simp [DMat.cols, e2]) rfl (by simp [DMat.cols, e3])
    · rfl
  simp [bgLoop, hs]

end Heat
