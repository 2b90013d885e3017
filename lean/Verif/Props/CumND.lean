import Verif.Model.CumND
import Verif.Props.ReduceND
import Verif.Props.LocalOp
/-!
# C172: cumulative operations of arrays of any dimension
-/
namespace Heat
open Spec
variable {M A B : Type} [AddCommMonoid M]

namespace Spec

/-- `T` has the shape of `G`; its element at `idx` is `back` of the total of the elements of `G` at and before `idx` along axis `ax` (numpy). -/
def IsCumulative (up : A → M) (back : M → B) (G : NArr A) (ax : Nat) (T : NArr B) : Prop :=
  T.shape = G.shape ∧ ∀ idx, InB G idx → T.get idx = back (∑ i ∈ Finset.range (idx ax + 1), up (G.get fun k => if k = ax then i else idx k))

end Spec

/-! ## General facts -/

omit [AddCommMonoid M] in
/-- An array whose local parts have the extents of those of `x` and the right elements. -/
theorem rep_like {P : Nat} (hP : 0 < P) {x : DND A} {G : NArr A} (h : Rep P x G) {z : DND B} {T : NArr B} (hT : Local T) (hn : T.ndim = G.ndim) (hd : ∀ k < G.ndim, T.dim k = G.dim k)
    (hs : z.split = x.split) (hg : z.gshape = isSplitShape P z.loc x.split ∨ z.gshape = x.gshape) (hln : ∀ r < P, (z.loc r).ndim = G.ndim) (hld : ∀ r < P, ∀ k < G.ndim, (z.loc r).dim k = (x.loc r).dim k)
    (hv : ∀ r < P, ∀ idx, InB (x.loc r) idx → (z.loc r).get idx = T.get (gidx x.split x.loc r idx)) : Rep P z T := by
  have hin : ∀ r < P, ∀ idx, InB (z.loc r) idx → InB (x.loc r) idx := by
    intro r hr idx hi k hk
    rw [h.2.2.2.1 r hr] at hk
    have := hi k (by rw [hln r hr]; exact hk)
    rw [hld r hr k hk] at this
    exact this
  have hst : ∀ s < G.ndim, ∀ r ≤ P, axisStart z.loc s r = axisStart x.loc s r := fun s hsl r hr => sum_congr_range fun q hq => by rw [hld q (by omega) s hsl]
  refine ⟨hT, ?_, ?_, fun r hr => by rw [hln r hr, hn], ?_⟩
  · rw [hn]
    rcases hg with hg | hg
    · rw [hg, isSplitShape_length, hln 0 hP]
    · rw [hg, h.2.1]
  · intro k hk
    rw [hn] at hk
    rw [hd k hk]
    rcases hg with hg | hg
    · rw [hg, isSplitShape_getD _ _ _ _ (by rw [hln 0 hP]; exact hk)]
      by_cases c : x.split = some k
      · rw [if_pos c, hst k hk P (Nat.le_refl _)]
        exact (rep_split_lt h c).2
      · rw [if_neg c, hld 0 hP k hk, rep_dimC h hP hk c]
    · rw [hg, h.2.2.1 k hk]
  · rw [hs]
    cases e : x.split with
    | none =>
      intro r hr
      refine ⟨fun k hk => ?_, fun idx hi => ?_⟩
      · rw [hn] at hk
        rw [hld r hr k hk, hd k hk, rep_dimC h hr hk (by rw [e]; simp)]
      · rw [hv r hr idx (hin r hr idx hi), e]
        rfl
    | some s =>
      obtain ⟨hsl, hsum⟩ := rep_split_lt h e
      refine ⟨by rw [hn]; exact hsl, ?_, fun r hr => ⟨fun k hk hks => ?_, fun idx hi => ?_⟩⟩
      · rw [hst s hsl P (Nat.le_refl _), hd s hsl]
        exact hsum
      · rw [hn] at hk
        rw [hld r hr k hk, hd k hk, rep_dimC h hr hk (by rw [e]; exact fun c => hks (Option.some.inj c).symm)]
      · rw [hv r hr idx (hin r hr idx hi), e, hst s hsl r (by omega)]
        rfl

/-- The global result. -/
def cumG (up : A → M) (back : M → B) (G : NArr A) (ax : Nat) : NArr B := ((G.mapA up).cumAxis ax).mapA back

theorem cumAxis_get (t : NArr M) (ax : Nat) (idx : Nat → Nat) : (t.cumAxis ax).get idx = ∑ i ∈ Finset.range (idx ax + 1), t.get (setIx ax i idx) := by
  show ((List.range (idx ax + 1)).map _).sum = _
  rw [list_sum_range_nd]

theorem cumG_local {up : A → M} {back : M → B} {G : NArr A} (hG : Local G) {ax : Nat} (ha : ax < G.ndim) : Local (cumG up back G ax) := by
  intro i j hij
  show back (((G.mapA up).cumAxis ax).get i) = back (((G.mapA up).cumAxis ax).get j)
  rw [cumAxis_get, cumAxis_get, hij ax ha]
  congr 1
  refine Finset.sum_congr rfl fun m _ => congrArg up (hG _ _ fun k hk => ?_)
  unfold setIx
  split
  · rfl
  · exact hij k hk

theorem cumG_spec (up : A → M) (back : M → B) (G : NArr A) (ax : Nat) : IsCumulative up back G ax (cumG up back G ax) :=
  ⟨rfl, fun idx _ => by
    show back (((G.mapA up).cumAxis ax).get idx) = _
    rw [cumAxis_get]
    rfl⟩

/-! ## The local results -/

/-- The local totals along an axis that is not distributed. -/
theorem cumAxis_rep {P : Nat} {x : DND A} {G : NArr A} (h : Rep P x G) (up : A → M) {ax : Nat} (ha : ax < G.ndim) (hs : x.split ≠ some ax) {r : Nat} (hr : r < P) {idx : Nat → Nat} (hin : InB (x.loc r) idx) :
    (((x.loc r).mapA up).cumAxis ax).get idx = ((G.mapA up).cumAxis ax).get (gidx x.split x.loc r idx) := by
  rw [cumAxis_get, cumAxis_get]
  have e : gidx x.split x.loc r idx ax = idx ax := by
    unfold gidx
    cases c : x.split with
    | none => rfl
    | some s =>
      show shift s _ idx ax = idx ax
      unfold shift
      rw [if_neg]
      intro e
      exact hs (by rw [c, e])
  rw [e]
  refine Finset.sum_congr rfl fun i hi => ?_
  show up ((x.loc r).get (setIx ax i idx)) = up (G.get (setIx ax i (gidx x.split x.loc r idx)))
  have hi := Finset.mem_range.mp hi
  rw [rep_get h hr (idx := setIx ax i idx)]
  · have := gidx_upd x.split x.loc r idx hs i
    congr 2
  · intro k hk
    have := hin k hk
    unfold setIx
    split
    · rename_i c; subst c; omega
    · exact this

/-- The local elements as elements of the whole array at a position along the split axis. -/
theorem split_get {P : Nat} {x : DND A} {G : NArr A} (h : Rep P x G) {ax : Nat} (hs : x.split = some ax) {q : Nat} (hq : q < P) {idx : Nat → Nat} (hin : ∀ k < G.ndim, k ≠ ax → idx k < G.dim k) {i : Nat} (hi : i < (x.loc q).dim ax) :
    (x.loc q).get (setIx ax i idx) = G.get (setIx ax (i + axisStart x.loc ax q) idx) := by
  rw [rep_get h hq]
  · rw [hs]
    apply h.1
    intro k hk
    show shift ax _ (setIx ax i idx) k = _
    unfold shift setIx
    by_cases c : k = ax
    · rw [if_pos c, if_pos c, if_pos c]
    · rw [if_neg c, if_neg c, if_neg c]
  · intro k hk
    rw [h.2.2.2.1 q hq] at hk
    unfold setIx
    by_cases c : k = ax
    · rw [if_pos c, c]; exact hi
    · rw [if_neg c, rep_dimC h hq hk (by rw [hs]; exact fun e => c (Option.some.inj e).symm)]
      exact hin k hk c

/-- What a process sends is the total of its part. -/
theorem cumSendN_get (t : NArr M) (ax : Nat) (idx : Nat → Nat) : (cumSendN (t.cumAxis ax) ax).get idx = ∑ i ∈ Finset.range (t.dim ax), t.get (setIx ax i idx) := by
  show (if 0 ≤ (t.dim ax : Int) - 1 then (t.cumAxis ax).get (setIx ax (t.dim ax - 1) idx) else 0) = _
  by_cases c : t.dim ax = 0
  · rw [if_neg (by omega), c]; simp
  · rw [if_pos (by omega), cumAxis_get]
    have e : setIx ax (t.dim ax - 1) idx ax + 1 = t.dim ax := by unfold setIx; rw [if_pos rfl]; omega
    rw [e]
    refine Finset.sum_congr rfl fun i _ => congrArg t.get ?_
    funext k
    unfold setIx
    split <;> rfl

/-- The totals along the split axis. -/
theorem cumSplit_rep {P : Nat} {x : DND A} {G : NArr A} (h : Rep P x G) (up : A → M) {ax : Nat} (hs : x.split = some ax) {r : Nat} (hr : r < P) {v : NArr M} (hv : CumRecvN (fun q => ((x.loc q).mapA up).cumAxis ax) ax r v) {idx : Nat → Nat} (hin : InB (x.loc r) idx) :
    ((((x.loc r).mapA up).cumAxis ax).addSlab v ax).get idx = ((G.mapA up).cumAxis ax).get (gidx x.split x.loc r idx) := by
  have hnd := h.2.2.2.1
  obtain ⟨hal, hsum⟩ := rep_split_lt h hs
  have hoff : ∀ k < G.ndim, k ≠ ax → idx k < G.dim k := by
    intro k hk c
    have := hin k (by rw [hnd r hr]; exact hk)
    rwa [rep_dimC h hr hk (by rw [hs]; exact fun e => c (Option.some.inj e).symm)] at this
  let F : Nat → M := fun i => up (G.get (setIx ax i idx))
  have hset : ∀ i j, setIx ax i (setIx ax j idx) = setIx ax i idx := fun i j => by
    funext k
    unfold setIx
    split <;> rfl
  -- the own part
  have h1 : (((x.loc r).mapA up).cumAxis ax).get idx = ∑ i ∈ Finset.range (idx ax + 1), F (i + axisStart x.loc ax r) := by
    rw [cumAxis_get]
    refine Finset.sum_congr rfl fun i hi => ?_
    have hi := Finset.mem_range.mp hi
    have := hin ax (by rw [hnd r hr]; exact hal)
    show up ((x.loc r).get _) = up _
    rw [split_get h hs hr hoff (by omega)]
  -- the lower processes
  have h2 : v.get (setIx ax 0 idx) = ∑ i ∈ Finset.range (axisStart x.loc ax r), F i := by
    have hvr := hv.2.2 (setIx ax 0 idx) (by
      intro k hk
      rw [hv.2.1 k hk]
      rw [hv.1] at hk
      unfold setIx
      by_cases c : k = ax
      · rw [if_pos c, if_pos c]; omega
      · rw [if_neg c, if_neg c]
        exact hin k hk)
    by_cases c : r = 0
    · rw [if_pos c] at hvr
      rw [hvr, c]
      rfl
    · rw [if_neg c] at hvr
      rw [combine_sum hvr, list_sum_range_nd]
      show _ = ∑ i ∈ Finset.range ((List.range r).map fun q => (x.loc q).dim ax).sum, F i
      rw [← sum_parts (fun q => (x.loc q).dim ax) F r]
      refine Finset.sum_congr rfl fun q hq => ?_
      have hq := Finset.mem_range.mp hq
      rw [cumSendN_get]
      refine Finset.sum_congr rfl fun i hi => ?_
      show up ((x.loc q).get _) = up _
      rw [hset, split_get h hs (by omega) hoff (Finset.mem_range.mp hi)]
      rfl
  show (((x.loc r).mapA up).cumAxis ax).get idx + v.get (setIx ax 0 idx) = _
  rw [h1, h2, cumAxis_get, hs]
  show _ = ∑ i ∈ Finset.range (shift ax (axisStart x.loc ax r) idx ax + 1), up (G.get (setIx ax i (shift ax (axisStart x.loc ax r) idx)))
  have e1 : shift ax (axisStart x.loc ax r) idx ax + 1 = axisStart x.loc ax r + (idx ax + 1) := by
    unfold shift; rw [if_pos rfl]; omega
  have e2 : ∀ i, setIx ax i (shift ax (axisStart x.loc ax r) idx) = setIx ax i idx := fun i => by
    funext k
    unfold setIx shift
    split <;> rfl
  simp only [e1, e2]
  rw [Finset.sum_range_add (fun i => up (G.get (setIx ax i idx))) (axisStart x.loc ax r) (idx ax + 1), add_comm]
  congr 1
  exact Finset.sum_congr rfl fun i _ => by rw [Nat.add_comm]

theorem cumLocN_spec {P : Nat} {x : DND A} {G : NArr A} (h : Rep P x G) (up : A → M) {ax : Nat} (ha : ax < G.ndim) {r : Nat} (hr : r < P) {c : NArr M} (hc : CumLocN up x ax r c) :
    c.ndim = G.ndim ∧ (∀ k, c.dim k = (x.loc r).dim k) ∧ ∀ idx, InB (x.loc r) idx → c.get idx = ((G.mapA up).cumAxis ax).get (gidx x.split x.loc r idx) := by
  unfold CumLocN at hc
  by_cases hs : x.split = some ax
  · rw [if_pos hs] at hc
    obtain ⟨v, hv, rfl⟩ := hc
    exact ⟨h.2.2.2.1 r hr, fun _ => rfl, fun idx hin => cumSplit_rep h up hs hr hv hin⟩
  · rw [if_neg hs] at hc
    subst hc
    exact ⟨h.2.2.2.1 r hr, fun _ => rfl, fun idx hin => cumAxis_rep h up ha hs hr hin⟩

/-! ## C172 -/

/-- **C172.**  The cumulative operation of any array of any dimension and distribution (also with processes without data) along any axis, whatever order and bracketing the exclusive scan uses: the result represents the array of running totals, converted to
the type of the result, and is distributed like the operand. -/
theorem cum_nd_spec {P : Nat} (hP : 0 < P) {x : DND A} {G : NArr A} (h : Rep P x G) (up : A → M) (back : M → B) {ax : Nat} (ha : ax < G.ndim) {z : DND B} (hz : CumTo up back P x ax z) :
    ∃ T, Rep P z T ∧ IsCumulative up back G ax T ∧ z.split = x.split ∧ ∀ r < P, (z.loc r).shape = (x.loc r).shape := by
  obtain ⟨hsp, hg, hl⟩ := hz
  have hz : ∀ r < P, (z.loc r).ndim = G.ndim ∧ (∀ k, (z.loc r).dim k = (x.loc r).dim k) ∧ ∀ idx, InB (x.loc r) idx → (z.loc r).get idx = (cumG up back G ax).get (gidx x.split x.loc r idx) := by
    intro r hr
    obtain ⟨c, hc, e⟩ := hl r hr
    obtain ⟨a1, a2, a3⟩ := cumLocN_spec h up ha hr hc
    rw [e]
    exact ⟨a1, a2, fun idx hin => congrArg back (a3 idx hin)⟩
  refine ⟨cumG up back G ax, rep_like hP h (cumG_local h.1 ha) rfl (fun _ _ => rfl) hsp (.inl hg) (fun r hr => (hz r hr).1) (fun r hr k _ => (hz r hr).2.1 k) (fun r hr => (hz r hr).2.2), cumG_spec up back G ax, hsp, fun r hr => ?_⟩
  unfold NArr.shape
  rw [(hz r hr).1, h.2.2.2.1 r hr]
  exact List.map_congr_left fun k _ => (hz r hr).2.1 k

/-- **C172.**  `cumsum_`, `cumprod_`: afterwards the array itself holds the running totals; its shape, its split axis and the sizes of the local parts are unchanged. -/
theorem cum_inplace_spec {P : Nat} (hP : 0 < P) {x : DND M} {G : NArr M} (h : Rep P x G) {ax : Nat} (ha : ax < G.ndim) {z : DND M} (hz : CumInPlace P x ax z) :
    ∃ T, Rep P z T ∧ IsCumulative id id G ax T ∧ z.split = x.split ∧ ∀ r < P, (z.loc r).shape = (x.loc r).shape := by
  obtain ⟨hsp, hg, _, hl⟩ := hz
  have hz : ∀ r < P, (z.loc r).ndim = G.ndim ∧ (∀ k, (z.loc r).dim k = (x.loc r).dim k) ∧ ∀ idx, InB (x.loc r) idx → (z.loc r).get idx = (cumG id id G ax).get (gidx x.split x.loc r idx) := by
    intro r hr
    have hlr := hl r hr
    by_cases c : (x.split.isSome && decide (1 < P)) = true
    · rw [if_pos c] at hlr
      exact cumLocN_spec h id ha hr hlr
    · rw [if_neg c] at hlr
      rw [hlr]
      refine ⟨h.2.2.2.1 r hr, fun _ => rfl, fun idx hin => ?_⟩
      by_cases hs : x.split = some ax
      · have h1 : P = 1 := by
          rw [hs] at c
          simp at c
          omega
        obtain rfl : r = 0 := by omega
        -- one process: nothing is received
        have hv : CumRecvN (fun q => ((x.loc q).mapA id).cumAxis ax) ax 0 (⟨(x.loc 0).ndim, fun k => if k = ax then 1 else (x.loc 0).dim k, fun _ => 0⟩ : NArr M) :=
          ⟨rfl, fun _ _ => rfl, fun _ _ => by rw [if_pos rfl]⟩
        have := cumSplit_rep h id hs hr hv hin
        refine Eq.trans ?_ this
        show _ = (((x.loc 0).mapA id).cumAxis ax).get idx + 0
        rw [add_zero]
        rfl
      · exact cumAxis_rep h id ha hs hr hin
  refine ⟨cumG id id G ax, rep_like hP h (cumG_local h.1 ha) rfl (fun _ _ => rfl) hsp (.inr hg) (fun r hr => (hz r hr).1) (fun r hr k _ => (hz r hr).2.1 k) (fun r hr => (hz r hr).2.2), cumG_spec id id G ax, hsp, fun r hr => ?_⟩
  unfold NArr.shape
  rw [(hz r hr).1, h.2.2.2.1 r hr]
  exact List.map_congr_left fun k _ => (hz r hr).2.1 k

/-- **C172.**  There is a result for every array. -/
theorem cum_nd_total (P : Nat) (x : DND A) (up : A → M) (back : M → B) (ax : Nat) : ∃ z : DND B, CumTo up back P x ax z := by
  have hloc : ∀ r, ∃ c, CumLocN up x ax r c := by
    intro r
    unfold CumLocN
    by_cases hs : x.split = some ax
    · simp only [if_pos hs]
      refine ⟨_, ⟨(x.loc r).ndim, fun k => if k = ax then 1 else (x.loc r).dim k, fun idx => ((List.range r).map fun q => (cumSendN (((x.loc q).mapA up).cumAxis ax) ax).get idx).sum⟩, ⟨rfl, fun _ _ => rfl, fun idx _ => ?_⟩, rfl⟩
      by_cases c : r = 0
      · subst c; rw [if_pos rfl]; rfl
      · rw [if_neg c]
        exact combine_exists _ (by simp [c])
    · simp only [if_neg hs]
      exact ⟨_, rfl⟩
  choose c hc using hloc
  exact ⟨⟨isSplitShape P (fun r => (c r).mapA back) x.split, x.split, fun r => (c r).mapA back, none⟩, rfl, rfl, fun r _ => ⟨c r, hc r, rfl⟩⟩

/-- **C172.**  The axis: counted from the front or from the end; None, an axis out of bounds and every axis of an array without axes are refused. -/
theorem cum_axis_spec (ndim : Nat) (axis : Option Int) (s : Nat) : cumAxisOf ndim axis = .ok s ↔ s < ndim ∧ (axis = some (s : Int) ∨ axis = some ((s : Int) - ndim)) := by
  cases axis with
  | none => simp [cumAxisOf]
  | some a =>
    have e : cumAxisOf ndim (some a) = match sanitizeAxis ndim (some a) with
      | .error e => .error e
      | .ok (some s) => .ok s
      | .ok none => .error .typeError := rfl
    constructor
    · intro h
      rw [e] at h
      by_cases c0 : ndim = 0
      · rw [show sanitizeAxis ndim (some a) = .ok none by simp [sanitizeAxis, c0]] at h
        cases h
      · by_cases c1 : 0 ≤ a ∧ a < ndim
        · rw [show sanitizeAxis ndim (some a) = .ok (some a.toNat) by simp [sanitizeAxis, c0, c1]] at h
          cases h
          exact ⟨by omega, .inl (by congr 1; omega)⟩
        · by_cases c2 : -(ndim : Int) ≤ a ∧ a < 0
          · rw [sanitizeAxis_wrap (o := (a + ndim).toNat) (by omega) (.inr (by omega))] at h
            cases h
            exact ⟨by omega, .inr (by congr 1; omega)⟩
          · have : sanitizeAxis ndim (some a) = .error .valueError := by
              unfold sanitizeAxis
              rw [if_neg c0]
              dsimp only
              rw [if_neg c1]
              by_cases c3 : a < 0
              · rw [if_pos c3, if_pos (by omega)]
              · rw [if_neg c3, if_pos (by omega)]
            rw [this] at h
            cases h
    · rintro ⟨hs, h⟩
      rw [e, sanitizeAxis_wrap hs (by rcases h with h | h <;> simp at h <;> simp [h])]

/-- **C172, defect.**  The running totals of a boolean array are booleans, since the result has the type of the operand: the "sum" at a position says whether some element at or before it is True (numpy counts: `cumsum([True, True])` is `[1, 2]`). -/
theorem cumsum_bool_violated {P : Nat} (hP : 0 < P) {x : DND Bool} {G : NArr Bool} (h : Rep P x G) {ax : Nat} (ha : ax < G.ndim) {z : DND Bool} (hz : CumTo boolUp boolBack P x ax z) :
    ∃ T, Rep P z T ∧ T.shape = G.shape ∧ ∀ idx, InB G idx → (T.get idx = true ↔ ∃ i ≤ idx ax, (G.get fun k => if k = ax then i else idx k) = true) := by
  obtain ⟨T, h1, h2, _⟩ := cum_nd_spec hP h boolUp boolBack ha hz
  refine ⟨T, h1, h2.1, fun idx hin => ?_⟩
  rw [h2.2 idx hin]
  have hnn : ∀ b, 0 ≤ boolUp b := by intro b; cases b <;> decide
  unfold boolBack
  rw [bne_iff_ne, Ne, Finset.sum_eq_zero_iff_of_nonneg (fun i _ => hnn _)]
  constructor
  · intro hne
    by_contra hc
    refine hne fun i hi => ?_
    have hi := Finset.mem_range.mp hi
    cases e : G.get fun k => if k = ax then i else idx k with
    | false => rfl
    | true => exact absurd ⟨i, by omega, e⟩ hc
  · rintro ⟨i, hi, e⟩ hall
    have := hall i (Finset.mem_range.mpr (by omega))
    rw [e] at this
    cases this

/-- A 2-by-3 array split along axis 1 over two processes, totals along the split axis. -/
example : ∃ (x : DND Int) (G : NArr Int) (z : DND Int), Rep 2 x G ∧ x.split = some 1 ∧ CumTo id id 2 x 1 z ∧ 1 < G.ndim := by
  obtain ⟨z, hz⟩ := cum_nd_total (M := Int) 2 (evenA 2 (matA 2 3 fun i j => (10 * i + j : Int)) 1) id id 1
  exact ⟨_, _, z, (goodRep_even (by omega) (matA_local 2 3 _) (s := 1) (by show 1 < 2; omega)).1, rfl, hz, by show 1 < 2; omega⟩

/-- Booleans, split. -/
example : ∃ (x : DND Bool) (G : NArr Bool) (z : DND Bool), Rep 3 x G ∧ x.split = some 0 ∧ CumTo boolUp boolBack 3 x 0 z ∧ 0 < G.ndim := by
  obtain ⟨z, hz⟩ := cum_nd_total (M := Int) 3 (evenA 3 (vecA 2 fun _ => true) 0) boolUp boolBack 0
  exact ⟨_, _, z, (goodRep_even (by omega) (vecA_local 2 _) (s := 0) (by show 0 < 1; omega)).1, rfl, hz, by show 0 < 1; omega⟩

/-- In place, one process. -/
example : ∃ (x : DND Int) (G : NArr Int) (z : DND Int), Rep 1 x G ∧ CumInPlace 1 x 0 z ∧ 0 < G.ndim :=
  ⟨evenA 1 (vecA 2 fun _ => 5) 0, _, ⟨[2], some 0, fun r => ((evenA 1 (vecA 2 fun _ => (5 : Int)) 0).loc r).cumAxis 0, some true⟩,
    (goodRep_even (by omega) (vecA_local 2 _) (s := 0) (by show 0 < 1; omega)).1, ⟨rfl, rfl, rfl, fun r _ => rfl⟩, by show 0 < 1; omega⟩

end Heat
