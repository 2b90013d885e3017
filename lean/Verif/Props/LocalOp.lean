import Verif.Model.LocalOp
import Verif.Props.MeshCross
/-!
# C169: element-wise operations of one operand
-/
namespace Heat
open Spec
variable {α β : Type}

namespace Spec

/-- `T` has the given shape and holds `f` of the elements of `G`, broadcast to that shape (numpy). -/
def IsUnary (f : α → β) (G : NArr α) (shape : List Nat) (T : NArr β) : Prop :=
  T.shape = shape ∧ ∀ idx, InB T idx → T.get idx = f (bcastGet G T.ndim idx)

end Spec

/-- **C169.**  Without `out`: every array of any dimension and distribution; the result is distributed in the same way. -/
theorem local_op_spec {P : Nat} (f : α → β) {x : DND α} {G : NArr α} (h : Rep P x G) :
    ∃ T, Rep P (localOp f x) T ∧ T.shape = G.shape ∧ (∀ idx, InB G idx → T.get idx = f (G.get idx)) ∧ (localOp f x).split = x.split ∧ (localOp f x).balanced = x.balanced ∧
      ∀ r, ((localOp f x).loc r).shape = (x.loc r).shape := by
  refine ⟨G.mapA f, ?_, rfl, fun _ _ => rfl, rfl, rfl, fun _ => rfl⟩
  obtain ⟨q0, q1, q2, q3, q4⟩ := h
  refine ⟨fun i j hij => congrArg f (q0 i j hij), q1, q2, q3, ?_⟩
  show match x.split with
    | none => _
    | some s => _
  cases hs : x.split with
  | none =>
    rw [hs] at q4
    exact fun r hr => ⟨(q4 r hr).1, fun idx hin => congrArg f ((q4 r hr).2 idx hin)⟩
  | some s =>
    rw [hs] at q4
    exact ⟨q4.1, q4.2.1, fun r hr => ⟨(q4.2.2 r hr).1, fun idx hin => congrArg f ((q4.2.2 r hr).2 idx hin)⟩⟩

theorem shape_getD_op {t : NArr α} {k : Nat} (hk : k < t.ndim) : t.shape.getD k 0 = t.dim k := getD_map_rangeN _ hk

theorem shape_length_op (t : NArr α) : t.shape.length = t.ndim := by simp [NArr.shape]

theorem opMultiples_getD {t : NArr α} {o : NArr β} (hn : t.ndim = o.ndim) {k : Nat} (hk : k < o.ndim) : (opMultiples o.shape t.shape).getD k 0 = if t.dim k > 0 then o.dim k / t.dim k else 0 := by
  unfold opMultiples
  rw [shape_length_op, shape_length_op, hn, Nat.sub_self, List.replicate_zero, List.nil_append]
  have ho : o.shape[k]? = some (o.dim k) := by unfold NArr.shape; rw [List.getElem?_map, List.getElem?_range hk]; rfl
  have ht : t.shape[k]? = some (t.dim k) := by unfold NArr.shape; rw [List.getElem?_map, List.getElem?_range (by omega)]; rfl
  rw [List.getD_eq_getElem?_getD, List.getElem?_zipWith, ho, ht]
  rfl

theorem opMultiples_length {t : NArr α} {o : NArr β} (hn : t.ndim = o.ndim) : (opMultiples o.shape t.shape).length = o.ndim := by
  unfold opMultiples
  rw [shape_length_op, shape_length_op, hn, Nat.sub_self, List.replicate_zero, List.nil_append, List.length_zipWith, shape_length_op, shape_length_op, hn, Nat.min_self]

/-- One process whose part of `out` has the extents of its part of `x`, apart from axes of extent 1. -/
theorem localOpBuf_eq (f : α → β) {t : NArr α} {o : NArr β} (hn : t.ndim = o.ndim) (hd : ∀ k < o.ndim, t.dim k = o.dim k ∨ (t.dim k = 1 ∧ 1 ≤ o.dim k)) :
    ∃ u, localOpBuf f t o = .ok u ∧ u.ndim = o.ndim ∧ (∀ k < o.ndim, u.dim k = o.dim k) ∧ ∀ idx, InB o idx → ∃ j, InB t j ∧ (∀ k < o.ndim, j k = if t.dim k = 1 then 0 else idx k) ∧ u.get idx = f (t.get j) := by
  have hb : broadcastShape t.shape o.shape = .ok o.shape := by
    apply broadcast_same
    · rw [shape_length_op, hn]
    · rw [shape_length_op]
    · intro k hk
      rw [shape_length_op] at hk
      rw [shape_getD_op hk]
      rcases hd k hk with h | h
      · exact ⟨.inr h, .inr rfl, .inr (.inr rfl)⟩
      · exact ⟨.inl h.1, .inr rfl, .inr (.inr rfl)⟩
  unfold localOpBuf
  rw [hb]
  dsimp only
  have hm : ∀ k < o.ndim, (opMultiples o.shape t.shape).getD k 0 = if t.dim k > 0 then o.dim k / t.dim k else 0 := fun k hk => opMultiples_getD hn hk
  have hml := opMultiples_length (t := t) hn
  by_cases hany : (opMultiples o.shape t.shape).any (fun m => decide (1 < m)) = true
  · rw [if_pos hany]
    refine ⟨_, rfl, hml, fun k hk => ?_, fun idx hin => ⟨_, ?_, ?_, rfl⟩⟩
    · show (opMultiples o.shape t.shape).getD k 0 * (if k < (opMultiples o.shape t.shape).length - t.ndim then 1 else t.dim (k - ((opMultiples o.shape t.shape).length - t.ndim))) = _
      rw [hml, hn, Nat.sub_self, if_neg (by omega), Nat.sub_zero, hm k hk]
      rcases hd k hk with h | h
      · rw [h]
        split
        · rename_i hp; rw [Nat.div_self hp, Nat.one_mul]
        · omega
      · rw [h.1, if_pos (by omega)]; simp
    · intro k hk
      show idx (k + _) % t.dim k < t.dim k
      have h1 := hin k (by rw [← hn]; exact hk)
      rcases hd k (by rw [← hn]; exact hk) with h | h
      · exact Nat.mod_lt _ (by omega)
      · rw [h.1]; omega
    · intro k hk
      show idx (k + ((opMultiples o.shape t.shape).length - t.ndim)) % t.dim k = _
      rw [hml, hn, Nat.sub_self, Nat.add_zero]
      by_cases h1 : t.dim k = 1
      · rw [if_pos h1, h1]; omega
      · rw [if_neg h1]
        rcases hd k hk with h | h
        · exact Nat.mod_eq_of_lt (by rw [h]; exact hin k hk)
        · exact absurd h.1 h1
  · rw [if_neg hany]
    have hle : ∀ k < o.ndim, (opMultiples o.shape t.shape).getD k 0 ≤ 1 := by
      intro k hk
      by_contra hgt
      apply hany
      rw [List.any_eq_true]
      refine ⟨_, ?_, decide_eq_true (by omega : 1 < (opMultiples o.shape t.shape).getD k 0)⟩
      rw [List.getD_eq_getElem?_getD, List.getElem?_eq_getElem (by rw [hml]; exact hk)]
      exact List.getElem_mem _
    have heq : ∀ k < o.ndim, t.dim k = o.dim k := by
      intro k hk
      rcases hd k hk with h | h
      · exact h
      · have := hle k hk
        rw [hm k hk, h.1, if_pos (by omega), Nat.div_one] at this
        omega
    refine ⟨_, rfl, hn, heq, fun idx hin => ⟨idx, fun k hk => ?_, fun k hk => ?_, rfl⟩⟩
    · rw [heq k (by rw [← hn]; exact hk)]; exact hin k (by rw [← hn]; exact hk)
    · by_cases h1 : t.dim k = 1
      · rw [if_pos h1]
        have := hin k hk
        rw [← heq k hk] at this
        omega
      · rw [if_neg h1]

/-- The buffer fits the operand: it is distributed in the same way, or the operand is not distributed and the buffer is not either, or the operand is repeated along the split axis of the buffer and every process has a part of it. -/
def BufFits (P : Nat) (x : DND α) (out : DND β) (G : NArr α) (H : NArr β) : Prop :=
  (x.split = none ∧ out.split = none) ∨
  (∃ s, x.split = some s ∧ out.split = some s ∧ G.dim s = H.dim s ∧ ∀ r < P, (x.loc r).dim s = (out.loc r).dim s) ∨
  (x.split = none ∧ ∃ s, out.split = some s ∧ G.dim s = 1 ∧ ∀ r < P, 1 ≤ (out.loc r).dim s)

/-- With `out`: operand and buffer with equally many axes, extents of the operand equal to those of the buffer or 1, and a buffer that fits: it receives the result, broadcast to its shape. -/
theorem local_op_out_partial {P : Nat} (f : α → β) {x : DND α} {out : DND β} {G : NArr α} {H : NArr β} (hx : Rep P x G) (hy : Rep P out H) (hn : G.ndim = H.ndim)
    (hd : ∀ k < H.ndim, G.dim k = H.dim k ∨ (G.dim k = 1 ∧ 1 ≤ H.dim k)) (hf : BufFits P x out G H) :
    ∃ T, Delivers P (localOpOut f x out) T ∧ IsUnary f G H.shape T ∧ (localOpOut f x out).split = out.split ∧ (localOpOut f x out).gshape = out.gshape := by
  let T : NArr β := ⟨H.ndim, H.dim, fun idx => f (bcastGet G H.ndim idx)⟩
  have hTl : Local T := by
    intro i j hij
    have hij : ∀ k < H.ndim, i k = j k := hij
    show f _ = f _
    congr 1
    unfold bcastGet
    apply hx.1
    intro k hk
    rw [hn, Nat.sub_self, Nat.add_zero, hij k (by omega)]
  -- the local parts
  have loc : ∀ r < P, ∀ k < H.ndim, (x.loc r).dim k = (out.loc r).dim k ∨ ((x.loc r).dim k = 1 ∧ 1 ≤ (out.loc r).dim k) := by
    intro r hr k hk
    rcases hf with ⟨h1, h2⟩ | ⟨s, h1, h2, h3, h4⟩ | ⟨h1, s, h2, h3, h4⟩
    · rw [rep_dimC hx hr (by omega) (by rw [h1]; simp), rep_dimC hy hr hk (by rw [h2]; simp)]
      exact hd k hk
    · by_cases hks : k = s
      · left; rw [hks]; exact h4 r hr
      · have e : some s ≠ some k := fun e => hks (Option.some.inj e).symm
        rw [rep_dimC hx hr (by omega) (by rw [h1]; exact e), rep_dimC hy hr hk (by rw [h2]; exact e)]
        exact hd k hk
    · by_cases hks : k = s
      · right
        rw [hks, rep_dimC hx hr (by rw [hn, ← hks]; exact hk) (by rw [h1]; simp)]
        exact ⟨h3, h4 r hr⟩
      · have e : some s ≠ some k := fun e => hks (Option.some.inj e).symm
        rw [rep_dimC hx hr (by omega) (by rw [h1]; simp), rep_dimC hy hr hk (by rw [h2]; exact e)]
        exact hd k hk
  have key : ∀ r < P, ∃ u, localOpBuf f (x.loc r) (out.loc r) = .ok u ∧ u.ndim = H.ndim ∧ (∀ k < H.ndim, u.dim k = (out.loc r).dim k) ∧
      ∀ idx, InB (out.loc r) idx → u.get idx = T.get (gidx out.split out.loc r idx) := by
    intro r hr
    have nx := hx.2.2.2.1 r hr
    have ny := hy.2.2.2.1 r hr
    obtain ⟨u, e1, e2, e3, e4⟩ := localOpBuf_eq f (t := x.loc r) (o := out.loc r) (by omega) (fun k hk => loc r hr k (by omega))
    refine ⟨u, e1, by omega, fun k hk => e3 k (by omega), fun idx hin => ?_⟩
    obtain ⟨j, j1, j2, j3⟩ := e4 idx hin
    rw [j3, rep_get hx hr j1]
    show f _ = f _
    congr 1
    unfold bcastGet
    apply hx.1
    intro k hk
    have hjk := j2 k (by omega)
    have hik := hin k (by omega)
    rw [hn, Nat.sub_self, Nat.add_zero]
    rcases hf with ⟨h1, h2⟩ | ⟨s, h1, h2, h3, h4⟩ | ⟨h1, s, h2, h3, h4⟩
    · rw [h1, h2]
      show j k = if G.dim k = 1 then 0 else idx k
      rw [hjk, rep_dimC hx hr hk (by rw [h1]; simp)]
    · rw [h1, h2]
      have hst : axisStart x.loc s r = axisStart out.loc s r := sum_congr_range fun q hq => h4 q (by omega)
      show shift s (axisStart x.loc s r) j k = if G.dim k = 1 then 0 else shift s (axisStart out.loc s r) idx k
      unfold shift
      by_cases hks : k = s
      · subst hks
        rw [if_pos rfl, if_pos rfl, hjk, h4 r hr, ← hst]
        have hle : axisStart x.loc k (r + 1) ≤ G.dim k := by
          have a := axisStart_mono x.loc k (i := r + 1) (j := P) (by omega)
          have b := (rep_split_lt hx h1).2
          unfold axisStart at *
          omega
        rw [axisStart_succ, h4 r hr] at hle
        by_cases c1 : (out.loc r).dim k = 1
        · rw [if_pos c1]
          by_cases c2 : G.dim k = 1
          · rw [if_pos c2]; omega
          · rw [if_neg c2]; omega
        · rw [if_neg c1, if_neg (by omega)]
      · rw [if_neg hks, if_neg hks, hjk, rep_dimC hx hr hk (by rw [h1]; intro e; exact hks (Option.some.inj e).symm)]
    · rw [h1, h2]
      show j k = if G.dim k = 1 then 0 else shift s (axisStart out.loc s r) idx k
      rw [hjk, rep_dimC hx hr hk (by rw [h1]; simp)]
      by_cases c : G.dim k = 1
      · rw [if_pos c, if_pos c]
      · have hks : k ≠ s := fun e => c (by rw [e]; exact h3)
        rw [if_neg c, if_neg c]
        unfold shift
        rw [if_neg hks]
  have hz : ∃ zl : Nat → NArr β, ∀ r < P, localOpBuf f (x.loc r) (out.loc r) = .ok (zl r) ∧ (zl r).ndim = H.ndim ∧ (∀ k < H.ndim, (zl r).dim k = (out.loc r).dim k) ∧
      ∀ idx, InB (out.loc r) idx → (zl r).get idx = T.get (gidx out.split out.loc r idx) := by
    refine ⟨fun r => if h : r < P then (key r h).choose else H, fun r hr => ?_⟩
    dsimp only
    rw [dif_pos hr]
    exact (key r hr).choose_spec
  obtain ⟨zl, kz⟩ := hz
  refine ⟨T, ⟨⟨out.gshape, out.split, zl, out.balanced⟩, rfl, rfl, fun r hr => (kz r hr).1, ?_⟩, ⟨rfl, fun idx _ => rfl⟩, rfl, rfl⟩
  have inb : ∀ r < P, ∀ idx, InB (zl r) idx → InB (out.loc r) idx := by
    intro r hr idx hin k hk
    have ny := hy.2.2.2.1 r hr
    rw [← (kz r hr).2.2.1 k (by omega)]
    exact hin k (by rw [(kz r hr).2.1]; omega)
  obtain ⟨q0, q1, q2, q3, q4⟩ := hy
  refine ⟨hTl, q1, q2, fun r hr => (kz r hr).2.1, ?_⟩
  cases e : out.split with
  | none =>
    rw [e] at q4 kz
    intro r hr
    exact ⟨fun k hk => ((kz r hr).2.2.1 k hk).trans ((q4 r hr).1 k hk), fun idx hin => (kz r hr).2.2.2 idx (inb r hr idx hin)⟩
  | some s =>
    rw [e] at q4 kz
    have hst : ∀ r ≤ P, axisStart zl s r = axisStart out.loc s r := fun r hr => sum_congr_range fun q hq => (kz q (by omega)).2.2.1 s q4.1
    refine ⟨q4.1, by show axisStart zl s P = _; rw [hst P (Nat.le_refl _)]; exact q4.2.1, fun r hr => ⟨fun k hk hne => ((kz r hr).2.2.1 k hk).trans ((q4.2.2 r hr).1 k hk hne), fun idx hin => ?_⟩⟩
    show (zl r).get idx = T.get (shift s (axisStart zl s r) idx)
    rw [hst r (by omega)]
    exact (kz r hr).2.2.2 idx (inb r hr idx hin)

/-! ## Buffers that do not fit are not refused -/

theorem localOpBuf_shapes (f : α → β) {t : NArr α} {o : NArr β} {ts os bs : List Nat} (h1 : t.shape = ts) (h2 : o.shape = os) (hb : broadcastShape ts os = .ok bs) :
    localOpBuf f t o = .ok ((if (opMultiples bs ts).any fun m => decide (1 < m) then t.repeatBy (opMultiples bs ts) else t).mapA f) := by
  unfold localOpBuf
  rw [h1, h2, hb]

/-- A vector of 4 elements and a buffer of shape (1, 4): the buffer is resized to one axis, its shape attribute stays (1, 4). -/
theorem local_op_lead_violated (f : α → β) (v : Nat → α) (u : Nat → Nat → β) : ∃ t, (localOpOut f (wholeA (vecA 4 v)) (wholeA (matA 1 4 u))).loc 0 = .ok t ∧ t.ndim = 1 ∧
    (localOpOut f (wholeA (vecA 4 v)) (wholeA (matA 1 4 u))).gshape = [1, 4] ∧ ¬ ∃ T, Delivers 1 (localOpOut f (wholeA (vecA 4 v)) (wholeA (matA 1 4 u))) T := by
  have e : (localOpOut f (wholeA (vecA 4 v)) (wholeA (matA 1 4 u))).loc 0 = .ok ((vecA 4 v).mapA f) := by
    show localOpBuf f (vecA 4 v) (matA 1 4 u) = _
    rw [localOpBuf_shapes f (ts := [4]) (os := [1, 4]) (bs := [1, 4]) rfl rfl (by decide +kernel), if_neg (by decide +kernel)]
  refine ⟨_, e, rfl, rfl, ?_⟩
  rintro ⟨T, z, hg, hs, hl, hT⟩
  have e0 := hl 0 (by omega)
  rw [e] at e0
  have d0 : (z.loc 0).ndim = 1 := by rw [← Except.ok.inj e0]; rfl
  have d1 : z.gshape.length = 2 := by rw [← hg]; rfl
  have := hT.2.1
  have := hT.2.2.2.1 0 (by omega)
  omega

/-- A replicated vector of 4 elements and a buffer of the same shape distributed over 4 processes: every process gets all 4 elements. -/
theorem local_op_replicated_violated (f : α → β) (v : Nat → α) (u : Nat → β) : ∀ r < 4, ∃ t, (localOpOut f (wholeA (vecA 4 v)) (evenA 4 (vecA 4 u) 0)).loc r = .ok t ∧ t.dim 0 = 4 := by
  intro r hr
  have hs : ((evenA 4 (vecA 4 u) 0).loc r).shape = [1] := by
    show [evenSize 4 4 r] = [1]
    unfold evenSize
    rw [if_neg (by omega)]
  refine ⟨(vecA 4 v).mapA f, ?_, rfl⟩
  show localOpBuf f (vecA 4 v) _ = _
  rw [localOpBuf_shapes f (ts := [4]) (os := [1]) (bs := [4]) rfl hs (by decide +kernel), if_neg (by decide +kernel)]

/-- Two 4 × 4 arrays distributed over 4 processes along different axes: every process gets a 4 × 4 buffer filled with its row of the operand, and no error is raised. -/
theorem local_op_splits_violated (f : α → β) (v : Nat → Nat → α) (u : Nat → Nat → β) :
    (∀ r < 4, ∃ t, (localOpOut f (evenA 4 (matA 4 4 v) 0) (evenA 4 (matA 4 4 u) 1)).loc r = .ok t ∧ t.dim 0 = 4 ∧ t.dim 1 = 4) ∧
    ¬ ∃ T, Delivers 4 (localOpOut f (evenA 4 (matA 4 4 v) 0) (evenA 4 (matA 4 4 u) 1)) T := by
  have es : ∀ r < 4, evenSize 4 4 r = 1 := by
    intro r hr
    unfold evenSize
    rw [if_neg (by omega)]
  have a : ∀ r < 4, ∃ t, (localOpOut f (evenA 4 (matA 4 4 v) 0) (evenA 4 (matA 4 4 u) 1)).loc r = .ok t ∧ t.dim 0 = 4 ∧ t.dim 1 = 4 := by
    intro r hr
    have h1 : ((evenA 4 (matA 4 4 v) 0).loc r).shape = [1, 4] := by show [evenSize 4 4 r, 4] = _; rw [es r hr]
    have h2 : ((evenA 4 (matA 4 4 u) 1).loc r).shape = [4, 1] := by show [4, evenSize 4 4 r] = _; rw [es r hr]
    have e := localOpBuf_shapes f h1 h2 (bs := [4, 4]) (by decide +kernel)
    rw [if_pos (by decide +kernel)] at e
    refine ⟨_, e, ?_, rfl⟩
    show 4 * evenSize 4 4 r = 4
    rw [es r hr]
  refine ⟨a, ?_⟩
  rintro ⟨T, z, hg, hs, hl, hT⟩
  have h1 : z.split = some 1 := hs.symm
  obtain ⟨hnd, hsum⟩ := rep_split_lt hT h1
  have hd : T.dim 1 = 4 := by rw [← hT.2.2.1 1 hnd, ← hg]; rfl
  have dz : ∀ r < 4, (z.loc r).dim 1 = 4 := by
    intro r hr
    obtain ⟨t, e, _, e2⟩ := a r hr
    rw [hl r hr] at e
    rw [Except.ok.inj e]; exact e2
  have : ((List.range 4).map fun r => (z.loc r).dim 1).sum = (z.loc 0).dim 1 + ((z.loc 1).dim 1 + ((z.loc 2).dim 1 + (z.loc 3).dim 1)) := by simp [List.range_succ]
  rw [dz 0 (by omega), dz 1 (by omega), dz 2 (by omega), dz 3 (by omega)] at this
  omega

/-! ### The hypotheses are met -/

/-- Rows of 6 on 4 processes: the square of a 6 × 1 column into a 6 × 3 buffer. -/
example (v u : Nat → Nat → Int) : ∃ T, Delivers 4 (localOpOut (fun a => a * a) (evenA 4 (matA 6 1 v) 0) (evenA 4 (matA 6 3 u) 0)) T ∧ IsUnary (fun a => a * a) (matA 6 1 v) [6, 3] T := by
  obtain ⟨T, h1, h2, _⟩ := local_op_out_partial (fun a : Int => a * a) (goodRep_even (P := 4) (by omega) (matA_local 6 1 v) (s := 0) (by show 0 < 2; omega)).1 (goodRep_even (P := 4) (by omega) (matA_local 6 3 u) (s := 0) (by show 0 < 2; omega)).1 rfl
    (by
      intro k hk
      have : k = 0 ∨ k = 1 := by have : k < 2 := hk; omega
      rcases this with rfl | rfl
      · exact .inl rfl
      · exact .inr ⟨rfl, by show 1 ≤ 3; omega⟩)
    (.inr (.inl ⟨0, rfl, rfl, rfl, fun r _ => rfl⟩))
  exact ⟨T, h1, h2⟩

/-- A replicated row repeated into the 4 parts of a 6 × 3 buffer. -/
example (v u : Nat → Nat → Int) : BufFits 4 (wholeA (matA 1 3 v)) (evenA 4 (matA 6 3 u) 0) (matA 1 3 v) (matA 6 3 u) := by
  refine .inr (.inr ⟨rfl, 0, rfl, rfl, fun r hr => ?_⟩)
  show 1 ≤ evenSize 6 4 r
  unfold evenSize
  omega

end Heat
