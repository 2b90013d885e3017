import Verif.Model.Vmap
import Verif.Props.MeshCross
/-!
# C170: vmap
-/
namespace Heat
open Spec
variable {α β : Type}

namespace Spec

/-- Equal extents. -/
def SameShape (a b : NArr α) : Prop := a.ndim = b.ndim ∧ ∀ k < b.ndim, a.dim k = b.dim k

/-- Equal extents and entries. -/
def SameT (a b : NArr α) : Prop := SameShape a b ∧ ∀ idx, InB b idx → a.get idx = b.get idx

/-- A function of tensors: its result depends on the entries of its arguments only, the extents of the result on the extents of the arguments only (torch.vmap demands the latter). -/
structure TensorFn (func : List (NArr α) → NArr β) : Prop where
  loc : ∀ xs, (∀ x ∈ xs, Local x) → Local (func xs)
  shape : ∀ xs ys, List.Forall₂ SameShape xs ys → SameShape (func xs) (func ys)
  ext : ∀ xs ys, List.Forall₂ SameT xs ys → SameT (func xs) (func ys)

/-- The slices `b` of the arguments that are distributed (`splits`: their axes), and the others as they are. -/
def slicesAt (splits : List (Option Nat)) (Gs : List (NArr α)) (b : Nat) : List (NArr α) :=
  List.zipWith (fun s G => match s with
    | none => G
    | some s => ⟨G.ndim - 1, fun k => G.dim (if k < s then k else k + 1), fun idx => G.get fun k => if k < s then idx k else if k = s then b else idx (k - 1)⟩) splits Gs

/-- Slice `b` of `T` along axis `o` is `func` of the slices `b` of the arguments, for all `n` slices. -/
def IsVmap (func : List (NArr α) → NArr β) (splits : List (Option Nat)) (Gs : List (NArr α)) (n o : Nat) (T : NArr β) : Prop :=
  o < T.ndim ∧ T.dim o = n ∧ ∀ b < n, SameT ⟨T.ndim - 1, fun k => T.dim (if k < o then k else k + 1), fun idx => T.get fun k => if k < o then idx k else if k = o then b else idx (k - 1)⟩ (func (slicesAt splits Gs b))

end Spec

theorem sameShape_refl (a : NArr α) : SameShape a a := ⟨rfl, fun _ _ => rfl⟩

theorem sameShape_trans {a b c : NArr α} (h : SameShape a b) (h' : SameShape b c) : SameShape a c := ⟨h.1.trans h'.1, fun k hk => (h.2 k (by rw [h'.1]; exact hk)).trans (h'.2 k hk)⟩

theorem sameShape_symm {a b : NArr α} (h : SameShape a b) : SameShape b a := ⟨h.1.symm, fun k hk => (h.2 k (by rw [← h.1]; exact hk)).symm⟩

theorem slicesAt_eq (args : List (DND α)) (Gs : List (NArr α)) (b : Nat) : slicesAt (args.map fun x => x.split) Gs b = List.zipWith (fun x G => vmapArg b (G, x.split)) args Gs := by
  unfold slicesAt
  rw [List.zipWith_map_left]
  congr 1
  funext x G
  unfold vmapArg
  cases x.split with
  | none => rfl
  | some s =>
    have e : delAt s G.dim = fun k => G.dim (if k < s then k else k + 1) := by funext k; unfold delAt; split <;> rfl
    show _ = NArr.pick G s b
    unfold NArr.pick
    rw [e]
    rfl

/-- Local and global slices of one argument. -/
theorem vmapArg_same {P r : Nat} (hr : r < P) {x : DND α} {G : NArr α} (h : Rep P x G) (j st : Nat) (hj : ∀ s, x.split = some s → axisStart x.loc s r = st ∧ j < (x.loc r).dim s) :
    SameT (vmapArg j (x.loc r, x.split)) (vmapArg (j + st) (G, x.split)) := by
  have hn := h.2.2.2.1 r hr
  cases hs : x.split with
  | none =>
    have q := h.2.2.2.2
    rw [hs] at q
    refine ⟨⟨hn, (q r hr).1⟩, fun idx hin => (q r hr).2 idx fun k hk => ?_⟩
    rw [hn] at hk
    rw [(q r hr).1 k hk]
    exact hin k hk
  | some s =>
    have q := h.2.2.2.2
    rw [hs] at q
    obtain ⟨e1, e2⟩ := hj s hs
    have hsl := q.1
    have hd : ∀ k < G.ndim - 1, delAt s (x.loc r).dim k = delAt s G.dim k := by
      intro k hk
      unfold delAt
      by_cases c : k < s
      · rw [if_pos c, if_pos c]; exact (q.2.2 r hr).1 k (by omega) (by omega)
      · rw [if_neg c, if_neg c]; exact (q.2.2 r hr).1 (k + 1) (by omega) (by omega)
    refine ⟨⟨by show (x.loc r).ndim - 1 = G.ndim - 1; rw [hn], hd⟩, fun idx hin => ?_⟩
    show (x.loc r).get (insAt s j idx) = G.get (insAt s (j + st) idx)
    rw [(q.2.2 r hr).2 (insAt s j idx) (fun k hk => ?_)]
    · apply h.1
      intro k hk
      unfold shift insAt
      rw [e1]
      by_cases c : k = s
      · rw [if_pos c, if_neg (by omega), if_pos c, if_neg (by omega), if_pos c]
      · rw [if_neg c]
        split
        · rfl
        · rfl
    · unfold insAt
      rw [hn] at hk
      by_cases c : k < s
      · rw [if_pos c]
        have := hin k (by show k < G.ndim - 1; omega)
        have e : delAt s G.dim k = (x.loc r).dim k := by rw [← hd k (by omega)]; unfold delAt; rw [if_pos c]
        exact e ▸ this
      · rw [if_neg c]
        by_cases c' : k = s
        · rw [if_pos c', c']; exact e2
        · rw [if_neg c']
          have := hin (k - 1) (by show k - 1 < G.ndim - 1; omega)
          have e : delAt s G.dim (k - 1) = (x.loc r).dim k := by
            rw [← hd (k - 1) (by omega)]; unfold delAt; rw [if_neg (by omega), Nat.sub_add_cancel (by omega)]
          exact e ▸ this

/-- The extents of the slices. -/
theorem vmapArg_shape {P r : Nat} (hr : r < P) {x : DND α} {G : NArr α} (h : Rep P x G) (j b : Nat) : SameShape (vmapArg j (x.loc r, x.split)) (vmapArg b (G, x.split)) := by
  have hn := h.2.2.2.1 r hr
  have q := h.2.2.2.2
  cases hs : x.split with
  | none =>
    rw [hs] at q
    exact ⟨hn, (q r hr).1⟩
  | some s =>
    rw [hs] at q
    refine ⟨by show (x.loc r).ndim - 1 = G.ndim - 1; rw [hn], fun k hk => ?_⟩
    show delAt s (x.loc r).dim k = delAt s G.dim k
    have hk : k < G.ndim - 1 := hk
    have := q.1
    unfold delAt
    by_cases c : k < s
    · rw [if_pos c, if_pos c]; exact (q.2.2 r hr).1 k (by omega) (by omega)
    · rw [if_neg c, if_neg c]; exact (q.2.2 r hr).1 (k + 1) (by omega) (by omega)

theorem vmapArg_local {G : NArr α} (h : Local G) {sp : Option Nat} (hs : ∀ s, sp = some s → s < G.ndim) (b : Nat) : Local (vmapArg b (G, sp)) := by
  cases sp with
  | none => exact h
  | some s =>
    have := hs s rfl
    intro i j hij
    have hij : ∀ k < G.ndim - 1, i k = j k := hij
    show G.get (insAt s b i) = G.get (insAt s b j)
    apply h
    intro k hk
    unfold insAt
    by_cases c : k < s
    · rw [if_pos c, if_pos c]; exact hij k (by omega)
    · rw [if_neg c, if_neg c]
      by_cases c' : k = s
      · rw [if_pos c', if_pos c']
      · rw [if_neg c', if_neg c']; exact hij (k - 1) (by omega)

theorem zip_rel {γ δ ε ζ : Type} {R : γ → δ → Prop} {S : ε → ζ → Prop} {f : γ → ε} {g : γ → δ → ζ} {xs : List γ} {ys : List δ} (h : List.Forall₂ R xs ys) (hfg : ∀ x ∈ xs, ∀ y, R x y → S (f x) (g x y)) :
    List.Forall₂ S (xs.map f) (List.zipWith g xs ys) := by
  induction h with
  | nil => exact .nil
  | @cons x y xs ys hxy _ ih => exact .cons (hfg x (by simp) y hxy) (ih fun x hx => hfg x (by simp [hx]))

theorem zip_mem {γ δ ε : Type} {R : γ → δ → Prop} {Q : ε → Prop} {g : γ → δ → ε} {xs : List γ} {ys : List δ} (h : List.Forall₂ R xs ys) (hg : ∀ x y, R x y → Q (g x y)) : ∀ z ∈ List.zipWith g xs ys, Q z := by
  induction h with
  | nil => simp
  | @cons x y xs ys hxy _ ih =>
    intro z hz
    rw [List.zipWith_cons_cons, List.mem_cons] at hz
    rcases hz with rfl | hz
    · exact hg x y hxy
    · exact ih z hz

theorem vmapSizes_eq {args : List (DND α)} {r B : Nat} (h : ∀ x ∈ args, ∀ s, x.split = some s → (x.loc r).dim s = B) : ∀ n ∈ vmapSizes (args.map fun x => (x.loc r, x.split)), n = B := by
  intro n hn
  unfold vmapSizes at hn
  rw [List.mem_filterMap] at hn
  obtain ⟨a, ha, e⟩ := hn
  rw [List.mem_map] at ha
  obtain ⟨x, hx, rfl⟩ := ha
  cases hs : x.split with
  | none => simp [hs] at e
  | some s => simp [hs] at e; rw [← e]; exact h x hx s hs

theorem vmapSizes_ne {args : List (DND α)} {r : Nat} (h : ∃ x ∈ args, x.split ≠ none) : vmapSizes (args.map fun x => (x.loc r, x.split)) ≠ [] := by
  obtain ⟨x, hx, hs⟩ := h
  obtain ⟨s, hs⟩ := Option.ne_none_iff_exists'.mp hs
  intro e
  have : (x.loc r).dim s ∈ vmapSizes (args.map fun x => (x.loc r, x.split)) := by
    unfold vmapSizes
    rw [List.mem_filterMap]
    exact ⟨(x.loc r, x.split), List.mem_map.mpr ⟨x, hx, rfl⟩, by simp [hs]⟩
  rw [e] at this
  simp at this

/-- What one process computes. -/
theorem vmapLocal_eq {func : List (NArr α) → NArr β} {args : List (DND α)} {r B n : Nat} (hb : ∀ x ∈ args, ∀ s, x.split = some s → (x.loc r).dim s = B) (hne : ∃ x ∈ args, x.split ≠ none) {outDim : Int} {o : Nat}
    (hn : (func (args.map fun x => vmapArg 0 (x.loc r, x.split))).ndim + 1 = n) (ho : o < n) (hoo : outDim = o ∨ outDim = (o : Int) - n) :
    vmapLocal func outDim args r = .ok ⟨n, insAt o B (func (args.map fun x => vmapArg 0 (x.loc r, x.split))).dim, fun idx => (func (args.map fun x => vmapArg (idx o) (x.loc r, x.split))).get (delAt o idx)⟩ := by
  have h1 := vmapSizes_eq hb
  have h2 := vmapSizes_ne (r := r) hne
  unfold vmapLocal torchVmap
  cases hv : vmapSizes (args.map fun x => (x.loc r, x.split)) with
  | nil => exact absurd hv h2
  | cons b l =>
    rw [hv] at h1
    have hbB : b = B := h1 b (by simp)
    dsimp only
    rw [if_neg (by
      rw [List.any_eq_true]
      rintro ⟨m, hm, e⟩
      have := h1 m (by simp [hm])
      simp at e
      omega)]
    have em : ∀ j, (args.map fun x => (x.loc r, x.split)).map (vmapArg j) = args.map fun x => vmapArg j (x.loc r, x.split) := fun j => by rw [List.map_map]; rfl
    rw [em, hn, if_neg (by omega)]
    have eo : (if outDim < 0 then outDim + (n : Int) else outDim).toNat = o := by
      rcases hoo with h | h
      · rw [if_neg (by omega)]; omega
      · rw [if_pos (by omega)]; omega
    rw [eo, hbB]
    congr 2
    funext idx
    rw [em]

theorem firstError_none {loc : Nat → Except Err (NArr β)} {l : List Nat} (h : ∀ r ∈ l, ∃ t, loc r = .ok t) : firstError loc l = none := by
  induction l with
  | nil => rfl
  | cons r l ih =>
    obtain ⟨t, ht⟩ := h r (by simp)
    unfold firstError
    rw [ht]
    exact ih fun q hq => h q (by simp [hq])

theorem firstError_some {loc : Nat → Except Err (NArr β)} {l : List Nat} (h : ∃ r ∈ l, ∃ e, loc r = .error e) : ∃ e, firstError loc l = some e := by
  induction l with
  | nil => simp at h
  | cons r l ih =>
    unfold firstError
    cases hr : loc r with
    | error e => exact ⟨e, rfl⟩
    | ok t =>
      apply ih
      obtain ⟨q, hq, e, he⟩ := h
      rcases List.mem_cons.mp hq with rfl | hq
      · rw [hr] at he; simp at he
      · exact ⟨q, hq, e, he⟩

theorem sanitizeAxis_wrap {n o : Nat} (ho : o < n) {outDim : Int} (hoo : outDim = o ∨ outDim = (o : Int) - n) : sanitizeAxis n (some outDim) = .ok (some o) := by
  unfold sanitizeAxis
  rw [if_neg (by omega : n ≠ 0)]
  dsimp only
  rcases hoo with h | h
  · rw [if_pos (by omega), h]; simp
  · have e : (if outDim < 0 then outDim + (n : Int) else outDim) = o := by rw [if_pos (by omega)]; omega
    rw [if_neg (by omega), e, if_neg (by omega)]
    simp

/-- **C170.**  `func` of tensors with result of `m` axes; arguments of any number and dimension, at least one of them distributed, the distributed ones with the same number of slices on every process; `out_dims` any axis, also counted
from the end: slice `b` of the result is `func` of the slices `b`; the result is distributed along this axis, in the same way as the arguments. -/
theorem vmap_one_spec [Inhabited β] {P : Nat} (hP : 0 < P) {func : List (NArr α) → NArr β} (hf : TensorFn func) {args : List (DND α)} {Gs : List (NArr α)} (h : List.Forall₂ (Rep P) args Gs) (hne : ∃ x ∈ args, x.split ≠ none)
    {B : Nat → Nat} (hb : ∀ r < P, ∀ x ∈ args, ∀ s, x.split = some s → (x.loc r).dim s = B r) {o m : Nat} (hm : (func (slicesAt (args.map fun x => x.split) Gs 0)).ndim = m) (ho : o ≤ m) {outDim : Int}
    (hoo : outDim = o ∨ outDim = (o : Int) - (m + 1)) :
    ∃ z T, vmapOne P func outDim args = .ok z ∧ Rep P z T ∧ IsVmap func (args.map fun x => x.split) Gs ((List.range P).map B).sum o T ∧ z.split = some o ∧ ∀ r < P, (z.loc r).dim o = B r := by
  have hsl : ∀ b, slicesAt (args.map fun x => x.split) Gs b = List.zipWith (fun x G => vmapArg b (G, x.split)) args Gs := slicesAt_eq args Gs
  have shp : ∀ r < P, ∀ j b, SameShape (func (args.map fun x => vmapArg j (x.loc r, x.split))) (func (slicesAt (args.map fun x => x.split) Gs b)) := by
    intro r hr j b
    rw [hsl]
    exact hf.shape _ _ (zip_rel h fun x _ G hx => vmapArg_shape hr hx j b)
  have gsh : ∀ b b', SameShape (func (slicesAt (args.map fun x => x.split) Gs b)) (func (slicesAt (args.map fun x => x.split) Gs b')) := fun b b' => sameShape_trans (sameShape_symm (shp 0 hP 0 b)) (shp 0 hP 0 b')
  have hloc : ∀ b, Local (func (slicesAt (args.map fun x => x.split) Gs b)) := by
    intro b
    rw [hsl]
    exact hf.loc _ (zip_mem h fun x G hx => vmapArg_local hx.1 (fun s hs => (rep_split_lt hx hs).1) b)
  let N := ((List.range P).map B).sum
  let D := (func (slicesAt (args.map fun x => x.split) Gs 0)).dim
  let T : NArr β := ⟨m + 1, insAt o N D, fun idx => (func (slicesAt (args.map fun x => x.split) Gs (idx o))).get (delAt o idx)⟩
  have ev : ∀ r < P, vmapLocal func outDim args r =
      .ok ⟨m + 1, insAt o (B r) (func (args.map fun x => vmapArg 0 (x.loc r, x.split))).dim, fun idx => (func (args.map fun x => vmapArg (idx o) (x.loc r, x.split))).get (delAt o idx)⟩ := fun r hr =>
    vmapLocal_eq (hb r hr) hne (by rw [(shp r hr 0 0).1, hm]) (by omega) (by omega)
  have fe : firstError (vmapLocal func outDim args) (List.range P) = none := firstError_none fun r hr => ⟨_, ev r (List.mem_range.mp hr)⟩
  let loc : Nat → NArr β := fun r => okPart (vmapLocal func outDim args r)
  have lv : ∀ r < P, loc r = ⟨m + 1, insAt o (B r) (func (args.map fun x => vmapArg 0 (x.loc r, x.split))).dim, fun idx => (func (args.map fun x => vmapArg (idx o) (x.loc r, x.split))).get (delAt o idx)⟩ := by
    intro r hr
    show okPart (vmapLocal func outDim args r) = _
    rw [ev r hr]
    rfl
  have ln : ∀ r < P, (loc r).ndim = m + 1 := fun r hr => by rw [lv r hr]
  have ldo : ∀ r < P, (loc r).dim o = B r := by
    intro r hr
    rw [lv r hr]
    show insAt o (B r) _ o = B r
    unfold insAt
    rw [if_neg (by omega), if_pos rfl]
  have ldk : ∀ r < P, ∀ k < m + 1, k ≠ o → (loc r).dim k = T.dim k := by
    intro r hr k hk hko
    rw [lv r hr]
    show insAt o (B r) (func (args.map fun x => vmapArg 0 (x.loc r, x.split))).dim k = insAt o N D k
    unfold insAt
    by_cases c : k < o
    · rw [if_pos c, if_pos c]; exact (shp r hr 0 0).2 k (by omega)
    · rw [if_neg c, if_neg c, if_neg hko, if_neg hko]; exact (shp r hr 0 0).2 (k - 1) (by omega)
  have ast : ∀ r ≤ P, axisStart loc o r = ((List.range r).map B).sum := fun r hr => sum_congr_range fun q hq => ldo q (by omega)
  refine ⟨⟨isSplitShape P loc (some o), some o, loc, none⟩, T, ?_, ?_, ?_, rfl, ldo⟩
  · unfold vmapOne
    rw [fe]
    dsimp only
    have l0 : (okPart (vmapLocal func outDim args 0)).ndim = m + 1 := ln 0 hP
    rw [l0, sanitizeAxis_wrap (o := o) (by omega) (by omega)]
  · refine ⟨?_, ?_, ?_, ln, ?_⟩
    · intro i j hij
      have hij : ∀ k < m + 1, i k = j k := hij
      show (func (slicesAt _ Gs (i o))).get (delAt o i) = (func (slicesAt _ Gs (j o))).get (delAt o j)
      rw [hij o (by omega)]
      apply hloc
      intro k hk
      rw [(gsh _ 0).1, hm] at hk
      unfold delAt
      split
      · exact hij k (by omega)
      · exact hij (k + 1) (by omega)
    · show (isSplitShape P loc (some o)).length = m + 1
      rw [isSplitShape_length, ln 0 hP]
    · intro k hk
      have hk : k < m + 1 := hk
      show (isSplitShape P loc (some o)).getD k 0 = T.dim k
      rw [isSplitShape_getD P loc _ k (by rw [ln 0 hP]; exact hk)]
      by_cases c : k = o
      · subst c
        rw [if_pos rfl, ast P (Nat.le_refl _)]
        show N = insAt k N D k
        unfold insAt
        rw [if_neg (by omega), if_pos rfl]
      · rw [if_neg (fun e => c (Option.some.inj e).symm)]
        exact ldk 0 hP k hk c
    · show o < m + 1 ∧ axisStart loc o P = T.dim o ∧ _
      refine ⟨by omega, ?_, fun r hr => ⟨fun k hk hko => ldk r hr k hk hko, fun idx hin => ?_⟩⟩
      · rw [ast P (Nat.le_refl _)]
        show N = insAt o N D o
        unfold insAt
        rw [if_neg (by omega), if_pos rfl]
      · show (loc r).get idx = T.get (shift o (axisStart loc o r) idx)
        have hin : InB (loc r) idx := hin
        rw [lv r hr]
        show (func (args.map fun x => vmapArg (idx o) (x.loc r, x.split))).get (delAt o idx) = (func (slicesAt _ Gs (shift o (axisStart loc o r) idx o))).get (delAt o (shift o (axisStart loc o r) idx))
        have e1 : shift o (axisStart loc o r) idx o = idx o + axisStart loc o r := by unfold shift; rw [if_pos rfl]
        have e2 : delAt o (shift o (axisStart loc o r) idx) = delAt o idx := by
          funext k
          unfold delAt shift
          by_cases c : k < o
          · rw [if_pos c, if_pos c, if_neg (by omega)]
          · rw [if_neg c, if_neg c, if_neg (by omega)]
        rw [e1, e2]
        have hio := hin o (by rw [ln r hr]; omega)
        rw [ldo r hr] at hio
        have sm : SameT (func (args.map fun x => vmapArg (idx o) (x.loc r, x.split))) (func (slicesAt (args.map fun x => x.split) Gs (idx o + axisStart loc o r))) := by
          rw [hsl]
          refine hf.ext _ _ (zip_rel h fun x hx G hxG => vmapArg_same hr hxG (idx o) (axisStart loc o r) fun s hs => ⟨?_, by rw [hb r hr x hx s hs]; exact hio⟩)
          rw [ast r (by omega)]
          exact sum_congr_range fun q hq => hb q (by omega) x hx s hs
        apply sm.2
        intro k hk
        rw [(gsh _ 0).1, hm] at hk
        rw [(gsh _ 0).2 k (by omega)]
        unfold delAt
        by_cases c : k < o
        · rw [if_pos c]
          have := hin k (by rw [ln r hr]; omega)
          rw [ldk r hr k (by omega) (by omega)] at this
          have e : T.dim k = D k := by show insAt o N D k = D k; unfold insAt; rw [if_pos c]
          rw [e] at this
          exact this
        · rw [if_neg c]
          have := hin (k + 1) (by rw [ln r hr]; omega)
          rw [ldk r hr (k + 1) (by omega) (by omega)] at this
          have e : T.dim (k + 1) = D k := by show insAt o N D (k + 1) = D k; unfold insAt; rw [if_neg (by omega), if_neg (by omega), Nat.add_sub_cancel]
          rw [e] at this
          exact this
  · refine ⟨by show o < m + 1; omega, by show insAt o N D o = N; unfold insAt; rw [if_neg (by omega), if_pos rfl], fun b hbN => ⟨⟨?_, fun k hk => ?_⟩, fun idx _ => ?_⟩⟩
    · show m + 1 - 1 = _
      rw [(gsh b 0).1, hm]; omega
    · show insAt o N D (if k < o then k else k + 1) = _
      rw [(gsh b 0).1, hm] at hk
      rw [(gsh b 0).2 k (by omega)]
      unfold insAt
      by_cases c : k < o
      · rw [if_pos c, if_pos c]
      · rw [if_neg c, if_neg (by omega), if_neg (by omega), Nat.add_sub_cancel]
    · show (func (slicesAt _ Gs (if o < o then idx o else if o = o then b else idx (o - 1)))).get (delAt o fun k => if k < o then idx k else if k = o then b else idx (k - 1)) = _
      rw [if_neg (by omega), if_pos rfl]
      congr 1
      funext k
      unfold delAt
      dsimp only
      by_cases c : k < o
      · rw [if_pos c, if_pos c]
      · rw [if_neg c, if_neg (by omega), if_neg (by omega), Nat.add_sub_cancel]

theorem vmap_pairs [Inhabited β] {P : Nat} (hP : 0 < P) {args : List (DND α)} {Gs : List (NArr α)} (h : List.Forall₂ (Rep P) args Gs) (hne : ∃ x ∈ args, x.split ≠ none)
    {B : Nat → Nat} (hb : ∀ r < P, ∀ x ∈ args, ∀ s, x.split = some s → (x.loc r).dim s = B r) (L : List ((List (NArr α) → NArr β) × Int))
    (hL : ∀ fo ∈ L, TensorFn fo.1 ∧ ∃ o ≤ (fo.1 (slicesAt (args.map fun x => x.split) Gs 0)).ndim, fo.2 = (o : Int) ∨ fo.2 = (o : Int) - ((fo.1 (slicesAt (args.map fun x => x.split) Gs 0)).ndim + 1)) :
    ∃ zs, L.mapM (fun fo => vmapOne P fo.1 fo.2 args) = .ok zs ∧ List.Forall₂ (fun fo z => ∃ T, ∃ o : Nat, o ≤ (fo.1 (slicesAt (args.map fun x => x.split) Gs 0)).ndim ∧
      (fo.2 = (o : Int) ∨ fo.2 = (o : Int) - ((fo.1 (slicesAt (args.map fun x => x.split) Gs 0)).ndim + 1)) ∧
      Rep P z T ∧ IsVmap fo.1 (args.map fun x => x.split) Gs ((List.range P).map B).sum o T ∧ z.split = some o) L zs := by
  induction L with
  | nil => exact ⟨[], rfl, .nil⟩
  | cons fo L ih =>
    obtain ⟨zs, e, hz⟩ := ih fun fo h => hL fo (by simp [h])
    obtain ⟨hf, o, ho, hoo⟩ := hL fo (by simp)
    obtain ⟨z, T, e1, e2, e3, e4, _⟩ := vmap_one_spec hP hf h hne hb rfl ho hoo
    refine ⟨z :: zs, ?_, .cons ⟨T, o, ho, hoo, e2, e3, e4⟩ hz⟩
    rw [List.mapM_cons, e1, e]
    rfl

/-- Functions with several results: one axis for all of them ... -/
theorem vmap_spec [Inhabited β] {P : Nat} (hP : 0 < P) {args : List (DND α)} {Gs : List (NArr α)} (h : List.Forall₂ (Rep P) args Gs) (hne : ∃ x ∈ args, x.split ≠ none)
    {B : Nat → Nat} (hb : ∀ r < P, ∀ x ∈ args, ∀ s, x.split = some s → (x.loc r).dim s = B r) (funcs : List (List (NArr α) → NArr β)) (o : Nat)
    (hF : ∀ f ∈ funcs, TensorFn f ∧ o ≤ (f (slicesAt (args.map fun x => x.split) Gs 0)).ndim) :
    ∃ zs, vmap P funcs (.inl (o : Int)) args = .ok zs ∧ List.Forall₂ (fun f z => ∃ T, Rep P z T ∧ IsVmap f (args.map fun x => x.split) Gs ((List.range P).map B).sum o T ∧ z.split = some o) funcs zs := by
  unfold vmap
  dsimp only
  rw [if_neg (by simp)]
  obtain ⟨zs, e, hz⟩ := vmap_pairs hP h hne hb (funcs.zip (List.replicate funcs.length (o : Int))) (by
    rintro ⟨f, o'⟩ hm
    have h1 := List.of_mem_zip hm
    have h2 := (List.mem_replicate.mp h1.2).2
    obtain ⟨a, b⟩ := hF f h1.1
    exact ⟨a, o, b, .inl h2⟩)
  refine ⟨zs, e, ?_⟩
  clear e hF
  induction funcs generalizing zs with
  | nil =>
    cases hz
    exact .nil
  | cons f funcs ih =>
    rw [List.length_cons, List.replicate_succ, List.zip_cons_cons] at hz
    cases hz with
    | @cons _ z _ zs' h1 h2 =>
      refine .cons ?_ (ih zs' h2)
      obtain ⟨T, o', ho', hoo, r1, r2, r3⟩ := h1
      have : o' = o := by
        rcases hoo with hoo | hoo
        · have hoo : (o : Int) = (o' : Int) := hoo; omega
        · have hoo : (o : Int) = (o' : Int) - ((f (slicesAt (args.map fun x => x.split) Gs 0)).ndim + 1) := hoo
          dsimp only at ho'
          omega
      subst this
      exact ⟨T, r1, r2, r3⟩

/-- ... or one for each, also counted from the end; a tuple of another length is refused. -/
theorem vmap_tuple_spec [Inhabited β] {P : Nat} (hP : 0 < P) {args : List (DND α)} {Gs : List (NArr α)} (h : List.Forall₂ (Rep P) args Gs) (hne : ∃ x ∈ args, x.split ≠ none)
    {B : Nat → Nat} (hb : ∀ r < P, ∀ x ∈ args, ∀ s, x.split = some s → (x.loc r).dim s = B r) (funcs : List (List (NArr α) → NArr β)) (dims : List Int) :
    (dims.length ≠ funcs.length → vmap P funcs (.inr dims) args = .error .valueError) ∧
    (dims.length = funcs.length → (∀ fo ∈ funcs.zip dims, TensorFn fo.1 ∧ ∃ o ≤ (fo.1 (slicesAt (args.map fun x => x.split) Gs 0)).ndim,
        fo.2 = (o : Int) ∨ fo.2 = (o : Int) - ((fo.1 (slicesAt (args.map fun x => x.split) Gs 0)).ndim + 1)) →
      ∃ zs, vmap P funcs (.inr dims) args = .ok zs ∧ List.Forall₂ (fun fo z => ∃ T, ∃ o : Nat, o ≤ (fo.1 (slicesAt (args.map fun x => x.split) Gs 0)).ndim ∧
        (fo.2 = (o : Int) ∨ fo.2 = (o : Int) - ((fo.1 (slicesAt (args.map fun x => x.split) Gs 0)).ndim + 1)) ∧
        Rep P z T ∧ IsVmap fo.1 (args.map fun x => x.split) Gs ((List.range P).map B).sum o T ∧ z.split = some o) (funcs.zip dims) zs) := by
  unfold vmap
  refine ⟨fun hn => by dsimp only; rw [if_pos hn], fun he hF => ?_⟩
  dsimp only
  rw [if_neg (by omega)]
  exact vmap_pairs hP h hne hb _ hF

/-! ## What is refused -/

/-- Only replicated arguments: there is nothing to map over. -/
theorem vmap_replicated [Inhabited β] {P : Nat} (hP : 0 < P) (func : List (NArr α) → NArr β) (outDim : Int) (args : List (DND α)) (h : ∀ x ∈ args, x.split = none) : ∃ e, vmapOne P func outDim args = .error e := by
  have e : ∀ r, vmapLocal func outDim args r = .error .valueError := by
    intro r
    have : vmapSizes (args.map fun x => (x.loc r, x.split)) = [] := by
      unfold vmapSizes
      rw [List.filterMap_eq_nil_iff]
      intro a ha
      obtain ⟨x, hx, rfl⟩ := List.mem_map.mp ha
      simp [h x hx]
    unfold vmapLocal torchVmap
    rw [this]
  obtain ⟨e', he⟩ := firstError_some (loc := vmapLocal func outDim args) (l := List.range P) ⟨0, List.mem_range.mpr hP, _, e 0⟩
  unfold vmapOne
  rw [he]
  exact ⟨e', rfl⟩

/-- Two vectors of equal length that are distributed differently: the slices of all processes together correspond to each other, but the call fails on every process. -/
theorem vmap_distribution_violated [Inhabited β] (func : List (NArr α) → NArr β) (outDim : Int) (v w : Nat → α) : ∃ x y : DND α, Rep 2 x (vecA 4 v) ∧ Rep 2 y (vecA 4 w) ∧ x.split = some 0 ∧ y.split = some 0 ∧
    (∀ r < 2, vmapLocal func outDim [x, y] r = .error .valueError) ∧ ∃ e, vmapOne 2 func outDim [x, y] = .error e := by
  have rp : ∀ (n : Nat → Nat) (u : Nat → α), n 0 + n 1 = 4 → Rep 2 (⟨[4], some 0, fun r => ⟨1, fun _ => n r, fun idx => u (idx 0 + ((List.range r).map n).sum)⟩, none⟩ : DND α) (vecA 4 u) := by
    intro n u hn
    refine ⟨fun i j hij => congrArg u (hij 0 (by show 0 < 1; omega)), rfl, fun k hk => ?_, fun _ _ => rfl, by show 0 < 1; omega, ?_, fun r hr => ⟨fun k hk hk0 => ?_, fun idx hin => ?_⟩⟩
    · have : k = 0 := by have : k < 1 := hk; omega
      rw [this]; rfl
    · show ((List.range 2).map n).sum = 4
      simp [List.range_succ]; omega
    · have : k < 1 := hk
      omega
    · rfl
  refine ⟨_, _, rp (fun r => if r = 0 then 2 else 2) v (by simp), rp (fun r => if r = 0 then 1 else 3) w (by simp), rfl, rfl, ?_⟩
  have e : ∀ r < 2, vmapLocal func outDim [(⟨[4], some 0, fun r => ⟨1, fun _ => if r = 0 then 2 else 2, fun idx => v (idx 0 + ((List.range r).map fun r => if r = 0 then 2 else 2).sum)⟩, none⟩ : DND α),
      ⟨[4], some 0, fun r => ⟨1, fun _ => if r = 0 then 1 else 3, fun idx => w (idx 0 + ((List.range r).map fun r => if r = 0 then 1 else 3).sum)⟩, none⟩] r = .error .valueError := by
    intro r hr
    unfold vmapLocal torchVmap
    have : r = 0 ∨ r = 1 := by omega
    rcases this with rfl | rfl <;> rfl
  refine ⟨e, ?_⟩
  obtain ⟨e', he⟩ := firstError_some (l := List.range 2) ⟨0, List.mem_range.mpr (by omega), _, e 0 (by omega)⟩
  unfold vmapOne
  rw [he]
  exact ⟨e', rfl⟩

/-! ### The hypotheses are met -/

/-- The squares of all entries of the first tensor: a function of tensors. -/
theorem tensorFn_example : TensorFn (fun xs : List (NArr Int) => (⟨(xs.getD 0 (vecA 0 fun _ => 0)).ndim, (xs.getD 0 (vecA 0 fun _ => 0)).dim, fun idx => (xs.getD 0 (vecA 0 fun _ => 0)).get idx * (xs.getD 0 (vecA 0 fun _ => 0)).get idx⟩ : NArr Int)) where
  loc := by
    intro xs h
    cases xs with
    | nil => intro i j hij; exact rfl
    | cons x xs => intro i j hij; show x.get i * x.get i = x.get j * x.get j; rw [h x (by simp) i j hij]
  shape := by
    intro xs ys h
    cases h with
    | nil => exact sameShape_refl _
    | cons h _ => exact h
  ext := by
    intro xs ys h
    cases h with
    | nil => exact ⟨sameShape_refl _, fun _ _ => rfl⟩
    | @cons x y _ _ h _ => exact ⟨h.1, fun idx hin => by show x.get idx * x.get idx = y.get idx * y.get idx; rw [h.2 idx hin]⟩

/-- A 6 × 3 matrix distributed along its rows over 4 processes and a replicated vector; the slices become columns. -/
example (v : Nat → Nat → Int) (u : Nat → Int) : ∃ z T, vmapOne 4 (fun xs : List (NArr Int) => (⟨(xs.getD 0 (vecA 0 fun _ => 0)).ndim, (xs.getD 0 (vecA 0 fun _ => 0)).dim, fun idx => (xs.getD 0 (vecA 0 fun _ => 0)).get idx * (xs.getD 0 (vecA 0 fun _ => 0)).get idx⟩ : NArr Int))
    (-1) [evenA 4 (matA 6 3 v) 0, wholeA (vecA 5 u)] = .ok z ∧ Rep 4 z T ∧ z.split = some 1 ∧ T.dim 1 = 6 := by
  obtain ⟨z, T, h1, h2, h3, h4, _⟩ := vmap_one_spec (P := 4) (by omega) tensorFn_example (args := [evenA 4 (matA 6 3 v) 0, wholeA (vecA 5 u)]) (Gs := [matA 6 3 v, vecA 5 u])
    (.cons (goodRep_even (P := 4) (by omega) (matA_local 6 3 v) (s := 0) (by show 0 < 2; omega)).1 (.cons (rep_wholeA (vecA_local 5 u) 4) .nil)) ⟨evenA 4 (matA 6 3 v) 0, by simp, by show some 0 ≠ none; simp⟩
    (B := evenSize 6 4) (by
      intro r _ x hx s hs
      simp only [List.mem_cons, List.not_mem_nil, or_false] at hx
      rcases hx with rfl | rfl
      · have : s = 0 := (Option.some.inj hs).symm
        subst this; rfl
      · cases hs) (o := 1) (m := 1) rfl (by omega) (outDim := -1) (.inr rfl)
  exact ⟨z, T, h1, h2, h4, by rw [h3.2.1]; decide +kernel⟩

end Heat
