import Verif.Model.LikeFactory
import Verif.Proof.Chunk
import Verif.Proof.StrideTricks
import Verif.Spec.Dist
import Mathlib.Tactic.SplitIfs
/-!
# C181: constant arrays
-/
namespace Heat
open Spec
variable {α : Type}
namespace Spec

/-- The array of the given shape with the value `v` everywhere. -/
def constant (shape : List Nat) (v : α) : NArr α := ⟨shape.length, fun k => shape.getD k 0, fun _ => v⟩

/-- The canonical extents of the processes. -/
def Canonical (P : Nat) (x : DND α) : Prop := ∀ r < P, ∀ k < x.gshape.length, (x.loc r).dim k = if x.split = some k then evenSize (x.gshape.getD k 0) P r else x.gshape.getD k 0

end Spec

theorem chunk_even_len (n r P : Nat) : (chunkRange n r P).2 - (chunkRange n r P).1 = evenSize n P r := by
  unfold chunkRange evenSize
  dsimp only
  by_cases h : n % P > r
  · rw [if_pos h, if_pos h]
    show r * (n / P + 1) + (n / P + 1) - r * (n / P + 1) = _
    rw [Nat.add_sub_cancel_left]
  · rw [if_neg h, if_neg h]
    show r * (n / P) + n % P + n / P - (r * (n / P) + n % P) = _
    rw [Nat.add_sub_cancel_left, Nat.add_zero]

theorem factoryLoc_none (P : Nat) (shape : List Nat) (v : α) (r : Nat) : factoryLoc P shape none v r = constant shape v := by
  unfold factoryLoc chunk sanitizeAxis
  simp [constTensor, constant]

theorem factoryLoc_some (P : Nat) (shape : List Nat) {a : Int} {s : Nat} (h : sanitizeAxis shape.length (some a) = .ok (some s)) (v : α) (r : Nat) :
    factoryLoc P shape (some a) v r = ⟨shape.length, fun k => if k < shape.length then if k ≠ s then shape.getD k 0 else evenSize (shape.getD s 0) P r else 0, fun _ => v⟩ := by
  unfold factoryLoc chunk
  rw [h]
  dsimp only
  unfold constTensor
  rw [chunk_even_len]
  simp only [List.length_map, List.length_range, NArr.mk.injEq, true_and, and_true]
  funext k
  by_cases hk : k < shape.length
  · simp [hk, List.getD]
  · simp [hk, List.getD]

theorem sanitizeAxis_lt {n : Nat} {a : Int} {s : Nat} (h : sanitizeAxis n (some a) = .ok (some s)) : s < n := by
  by_cases hn : n = 0
  · subst hn
    unfold sanitizeAxis at h
    simp at h
  · rw [sanitizeAxis_some _ _ (by omega)] at h
    split_ifs at h with c d
    · simp only [Except.ok.injEq, Option.some.injEq] at h
      omega
    · simp only [Except.ok.injEq, Option.some.injEq] at h
      omega

theorem even_total (n P : Nat) (hP : 0 < P) : ((List.range P).map (evenSize n P)).sum = n := by
  have : ∀ r, ((List.range r).map (evenSize n P)).sum = (chunkRange n r P).1 := by
    intro r
    induction r with
    | zero => rw [chunkRange_zero]; rfl
    | succ r ih =>
      rw [List.range_succ, List.map_append, List.sum_append, ih]
      unfold chunkRange evenSize
      simp only [List.map_cons, List.map_nil, List.sum_cons, List.sum_nil, Nat.add_zero]
      split <;> split <;> simp only [Nat.add_mul, Nat.mul_add] <;> (try split) <;> simp_all <;> omega
  rw [this P, chunkRange_at_P _ _ hP]

/-- **C181.**  `zeros`, `ones`, `full` (and `empty`) make an array with the given shape, type, device and communicator and the given split axis, that has the value everywhere and that is distributed in the canonical way; for every shape, also with extents 0 and without axes. -/
theorem factory_spec (size : Nat → Nat) (cast : Dt → α → α) (v : α) (shape : List Nat) (dtype : Dt) (split : Option Int) (device comm : Nat) {s : Option Nat} (hP : 0 < size comm) (hs : sanitizeAxis shape.length split = .ok s) :
    ∃ x, factory size cast v (shape.map Int.ofNat) dtype split device comm = .ok x ∧ x.dnd.gshape = shape ∧ x.dnd.split = s ∧ x.dtype = dtype ∧ x.device = device ∧ x.comm = comm ∧ x.dnd.balanced = some true ∧
      Rep (size comm) x.dnd (constant shape (cast dtype v)) ∧ Canonical (size comm) x.dnd := by
  have hsh : sanitizeShape (shape.map Int.ofNat) = .ok shape := by
    unfold sanitizeShape
    rw [if_neg]
    · simp [List.map_map, Function.comp_def]
    · simp
  have hf : factory size cast v (shape.map Int.ofNat) dtype split device comm = .ok ⟨⟨shape, s, factoryLoc (size comm) shape split (cast dtype v), some true⟩, dtype, device, comm⟩ := by
    unfold factory
    rw [hsh]
    dsimp only
    rw [hs]
  refine ⟨_, hf, rfl, rfl, rfl, rfl, rfl, rfl, ?_, ?_⟩
  · cases split with
    | none =>
      have : s = none := by
        unfold sanitizeAxis at hs
        simpa using hs.symm
      subst this
      refine ⟨fun _ _ _ => rfl, rfl, fun _ _ => rfl, fun r _ => ?_, fun r _ => ?_⟩
      · show (factoryLoc _ _ _ _ r).ndim = _
        rw [factoryLoc_none]
      · show (∀ k < _, (factoryLoc _ _ _ _ r).dim k = _) ∧ ∀ idx, InB (factoryLoc _ _ _ _ r) idx → (factoryLoc _ _ _ _ r).get idx = _
        rw [factoryLoc_none]
        exact ⟨fun _ _ => rfl, fun _ _ => rfl⟩
    | some a =>
      cases s with
      | none =>
        unfold sanitizeAxis at hs
        by_cases hn : shape.length = 0
        · have : shape = [] := List.length_eq_zero_iff.mp hn
          subst this
          have e : ∀ r, factoryLoc (size comm) ([] : List Nat) (some a) (cast dtype v) r = constant [] (cast dtype v) := by
            intro r
            unfold factoryLoc chunk sanitizeAxis
            simp [constTensor, constant]
          refine ⟨fun _ _ _ => rfl, rfl, fun _ _ => rfl, fun r _ => ?_, fun r _ => ?_⟩
          · show (factoryLoc _ _ _ _ r).ndim = _
            rw [e]
          · dsimp only
            rw [e]
            exact ⟨fun _ _ => rfl, fun _ _ => rfl⟩
        · exfalso
          have h2 : sanitizeAxis shape.length (some a) = .ok none := by
            unfold sanitizeAxis
            exact hs
          rw [sanitizeAxis_some _ _ (by omega)] at h2
          split_ifs at h2 <;> simp at h2
      | some s =>
        have hlt := sanitizeAxis_lt hs
        have e := factoryLoc_some (size comm) shape hs (cast dtype v)
        refine ⟨fun _ _ _ => rfl, rfl, fun _ _ => rfl, fun r _ => ?_, hlt, ?_, fun r _ => ⟨fun k hk hks => ?_, fun idx _ => ?_⟩⟩
        · show (factoryLoc _ _ _ _ r).ndim = _
          rw [e]
          rfl
        · show ((List.range (size comm)).map fun q => (factoryLoc _ _ _ _ q).dim s).sum = shape.getD s 0
          simp only [e, hlt, if_true, ne_eq, not_true, if_false]
          exact even_total _ _ hP
        · show (factoryLoc _ _ _ _ r).dim k = _
          rw [e]
          have : k < shape.length := hk
          simp [this, hks, constant]
        · show (factoryLoc _ _ _ _ r).get idx = _
          rw [e]
          rfl
  · intro r _ k hk
    have hk' : k < shape.length := hk
    show (factoryLoc _ _ _ _ r).dim k = if s = some k then _ else _
    cases split with
    | none =>
      have : s = none := by
        unfold sanitizeAxis at hs
        simpa using hs.symm
      subst this
      rw [factoryLoc_none]
      rfl
    | some a =>
      cases s with
      | none =>
        exfalso
        rw [sanitizeAxis_some _ _ (by omega)] at hs
        split_ifs at hs <;> simp at hs
      | some s =>
        rw [factoryLoc_some _ _ hs]
        dsimp only
        rw [if_pos hk']
        by_cases c : k = s
        · subst c
          simp
        · rw [if_pos c, if_neg (by simpa using fun h => c h.symm)]

/-- **C181.**  Negative extents and split axes out of range are refused. -/
theorem factory_errors (size : Nat → Nat) (cast : Dt → α → α) (v : α) (shape : List Int) (dtype : Dt) (split : Option Int) (device comm : Nat) (h : (∃ e ∈ shape, e < 0) ∨ (shape ≠ [] ∧ ∃ a, split = some a ∧ (a < -(shape.length : Int) ∨ (shape.length : Int) ≤ a))) :
    factory size cast v shape dtype split device comm = .error .valueError := by
  unfold factory sanitizeShape
  by_cases hn : ∃ e ∈ shape, e < 0
  · rw [if_pos (by simpa using hn)]
  · rw [if_neg (by simpa using hn)]
    rcases h with h | ⟨hne, a, rfl, ha⟩
    · exact absurd h hn
    · have hl : 0 < shape.length := List.length_pos_iff.mpr hne
      dsimp only
      rw [List.length_map, sanitizeAxis_some _ _ hl, if_neg (by omega)]

/-- **C181.**  `zeros_like(a)` etc. of an array on the default communicator: the shape, type, split axis and device of `a`, overridden by the given ones, and the value everywhere. -/
theorem like_partial (size : Nat → Nat) (cast : Dt → α → α) (v : α) (a : FArr α) (dtype : Option Dt) (split : Option Int) (device : Option Nat) {s : Option Nat} (hP : 0 < size 0) (hc : a.comm = 0) (ha : ∀ t, a.dnd.split = some t → t < a.dnd.gshape.length)
    (hs : match split with | none => s = a.dnd.split | some b => sanitizeAxis a.dnd.gshape.length (some b) = .ok s) :
    ∃ x, constLike size cast v a dtype split device none = .ok x ∧ x.dnd.gshape = a.dnd.gshape ∧ x.dnd.split = s ∧ x.dtype = dtype.getD a.dtype ∧ x.device = device.getD a.device ∧ x.comm = a.comm ∧
      Rep (size a.comm) x.dnd (constant a.dnd.gshape (cast (dtype.getD a.dtype) v)) ∧ Canonical (size a.comm) x.dnd := by
  unfold constLike factoryLike
  have hs' : sanitizeAxis a.dnd.gshape.length (likeSplit a split) = .ok s := by
    cases split with
    | some b => exact hs
    | none =>
      dsimp only at hs
      subst hs
      unfold likeSplit
      dsimp only
      cases h : a.dnd.split with
      | none =>
        unfold sanitizeAxis
        simp
      | some t =>
        have := ha t h
        show sanitizeAxis _ (some (t : Int)) = _
        rw [sanitizeAxis_some _ _ (by omega), if_pos (by omega), if_neg (by omega), Int.toNat_natCast]
  obtain ⟨x, h1, h2, h3, h4, h5, h6, _, h8, h9⟩ := factory_spec size cast v a.dnd.gshape (dtype.getD a.dtype) _ (device.getD a.device) 0 hP hs'
  refine ⟨x, h1, h2, h3, h4, h5, by rw [h6, hc], by rw [hc]; exact h8, by rw [hc]; exact h9⟩

/-- **C181, defect.**  The communicator of `a` is not used: without an explicit one the result is on the default communicator. -/
theorem like_comm_violated (size : Nat → Nat) (cast : Dt → α → α) (v : α) {a x : FArr α} (hc : a.comm ≠ 0) (dtype : Option Dt) (split : Option Int) (device : Option Nat) (h : constLike size cast v a dtype split device none = .ok x) : x.comm ≠ a.comm := by
  unfold constLike factoryLike factory at h
  split at h
  · cases h
  · split at h
    · cases h
    · rw [Except.ok.injEq] at h
      rw [← h]
      exact fun c => hc c.symm

/-- **C181, defect.**  The result does not have the data distribution of `a` if `a` is unbalanced: two processes with 3 and 1 elements, the result has 2 and 2. -/
theorem like_distribution_violated (cast : Dt → α → α) (v : α) : ∃ (a x : FArr α), Rep 2 a.dnd (constant [4] v) ∧ a.comm = 0 ∧ constLike (fun _ => 2) cast v a none none none none = .ok x ∧ (a.dnd.loc 0).dim 0 = 3 ∧ (x.dnd.loc 0).dim 0 = 2 := by
  refine ⟨⟨⟨[4], some 0, fun r => constant [if r = 0 then 3 else 1] v, none⟩, .float32, 0, 0⟩, _, ?_, rfl, rfl, rfl, ?_⟩
  · refine ⟨fun _ _ _ => rfl, rfl, fun _ _ => rfl, fun r _ => rfl, Nat.zero_lt_one, rfl, fun r _ => ⟨fun k hk hks => ?_, fun _ _ => rfl⟩⟩
    have : k < 1 := hk
    omega
  · show (factoryLoc 2 [4] (some 0) _ 0).dim 0 = 2
    rw [factoryLoc_some 2 [4] (a := 0) (s := 0) (by decide)]
    rfl

/-- **C181, defect.**  The split axis cannot be overridden by `None`. -/
theorem like_replicated_violated (size : Nat → Nat) (cast : Dt → α → α) (v : α) {a x : FArr α} {t : Nat} (ha : a.dnd.split = some t) (ht : t < a.dnd.gshape.length) (dtype : Option Dt) (device comm : Option Nat) (h : constLike size cast v a dtype none device comm = .ok x) : x.dnd.split = some t := by
  unfold constLike factoryLike factory at h
  split at h
  · cases h
  · rename_i sh hsh
    have hsh' : sh = a.dnd.gshape := by
      unfold sanitizeShape at hsh
      split_ifs at hsh
      rw [Except.ok.injEq] at hsh
      rw [← hsh]
      simp [List.map_map, Function.comp_def]
    subst hsh'
    split at h
    · cases h
    · rename_i s hs
      rw [Except.ok.injEq] at h
      rw [← h]
      dsimp only
      unfold likeSplit at hs
      dsimp only at hs
      rw [ha] at hs
      have : sanitizeAxis a.dnd.gshape.length (some (t : Int)) = .ok s := hs
      rw [sanitizeAxis_some _ _ (by omega), if_pos (by omega), if_neg (by omega), Int.toNat_natCast, Except.ok.injEq] at this
      exact this.symm

/-- **C181, defect.**  `full_like` does not have the type of `a` by default, but `float32` (or `complex64` for a complex value). -/
theorem full_like_dtype_violated (size : Nat → Nat) (cast : Dt → α → α) (cplx : Bool) (v : α) {a x : FArr α} (split : Option Int) (device comm : Option Nat) (h : fullLike size cast cplx v a none split device comm = .ok x) : x.dtype = if cplx then .complex64 else .float32 := by
  unfold fullLike factoryLike fullArr factory at h
  split at h
  · cases h
  · split at h
    · cases h
    · rw [Except.ok.injEq] at h
      rw [← h]
      rfl

/-- **C181, defect.**  With a complex value the requested type is ignored: `full(shape, 1j, dtype=complex128)` is `complex64`. -/
theorem full_complex_violated (size : Nat → Nat) (cast : Dt → α → α) (v : α) {x : FArr α} (shape : List Int) (dtype : Dt) (split : Option Int) (device comm : Nat) (h : fullArr size cast true v shape dtype split device comm = .ok x) : x.dtype = .complex64 := by
  unfold fullArr factory at h
  split at h
  · cases h
  · split at h
    · cases h
    · rw [Except.ok.injEq] at h
      rw [← h]
      rfl

/-- **C181.**  With a real value `full` is the constant array of the requested type. -/
theorem full_spec_partial (size : Nat → Nat) (cast : Dt → α → α) (v : α) (shape : List Nat) (dtype : Dt) (split : Option Int) (device comm : Nat) {s : Option Nat} (hP : 0 < size comm) (hs : sanitizeAxis shape.length split = .ok s) :
    ∃ x, fullArr size cast false v (shape.map Int.ofNat) dtype split device comm = .ok x ∧ x.dtype = dtype ∧ x.dnd.split = s ∧ Rep (size comm) x.dnd (constant shape (cast dtype v)) := by
  obtain ⟨x, h1, _, h3, h4, _, _, _, h8, _⟩ := factory_spec size cast v shape dtype split device comm hP hs
  exact ⟨x, h1, h4, h3, h8⟩

/-! ## Cases -/

example : sanitizeAxis [3, 7].length (some (-1)) = .ok (some 1) := by decide

/-- `zeros((5, 2), split=0)` on three processes: 2, 2 and 1 rows. -/
example : ∃ x, factory (fun _ => 3) (fun _ (v : Nat) => v) 0 [5, 2] .float32 (some 0) 0 0 = .ok x ∧ (x.dnd.loc 0).shape = [2, 2] ∧ (x.dnd.loc 2).shape = [1, 2] := ⟨_, rfl, by decide, by decide⟩

/-- An array on a communicator of its own: its `zeros_like` exists and is elsewhere. -/
example : ∃ a x : FArr Nat, a.comm ≠ 0 ∧ constLike (fun c => if c = 0 then 4 else 1) (fun _ v => v) 0 a none none none none = .ok x ∧ (a.dnd.loc 0).dim 0 = 8 ∧ (x.dnd.loc 0).dim 0 = 2 := ⟨⟨⟨[8], some 0, fun _ => constant [8] 1, some true⟩, .int64, 0, 1⟩, _, by decide, rfl, rfl, by decide⟩

end Heat
