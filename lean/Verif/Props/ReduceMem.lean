import Verif.Model.ReduceMem
import Verif.Props.Memory
import Mathlib.Tactic.IntervalCases
/-!
# C180: reductions over tensors in memory
-/
namespace Heat
variable {α : Type}
namespace Spec

/-- Every element of the result is the reduction of the elements at the same index on all processes. -/
def Reduced (F : Nat → (Nat → Option α) → Option α) (me : Nat) (src : Nat → Tens α) (sh : List Nat) (r : Tens α) : Prop := r.shape = sh ∧ ∀ idx, InsideL idx sh → r.get idx = F me fun p => (src p).get idx

end Spec
open Spec

theorem realAxes_prod : ∀ {sh st : List Nat}, sh.length = st.length → ((realAxes sh st).map (·.1)).prod = sh.prod
  | [], [], _ => rfl
  | n :: sh, s :: st, h => by
    have ih := realAxes_prod (sh := sh) (st := st) (by simpa using h)
    unfold realAxes at *
    rw [List.zip_cons_cons, List.filter_cons]
    by_cases c : n = 1
    · subst c
      simpa using ih
    · rw [if_pos (by simpa using c), List.map_cons, List.prod_cons, List.prod_cons, ih]

/-- In a contiguous tensor the elements are in row-major order. -/
theorem rowmajor_dot : ∀ {sh st idx : List Nat}, sh.length = st.length → (realAxes sh st).map (·.2) = rowStrides ((realAxes sh st).map (·.1)) → InsideL idx sh → strideDot idx st = strideDot idx (rowStrides sh)
  | [], [], idx, _, _, h => by cases h; rfl
  | n :: sh, s :: st, idx, hl, hc, h => by
    cases h with
    | @cons i _ idx' _ hi h' =>
      have hl' : sh.length = st.length := by simpa using hl
      have hp := realAxes_prod hl'
      have ih := rowmajor_dot (sh := sh) (st := st) (idx := idx') hl'
      rw [strideDot_cons]
      show _ = strideDot (i :: idx') (sh.prod :: rowStrides sh)
      rw [strideDot_cons]
      unfold realAxes at hc ih hp
      rw [List.zip_cons_cons, List.filter_cons] at hc
      by_cases c : n = 1
      · subst c
        rw [if_neg (by simp)] at hc
        have : i = 0 := by omega
        subst this
        rw [ih hc h', Nat.zero_mul, Nat.zero_mul]
      · rw [if_pos (by simpa using c)] at hc
        simp only [List.map_cons] at hc
        unfold rowStrides at hc
        rw [List.cons.injEq] at hc
        rw [ih hc.2 h', hc.1, hp]

/-- The general statement: an element inside the block is reduced with the elements at the same distance from the first one. -/
theorem reduceBlock_get (F : Nat → (Nat → Option α) → Option α) (me : Nat) (src : Nat → Tens α) (recv : Tens α) {idx : List Nat} (hd : strideDot idx recv.strides < recv.shape.prod) :
    (reduceBlock F me src recv).get idx = F me fun p => (src p).sto ((src p).off + strideDot idx recv.strides) := by
  unfold reduceBlock Tens.get
  dsimp only
  rw [if_pos ⟨by omega, by omega⟩]
  congr 1
  funext p
  congr 2
  omega

/-- **C180.**  Reductions are elementwise if all processes have the same shape and strides and the elements fill a block of memory, for example for transposed tensors; also in place. -/
theorem reduce_same_layout (F : Nat → (Nat → Option α) → Option α) (me : Nat) {bufs : Nat → RBuf α} {sh st : List Nat} (hsh : (bufs me).recv.shape = sh) (hst : (bufs me).recv.strides = st) (hsrc : ∀ p, (bufs p).source.strides = st) (hdense : ∀ idx, InsideL idx sh → strideDot idx st < sh.prod) :
    Reduced F me (fun p => (bufs p).source) sh (reduceLike F me bufs) := by
  refine ⟨hsh, fun idx h => ?_⟩
  unfold reduceLike
  rw [reduceBlock_get _ _ _ _ (by rw [hst, hsh]; exact hdense idx h)]
  congr 1
  funext p
  unfold Tens.get
  rw [hsrc p, hst]

/-- **C180.**  Reductions are elementwise if all buffers are contiguous. -/
theorem reduce_contig (F : Nat → (Nat → Option α) → Option α) (me : Nat) {bufs : Nat → RBuf α} {sh : List Nat} (hr : (bufs me).recv.isContig = true ∧ (bufs me).recv.shape = sh ∧ sh.length = (bufs me).recv.strides.length)
    (hs : ∀ p, (bufs p).source.isContig = true ∧ (bufs p).source.shape = sh ∧ sh.length = (bufs p).source.strides.length) : Reduced F me (fun p => (bufs p).source) sh (reduceLike F me bufs) := by
  have key : ∀ t : Tens α, t.isContig = true → t.shape = sh → sh.length = t.strides.length → ∀ idx, InsideL idx sh → strideDot idx t.strides = strideDot idx (rowStrides sh) := by
    intro t hc hsh hl idx h
    subst hsh
    unfold Tens.isContig at hc
    exact rowmajor_dot hl (of_decide_eq_true hc) h
  refine ⟨hr.2.1, fun idx h => ?_⟩
  unfold reduceLike
  have e := key _ hr.1 hr.2.1 hr.2.2 idx h
  rw [reduceBlock_get _ _ _ _ (by rw [e, hr.2.1]; exact (row_pos h).1), e]
  congr 1
  funext p
  unfold Tens.get
  rw [key _ (hs p).1 (hs p).2.1 (hs p).2.2 idx h]

/-- **C180.**  With a send buffer: if on every process the send buffer is contiguous, or strides or offsets of send and receive buffer differ, the result is the elementwise reduction of the send buffers as they were before the call. -/
theorem reduce_send_partial (F : Nat → (Nat → Option α) → Option α) (me : Nat) {s r : Nat → Tens α} {sh : List Nat} (hp : sh.prod ≠ 0) (hss : ∀ p, (s p).shape = sh ∧ (s p).strides.length = sh.length) (hrs : ∀ p, (r p).shape = sh ∧ (r p).strides.length = sh.length)
    (hc : ∀ p, (s p).isContig = true ∨ (s p).strides ≠ (r p).strides ∨ (s p).off ≠ (r p).off) :
    ∃ bufs : Nat → RBuf α, (∀ p, (RBuf.mk (some (s p)) (r p)).harmonize = .ok (bufs p)) ∧ Reduced F me s sh (reduceLike F me bufs) := by
  have hh : ∀ p, (RBuf.mk (some (s p)) (r p)).harmonize = .ok (if (s p).strides ≠ (r p).strides ∨ (s p).off ≠ (r p).off then ⟨some (s p).contiguous, (r p).contiguous⟩ else ⟨some (s p), r p⟩) := by
    intro p
    unfold RBuf.harmonize
    dsimp only
    rw [if_neg (by rw [(hss p).1, (hrs p).1]; exact fun c => c rfl)]
    split_ifs <;> rfl
  refine ⟨fun p => if (s p).strides ≠ (r p).strides ∨ (s p).off ≠ (r p).off then ⟨some (s p).contiguous, (r p).contiguous⟩ else ⟨some (s p), r p⟩, hh, ?_⟩
  have hcs : ∀ t : Tens α, t.shape = sh → t.strides.length = sh.length → t.contiguous.isContig = true ∧ t.contiguous.shape = sh ∧ sh.length = t.contiguous.strides.length := by
    intro t h1 h2
    have h3 := contiguous_same t
    refine ⟨contiguous_isContig (by rw [h1]; exact hp), by rw [h3.1, h1], ?_⟩
    rw [contiguous_strides_length (by rw [h2, h1]), h1]
  have hsrc : ∀ p, ((fun p => if (s p).strides ≠ (r p).strides ∨ (s p).off ≠ (r p).off then (⟨some (s p).contiguous, (r p).contiguous⟩ : RBuf α) else ⟨some (s p), r p⟩) p).source.isContig = true ∧
      ((fun p => if (s p).strides ≠ (r p).strides ∨ (s p).off ≠ (r p).off then (⟨some (s p).contiguous, (r p).contiguous⟩ : RBuf α) else ⟨some (s p), r p⟩) p).source.shape = sh ∧
      sh.length = ((fun p => if (s p).strides ≠ (r p).strides ∨ (s p).off ≠ (r p).off then (⟨some (s p).contiguous, (r p).contiguous⟩ : RBuf α) else ⟨some (s p), r p⟩) p).source.strides.length ∧
      ∀ idx, InsideL idx sh → ((fun p => if (s p).strides ≠ (r p).strides ∨ (s p).off ≠ (r p).off then (⟨some (s p).contiguous, (r p).contiguous⟩ : RBuf α) else ⟨some (s p), r p⟩) p).source.get idx = (s p).get idx := by
    intro p
    dsimp only
    split_ifs with c
    · obtain ⟨a, b, d⟩ := hcs (s p) (hss p).1 (hss p).2
      exact ⟨a, b, d, fun idx h => (contiguous_same (s p)).2 idx (by rw [(hss p).1]; exact h)⟩
    · have : (s p).isContig = true := by
        rcases hc p with h | h
        · exact h
        · exact absurd h c
      exact ⟨this, (hss p).1, (hss p).2.symm, fun _ _ => rfl⟩
  have hrec : ((fun p => if (s p).strides ≠ (r p).strides ∨ (s p).off ≠ (r p).off then (⟨some (s p).contiguous, (r p).contiguous⟩ : RBuf α) else ⟨some (s p), r p⟩) me).recv.isContig = true ∧
      ((fun p => if (s p).strides ≠ (r p).strides ∨ (s p).off ≠ (r p).off then (⟨some (s p).contiguous, (r p).contiguous⟩ : RBuf α) else ⟨some (s p), r p⟩) me).recv.shape = sh ∧
      sh.length = ((fun p => if (s p).strides ≠ (r p).strides ∨ (s p).off ≠ (r p).off then (⟨some (s p).contiguous, (r p).contiguous⟩ : RBuf α) else ⟨some (s p), r p⟩) me).recv.strides.length := by
    dsimp only
    split_ifs with c
    · exact hcs (r me) (hrs me).1 (hrs me).2
    · have h1 : (s me).isContig = true := by
        rcases hc me with h | h
        · exact h
        · exact absurd h c
      have h2 : (s me).strides = (r me).strides := by
        by_contra c'
        exact c (Or.inl c')
      refine ⟨?_, (hrs me).1, (hrs me).2.symm⟩
      unfold Tens.isContig at *
      rw [(hrs me).1, ← h2, ← (hss me).1]
      exact h1
  have := reduce_contig F me hrec fun p => ⟨(hsrc p).1, (hsrc p).2.1, (hsrc p).2.2.1⟩
  refine ⟨this.1, fun idx h => ?_⟩
  rw [this.2 idx h]
  congr 1
  funext p
  exact (hsrc p).2.2.2 idx h

/-- **C180, defect.**  With gaps between the elements (a slice with a step, in place or with equal strides) the elements beyond the first `numel` places of memory are not reduced. -/
theorem reduce_gaps_violated (F : Nat → (Nat → Option α) → Option α) (me : Nat) (bufs : Nat → RBuf α) {idx : List Nat} (h : (bufs me).recv.shape.prod ≤ strideDot idx (bufs me).recv.strides) : (reduceLike F me bufs).get idx = (bufs me).recv.get idx := by
  unfold reduceLike reduceBlock Tens.get
  dsimp only
  rw [if_neg (by omega)]

/-- Two processes that add up `x[::2]` of three elements in place: the second element keeps its value 3 instead of 6, and the element between, which is not in the buffer, is doubled. -/
theorem reduce_gaps_case : ∃ (t : Tens Nat) (r : Tens Nat), t.shape = [2] ∧ (∀ idx, InsideL idx t.shape → t.get idx ≠ none) ∧ r = reduceLike (fun _ v => (v 0).bind fun a => (v 1).map (a + ·)) 0 (fun _ => ⟨none, t⟩) ∧
    r.get [1] = some 3 ∧ t.sto 1 = some 2 ∧ r.sto 1 = some 4 := by
  refine ⟨⟨fun i => some (i + 1), 0, [2], [2]⟩, _, rfl, fun idx _ => by simp [Tens.get], rfl, rfl, rfl, rfl⟩

/-- **C180, defect.**  Processes with different layouts in place: elements at different indices are added. -/
theorem reduce_mixed_violated : ∃ (a b : Tens Nat), a.shape = [2, 2] ∧ b.shape = [2, 2] ∧ (∀ idx, InsideL idx [2, 2] → a.get idx = b.get idx ∧ a.get idx ≠ none) ∧
    ¬ Reduced (fun _ v => (v 0).bind fun x => (v 1).map (x + ·)) 0 (fun p => if p = 0 then a else b) [2, 2] (reduceLike (fun _ v => (v 0).bind fun x => (v 1).map (x + ·)) 0 fun p => ⟨none, if p = 0 then a else b⟩) := by
  refine ⟨⟨fun i => some i, 0, [2, 2], [2, 1]⟩, ⟨fun i => some (if i = 1 then 2 else if i = 2 then 1 else i), 0, [2, 2], [1, 2]⟩, rfl, rfl, ?_, ?_⟩
  · intro idx h
    cases h with
    | @cons i _ idx _ hi h =>
      cases h with
      | @cons j _ idx _ hj h =>
        cases h
        interval_cases i <;> interval_cases j <;> simp [Tens.get, strideDot]
  · intro h
    have := h.2 [0, 1] (.cons (by decide) (.cons (by decide) .nil))
    revert this
    decide

/-- **C180, defect.**  If the receive buffer is not contiguous and the send buffer has other strides, the result is in a new storage: the tensor from which the receive buffer was taken keeps its values. -/
theorem reduce_view_violated (F : Nat → (Nat → Option α) → Option α) (me : Nat) (bufs : Nat → RBuf α) {s r : Tens α} (hst : s.strides ≠ r.strides) (hc : r.isContig = false) : reduceBase F me bufs ⟨some s, r⟩ = r.sto := by
  unfold reduceBase
  dsimp only
  rw [if_pos ⟨Or.inl hst, hc⟩]

/-- **C180.**  In all other cases the result is in the storage of the receive buffer. -/
theorem reduce_base_spec (F : Nat → (Nat → Option α) → Option α) (me : Nat) {bufs : Nat → RBuf α} {b : RBuf α} (hb : b.harmonize = .ok (bufs me)) (hc : b.recv.isContig = true) {idx : List Nat} : (reduceLike F me bufs).get idx = (reduceBase F me bufs b) (b.recv.off + strideDot idx b.recv.strides) := by
  have hrecv : (bufs me).recv = b.recv := by
    unfold RBuf.harmonize at hb
    split at hb
    · rw [Except.ok.injEq] at hb
      rw [← hb]
    · split_ifs at hb
      · rw [Except.ok.injEq] at hb
        rw [← hb]
        unfold Tens.contiguous
        dsimp only
        rw [hc]
        rfl
      · rw [Except.ok.injEq] at hb
        rw [← hb]
  have hbase : reduceBase F me bufs b = (reduceLike F me bufs).sto := by
    unfold reduceBase
    split
    · rfl
    · rw [if_neg]
      rintro ⟨_, c⟩
      rw [hc] at c
      cases c
  rw [hbase]
  unfold reduceLike Tens.get
  rw [show (reduceBlock F me (fun p => (bufs p).source) (bufs me).recv).off = b.recv.off by rw [← hrecv]; rfl, show (reduceBlock F me (fun p => (bufs p).source) (bufs me).recv).strides = b.recv.strides by rw [← hrecv]; rfl]

/-- **C180.**  Buffers of different sizes are refused. -/
theorem reduce_sizes (s r : Tens α) : (RBuf.mk (some s) r).harmonize = .error .valueError ↔ s.shape.prod ≠ r.shape.prod := by
  unfold RBuf.harmonize
  dsimp only
  split_ifs with a b <;> simp [a]

/-! ## Cases -/

/-- A transposed 2 by 3 matrix: dense, not contiguous. -/
example : ∃ t : Tens Nat, t.isContig = false ∧ ∀ idx, InsideL idx t.shape → strideDot idx t.strides < t.shape.prod := by
  refine ⟨⟨fun i => some i, 0, [2, 3], [1, 2]⟩, by decide, fun idx h => ?_⟩
  cases h with
  | @cons i _ idx _ hi h =>
    cases h with
    | @cons j _ idx _ hj h =>
      cases h
      simp [strideDot]
      omega

/-- A column of a matrix as receive buffer: not contiguous, and other strides than the send buffer. -/
example : ∃ s r : Tens Nat, s.shape = r.shape ∧ s.isContig = true ∧ s.strides ≠ r.strides ∧ r.isContig = false := ⟨⟨fun i => some i, 0, [3], [1]⟩, ⟨fun i => some i, 0, [3], [2]⟩, rfl, by decide, by decide, by decide⟩

end Heat
