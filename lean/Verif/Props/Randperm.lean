import Verif.Model.Randperm
import Verif.Props.Random
import Verif.Proof.Dist
import Verif.Props.BinaryOp
import Mathlib.Tactic.SplitIfs
/-!
# C190 `randperm` returns a permutation; `randn` does not depend on the number of processes
-/
namespace Heat
open Spec

/-- The operations after which Threefry's processes share torch's generator: every state tuple that is set is a complete Threefry tuple. -/
def PermOp.Clean : PermOp → Prop
  | .base (.set t) => t.rng = .threefry ∧ t.seed ≠ none ∧ t.third ≠ none
  | _ => True

/-- Agreement of two processes: the same generator and, with Threefry, the same state of torch's generator. -/
def SameTorch (a b : RngState) : Prop := a.rng = b.rng ∧ (a.rng = .threefry → a.torchSeed = b.torchSeed ∧ a.torchPos = b.torchPos)

theorem sameTorch_step (r r' : Nat) (a b : RngState) (h : SameTorch a b) (op : PermOp) (hc : op.Clean) : SameTorch (permStep r a op) (permStep r' b op) := by
  obtain ⟨a1, a2, a3, a4, a5, a6⟩ := a
  obtain ⟨b1, b2, b3, b4, b5, b6⟩ := b
  obtain ⟨h1, h2⟩ := h
  simp only at h1 h2
  subst h1
  match op with
  | .perm n =>
    refine ⟨rfl, fun ht => ?_⟩
    obtain ⟨e1, e2⟩ := h2 ht
    exact ⟨e1, by simp only [permStep, permState]; omega⟩
  | .base (.seed sd) =>
    cases a1 with
    | threefry => exact ⟨rfl, fun _ => ⟨rfl, rfl⟩⟩
    | batchparallel => exact ⟨rfl, fun ht => by simp [permStep, rngStep, seedState] at ht⟩
  | .base (.draw k) =>
    cases a1 with
    | threefry => exact ⟨rfl, fun _ => h2 rfl⟩
    | batchparallel => exact ⟨rfl, fun ht => by simp [permStep, rngStep, drawState] at ht⟩
  | .base (.set ⟨t1, t2, t3⟩) =>
    obtain ⟨c1, c2, c3⟩ := hc
    simp only at c1 c2 c3
    subst c1
    cases t2 with
    | none => exact absurd rfl c2
    | some s =>
      cases t3 with
      | none => exact absurd rfl c3
      | some c => exact ⟨rfl, fun _ => ⟨rfl, rfl⟩⟩

theorem sameTorch_history (sd : Int) (ops : List PermOp) (hc : ∀ op ∈ ops, op.Clean) (r r' : Nat) : SameTorch (permHistory sd ops r) (permHistory sd ops r') := by
  have : ∀ (ops : List PermOp), (∀ op ∈ ops, op.Clean) → ∀ a b, SameTorch a b → SameTorch (ops.foldl (permStep r) a) (ops.foldl (permStep r') b) := by
    intro ops
    induction ops with
    | nil => intro _ a b h; exact h
    | cons op ops ih =>
      intro hc a b h
      exact ih (fun o ho => hc o (List.mem_cons_of_mem _ ho)) _ _ (sameTorch_step r r' a b h op (hc op List.mem_cons_self))
  exact this ops hc _ _ ⟨rfl, fun ht => by simp [initState, seedState] at ht⟩

/-- After such a history all processes work with the same permutation. -/
theorem agreedPerm_eq (tp : Int → Nat → Nat → List Nat) (P n : Nat) (sd : Int) (ops : List PermOp) (hc : ∀ op ∈ ops, op.Clean) (r : Nat) (hP : 1 < P) :
    agreedPerm tp P n (permHistory sd ops) r = torchPerm tp n (permHistory sd ops 0) := by
  unfold agreedPerm
  split_ifs with h
  · rfl
  · have ht : (permHistory sd ops r).rng = .threefry := by
      exact Decidable.byContradiction fun hne => h ⟨hP, hne⟩
    obtain ⟨_, h2⟩ := sameTorch_history sd ops hc r 0
    obtain ⟨e1, e2⟩ := h2 ht
    unfold torchPerm
    rw [e1, e2]

theorem content_chunks_list {α : Type} (l : List α) (n P : Nat) (hn : l.length = n) (hP : 0 < P) :
    content P (fun r => (l.take (chunkRange n r P).2).drop (chunkRange n r P).1) = l := by
  have key : ∀ k ≤ P, content k (fun r => (l.take (chunkRange n r P).2).drop (chunkRange n r P).1) = l.take (chunkRange n k P).1 := by
    intro k hk
    induction k with
    | zero => simp [content_zero, chunkRange_zero]
    | succ k ih =>
      rw [content_succ, ih (by omega), chunkRange_succ]
      have hle : (chunkRange n k P).1 ≤ (chunkRange n k P).2 := by
        rw [← chunkRange_succ]; exact chunkRange_mono n P (Nat.le_succ k)
      have : l.take (chunkRange n k P).1 = (l.take (chunkRange n k P).2).take (chunkRange n k P).1 := by
        rw [List.take_take, Nat.min_eq_left hle]
      rw [this, List.take_append_drop]
  rw [key P (Nat.le_refl _), chunkRange_at_P n P hP, ← hn, List.take_length]

/-- **C190, partial:** for every permutation-valued generator, every seed, every number of processes and length and every history of `seed`, draws, `randperm` and `set_state` with complete Threefry tuples: the array `randperm`
returns is a permutation of `0, …, n-1` - the concatenation of the local parts if it is split, every copy otherwise - and it is the same array for both splits.
Missing: histories with other state tuples (`randperm_violated`). -/
theorem randperm_partial (tp : Int → Nat → Nat → List Nat) (htp : ∀ s p n, (tp s p n).Perm (List.range n)) (P n : Nat) (hP : 1 < P) (sd : Int)
    (ops : List PermOp) (hc : ∀ op ∈ ops, op.Clean) :
    ∃ p : List Nat, p.Perm (List.range n) ∧ content P (randperm tp P n true (permHistory sd ops)) = p ∧ ∀ r, randperm tp P n false (permHistory sd ops) r = p := by
  refine ⟨torchPerm tp n (permHistory sd ops 0), htp _ _ _, ?_, fun r => ?_⟩
  · have e : randperm tp P n true (permHistory sd ops) = fun r => ((torchPerm tp n (permHistory sd ops 0)).take (chunkRange n r P).2).drop (chunkRange n r P).1 := by
      funext r
      unfold randperm
      rw [if_pos rfl, agreedPerm_eq tp P n sd ops hc r hP]
    rw [e]
    exact content_chunks_list _ n P (by rw [torchPerm, (htp _ _ n).length_eq, List.length_range]) (by omega)
  · unfold randperm
    rw [if_neg (by decide), agreedPerm_eq tp P n sd ops hc r hP]

/-- The parts have the sizes of the default distribution. -/
theorem randperm_lengths (tp : Int → Nat → Nat → List Nat) (htp : ∀ s p n, (tp s p n).Perm (List.range n)) (P n : Nat) (hP : 0 < P) (st : Nat → RngState) (r : Nat) (hr : r < P) :
    (randperm tp P n true st r).length = (chunkRange n r P).2 - (chunkRange n r P).1 := by
  have hl : (agreedPerm tp P n st r).length = n := by
    unfold agreedPerm torchPerm
    split_ifs <;> rw [(htp _ _ n).length_eq, List.length_range]
  have hle : (chunkRange n r P).2 ≤ n := by
    rw [← chunkRange_succ]
    have := chunkRange_mono n P (show r + 1 ≤ P by omega)
    rwa [chunkRange_at_P n P hP] at this
  unfold randperm
  rw [if_pos rfl, List.length_drop, List.length_take, hl, Nat.min_eq_left hle]

/-- Rotations of `0, …, n-1`, as an example of torch's function. -/
def rotPerm (s : Int) (p n : Nat) : List Nat := (List.range n).drop ((s.toNat + p) % (n + 1)) ++ (List.range n).take ((s.toNat + p) % (n + 1))

theorem rotPerm_perm (s : Int) (p n : Nat) : (rotPerm s p n).Perm (List.range n) := by
  unfold rotPerm
  exact (List.perm_append_comm).trans (List.Perm.of_eq (List.take_append_drop _ _))

/-- **C190 violated:** `set_state(("Threefry", 1, 0))`, then `set_state(("Batchparallel", 4, None))`, which seeds torch with `seed + rank` but does not switch the generator: the processes use different
permutations, and `randperm(2, split=0)` on two processes is `[1, 1]`. -/
theorem randperm_violated : ∃ ops : List PermOp, content 2 (randperm rotPerm 2 2 true (permHistory 0 ops)) = [1, 1] ∧
    randperm rotPerm 2 2 false (permHistory 0 ops) 0 ≠ randperm rotPerm 2 2 false (permHistory 0 ops) 1 := by
  refine ⟨[.base (.set ⟨.threefry, some 1, some 0⟩), .base (.set ⟨.batchparallel, some 4, none⟩)], ?_, ?_⟩
  · decide
  · decide

/-- **C190 violated:** so does a Threefry tuple without a counter, although `set_state` raises a `TypeError`: the generator is switched first. -/
theorem randperm_exception_violated : ∃ t : StateTuple, (setState 0 t (initState 0 0)).1 = some .typeError ∧
    content 2 (randperm rotPerm 2 2 true (permHistory 0 [.base (.set t)])) = [0, 0] := by
  refine ⟨⟨.threefry, some 1, none⟩, rfl, by decide⟩

/-- **C190, `randn`:** for draws of at most `2^24` numbers that reach no carry into the upper counter word, the normal numbers of all `P` processes are, in order, those that every
process of any other run holds for an array that is not split, and the counters agree afterwards.  Missing: see C27. -/
theorem randn_partial {w : Nat} {β : Type} (k : BitVec w → β) (g : BitVec w × BitVec w → BitVec w × BitVec w) (counter n rowSize P Q q : Nat) (hP : 0 < P)
    (h24 : n * rowSize ≤ 2 ^ 24) (hfit : counter % 2 ^ w + (n * rowSize + 1) / 2 < 2 ^ w) :
    content P (fun r => (randnRank k f32 g P r counter (.split n rowSize)).1) = (randnRank k f32 g Q q counter (.whole (n * rowSize))).1 := by
  have := random_array_partial g counter n rowSize P Q q hP h24 hfit
  unfold randnRank
  dsimp only
  rw [← this]
  exact content_map k P _

example : (∀ s p n, (rotPerm s p n).Perm (List.range n)) ∧ (∀ op ∈ [PermOp.base (.draw 7), .perm 3, .base (.set ⟨.threefry, some 1, some 0⟩), .perm 4, .base (.seed 9)], op.Clean) := by
  refine ⟨rotPerm_perm, ?_⟩
  simp [PermOp.Clean]

example : content 2 (randperm rotPerm 2 5 true (permHistory 3 [.base (.set ⟨.threefry, some 1, some 0⟩), .perm 4])) = [0, 1, 2, 3, 4] ∧
    content 2 (randperm rotPerm 2 5 true (permHistory 3 [.perm 4])) = [1, 2, 3, 4, 0] := by decide

end Heat
