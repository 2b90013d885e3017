import Verif.Model.AlltoallStage
import Mathlib.Tactic.SplitIfs
import Mathlib.Data.List.Nodup
import Mathlib.Data.List.Perm.Subperm
/-!
# C205: exchanges along axes beyond the first two, on any device

The caller's tensor, with the axes permuted, holds the data delivered by MPI.
-/
namespace Heat
variable {α : Type}

/-- A permutation of the axes `0 .. n-1`. -/
def AxisPerm (n : Nat) (p : List Nat) : Prop := p.length = n ∧ p.Nodup ∧ ∀ k ∈ p, k < n

theorem axisPerm_mem {n : Nat} {p : List Nat} (h : AxisPerm n p) {v : Nat} (hv : v < n) : v ∈ p := by
  have hsub : p ⊆ List.range n := fun k hk => List.mem_range.mpr (h.2.2 k hk)
  have hp : p.Perm (List.range n) := (h.2.1.subperm hsub).perm_of_length_le (Nat.le_of_eq (by rw [List.length_range, h.1]))
  exact hp.mem_iff.mpr (List.mem_range.mpr hv)

theorem argsortAxes_length (p : List Nat) : (argsortAxes p).length = p.length := by simp [argsortAxes]

/-- `argsort` of a permutation is its inverse. -/
theorem argsort_perm {n : Nat} {p : List Nat} (h : AxisPerm n p) : AxisPerm n (argsortAxes p) := by
  refine ⟨by rw [argsortAxes_length, h.1], ?_, ?_⟩
  · unfold argsortAxes
    refine List.Nodup.map_on ?_ List.nodup_range
    intro a ha b hb e
    rw [List.mem_range, h.1] at ha hb
    exact (List.idxOf_inj (axisPerm_mem h ha)).mp e
  · intro k hk
    obtain ⟨v, hv, rfl⟩ := List.mem_map.mp hk
    rw [List.mem_range, h.1] at hv
    rw [← h.1]
    exact List.idxOf_lt_length_iff.mpr (axisPerm_mem h hv)

theorem argsort_get {n : Nat} {p : List Nat} (h : AxisPerm n p) {m : Nat} (hm : m < n) : (argsortAxes p).getD (p.getD m 0) 0 = m := by
  have hmp : m < p.length := by rw [h.1]; exact hm
  have e : p.getD m 0 = p[m] := by rw [List.getD_eq_getElem?_getD, List.getElem?_eq_getElem hmp]; rfl
  have hlt : p[m] < p.length := by rw [h.1]; exact h.2.2 _ (List.getElem_mem hmp)
  rw [e, List.getD_eq_getElem?_getD, List.getElem?_eq_getElem (by rw [argsortAxes_length]; exact hlt), Option.getD_some]
  unfold argsortAxes
  rw [List.getElem_map, List.getElem_range]
  exact h.2.1.idxOf_getElem m hmp

theorem gather_argsort {n : Nat} {p : List Nat} (h : AxisPerm n p) {idx : List Nat} (hi : idx.length = n) : gatherIdx p (gatherIdx (argsortAxes p) idx) = idx := by
  have hg : ∀ k, k < n → (gatherIdx (argsortAxes p) idx).getD k 0 = idx.getD ((argsortAxes p).getD k 0) 0 := by
    intro k hk
    unfold gatherIdx
    have hk' : k < (argsortAxes p).length := by rw [argsortAxes_length, h.1]; exact hk
    rw [List.getD_eq_getElem?_getD, List.getElem?_map, List.getElem?_eq_getElem hk', Option.map_some, Option.getD_some, List.getD_eq_getElem?_getD (l := argsortAxes p), List.getElem?_eq_getElem hk', Option.getD_some]
  refine List.ext_getElem (by unfold gatherIdx; rw [List.length_map, h.1, hi]) fun m h1 h2 => ?_
  have hm : m < n := by rw [← hi]; exact h2
  have hmp : m < p.length := by rw [h.1]; exact hm
  have e : p.getD m 0 = p[m] := by rw [List.getD_eq_getElem?_getD, List.getElem?_eq_getElem hmp]; rfl
  have e1 : (gatherIdx p (gatherIdx (argsortAxes p) idx))[m] = (gatherIdx (argsortAxes p) idx).getD p[m] 0 := by simp only [gatherIdx, List.getElem_map]
  rw [e1, hg _ (h.2.2 _ (List.getElem_mem hmp)), ← e, argsort_get h hm, List.getD_eq_getElem?_getD, List.getElem?_eq_getElem h2, Option.getD_some]

/-- Permuting by `argsort(p)` reads at the axes `p`. -/
theorem argsort_argsort {n : Nat} {p : List Nat} (h : AxisPerm n p) : argsortAxes (argsortAxes p) = p := by
  have hq := argsort_perm h
  refine List.ext_getElem (by rw [argsortAxes_length, argsortAxes_length]) fun m h1 h2 => ?_
  have hm : m < n := by rw [← h.1]; exact h2
  have e : p.getD m 0 = p[m] := by rw [List.getD_eq_getElem?_getD, List.getElem?_eq_getElem h2]; rfl
  have hl : p[m] < (argsortAxes p).length := by rw [argsortAxes_length, h.1]; exact h.2.2 _ (List.getElem_mem h2)
  have hv : (argsortAxes p)[p[m]] = m := by
    have := argsort_get h hm
    rw [e, List.getD_eq_getElem?_getD, List.getElem?_eq_getElem hl, Option.getD_some] at this
    exact this
  have := hq.2.1.idxOf_getElem p[m] hl
  rw [hv] at this
  have e1 : (argsortAxes (argsortAxes p))[m] = (argsortAxes p).idxOf m := by
    conv_lhs => simp only [argsortAxes, List.getElem_map, List.getElem_range]
    rfl
  rw [e1]
  exact this

theorem set_getD (l : List Nat) (i v k : Nat) (hk : k < l.length) : (l.set i v).getD k 0 = if i = k then v else l.getD k 0 := by
  rw [List.getD_eq_getElem?_getD, List.getElem?_set]
  split_ifs with h1 h2
  · rfl
  · omega
  · rw [List.getD_eq_getElem?_getD]

/-- The axes of the exchange: the receiving axis first, then the sending axis, and every axis once. -/
theorem alltoallAxes_perm {n s r : Nat} (hs : s < n) (hr : r < n) (hne : s ≠ r) (h2 : 2 ≤ s ∨ 2 ≤ r) : AxisPerm n (alltoallAxes n s r) ∧ (alltoallAxes n s r).getD 0 0 = r ∧ (alltoallAxes n s r).getD 1 0 = s := by
  have hlen : (alltoallAxes n s r).length = n := by unfold alltoallAxes; dsimp only; split <;> simp
  have hrg : ∀ k, k < n → (List.range n).getD k 0 = k := by
    intro k hk
    rw [List.getD_eq_getElem?_getD, List.getElem?_range hk]
    rfl
  have hget : ∀ k, k < n → (alltoallAxes n s r).getD k 0 = if s = 0 then (if k = 0 then r else if k = r then 1 else if k = 1 then 0 else k) else (if k = 1 then s else if k = s then (if r = 1 then 0 else 1) else if k = r then 0 else if k = 0 then r else k) := by
    intro k hk
    have hn2 : 2 < n := by omega
    have h0 := hrg 0 (by omega)
    have h1 := hrg 1 (by omega)
    unfold alltoallAxes
    dsimp only
    by_cases hs0 : s = 0
    · simp only [if_pos hs0]
      rw [set_getD _ _ _ _ (by simp; omega), set_getD _ _ _ _ (by simp; omega), set_getD _ _ _ _ (by simp; omega), set_getD _ _ _ _ (by simp; omega), set_getD _ _ _ _ (by simp; omega), set_getD _ _ _ _ (by simp; omega), hrg k hk, h0]
      split_ifs <;> first | omega | contradiction
    · simp only [if_neg hs0]
      rw [set_getD _ _ _ _ (by simp; omega), set_getD _ _ _ _ (by simp; omega), set_getD _ _ _ _ (by simp; omega), set_getD _ _ _ _ (by simp; omega), set_getD _ _ _ _ (by simp; omega), set_getD _ _ _ _ (by simp; omega), hrg k hk, h1]
      split_ifs <;> first | omega | contradiction
  have hge : ∀ k (h : k < (alltoallAxes n s r).length), (alltoallAxes n s r)[k] = (alltoallAxes n s r).getD k 0 := by
    intro k h
    rw [List.getD_eq_getElem?_getD, List.getElem?_eq_getElem h]
    rfl
  refine ⟨⟨hlen, ?_, ?_⟩, ?_, ?_⟩
  · rw [List.nodup_iff_injective_get]
    intro ⟨a, ha⟩ ⟨b, hb⟩ e
    simp only [Fin.mk.injEq]
    simp only [List.get_eq_getElem] at e
    rw [hge a ha, hge b hb, hget a (hlen ▸ ha), hget b (hlen ▸ hb)] at e
    rw [hlen] at ha hb
    split_ifs at e <;> first | omega | contradiction
  · intro k hk
    obtain ⟨i, hi, rfl⟩ := List.getElem_of_mem hk
    rw [hge i hi, hget i (hlen ▸ hi)]
    rw [hlen] at hi
    split_ifs <;> first | omega | contradiction
  · rw [hget 0 (by omega)]
    split_ifs <;> first | omega | contradiction
  · rw [hget 1 (by omega)]
    split_ifs <;> first | omega | contradiction

/-- The tensor, with the axes in the order `p`, holds `d` (at all indices of `n` entries). -/
def ReceivedAxes (n : Nat) (p : List Nat) (content d : List Nat → α) : Prop := ∀ idx, idx.length = n → content (permIdx p idx) = d idx

/-- The blocking `Alltoall` leaves the delivered data in the caller's tensor, wherever it is, and changes no other tensor. -/
theorem alltoall_received {m : DevMem (List Nat) α} {b : Nat} (hb : b < m.next) (aware : Bool) {n s r : Nat} (hs : s < n) (hr : r < n) (hne : s ≠ r) (h2 : 2 ≤ s ∨ 2 ≤ r) (d : List Nat → α) :
    ReceivedAxes n (alltoallAxes n s r) ((alltoallBlocking aware m b (alltoallAxes n s r) d).val b) d ∧ ∀ k, k < m.next → k ≠ b → (alltoallBlocking aware m b (alltoallAxes n s r) d).val k = m.val k := by
  obtain ⟨hp, -, -⟩ := alltoallAxes_perm hs hr hne h2
  generalize alltoallAxes n s r = p at hp
  cases hst : staged m aware b with
  | true =>
    have hg : m.gpu b = true ∧ aware = false := by simpa [staged] using hst
    have e : alltoallBlocking aware m b p d = ((m.alloc fun i => m.val b (permIdx p i)).write m.next d).write b (fun i => d (permIdx (argsortAxes p) i)) := by
      unfold alltoallBlocking alltoallW
      simp only [hst, if_true]
      have : staged ((m.alloc fun i => m.val b (permIdx p i)).write m.next d) aware b = true := by
        unfold staged DevMem.alloc DevMem.write
        simp [Nat.ne_of_lt hb, hg.1, hg.2]
      rw [if_pos this]
      simp [DevMem.write]
    rw [e]
    constructor
    · intro idx hi
      simp only [DevMem.write, if_true]
      unfold permIdx
      rw [argsort_argsort hp, gather_argsort hp hi]
    · intro k hk hkb
      simp only [DevMem.write, DevMem.alloc]
      rw [if_neg hkb, if_neg (Nat.ne_of_lt hk), if_neg (Nat.ne_of_lt hk)]
  | false =>
    have e : alltoallBlocking aware m b p d = m.write b (fun j => d (gatherIdx p j)) := by
      unfold alltoallBlocking alltoallW
      simp only [hst, Bool.false_eq_true, if_false]
      have : staged (m.write b fun j => d (gatherIdx p j)) aware b = false := hst
      rw [this]
      rfl
    rw [e]
    constructor
    · intro idx hi
      simp only [DevMem.write, if_true]
      unfold permIdx
      rw [gather_argsort hp hi]
    · intro k hk hkb
      simp only [DevMem.write]
      rw [if_neg hkb]

/-- `Ialltoall` and `Wait` do so as long as the tensor is not staged. -/
theorem ialltoall_received_partial {m : DevMem (List Nat) α} {b : Nat} {aware : Bool} (hu : m.gpu b = false ∨ aware = true) {n s r : Nat} (hs : s < n) (hr : r < n) (hne : s ≠ r) (h2 : 2 ≤ s ∨ 2 ≤ r) (d : List Nat → α) :
    ∃ m', ialltoallWait aware m b (alltoallAxes n s r) d = some m' ∧ ReceivedAxes n (alltoallAxes n s r) (m'.val b) d := by
  obtain ⟨hp, -, -⟩ := alltoallAxes_perm hs hr hne h2
  refine ⟨_, rfl, fun idx hi => ?_⟩
  have hst : staged m aware b = false := by unfold staged; rcases hu with h | h <;> simp [h]
  unfold alltoallW
  simp only [hst, Bool.false_eq_true, if_false, DevMem.write, if_true]
  unfold permIdx
  rw [gather_argsort hp hi]

/-- False in heat: on a GPU without GPU-aware MPI the caller's tensor is even after `Wait` what it was before the call. -/
theorem ialltoall_received_violated {m : DevMem (List Nat) α} {b : Nat} (hb : b < m.next) (hg : m.gpu b = true) (p : List Nat) (d : List Nat → α) : ∃ m', ialltoallWait false m b p d = some m' ∧ m'.val b = m.val b := by
  refine ⟨_, rfl, ?_⟩
  have hst : staged m false b = true := by unfold staged; simp [hg]
  unfold alltoallW
  simp only [hst, if_true, DevMem.write, DevMem.alloc]
  rw [if_neg (Nat.ne_of_lt hb), if_neg (Nat.ne_of_lt hb)]

/-- The axes of an exchange of axis 0 (received) and axis 2 (sent) of three axes; three axes rotate, so that the inverse matters. -/
example : alltoallAxes 3 2 0 = [0, 2, 1] ∧ alltoallAxes 3 0 2 = [2, 0, 1] ∧ argsortAxes [2, 0, 1] = [1, 2, 0] ∧ permIdx [2, 0, 1] [7, 8, 9] = [8, 9, 7] := by decide

/-- A tensor on a GPU: blocking and non-blocking differ. -/
example : let m : DevMem (List Nat) Nat := ⟨fun _ _ => 0, fun _ => true, 1⟩
    (alltoallBlocking false m 0 (alltoallAxes 3 0 2) (fun i => i.getD 0 0 + 10 * i.getD 1 0)).val 0 [8, 9, 7] = 87 ∧ (ialltoallWait false m 0 (alltoallAxes 3 0 2) (fun i => i.getD 0 0 + 10 * i.getD 1 0)).map (fun m' => m'.val 0 [8, 9, 7]) = some 0 := by decide

end Heat
