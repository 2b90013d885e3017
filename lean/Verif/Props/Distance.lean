import Verif.Model.Distance
import Verif.Spec.Outer
import Verif.Proof.Pass
import Verif.Proof.Kahn
import Verif.Props.Outer
import Mathlib.Tactic.Ring
/-!
# C68: distance matrices are right or an error, on every schedule, without relying on MPI's buffers
-/
namespace Heat

open Spec

variable {α γ : Type}

/-- A block of rows goes from `src` to `dst`. -/
def blockX (f : α → α → γ) (m n P src dst tag : Nat) : Xfer (DLoc α γ) (DMsg α γ) :=
  { src := src, dst := dst, tag := tag, msg := fun st => .block st.blk, after := id, take := distTakeBlock f m n P dst src }

/-- A tile goes from `src` to `dst`. -/
def tileX (zero : γ) (n P src dst tag : Nat) : Xfer (DLoc α γ) (DMsg α γ) :=
  { src := src, dst := dst, tag := tag, msg := fun st => .tile st.dij, after := id, take := distTakeTile zero n P dst src }

/-- First half of iteration `i`, in ascending order. -/
def passA (f : α → α → γ) (m n P i : Nat) : List (Xfer (DLoc α γ) (DMsg α γ)) := (List.range P).map fun r => blockX f m n P r ((r + i) % P) i

/-- Second half of iteration `i`, in descending order. -/
def passB (zero : γ) (n P i : Nat) : List (Xfer (DLoc α γ) (DMsg α γ)) := (List.range P).reverse.map fun r => tileX zero n P ((r + i) % P) r i

def halfA (f : α → α → γ) (m n P : Nat) : List (Xfer (DLoc α γ) (DMsg α γ)) := (List.range (P / 2)).map fun r => blockX f m n P (r + P / 2) r (P / 2)

def halfB (zero : γ) (n P : Nat) : List (Xfer (DLoc α γ) (DMsg α γ)) := (List.range (P / 2)).map fun r => tileX zero n P r (r + P / 2) (P / 2)

def crossT (f : α → α → γ) (m n P : Nat) : List (Xfer (DLoc α γ) (DMsg α γ)) := (List.range' 1 (P - 1)).flatMap (passA f m n P)

def symT (f : α → α → γ) (zero : γ) (n P : Nat) : List (Xfer (DLoc α γ) (DMsg α γ)) :=
  ((List.range' 1 ((P + 1) / 2 - 1)).flatMap fun i => passA f n n P i ++ passB zero n P i) ++ (if P % 2 = 0 then halfA f n n P ++ halfB zero n P else [])

theorem dist_addmod {k i P : Nat} (hk : k < P) (hi : i < P) : (k + i) % P = if k + i < P then k + i else k + i - P := by
  by_cases h : k + i < P
  · rw [if_pos h, Nat.mod_eq_of_lt h]
  · rw [if_neg h, Nat.mod_eq_sub_mod (by omega), Nat.mod_eq_of_lt (by omega)]

theorem dist_submod {q i P : Nat} (hq : q < P) (h0 : 0 < i) (hi : i < P) : (q + P - i) % P = if i ≤ q then q - i else q + P - i := by
  by_cases h : i ≤ q
  · rw [if_pos h, Nat.mod_eq_sub_mod (by omega), Nat.mod_eq_of_lt (by omega)]; omega
  · rw [if_neg h, Nat.mod_eq_of_lt (by omega)]

theorem dist_div {r i : Nat} (h0 : 0 < i) : r / i ≠ 0 ↔ i ≤ r := by
  constructor
  · intro h
    rcases Nat.lt_or_ge r i with h' | h'
    · exact absurd (Nat.div_eq_of_lt h') h
    · exact h'
  · intro h
    have := Nat.div_pos h h0
    omega

theorem proj_blockX (f : α → α → γ) (m n P src dst tag q : Nat) :
    (blockX f m n P src dst tag).proj q = if src = q then some (distSendBlock dst tag) else if dst = q then some (.recv src tag (distTakeBlock f m n P dst src)) else none := rfl

theorem proj_tileX (zero : γ) (n P src dst tag q : Nat) :
    (tileX (α := α) zero n P src dst tag).proj q = if src = q then some (distSendTile dst tag) else if dst = q then some (.recv src tag (distTakeTile zero n P dst src)) else none := rfl

theorem passA_proj (f : α → α → γ) (m n P i q : Nat) (hq : q < P) (h0 : 0 < i) (hi : i < P) :
    (passA f m n P i).filterMap (Xfer.proj q) =
      if q / i ≠ 0 then [.recv ((q + P - i) % P) i (distTakeBlock f m n P q ((q + P - i) % P)), distSendBlock ((q + i) % P) i]
      else [distSendBlock ((q + i) % P) i, .recv ((q + P - i) % P) i (distTakeBlock f m n P q ((q + P - i) % P))] := by
  have hs := dist_submod hq h0 hi
  have hsend : ((blockX f m n P q ((q + i) % P) i).proj q) = some (distSendBlock ((q + i) % P) i) := by rw [proj_blockX, if_pos rfl]
  have hsl : (q + P - i) % P < P := Nat.mod_lt _ (by omega)
  have hsq : ((q + P - i) % P + i) % P = q := by
    rw [dist_addmod hsl hi, hs]
    by_cases h : i ≤ q
    · rw [if_pos h, if_pos (by omega)]; omega
    · rw [if_neg h, if_neg (by omega)]; omega
  have hsne : (q + P - i) % P ≠ q := by rw [hs]; split <;> omega
  have hrecv : ((blockX f m n P ((q + P - i) % P) (((q + P - i) % P + i) % P) i).proj q) = some (.recv ((q + P - i) % P) i (distTakeBlock f m n P q ((q + P - i) % P))) := by
    rw [proj_blockX, if_neg hsne, hsq, if_pos rfl]
  have hno : ∀ k < P, k ≠ q → k ≠ (q + P - i) % P → (blockX f m n P k ((k + i) % P) i).proj q = none := by
    intro k hk hkq hks
    rw [proj_blockX, if_neg hkq, if_neg]
    rw [dist_addmod hk hi]
    rw [hs] at hks
    split at hks <;> split <;> omega
  unfold passA
  rw [List.filterMap_map]
  by_cases h : i ≤ q
  · rw [if_pos ((dist_div h0).2 h)]
    apply filterMap_two _ P ((q + P - i) % P) q
    · rw [hs, if_pos h]; omega
    · exact hq
    · exact hrecv
    · exact hsend
    · intro k hk h1 h2; exact hno k hk h2 h1
  · rw [if_neg (fun h' => h ((dist_div h0).1 h'))]
    apply filterMap_two _ P q ((q + P - i) % P)
    · rw [hs, if_neg h]; omega
    · exact hsl
    · exact hsend
    · exact hrecv
    · intro k hk h1 h2; exact hno k hk h1 h2

theorem passB_proj (zero : γ) (n P i q : Nat) (hq : q < P) (h0 : 0 < i) (hi : i < P) :
    (passB (α := α) zero n P i).filterMap (Xfer.proj q) =
      if q / i ≠ 0 then [.recv ((q + i) % P) i (distTakeTile zero n P q ((q + i) % P)), distSendTile ((q + P - i) % P) i]
      else [distSendTile ((q + P - i) % P) i, .recv ((q + i) % P) i (distTakeTile zero n P q ((q + i) % P))] := by
  have hs := dist_submod hq h0 hi
  have hsl : (q + P - i) % P < P := Nat.mod_lt _ (by omega)
  have hsq : ((q + P - i) % P + i) % P = q := by
    rw [dist_addmod hsl hi, hs]
    by_cases h : i ≤ q
    · rw [if_pos h, if_pos (by omega)]; omega
    · rw [if_neg h, if_neg (by omega)]; omega
  have hane : (q + i) % P ≠ q := by rw [dist_addmod hq hi]; split <;> omega
  have hrecv : ((tileX (α := α) zero n P ((q + i) % P) q i).proj q) = some (.recv ((q + i) % P) i (distTakeTile zero n P q ((q + i) % P))) := by
    rw [proj_tileX, if_neg hane, if_pos rfl]
  have hsend : ((tileX (α := α) zero n P (((q + P - i) % P + i) % P) ((q + P - i) % P) i).proj q) = some (distSendTile ((q + P - i) % P) i) := by
    rw [proj_tileX, hsq, if_pos rfl]
  have hno : ∀ k < P, k ≠ q → k ≠ (q + P - i) % P → (tileX (α := α) zero n P ((k + i) % P) k i).proj q = none := by
    intro k hk hkq hks
    rw [proj_tileX, if_neg, if_neg hkq]
    rw [dist_addmod hk hi]
    rw [hs] at hks
    split at hks <;> split <;> omega
  unfold passB
  rw [List.filterMap_map, List.filterMap_reverse]
  by_cases h : i ≤ q
  · rw [if_pos ((dist_div h0).2 h)]
    rw [filterMap_two (Xfer.proj q ∘ fun r => tileX (α := α) zero n P ((r + i) % P) r i) P ((q + P - i) % P) q _ _ (by rw [hs, if_pos h]; omega) hq hsend hrecv (fun k hk h1 h2 => hno k hk h2 h1)]
    rfl
  · rw [if_neg (fun h' => h ((dist_div h0).1 h'))]
    rw [filterMap_two (Xfer.proj q ∘ fun r => tileX (α := α) zero n P ((r + i) % P) r i) P q ((q + P - i) % P) _ _ (by rw [hs, if_neg h]; omega) hsl hrecv hsend (fun k hk h1 h2 => hno k hk h1 h2)]
    rfl

theorem passA_none (f : α → α → γ) (m n P i q : Nat) (hq : P ≤ q) : (passA f m n P i).filterMap (Xfer.proj q) = [] := by
  apply filterMap_all_none
  intro x hx
  obtain ⟨r, hr, rfl⟩ := List.mem_map.1 hx
  have hr := List.mem_range.1 hr
  have := Nat.mod_lt (r + i) (show 0 < P by omega)
  rw [proj_blockX, if_neg (by omega), if_neg (by omega)]

theorem passB_none (zero : γ) (n P i q : Nat) (hq : P ≤ q) : (passB (α := α) zero n P i).filterMap (Xfer.proj q) = [] := by
  apply filterMap_all_none
  intro x hx
  obtain ⟨r, hr, rfl⟩ := List.mem_map.1 hx
  have hr := List.mem_range.1 (List.mem_reverse.1 hr)
  have := Nat.mod_lt (r + i) (show 0 < P by omega)
  rw [proj_tileX, if_neg (by omega), if_neg (by omega)]

theorem filterMap_flatMap' {ι β δ : Type} (g : ι → List β) (h : β → Option δ) (l : List ι) : (l.flatMap g).filterMap h = l.flatMap fun i => (g i).filterMap h := by
  induction l with
  | nil => rfl
  | cons x l ih => simp [List.flatMap_cons, List.filterMap_append, ih]

theorem flatMap_congr' {ι β : Type} {g h : ι → List β} (l : List ι) (e : ∀ i ∈ l, g i = h i) : l.flatMap g = l.flatMap h := by
  induction l with
  | nil => rfl
  | cons x l ih => rw [List.flatMap_cons, List.flatMap_cons, e x (by simp), ih fun i hi => e i (by simp [hi])]

theorem crossInit_eq (f : α → α → γ) (zero : γ) (m n P : Nat) (X Y : Nat → List α) : crossInit f zero m n P X Y = scheduleInit (crossT f m n P) (distStart f zero m n P X Y) := by
  apply bstate_ext
  · intro r
    simp only [crossInit, scheduleInit, crossT, crossProg]
    rw [filterMap_flatMap']
    by_cases hr : r < P
    · rw [if_pos hr]
      apply flatMap_congr'
      intro i hi
      have hi := List.mem_range'_1.1 hi
      rw [passA_proj f m n P i r hr (by omega) (by omega)]
    · rw [if_neg hr, flatMap_congr' (h := fun _ => []) _ (fun i _ => passA_none f m n P i r (by omega))]
      simp
  · intro r; rfl
  · intro s d t; rfl

theorem half_proj (f : α → α → γ) (zero : γ) (n P q : Nat) (hq : q < P) :
    (if P % 2 = 0 then halfA f n n P ++ halfB zero n P else []).filterMap (Xfer.proj q) = symHalf f zero n P q := by
  unfold symHalf
  by_cases hp : P % 2 = 0
  · have hk : (P + 1) / 2 = P / 2 := by omega
    have hP : P = P / 2 + P / 2 := by omega
    generalize hh : P / 2 = h at *
    have e1 : (P + 1) % 2 ≠ 0 := by omega
    simp only [e1, if_pos hp, hk, ne_eq, not_false_eq_true, if_true, List.filterMap_append]
    unfold halfA halfB
    rw [hh, List.filterMap_map, List.filterMap_map]
    by_cases hqh : q < h
    · have hs : (q + P - h) % P = q + h := by rw [Nat.mod_eq_of_lt (by omega)]; omega
      rw [if_pos hqh, hs]
      rw [filterMap_one _ h q (.recv (q + h) h (distTakeBlock f n n P q (q + h))) hqh, filterMap_one _ h q (distSendTile (q + h) h) hqh]
      · rfl
      · simp only [Function.comp, proj_tileX, if_true]
      · intro k hk1 hk2
        simp only [Function.comp, proj_tileX]
        rw [if_neg (by omega), if_neg (by omega)]
      · simp only [Function.comp, proj_blockX]
        rw [if_neg (by omega), if_pos trivial]
      · intro k hk1 hk2
        simp only [Function.comp, proj_blockX]
        rw [if_neg (by omega), if_neg (by omega)]
    · have hs : (q + h) % P = q - h := by rw [dist_addmod hq (by omega), if_neg (by omega)]; omega
      rw [if_neg hqh, hs]
      rw [filterMap_one _ h (q - h) (distSendBlock (q - h) h) (by omega), filterMap_one _ h (q - h) (.recv (q - h) h (distTakeTile zero n P q (q - h))) (by omega)]
      · rfl
      · simp only [Function.comp, proj_tileX]
        rw [if_neg (by omega), if_pos (by omega), show q - h + h = q by omega]
      · intro k hk1 hk2
        simp only [Function.comp, proj_tileX]
        rw [if_neg (by omega), if_neg (by omega)]
      · simp only [Function.comp, proj_blockX]
        rw [if_pos (by omega)]
      · intro k hk1 hk2
        simp only [Function.comp, proj_blockX]
        rw [if_neg (by omega), if_neg (by omega)]
  · have e1 : ¬ (P + 1) % 2 ≠ 0 := by omega
    simp only [if_neg hp, if_neg e1, List.filterMap_nil]

theorem symInit_eq (f : α → α → γ) (zero : γ) (n P : Nat) (X : Nat → List α) : symInit f zero n P X = scheduleInit (symT f zero n P) (distStart f zero n n P X X) := by
  apply bstate_ext
  · intro r
    simp only [symInit, scheduleInit, symT, symProg, List.filterMap_append]
    rw [filterMap_flatMap']
    by_cases hr : r < P
    · rw [if_pos hr, half_proj f zero n P r hr]
      congr 1
      apply flatMap_congr'
      intro i hi
      have hi := List.mem_range'_1.1 hi
      rw [List.filterMap_append, passA_proj f n n P i r hr (by omega) (by omega), passB_proj zero n P i r hr (by omega) (by omega)]
    · rw [if_neg hr, flatMap_congr' (h := fun _ => []) _ (fun i _ => by rw [List.filterMap_append, passA_none f n n P i r (by omega), passB_none zero n P i r (by omega)]; rfl)]
      have : (if P % 2 = 0 then halfA f n n P ++ halfB zero n P else []).filterMap (Xfer.proj r) = [] := by
        apply filterMap_all_none
        intro x hx
        split at hx
        · rcases List.mem_append.1 hx with hx | hx
          · obtain ⟨k, hk, rfl⟩ := List.mem_map.1 hx
            have hk := List.mem_range.1 hk
            rw [proj_blockX, if_neg (by omega), if_neg (by omega)]
          · obtain ⟨k, hk, rfl⟩ := List.mem_map.1 hx
            have hk := List.mem_range.1 hk
            rw [proj_tileX, if_neg (by omega), if_neg (by omega)]
        · simp at hx
      rw [this]; simp
  · intro r; rfl
  · intro s d t; rfl

theorem distCols_eq (n P q : Nat) (hq : q < P) : distCols n P q = ((chunkRange n q P).1, (chunkRange n q P).2) := by
  unfold distCols
  by_cases h : q = P - 1
  · rw [if_neg (by omega)]
    have h1 := chunkRange_succ n q P
    have h2 := chunkRange_at_P n P (by omega)
    rw [show q + 1 = P by omega] at h1
    rw [← h1, h2]
  · rw [if_pos h, chunkRange_succ]

/-- What is known about rank `r` if both operands are distributed canonically and the columns of the ranks in `don` have been computed. -/
structure DInv (f : α → α → γ) (n P : Nat) (X Y : Nat → List α) (r : Nat) (don : Nat → Prop) (st : DLoc α γ) : Prop where
  fix : st.fix = X r
  blk : st.blk = Y r
  lines : ∃ L, st.lines = some L ∧ L.length = n ∧ ∀ q < P, don q → ∀ t, (ht : t < (Y q).length) →
    L[(chunkRange n q P).1 + t]? = some ((X r).map fun x => f x (Y q)[t])

theorem dinv_assign (f : α → α → γ) (n P : Nat) (X Y : Nat → List α) (r : Nat) (don don' : Nat → Prop) (L : List (List γ)) (q : Nat) (hq : q < P) (hL : L.length = n)
    (hb : ∀ r < P, (Y r).length = evenSize n P r) (hdon : ∀ p < P, don' p → p = q ∨ don p)
    (hold : ∀ q < P, don q → ∀ t, (ht : t < (Y q).length) → L[(chunkRange n q P).1 + t]? = some ((X r).map fun x => f x (Y q)[t])) :
    ∃ L', assignLines L (distCols n P q).1 (distCols n P q).2 (einsumLines f (X r) (Y q)) = some L' ∧ L'.length = n ∧
      ∀ q < P, don' q → ∀ t, (ht : t < (Y q).length) → L'[(chunkRange n q P).1 + t]? = some ((X r).map fun x => f x (Y q)[t]) := by
  rw [distCols_eq n P q hq]
  obtain ⟨L', h1, h2, h3, h4⟩ := assign_even f n P (X r) Y L q hq hL (hb q hq)
  refine ⟨L', h1, h2, ?_⟩
  intro p hp hdp t ht
  by_cases e : p = q
  · subst e; exact h3 t ht
  · rw [h4 _ (chunk_disjoint n P e (by rw [← hb p hp]; exact ht))]
    exact hold p hp ((hdon p hp hdp).resolve_left e) t ht

theorem rows_even (m P r : Nat) (xs : List α) (h : xs.length = evenSize m P r) : xs.length = (chunkRange m r P).2 - (chunkRange m r P).1 := by
  rw [chunkRange_size, h]

theorem dinv_start (f : α → α → γ) (zero : γ) (m n P : Nat) (X Y : Nat → List α) (hx : ∀ r < P, (X r).length = evenSize m P r) (hy : ∀ r < P, (Y r).length = evenSize n P r) (r : Nat) (hr : r < P) :
    DInv f n P X Y r (fun q => q = r) (distStart f zero m n P X Y r) := by
  have hR := rows_even m P r (X r) (hx r hr)
  obtain ⟨L', h1, h2, h3⟩ := dinv_assign f n P X Y r (fun _ => False) (fun q => q = r)
    (List.replicate n (List.replicate ((chunkRange m r P).2 - (chunkRange m r P).1) zero)) r hr (by simp) hy (fun p _ h => Or.inl h) (fun q _ h => h.elim)
  refine ⟨rfl, rfl, L', ?_, h2, h3⟩
  simp only [distStart, assignTile]
  rw [if_pos hR, h1]

theorem dinv_block (f : α → α → γ) (m n P : Nat) (X Y : Nat → List α) (hx : ∀ r < P, (X r).length = evenSize m P r) (hy : ∀ r < P, (Y r).length = evenSize n P r) (r q : Nat) (hr : r < P) (hq : q < P)
    (don don' : Nat → Prop) (hdon : ∀ p < P, don' p → p = q ∨ don p) (st : DLoc α γ) (hst : DInv f n P X Y r don st) :
    DInv f n P X Y r don' (distTakeBlock f m n P r q (.block (Y q)) st) ∧ (distTakeBlock f m n P r q (.block (Y q)) st).dij = flatTile f (X r) (Y q) := by
  have hR := rows_even m P r (X r) (hx r hr)
  obtain ⟨L, hL1, hL2, hL3⟩ := hst.lines
  obtain ⟨L', h1, h2, h3⟩ := dinv_assign f n P X Y r don don' L q hq hL2 hy hdon hL3
  refine ⟨⟨hst.fix, hst.blk, L', ?_, h2, h3⟩, ?_⟩
  · simp only [distTakeBlock, hL1, Option.bind_some, assignTile, hst.fix]
    rw [if_pos hR, h1]
  · simp only [distTakeBlock, hst.fix]

theorem flatTile_length (f : α → α → γ) (xs ys : List α) : (flatTile f xs ys).length = xs.length * ys.length := by
  induction xs with
  | nil => simp [flatTile]
  | cons x xs ih =>
    have : flatTile f (x :: xs) ys = ys.map (f x) ++ flatTile f xs ys := by simp [flatTile]
    rw [this, List.length_append, ih, List.length_map, List.length_cons, Nat.succ_mul, Nat.add_comm]

theorem tileRows_flat (f : α → α → γ) : ∀ xs ys : List α, tileRows xs.length ys.length (flatTile f xs ys) = xs.map fun x => ys.map (f x)
  | [], ys => rfl
  | x :: xs, ys => by
    have e : flatTile f (x :: xs) ys = ys.map (f x) ++ flatTile f xs ys := by simp [flatTile]
    have ih := tileRows_flat f xs ys
    unfold tileRows at ih ⊢
    rw [List.length_cons, List.range_succ_eq_map, List.map_cons, List.map_map, e, List.map_cons]
    congr 1
    · rw [Nat.zero_mul, List.drop_zero, List.take_left' (by simp)]
    · rw [← ih]
      apply List.map_congr_left
      intro i _
      simp only [Function.comp]
      rw [Nat.succ_mul, Nat.add_comm, ← List.drop_drop, List.drop_left' (by simp)]

theorem dinv_tile (f : α → α → γ) (hsym : ∀ x y, f x y = f y x) (zero : γ) (n P : Nat) (X : Nat → List α) (hx : ∀ r < P, (X r).length = evenSize n P r) (r q : Nat) (hr : r < P) (hq : q < P)
    (don don' : Nat → Prop) (hdon : ∀ p < P, don' p → p = q ∨ don p) (st : DLoc α γ) (hst : DInv f n P X X r don st) :
    DInv f n P X X r don' (distTakeTile zero n P r q (.tile (flatTile f (X q) (X r))) st) := by
  have hR := rows_even n P r (X r) (hx r hr)
  have hQ := rows_even n P q (X q) (hx q hq)
  obtain ⟨L, hL1, hL2, hL3⟩ := hst.lines
  obtain ⟨L', h1, h2, h3⟩ := dinv_assign f n P X X r don don' L q hq hL2 hx hdon hL3
  refine ⟨hst.fix, hst.blk, L', ?_, h2, h3⟩
  have hc : (distCols n P q).2 - (distCols n P q).1 = (X q).length := by rw [distCols_eq n P q hq, hQ]
  have hc' : (distCols n P r).2 - (distCols n P r).1 = (X r).length := by rw [distCols_eq n P r hr, hR]
  have hl := flatTile_length f (X q) (X r)
  simp only [distTakeTile, hc, hc', ← hR]
  rw [if_neg (by omega), hL1, hl, Nat.sub_self, List.replicate_zero, List.append_nil, tileRows_flat]
  simp only [Option.bind_some, assignTile, if_true]
  rw [← h1]
  congr 1
  unfold einsumLines
  apply List.map_congr_left
  intro x _
  apply List.map_congr_left
  intro y _
  exact hsym x y

/-! ## The effect of the passes -/

theorem passA_run (f : α → α → γ) (m n P i : Nat) (h0 : 0 < i) (hi : i < P) (loc : Nat → DLoc α γ) (r : Nat) (hr : r < P) :
    runSeq (passA f m n P i) loc r = distTakeBlock f m n P r ((r + P - i) % P) (.block (loc ((r + P - i) % P)).blk) (loc r) := by
  have hs := dist_submod hr h0 hi
  have hsl : (r + P - i) % P < P := Nat.mod_lt _ (by omega)
  have hsq : ((r + P - i) % P + i) % P = r := by
    rw [dist_addmod hsl hi, hs]
    by_cases h : i ≤ r
    · rw [if_pos h, if_pos (by omega)]; omega
    · rw [if_neg h, if_neg (by omega)]; omega
  have := (runSeq_pass (fun k => blockX f m n P k ((k + i) % P) i) (fun _ _ => rfl) (fun _ _ msg st => by cases msg <;> rfl) (List.range P) List.nodup_range
    (by
      intro a ha b hb e
      have ha := List.mem_range.1 ha
      have hb := List.mem_range.1 hb
      simp only [blockX] at e
      rw [dist_addmod ha hi, dist_addmod hb hi] at e
      split at e <;> split at e <;> omega) loc).1 ((r + P - i) % P) (List.mem_range.2 hsl)
  simp only [blockX, hsq] at this
  exact this

theorem passB_run (zero : γ) (n P i : Nat) (loc : Nat → DLoc α γ) (r : Nat) (hr : r < P) :
    runSeq (passB zero n P i) loc r = distTakeTile zero n P r ((r + i) % P) (.tile (loc ((r + i) % P)).dij) (loc r) :=
  (runSeq_pass (fun k => tileX (α := α) zero n P ((k + i) % P) k i) (fun _ _ => rfl) (fun _ _ msg st => by cases msg <;> rfl) (List.range P).reverse
    (List.nodup_reverse.2 List.nodup_range) (fun _ _ _ _ e => e) loc).1 r (List.mem_reverse.2 (List.mem_range.2 hr))

theorem cross_inv (f : α → α → γ) (zero : γ) (m n P : Nat) (X Y : Nat → List α) (hx : ∀ r < P, (X r).length = evenSize m P r) (hy : ∀ r < P, (Y r).length = evenSize n P r) :
    ∀ k < P, ∀ r < P, DInv f n P X Y r (fun q => ∃ j ≤ k, q = (r + P - j) % P) (runSeq ((List.range' 1 k).flatMap (passA f m n P)) (distStart f zero m n P X Y) r)
  | 0, _, r, hr => by
    have h := dinv_start f zero m n P X Y hx hy r hr
    refine ⟨h.fix, h.blk, ?_⟩
    obtain ⟨L, h1, h2, h3⟩ := h.lines
    refine ⟨L, h1, h2, fun q hq ⟨j, hj, e⟩ => h3 q hq ?_⟩
    obtain rfl : j = 0 := by omega
    rw [e, Nat.sub_zero, Nat.add_mod_right, Nat.mod_eq_of_lt hr]
  | k + 1, hk, r, hr => by
    have ih := cross_inv f zero m n P X Y hx hy k (by omega)
    rw [List.range'_1_concat, List.flatMap_append, runSeq_append]
    simp only [List.flatMap_cons, List.flatMap_nil, List.append_nil]
    rw [passA_run f m n P (1 + k) (by omega) (by omega) _ r hr]
    have hsl : (r + P - (1 + k)) % P < P := Nat.mod_lt _ (by omega)
    rw [(ih _ hsl).blk]
    refine (dinv_block f m n P X Y hx hy r _ hr hsl _ _ ?_ _ (ih r hr)).1
    rintro p hp ⟨j, hj, e⟩
    by_cases hjk : j = k + 1
    · left; rw [e, hjk, Nat.add_comm 1 k]
    · right; exact ⟨j, by omega, e⟩

theorem sym_inv (f : α → α → γ) (hsym : ∀ x y, f x y = f y x) (zero : γ) (n P : Nat) (X : Nat → List α) (hx : ∀ r < P, (X r).length = evenSize n P r) :
    ∀ k < P, ∀ r < P, DInv f n P X X r (fun q => ∃ j ≤ k, q = (r + P - j) % P ∨ q = (r + j) % P)
      (runSeq ((List.range' 1 k).flatMap fun i => passA f n n P i ++ passB zero n P i) (distStart f zero n n P X X) r)
  | 0, _, r, hr => by
    have h := dinv_start f zero n n P X X hx hx r hr
    refine ⟨h.fix, h.blk, ?_⟩
    obtain ⟨L, h1, h2, h3⟩ := h.lines
    refine ⟨L, h1, h2, fun q hq ⟨j, hj, e⟩ => h3 q hq ?_⟩
    obtain rfl : j = 0 := by omega
    rcases e with e | e
    · rw [e, Nat.sub_zero, Nat.add_mod_right, Nat.mod_eq_of_lt hr]
    · rw [e, Nat.add_zero, Nat.mod_eq_of_lt hr]
  | k + 1, hk, r, hr => by
    have ih := sym_inv f hsym zero n P X hx k (by omega)
    rw [List.range'_1_concat, List.flatMap_append, runSeq_append]
    simp only [List.flatMap_cons, List.flatMap_nil, List.append_nil]
    rw [runSeq_append, passB_run zero n P (1 + k) _ r hr]
    generalize hloc : runSeq ((List.range' 1 k).flatMap fun i => passA f n n P i ++ passB zero n P i) (distStart f zero n n P X X) = loc at ih ⊢
    have hA : ∀ q < P, ∀ don' : Nat → Prop, (∀ p < P, don' p → p = (q + P - (1 + k)) % P ∨ ∃ j ≤ k, p = (q + P - j) % P ∨ p = (q + j) % P) →
        DInv f n P X X q don' (runSeq (passA f n n P (1 + k)) loc q) ∧ (runSeq (passA f n n P (1 + k)) loc q).dij = flatTile f (X q) (X ((q + P - (1 + k)) % P)) := by
      intro q hq don' hdon
      have hsl : (q + P - (1 + k)) % P < P := Nat.mod_lt _ (by omega)
      rw [passA_run f n n P (1 + k) (by omega) (by omega) _ q hq, (ih _ hsl).blk]
      exact dinv_block f n n P X X hx hx q _ hq hsl _ _ hdon _ (ih q hq)
    have hal : (r + (1 + k)) % P < P := Nat.mod_lt _ (by omega)
    have hback : ((r + (1 + k)) % P + P - (1 + k)) % P = r := by
      rw [dist_submod hal (by omega) (by omega), dist_addmod hr (by omega)]
      by_cases h : r + (1 + k) < P
      · rw [if_pos h, if_pos (by omega)]; omega
      · rw [if_neg h, if_neg (by omega)]; omega
    rw [(hA _ hal (fun _ => False) (fun _ _ h => h.elim)).2, hback]
    refine dinv_tile f hsym zero n P X hx r _ hr hal (fun p => p = (r + P - (1 + k)) % P ∨ ∃ j ≤ k, p = (r + P - j) % P ∨ p = (r + j) % P) _ ?_ _ (hA r hr _ (fun _ _ h => h)).1
    rintro p hp ⟨j, hj, e⟩
    by_cases hjk : j = 1 + k
    · subst hjk
      rcases e with e | e
      · exact .inr (.inl e)
      · exact .inl e
    · exact .inr (.inr ⟨j, by omega, e⟩)

theorem half_inv (f : α → α → γ) (hsym : ∀ x y, f x y = f y x) (zero : γ) (n P : Nat) (hP : P % 2 = 0) (X : Nat → List α) (hx : ∀ r < P, (X r).length = evenSize n P r) (don don' : Nat → Nat → Prop)
    (loc : Nat → DLoc α γ) (h : ∀ r < P, DInv f n P X X r (don r) (loc r)) (hdon : ∀ r < P, ∀ p < P, don' r p → p = (r + P / 2) % P ∨ don r p) :
    ∀ r < P, DInv f n P X X r (don' r) (runSeq (halfA f n n P ++ halfB zero n P) loc r) := by
  intro r hr
  rw [runSeq_append]
  have hA := runSeq_pass (fun k => blockX f n n P (k + P / 2) k (P / 2)) (fun _ _ => rfl) (fun _ _ msg st => by cases msg <;> rfl) (List.range (P / 2)) List.nodup_range
    (fun _ _ _ _ e => e) loc
  have hB := runSeq_pass (fun k => tileX (α := α) zero n P k (k + P / 2) (P / 2)) (fun _ _ => rfl) (fun _ _ msg st => by cases msg <;> rfl) (List.range (P / 2)) List.nodup_range
    (fun _ _ _ _ e => Nat.add_right_cancel e) (runSeq (halfA f n n P) loc)
  have hlow : ∀ q < P / 2, ∀ dn : Nat → Prop, (∀ p < P, dn p → p = q + P / 2 ∨ don q p) →
      DInv f n P X X q dn (runSeq (halfA f n n P) loc q) ∧ (runSeq (halfA f n n P) loc q).dij = flatTile f (X q) (X (q + P / 2)) := by
    intro q hq dn hdn
    have e := hA.1 q (List.mem_range.2 hq)
    simp only [blockX] at e
    have e' : runSeq (halfA f n n P) loc q = _ := e
    rw [e', (h (q + P / 2) (by omega)).blk]
    exact dinv_block f n n P X X hx hx q (q + P / 2) (by omega) (by omega) _ _ hdn _ (h q (by omega))
  by_cases hrh : r < P / 2
  · have e := hB.2 r (fun i hi => by simp only [tileX]; omega)
    have e' : runSeq (halfB zero n P) (runSeq (halfA f n n P) loc) r = _ := e
    rw [e']
    refine (hlow r hrh _ ?_).1
    intro p hp hd
    rcases hdon r hr p hp hd with h1 | h1
    · left; rw [h1, Nat.mod_eq_of_lt (by omega)]
    · exact .inr h1
  · have e := hB.1 (r - P / 2) (List.mem_range.2 (by omega))
    simp only [tileX] at e
    rw [show r - P / 2 + P / 2 = r by omega] at e
    have e' : runSeq (halfB zero n P) (runSeq (halfA f n n P) loc) r = _ := e
    have e2 := hA.2 r (fun i hi => by have := List.mem_range.1 hi; simp only [blockX]; omega)
    have e2' : runSeq (halfA f n n P) loc r = _ := e2
    rw [e', (hlow (r - P / 2) (by omega) (fun _ => False) (fun _ _ h => h.elim)).2, show r - P / 2 + P / 2 = r by omega, e2']
    refine dinv_tile f hsym zero n P X hx r (r - P / 2) hr (by omega) (don r) _ ?_ _ (h r hr)
    intro p hp hd
    rcases hdon r hr p hp hd with h1 | h1
    · left; rw [h1, dist_addmod hr (by omega), if_neg (by omega)]; omega
    · exact .inr h1

theorem dinv_final (f : α → α → γ) (P : Nat) (X Y : Nat → List α) (hy : Balanced P Y) (r : Nat) (hr : r < P) (don : Nat → Prop) (hdon : ∀ q < P, don q) (st : DLoc α γ)
    (h : DInv f (content P Y).length P X Y r don st) : ∃ lines, st.lines = some lines ∧ IsOuterPart f (content P X) (startOf X r) (X r).length (content P Y) lines := by
  obtain ⟨L, h1, h2, h3⟩ := h.lines
  refine ⟨L, h1, h2, ?_⟩
  intro j hj
  obtain ⟨q, hq, hq1, hq2⟩ := startOf_owner Y P j hj
  have hst := balanced_chunk_start hy q (by omega)
  rw [startOf_succ] at hq2
  have ht : j - startOf Y q < (Y q).length := by omega
  have := h3 q hq (hdon q hq) (j - startOf Y q) ht
  rw [show (chunkRange (content P Y).length q P).1 + (j - startOf Y q) = j by omega] at this
  have hc := content_get Y P q (j - startOf Y q) hq ht
  rw [show startOf Y q + (j - startOf Y q) = j by omega, List.getElem?_eq_getElem hj, Option.some.injEq] at hc
  refine ⟨_, this, by simp, ?_⟩
  intro i hi
  refine ⟨(X r)[i], content_get X P r i hr hi, ?_⟩
  rw [hc]; simp [hi]

/-! ## Errors -/

theorem dist_none (T : List (Xfer (DLoc α γ) (DMsg α γ))) (hT : ∀ x ∈ T, (∀ s, x.after s = s) ∧ ∀ msg s, s.lines = none → (x.take msg s).lines = none) :
    ∀ (loc : Nat → DLoc α γ) (r : Nat), (loc r).lines = none → (runSeq T loc r).lines = none := by
  induction T with
  | nil => intro loc r h; exact h
  | cons x T ih =>
    intro loc r h
    refine ih (fun y hy => hT y (by simp [hy])) (Xfer.apply loc x) r ?_
    have hx := hT x (by simp)
    simp only [Xfer.apply, set1, hx.1]
    by_cases e : r = x.dst
    · rw [if_pos e]; exact hx.2 _ _ (e ▸ h)
    · rw [if_neg e]
      by_cases e2 : r = x.src
      · rw [if_pos e2, ← e2]; exact h
      · rw [if_neg e2]; exact h

theorem blockX_none (f : α → α → γ) (m n P s d t : Nat) : (∀ st, (blockX f m n P s d t).after st = st) ∧
    ∀ msg st, st.lines = none → ((blockX f m n P s d t).take msg st).lines = none := by
  refine ⟨fun _ => rfl, fun msg st h => ?_⟩
  cases msg <;> simp [blockX, distTakeBlock, h]

theorem tileX_none (zero : γ) (n P s d t : Nat) : (∀ st, (tileX (α := α) zero n P s d t).after st = st) ∧
    ∀ msg st, st.lines = none → ((tileX (α := α) zero n P s d t).take msg st).lines = none := by
  refine ⟨fun _ => rfl, fun msg st h => ?_⟩
  cases msg <;> simp [tileX, distTakeTile, h]

theorem passA_mem {f : α → α → γ} {m n P i : Nat} {x : Xfer (DLoc α γ) (DMsg α γ)} (h0 : 0 < i) (hi : i < P) (h : x ∈ passA f m n P i) :
    x.src ≠ x.dst ∧ ∃ s d t, x = blockX f m n P s d t := by
  obtain ⟨r, hr, rfl⟩ := List.mem_map.1 h
  have hr := List.mem_range.1 hr
  refine ⟨?_, _, _, _, rfl⟩
  simp only [blockX]
  rw [dist_addmod hr hi]
  split <;> omega

theorem passB_mem {zero : γ} {n P i : Nat} {x : Xfer (DLoc α γ) (DMsg α γ)} (h0 : 0 < i) (hi : i < P) (h : x ∈ passB zero n P i) :
    x.src ≠ x.dst ∧ ∃ s d t, x = tileX zero n P s d t := by
  obtain ⟨r, hr, rfl⟩ := List.mem_map.1 h
  have hr := List.mem_range.1 (List.mem_reverse.1 hr)
  refine ⟨?_, _, _, _, rfl⟩
  simp only [tileX]
  rw [dist_addmod hr hi]
  split <;> omega

theorem crossT_mem {f : α → α → γ} {m n P : Nat} {x : Xfer (DLoc α γ) (DMsg α γ)} (h : x ∈ crossT f m n P) : x.src ≠ x.dst ∧ ∃ s d t, x = blockX f m n P s d t := by
  obtain ⟨i, hi, hx⟩ := List.mem_flatMap.1 h
  have hi := List.mem_range'_1.1 hi
  exact passA_mem (by omega) (by omega) hx

theorem symT_mem {f : α → α → γ} {zero : γ} {n P : Nat} {x : Xfer (DLoc α γ) (DMsg α γ)} (h : x ∈ symT f zero n P) :
    x.src ≠ x.dst ∧ ((∃ s d t, x = blockX f n n P s d t) ∨ ∃ s d t, x = tileX zero n P s d t) := by
  rcases List.mem_append.1 h with h | h
  · obtain ⟨i, hi, hx⟩ := List.mem_flatMap.1 h
    have hi := List.mem_range'_1.1 hi
    rcases List.mem_append.1 hx with hx | hx
    · have := passA_mem (by omega) (by omega) hx
      exact ⟨this.1, .inl this.2⟩
    · have := passB_mem (by omega) (by omega) hx
      exact ⟨this.1, .inr this.2⟩
  · split at h
    · rcases List.mem_append.1 h with h | h
      · obtain ⟨k, hk, rfl⟩ := List.mem_map.1 h
        have hk := List.mem_range.1 hk
        exact ⟨by simp only [blockX]; omega, .inl ⟨_, _, _, rfl⟩⟩
      · obtain ⟨k, hk, rfl⟩ := List.mem_map.1 h
        have hk := List.mem_range.1 hk
        exact ⟨by simp only [tileX]; omega, .inr ⟨_, _, _, rfl⟩⟩
    · simp at h

theorem dist_start_bad (f : α → α → γ) (zero : γ) (P : Nat) (X Y : Nat → List α) (h : ¬ (Balanced P X ∧ Balanced P Y)) :
    ∃ r < P, (distStart f zero (content P X).length (content P Y).length P X Y r).lines = none := by
  by_cases hx : Balanced P X
  · obtain ⟨q, hq, h1, h2⟩ := exists_bad Y P (fun hy => h ⟨hx, hy⟩)
    refine ⟨q, hq, ?_⟩
    have hR := rows_even (content P X).length P q (X q) (hx q hq)
    simp only [distStart, assignTile]
    rw [if_pos hR, distCols_eq _ _ _ hq]
    apply assign_none
    · rw [chunkRange_size]; simpa [einsumLines] using h1
    · simpa [einsumLines] using h2
  · obtain ⟨q, hq, h1, h2⟩ := exists_bad X P hx
    refine ⟨q, hq, ?_⟩
    simp only [distStart, assignTile]
    rw [if_neg (by rw [chunkRange_size]; exact h1), if_neg h2]

/-! ## The theorems -/

theorem length_flatMap_const {ι β : Type} (g : ι → List β) (c : Nat) (l : List ι) (h : ∀ i ∈ l, (g i).length = c) : (l.flatMap g).length = l.length * c := by
  induction l with
  | nil => simp
  | cons x l ih =>
    rw [List.flatMap_cons, List.length_append, ih fun i hi => h i (by simp [hi]), h x (by simp), List.length_cons, Nat.succ_mul, Nat.add_comm]

/-- **C68 (two arguments).**  For every metric, every distribution of both arguments and every schedule: an execution has at most `2 P (P - 1)` steps; as long as a
rank has not finished, some step must happen even if MPI buffers nothing; and when all ranks have finished, either every rank holds exactly its rows of the
distance matrix, or the distribution of an argument was not canonical and some rank has raised. -/
theorem cdist_spec (f : α → α → γ) (zero : γ) (P : Nat) (X Y : Nat → List α) {k : Nat} {st : BState (DLoc α γ) (DMsg α γ)}
    (h : Steps BStep k (crossInit f zero (content P X).length (content P Y).length P X Y) st) :
    k ≤ 2 * (P * (P - 1)) ∧ (∀ r, st.prog r ≠ [] → MustStep st) ∧
      ((∀ r, st.prog r = []) →
        ((∀ r < P, (st.loc r).lines ≠ none) ↔ Balanced P X ∧ Balanced P Y) ∧
        ((∀ r < P, (st.loc r).lines ≠ none) → ∀ r < P, ∃ lines, (st.loc r).lines = some lines ∧
          IsOuterPart f (content P X) (startOf X r) (X r).length (content P Y) lines)) := by
  rw [crossInit_eq] at h
  have ho := ordered_transfers _ (fun x hx => (crossT_mem hx).1) _ h
  have ht := ordered_transfers_terminate _ _ h
  have hlen : (crossT f (content P X).length (content P Y).length P).length = P * (P - 1) := by
    unfold crossT
    rw [length_flatMap_const _ P _ (fun i _ => by simp [passA]), List.length_range', Nat.mul_comm]
  rw [hlen] at ht
  refine ⟨ht, ho.1, fun hd => ?_⟩
  have hloc := (ho.2 hd).1
  have hbal : (∀ r < P, (st.loc r).lines ≠ none) → Balanced P X ∧ Balanced P Y := by
    intro hok
    refine Classical.byContradiction fun hnb => ?_
    obtain ⟨q, hq, hn⟩ := dist_start_bad f zero P X Y hnb
    refine hok q hq ?_
    rw [hloc]
    refine dist_none _ (fun x hx => ?_) _ _ hn
    obtain ⟨-, s, d, t, rfl⟩ := crossT_mem hx
    exact blockX_none _ _ _ _ _ _ _
  have hres : Balanced P X ∧ Balanced P Y → ∀ r < P, ∃ lines, (st.loc r).lines = some lines ∧ IsOuterPart f (content P X) (startOf X r) (X r).length (content P Y) lines := by
    intro hb r hr
    rw [hloc]
    refine dinv_final f P X Y hb.2 r hr _ ?_ _ (cross_inv f zero (content P X).length (content P Y).length P X Y hb.1 hb.2 (P - 1) (by omega) r hr)
    intro q hq
    by_cases hqr : q ≤ r
    · exact ⟨r - q, by omega, by rw [show r + P - (r - q) = q + P by omega, Nat.add_mod_right, Nat.mod_eq_of_lt hq]⟩
    · exact ⟨r + P - q, by omega, by rw [show r + P - (r + P - q) = q by omega, Nat.mod_eq_of_lt hq]⟩
  refine ⟨⟨hbal, fun hb r hr hn => ?_⟩, fun hok => hres (hbal hok)⟩
  obtain ⟨l, hl, -⟩ := hres hb r hr
  rw [hl] at hn
  exact absurd hn (by simp)

/-- **C68 (one argument).**  The same for the distances of the rows of one array among each other, of which every tile is computed only once: the metric has to
be symmetric. -/
theorem cdist_symmetric_spec (f : α → α → γ) (hsym : ∀ x y, f x y = f y x) (zero : γ) (P : Nat) (X : Nat → List α) {k : Nat} {st : BState (DLoc α γ) (DMsg α γ)}
    (h : Steps BStep k (symInit f zero (content P X).length P X) st) :
    k ≤ 2 * (P * (P - 1)) ∧ (∀ r, st.prog r ≠ [] → MustStep st) ∧
      ((∀ r, st.prog r = []) →
        ((∀ r < P, (st.loc r).lines ≠ none) ↔ Balanced P X) ∧
        ((∀ r < P, (st.loc r).lines ≠ none) → ∀ r < P, ∃ lines, (st.loc r).lines = some lines ∧
          IsOuterPart f (content P X) (startOf X r) (X r).length (content P X) lines)) := by
  rw [symInit_eq] at h
  have ho := ordered_transfers _ (fun x hx => (symT_mem hx).1) _ h
  have ht := ordered_transfers_terminate _ _ h
  have hlen : (symT f zero (content P X).length P).length = P * (P - 1) := by
    unfold symT
    rw [List.length_append, length_flatMap_const _ (2 * P) _ (fun i _ => by simp [passA, passB]; omega), List.length_range']
    by_cases hp : P % 2 = 0
    · rw [if_pos hp]
      simp only [halfA, halfB, List.length_append, List.length_map, List.length_range]
      obtain ⟨c, rfl⟩ : ∃ c, P = 2 * c := ⟨P / 2, by omega⟩
      rw [show (2 * c + 1) / 2 = c by omega, show 2 * c / 2 = c by omega]
      rcases c with _ | c
      · rfl
      · rw [show c + 1 - 1 = c by omega, show 2 * (c + 1) - 1 = 2 * c + 1 by omega]
        ring
    · rw [if_neg hp]
      obtain ⟨c, rfl⟩ : ∃ c, P = 2 * c + 1 := ⟨P / 2, by omega⟩
      rw [show (2 * c + 1 + 1) / 2 - 1 = c by omega, show 2 * c + 1 - 1 = 2 * c by omega, List.length_nil]
      ring
  rw [hlen] at ht
  refine ⟨ht, ho.1, fun hd => ?_⟩
  have hloc := (ho.2 hd).1
  have hbal : (∀ r < P, (st.loc r).lines ≠ none) → Balanced P X := by
    intro hok
    refine Classical.byContradiction fun hnb => ?_
    obtain ⟨q, hq, hn⟩ := dist_start_bad f zero P X X (fun h => hnb h.1)
    refine hok q hq ?_
    rw [hloc]
    refine dist_none _ (fun x hx => ?_) _ _ hn
    obtain ⟨-, ⟨s, d, t, rfl⟩ | ⟨s, d, t, rfl⟩⟩ := symT_mem hx
    · exact blockX_none _ _ _ _ _ _ _
    · exact tileX_none _ _ _ _ _ _
  have hres : Balanced P X → ∀ r < P, ∃ lines, (st.loc r).lines = some lines ∧ IsOuterPart f (content P X) (startOf X r) (X r).length (content P X) lines := by
    intro hb r hr
    rw [hloc]
    have hinv := sym_inv f hsym zero (content P X).length P X hb ((P + 1) / 2 - 1) (by omega)
    have hreach : ∀ r < P, ∀ q < P, q = (r + P / 2) % P ∧ P % 2 = 0 ∨ ∃ j ≤ (P + 1) / 2 - 1, q = (r + P - j) % P ∨ q = (r + j) % P := by
      intro r hr q hq
      by_cases hqr : q ≤ r
      · by_cases h1 : r - q ≤ (P + 1) / 2 - 1
        · exact .inr ⟨r - q, h1, .inl (by rw [show r + P - (r - q) = q + P by omega, Nat.add_mod_right, Nat.mod_eq_of_lt hq])⟩
        · by_cases h2 : q + P - r ≤ (P + 1) / 2 - 1
          · exact .inr ⟨q + P - r, h2, .inr (by rw [show r + (q + P - r) = q + P by omega, Nat.add_mod_right, Nat.mod_eq_of_lt hq])⟩
          · refine .inl ⟨?_, by omega⟩
            rw [dist_addmod hr (by omega), if_neg (by omega)]; omega
      · by_cases h1 : q - r ≤ (P + 1) / 2 - 1
        · exact .inr ⟨q - r, h1, .inr (by rw [show r + (q - r) = q by omega, Nat.mod_eq_of_lt hq])⟩
        · by_cases h2 : r + P - q ≤ (P + 1) / 2 - 1
          · exact .inr ⟨r + P - q, h2, .inl (by rw [show r + P - (r + P - q) = q by omega, Nat.mod_eq_of_lt hq])⟩
          · refine .inl ⟨?_, by omega⟩
            rw [dist_addmod hr (by omega), if_pos (by omega)]; omega
    unfold symT
    rw [runSeq_append]
    by_cases hp : P % 2 = 0
    · rw [if_pos hp]
      refine dinv_final f P X X hb r hr (fun _ => True) (fun _ _ => trivial) _ (half_inv f hsym zero _ P hp X hb _ (fun _ _ => True) _ hinv ?_ r hr)
      intro r hr p hp _
      rcases hreach r hr p hp with h | h
      · exact .inl h.1
      · exact .inr h
    · rw [if_neg hp]
      refine dinv_final f P X X hb r hr _ ?_ _ (hinv r hr)
      intro q hq
      rcases hreach r hr q hq with h | h
      · exact absurd h.2 hp
      · exact h
  refine ⟨⟨hbal, fun hb r hr hn => ?_⟩, fun hok => hres (hbal hok)⟩
  obtain ⟨l, hl, -⟩ := hres hb r hr
  rw [hl] at hn
  exact absurd hn (by simp)

theorem mustStep_step {S M : Type} {st : BState S M} (h : MustStep st) : ∃ st', BStep st st' := by
  cases h with
  | recv r s t tk rest m ms h hc => exact ⟨_, .recv st r s t tk rest m ms h hc⟩
  | meet r d t msg after rest tk rest' h h' => exact ⟨_, .send st r d t msg after rest h⟩

/-- A schedule of transfers can be executed completely. -/
theorem ordered_completes {S M : Type} (T : List (Xfer S M)) (hne : ∀ x ∈ T, x.src ≠ x.dst) (loc : Nat → S) :
    ∃ n st, Steps BStep n (scheduleInit T loc) st ∧ ∀ r, st.prog r = [] := by
  have : ∀ d n st, Steps BStep n (scheduleInit T loc) st → 2 * T.length - n = d → ∃ n st, Steps BStep n (scheduleInit T loc) st ∧ ∀ r, st.prog r = [] := by
    intro d
    induction d using Nat.strongRecOn with
    | _ d ih =>
      intro n st h hd
      by_cases hf : ∀ r, st.prog r = []
      · exact ⟨n, st, h, hf⟩
      · obtain ⟨r, hr⟩ := Classical.not_forall.1 hf
        obtain ⟨st', h'⟩ := mustStep_step ((ordered_transfers T hne loc h).1 r hr)
        have h2 := Steps.tail h h'
        have hb := ordered_transfers_terminate T loc h2
        exact ih _ (by omega) (n + 1) st' h2 rfl
  exact this _ 0 _ (.refl _) rfl

/-- Complete executions exist for two arguments … -/
theorem cdist_completes (f : α → α → γ) (zero : γ) (m n P : Nat) (X Y : Nat → List α) : ∃ k st, Steps BStep k (crossInit f zero m n P X Y) st ∧ ∀ r, st.prog r = [] := by
  rw [crossInit_eq]
  exact ordered_completes _ (fun x hx => (crossT_mem hx).1) _

/-- … and for one. -/
theorem cdist_symmetric_completes (f : α → α → γ) (zero : γ) (n P : Nat) (X : Nat → List α) : ∃ k st, Steps BStep k (symInit f zero n P X) st ∧ ∀ r, st.prog r = [] := by
  rw [symInit_eq]
  exact ordered_completes _ (fun x hx => (symT_mem hx).1) _

/-- **C68 (nothing to communicate).**  If the second argument is not split, every rank computes its rows of the matrix, for any distribution of the first. -/
theorem cdist_local_spec (f : α → α → γ) (P : Nat) (X : Nat → List α) (Y : List α) (r : Nat) (hr : r < P) :
    distCase (some 0) none = .local (some 0) ∧ IsOuterPart f (content P X) (startOf X r) (X r).length Y (einsumLines f (X r) Y) := by
  refine ⟨rfl, by simp [einsumLines], ?_⟩
  intro j hj
  refine ⟨(X r).map fun x => f x Y[j], by simp [einsumLines, hj], by simp, ?_⟩
  intro i hi
  exact ⟨(X r)[i], content_get X P r i hr hi, by simp [hi]⟩

/-- **C68 violated.**  If the first argument is split along the rows and the second along the columns, the error is never raised: the ring case is not entered
either, and the zeros that were allocated for the result are returned. -/
theorem cdist_zeros_violated : ∃ sx sy, sx = some 0 ∧ sy = some 1 ∧ distCase sx sy = .zeros := ⟨_, _, rfl, rfl, rfl⟩

/-- Every other combination of splits is computed or refused. -/
theorem cdist_case (sx sy : Option Nat) : distCase sx sy = .zeros ↔ sx = some 0 ∧ ∃ c, sy = some (c + 1) := by
  rcases sx with _ | sx | sx <;> rcases sy with _ | sy | sy <;> simp [distCase]

/-- non-vacuity: three and four ranks, absolute difference as the metric -/
example : (runSeq (symT (fun a b : Int => (a - b).natAbs) 0 4 3) (distStart (fun a b : Int => (a - b).natAbs) 0 4 4 3 (fun r => [[1, 2], [5], [9]].getD r []) (fun r => [[1, 2], [5], [9]].getD r [])) 1).lines =
    some [[4], [3], [0], [4]] := by decide +kernel

example : (runSeq (symT (fun a b : Int => (a - b).natAbs) 0 5 4) (distStart (fun a b : Int => (a - b).natAbs) 0 5 5 4 (fun r => [[1, 2], [5], [9], [20]].getD r []) (fun r => [[1, 2], [5], [9], [20]].getD r [])) 0).lines =
    some [[0, 1], [1, 0], [4, 3], [8, 7], [19, 18]] := by decide +kernel

example : (runSeq (crossT (fun a b : Int => (a - b).natAbs) 4 2 3) (distStart (fun a b : Int => (a - b).natAbs) 0 4 2 3 (fun r => [[1, 2], [5], [9]].getD r []) (fun r => [[0], [3], []].getD r [])) 0).lines =
    some [[1, 2], [2, 1]] := by decide +kernel

example : Balanced 3 (fun r => [[1, 2], [5], [9]].getD r ([] : List Int)) := by
  intro r hr
  match r, hr with
  | 0, _ => simp [content_succ, content_zero, evenSize]
  | 1, _ => simp [content_succ, content_zero, evenSize]
  | 2, _ => simp [content_succ, content_zero, evenSize]

end Heat
