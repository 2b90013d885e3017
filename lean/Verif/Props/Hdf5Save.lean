import Verif.Props.Hdf5
/-!
# C89: save_hdf5 without parallel I/O
-/
namespace Heat

open Spec
variable {α : Type}

/-! ## The writes -/

/-- The local part fits its canonical place in the file (or h5py stretches it). -/
def Fits (n P r : Nat) (part : List α) : Prop :=
  (chunkRange n r P).2 ≤ (chunkRange n r P).1 ∨ part.length = (chunkRange n r P).2 - (chunkRange n r P).1 ∨ part.length = 1

/-- The data set after the ranks before `j` have written. -/
def fileSeq (P n : Nat) (parts : Nat → List α) : Nat → List (Option α)
  | 0 => List.replicate n none
  | j + 1 => (dsetWrite (fileSeq P n parts j) (chunkRange n j P).1 (chunkRange n j P).2 (parts j)).getD []

theorem dsetWrite_none {file : List (Option α)} {n P r : Nat} {part : List α} (h : dsetWrite file (chunkRange n r P).1 (chunkRange n r P).2 part = none) : ¬ Fits n P r part := by
  unfold dsetWrite at h
  intro hf
  by_cases h1 : (chunkRange n r P).2 ≤ (chunkRange n r P).1
  · rw [if_pos h1] at h; cases h
  · rw [if_neg h1] at h
    by_cases h2 : part.length = (chunkRange n r P).2 - (chunkRange n r P).1
    · rw [if_pos h2] at h; cases h
    · rw [if_neg h2] at h
      by_cases h3 : part.length = 1
      · rw [if_pos h3] at h; cases h
      · rcases hf with hf | hf | hf
        · exact h1 hf
        · exact h2 hf
        · exact h3 hf

theorem dsetWrite_some {file file' : List (Option α)} {n P r : Nat} {part : List α} (h : dsetWrite file (chunkRange n r P).1 (chunkRange n r P).2 part = some file') : Fits n P r part := by
  unfold dsetWrite at h
  by_cases h1 : (chunkRange n r P).2 ≤ (chunkRange n r P).1
  · exact .inl h1
  · rw [if_neg h1] at h
    by_cases h2 : part.length = (chunkRange n r P).2 - (chunkRange n r P).1
    · exact .inr (.inl h2)
    · rw [if_neg h2] at h
      by_cases h3 : part.length = 1
      · exact .inr (.inr h3)
      · rw [if_neg h3] at h; cases h

/-- In a balanced distribution the writes put the slabs of the ranks one after the other. -/
theorem fileSeq_balanced (P : Nat) (hP : 0 < P) (parts : Nat → List α) (hb : Balanced P parts) (j : Nat) (hj : j ≤ P) :
    fileSeq P (content P parts).length parts j = (content j parts).map some ++ List.replicate ((content P parts).length - (content j parts).length) none := by
  have hstart : ∀ k ≤ P, (content k parts).length = (chunkRange (content P parts).length k P).1 := by
    intro k
    induction k with
    | zero => intro _; simp [content_zero, chunkRange_zero]
    | succ k ih =>
      intro hk
      have hm := chunkRange_mono (content P parts).length P (r := k) (s := k + 1) (by omega)
      rw [chunkRange_succ] at hm
      rw [content_succ, List.length_append, ih (by omega), hb k (by omega), ← chunkRange_size, chunkRange_succ]
      omega
  induction j with
  | zero => simp [fileSeq, content_zero]
  | succ j ih =>
    have hl := hb j (by omega)
    rw [← chunkRange_size] at hl
    have hm := chunkRange_mono (content P parts).length P (r := j) (s := j + 1) (by omega)
    rw [chunkRange_succ] at hm
    have hs := hstart j (by omega)
    have hs' := hstart (j + 1) hj
    rw [chunkRange_succ] at hs'
    have hle := content_length_mono parts hj
    rw [fileSeq, ih (by omega), dsetWrite]
    by_cases h1 : (chunkRange (content P parts).length j P).2 ≤ (chunkRange (content P parts).length j P).1
    · rw [if_pos h1]
      have : parts j = [] := List.length_eq_zero_iff.mp (by omega)
      rw [content_succ, this]
      simp
    · rw [if_neg h1, if_pos hl]
      simp only [Option.getD_some]
      rw [← hs, ← hs']
      rw [List.take_append_of_le_length (by simp), List.take_of_length_le (by simp), List.drop_append, List.drop_eq_nil_of_le (by
        rw [List.length_map]; exact content_length_mono parts (by omega)), content_succ, List.map_append, List.drop_replicate]
      simp only [List.length_map, List.nil_append, List.length_append]
      congr 2
      rw [content_succ, List.length_append] at hle
      omega

theorem sum_le_sum (a b : Nat → Nat) (P : Nat) (h : ∀ r < P, a r ≤ b r) : ((List.range P).map a).sum ≤ ((List.range P).map b).sum := by
  induction P with
  | zero => simp
  | succ P ih =>
    have := ih fun r hr => h r (by omega)
    have := h P (by omega)
    simp only [List.range_succ, List.map_append, List.sum_append, List.map_cons, List.map_nil, List.sum_cons, List.sum_nil]
    omega

theorem eq_of_sum_eq (a b : Nat → Nat) (P : Nat) (h : ∀ r < P, a r ≤ b r) (hs : ((List.range P).map a).sum = ((List.range P).map b).sum) : ∀ r < P, a r = b r := by
  induction P with
  | zero => intro r hr; omega
  | succ P ih =>
    simp only [List.range_succ, List.map_append, List.sum_append, List.map_cons, List.map_nil, List.sum_cons, List.sum_nil] at hs
    have h1 := sum_le_sum a b P fun r hr => h r (by omega)
    have h2 := h P (by omega)
    intro r hr
    rcases Nat.lt_or_ge r P with hrP | hrP
    · exact ih (fun r hr => h r (by omega)) (by omega) r hrP
    · have : r = P := by omega
      subst this; omega

/-- If h5py accepts the parts of all ranks, the distribution is the canonical one. -/
theorem balanced_of_fits (P : Nat) (hP : 0 < P) (parts : Nat → List α) (h : ∀ r < P, Fits (content P parts).length P r (parts r)) : Balanced P parts := by
  have hsum : ((List.range P).map fun r => (parts r).length).sum = ((List.range P).map fun r => evenSize (content P parts).length P r).sum := by
    rw [← content_length_sum]
    exact (sum_evenSizes (content P parts).length P hP).symm
  change ∀ r < P, (parts r).length = evenSize (content P parts).length P r
  generalize (content P parts).length = n at *
  have hsz := fun r => chunkRange_size n r P
  by_cases hn : P ≤ n
  · apply eq_of_sum_eq _ _ _ _ hsum
    intro r hr
    have h1 : 1 ≤ n / P := (Nat.one_le_div_iff hP).mpr hn
    have h2 : 1 ≤ evenSize n P r := by unfold evenSize; omega
    have h3 := hsz r
    rcases h r hr with hf | hf | hf <;> omega
  · intro r hr
    refine (eq_of_sum_eq (fun r => evenSize n P r) (fun r => (parts r).length) P ?_ hsum.symm r hr).symm
    intro r hr
    have h1 : n / P = 0 := Nat.div_eq_of_lt (by omega)
    have h2 : evenSize n P r ≤ 1 := by unfold evenSize; split <;> omega
    have h3 := hsz r
    rcases h r hr with hf | hf | hf <;> omega

/-! ## The chain of pings -/

/-- Next thing the rank whose turn it is does. -/
inductive Turn where
  | wait | opens | writes | closes | pings
  deriving DecidableEq, Repr

/-- Position of the turns. -/
def Turn.idx : Turn → Nat
  | .wait => 0 | .opens => 1 | .writes => 2 | .closes => 3 | .pings => 4

/-- What a rank does after closing the file. -/
def tailOps (P j : Nat) : List IoOp := if j = 0 then (if P > 1 then [.ping 1, .await (P - 1)] else []) else [.ping ((j + 1) % P)]

/-- Remaining operations of the rank whose turn it is. -/
def turnOps (P j : Nat) : Turn → List IoOp
  | .wait => .await (j - 1) :: .openRW :: .write :: .close :: tailOps P j
  | .opens => (if j = 0 then .create else .openRW) :: .write :: .close :: tailOps P j
  | .writes => .write :: .close :: tailOps P j
  | .closes => .close :: tailOps P j
  | .pings => tailOps P j

/-- The data set when it is rank `j`'s turn. -/
def turnFile (P n : Nat) (parts : Nat → List α) (j : Nat) : Turn → Option (List (Option α))
  | .wait => some (fileSeq P n parts j)
  | .opens => if j = 0 then none else some (fileSeq P n parts j)
  | .writes => some (fileSeq P n parts j)
  | .closes => some (fileSeq P n parts (j + 1))
  | .pings => some (fileSeq P n parts (j + 1))

/-- What the ranks before the one whose turn it is still have to do. -/
def doneOps (P r : Nat) : List IoOp := if r = 0 then [.await (P - 1)] else []

/-- It is rank `j`'s turn. -/
structure AtTurn (P n : Nat) (parts : Nat → List α) (j : Nat) (t : Turn) (st : SaveState α) : Prop where
  jP : j < P
  start : t = .wait → 0 < j
  two : t = .pings → 1 < P
  prev : ∀ r < j, st.prog r = doneOps P r
  own : st.prog j = turnOps P j t
  next : ∀ r, j < r → r < P → st.prog r = saveProg P r
  opn : ∀ r < P, st.isOpen r = true ↔ r = j ∧ (t = .writes ∨ t = .closes)
  rsd : ∀ r < P, st.raised r = false
  png : ∀ s d, st.pings s d = if t = .wait ∧ s = j - 1 ∧ d = j then 1 else 0
  fil : st.file = turnFile P n parts j t

/-- Only rank 0 still has to receive the last ping. -/
structure AtEnd (P n : Nat) (parts : Nat → List α) (st : SaveState α) : Prop where
  two : 1 < P
  prog : ∀ r < P, st.prog r = doneOps P r
  opn : ∀ r < P, st.isOpen r = false
  rsd : ∀ r < P, st.raised r = false
  png : ∀ s d, st.pings s d = if s = P - 1 ∧ d = 0 then 1 else 0
  fil : st.file = some (fileSeq P n parts P)

/-- Every rank has returned. -/
structure AllDone (P n : Nat) (parts : Nat → List α) (st : SaveState α) : Prop where
  prog : ∀ r < P, st.prog r = []
  opn : ∀ r < P, st.isOpen r = false
  rsd : ∀ r < P, st.raised r = false
  fil : st.file = some (fileSeq P n parts P)

/-- Rank `j` has raised. -/
structure AtFail (P : Nat) (j : Nat) (st : SaveState α) : Prop where
  jP : j < P
  prev : ∀ r < j, st.prog r = doneOps P r
  own : st.prog j = []
  next : ∀ r, j < r → r < P → st.prog r = saveProg P r
  opn : ∀ r < P, st.isOpen r = false
  rsd : ∀ r < P, st.raised r = decide (r = j)
  png : ∀ s d, st.pings s d = 0

/-- Reachable states. -/
inductive SaveInv (P n : Nat) (parts : Nat → List α) : Nat → SaveState α → Prop where
  | turn (j : Nat) (t : Turn) (st : SaveState α) (h : AtTurn P n parts j t st) (hf : ∀ r < j, Fits n P r (parts r))
      (ht : t = .closes ∨ t = .pings → Fits n P j (parts j)) (k : Nat) (hk : k = 5 * j + t.idx) : SaveInv P n parts k st
  | atEnd (st : SaveState α) (h : AtEnd P n parts st) (hf : ∀ r < P, Fits n P r (parts r)) (k : Nat) (hk : k = 5 * P) : SaveInv P n parts k st
  | done (st : SaveState α) (h : AllDone P n parts st) (hf : ∀ r < P, Fits n P r (parts r)) (k : Nat) (hk : k ≤ 5 * P + 1) : SaveInv P n parts k st
  | fail (j : Nat) (st : SaveState α) (h : AtFail P j st) (hf : ¬ Fits n P j (parts j)) (k : Nat) (hk : k ≤ 5 * P + 1) : SaveInv P n parts k st

theorem turnI {P n : Nat} {parts : Nat → List α} (j : Nat) (t : Turn) (st : SaveState α) (h : AtTurn P n parts j t st) (hf : ∀ r < j, Fits n P r (parts r))
    (ht : t = .closes ∨ t = .pings → Fits n P j (parts j)) : SaveInv P n parts (5 * j + t.idx) st := .turn j t st h hf ht _ rfl

theorem endI {P n : Nat} {parts : Nat → List α} (st : SaveState α) (h : AtEnd P n parts st) (hf : ∀ r < P, Fits n P r (parts r)) : SaveInv P n parts (5 * P) st :=
  .atEnd st h hf _ rfl

theorem turnOps_full (P j : Nat) (h : 0 < j) : saveProg P j = turnOps P j .wait := by
  unfold saveProg turnOps tailOps
  rw [if_neg (by omega), if_neg (by omega)]

theorem turnOps_zero (P : Nat) : saveProg P 0 = turnOps P 0 .opens := by
  unfold saveProg turnOps tailOps
  rw [if_pos rfl, if_pos rfl, if_pos rfl]
  rfl

theorem saveInit_inv (P n : Nat) (hP : 0 < P) (parts : Nat → List α) : SaveInv P n parts 1 (saveInit P : SaveState α) :=
  turnI 0 .opens _ ⟨hP, by simp, by simp, by simp, turnOps_zero P, fun _ _ _ => rfl, by simp [saveInit], fun _ _ => rfl, by simp [saveInit], by simp [turnFile, saveInit]⟩
    (by simp) (by simp)

/-- The heads of the programs of the ranks whose turn it is not. -/
theorem other_waits {P j : Nat} {st : SaveState α} (hprev : ∀ r < j, st.prog r = doneOps P r)
    (hnext : ∀ r, j < r → r < P → st.prog r = saveProg P r) {r : Nat} (hr : r < P) (hne : r ≠ j) {op : IoOp} {rest : List IoOp} (h : st.prog r = op :: rest) :
    op = .await (if r = 0 then P - 1 else r - 1) := by
  rcases Nat.lt_or_ge r j with hl | hg
  · rw [hprev r hl] at h
    unfold doneOps at h
    by_cases h0 : r = 0
    · rw [if_pos h0] at h ⊢
      injection h with h _
      exact h.symm
    · rw [if_neg h0] at h; cases h
  · rw [hnext r (by omega) hr, turnOps_full P r (by omega)] at h
    rw [if_neg (by omega)]
    injection h with h _
    exact h.symm


/-- Only the rank whose turn it is can make a step. -/
theorem turn_only {P n : Nat} {parts : Nat → List α} {j : Nat} {t : Turn} {st : SaveState α} (h : AtTurn P n parts j t st) {r : Nat} (hr : r < P) {op : IoOp}
    {rest : List IoOp} (hp : st.prog r = op :: rest) (ha : ∀ s, op = .await s → 0 < st.pings s r) : r = j ∧ turnOps P j t = op :: rest := by
  by_cases hne : r = j
  · subst hne
    exact ⟨rfl, by rw [← h.own, hp]⟩
  · have hop := other_waits h.prev h.next hr hne hp
    have := ha _ hop
    rw [h.png, if_neg (by intro hc; exact hne hc.2.2)] at this
    omega

/-- What the operation at the head says about the turn. -/
theorem turnOps_head {P j : Nat} {t : Turn} {op : IoOp} {rest : List IoOp} (h : turnOps P j t = op :: rest) :
    (op = .create → t = .opens ∧ j = 0 ∧ rest = turnOps P j .writes) ∧ (op = .openRW → t = .opens ∧ j ≠ 0 ∧ rest = turnOps P j .writes) ∧
    (op = .write → t = .writes ∧ rest = turnOps P j .closes) ∧ (op = .close → t = .closes ∧ rest = tailOps P j) ∧ (∀ d, op = .ping d → t = .pings) := by
  by_cases h0 : j = 0
  · by_cases hP : P > 1
    · cases t <;> simp [turnOps, tailOps, h0, hP] at h ⊢ <;> obtain ⟨rfl, rfl⟩ := h <;> simp
    · cases t <;> simp [turnOps, tailOps, h0, hP] at h ⊢ <;> obtain ⟨rfl, rfl⟩ := h <;> simp
  · cases t <;> simp [turnOps, tailOps, h0] at h ⊢ <;> obtain ⟨rfl, rfl⟩ := h <;> simp

/-- The step of the rank whose turn it is, by cases. -/
theorem turn_step {P n : Nat} {parts : Nat → List α} {j : Nat} {t : Turn} {st st' : SaveState α} (h : AtTurn P n parts j t st)
    (hf : ∀ r < j, Fits n P r (parts r)) (ht : t = .closes ∨ t = .pings → Fits n P j (parts j)) (hs : SaveStep P n parts st st') :
    SaveInv P n parts (5 * j + t.idx + 1) st' := by
  have hj := h.jP
  cases hs with
  | create r rest hr hp =>
    obtain ⟨rfl, ho⟩ := turn_only h hr hp (by simp)
    have htt := (turnOps_head ho).1 rfl
    obtain ⟨rfl, h0, rfl⟩ := htt
    refine turnI r .writes _ ⟨hj, by simp, by simp, fun q hq => ?_, ?_, fun q hq hq' => ?_, fun q hq => ?_, h.rsd, ?_, ?_⟩ hf (by simp)
    · dsimp only; rw [set1_ne _ _ (by omega)]; exact h.prev q hq
    · dsimp only; rw [set1_same]
    · dsimp only; rw [set1_ne _ _ (by omega)]; exact h.next q hq hq'
    · by_cases hqr : q = r
      · subst hqr; simp [set1_same]
      · dsimp only; rw [set1_ne _ _ hqr, h.opn q hq]; simp [hqr]
    · intro s d; dsimp only; rw [h.png]; simp
    · subst h0; rfl
  | openRW r rest hr hp =>
    obtain ⟨rfl, ho⟩ := turn_only h hr hp (by simp)
    have htt := (turnOps_head ho).2.1 rfl
    obtain ⟨rfl, h0, rfl⟩ := htt
    refine turnI r .writes _ ⟨hj, by simp, by simp, fun q hq => ?_, ?_, fun q hq hq' => ?_, fun q hq => ?_, h.rsd, ?_, ?_⟩ hf (by simp)
    · dsimp only; rw [set1_ne _ _ (by omega)]; exact h.prev q hq
    · dsimp only; rw [set1_same]
    · dsimp only; rw [set1_ne _ _ (by omega)]; exact h.next q hq hq'
    · by_cases hqr : q = r
      · subst hqr; simp [set1_same]
      · dsimp only; rw [set1_ne _ _ hqr, h.opn q hq]; simp [hqr]
    · intro s d; dsimp only; rw [h.png]; simp
    · dsimp only; rw [h.fil]; simp [turnFile, h0]
  | write r rest file file' hr hp hfile hw =>
    obtain ⟨rfl, ho⟩ := turn_only h hr hp (by simp)
    have htt := (turnOps_head ho).2.2.1 rfl
    obtain ⟨rfl, rfl⟩ := htt
    refine turnI r .closes _ ⟨hj, by simp, by simp, fun q hq => ?_, ?_, fun q hq hq' => ?_, fun q hq => ?_, h.rsd, ?_, ?_⟩ hf (fun _ => dsetWrite_some hw)
    · dsimp only; rw [set1_ne _ _ (by omega)]; exact h.prev q hq
    · dsimp only; rw [set1_same]
    · dsimp only; rw [set1_ne _ _ (by omega)]; exact h.next q hq hq'
    · dsimp only; rw [h.opn q hq]; simp
    · intro s d; dsimp only; rw [h.png]; simp
    · have hff := h.fil
      simp only [turnFile] at hff
      rw [hfile] at hff
      injection hff with hff
      simp only [turnFile, fileSeq, ← hff, hw, Option.getD_some]
  | fail r rest hr hp hff =>
    obtain ⟨rfl, ho⟩ := turn_only h hr hp (by simp)
    have htt := ((turnOps_head ho).2.2.1 rfl).1
    subst htt
    refine .fail r _ ⟨hj, fun q hq => ?_, set1_same _ _ _, fun q hq hq' => ?_, fun q hq => ?_, fun q hq => ?_, ?_⟩ (dsetWrite_none (hff _ h.fil)) _ ?_
    · dsimp only; rw [set1_ne _ _ (by omega)]; exact h.prev q hq
    · dsimp only; rw [set1_ne _ _ (by omega)]; exact h.next q hq hq'
    · by_cases hqr : q = r
      · subst hqr; exact set1_same _ _ _
      · dsimp only; rw [set1_ne _ _ hqr]
        have := h.opn q hq
        cases hb : st.isOpen q
        · rfl
        · exact absurd (this.mp hb).1 hqr
    · by_cases hqr : q = r
      · subst hqr; simp [set1_same]
      · dsimp only; rw [set1_ne _ _ hqr, h.rsd q hq]; simp [hqr]
    · intro s d; dsimp only; rw [h.png]; simp
    · simp only [Turn.idx]; omega
  | close r rest hr hp =>
    obtain ⟨rfl, ho⟩ := turn_only h hr hp (by simp)
    have htt := (turnOps_head ho).2.2.2.1 rfl
    obtain ⟨rfl, rfl⟩ := htt
    have hfit := ht (.inl rfl)
    have hopen : ∀ q < P, set1 st.isOpen r false q = false := by
      intro q hq
      by_cases hqr : q = r
      · subst hqr; exact set1_same _ _ _
      · rw [set1_ne _ _ hqr]
        have := h.opn q hq
        cases hb : st.isOpen q
        · rfl
        · exact absurd (this.mp hb).1 hqr
    by_cases hP1 : 1 < P
    · refine turnI r .pings _ ⟨hj, by simp, fun _ => hP1, fun q hq => ?_, ?_, fun q hq hq' => ?_, fun q hq => ?_, h.rsd, ?_, ?_⟩ hf (fun _ => hfit)
      · dsimp only; rw [set1_ne _ _ (by omega)]; exact h.prev q hq
      · dsimp only; rw [set1_same]; rfl
      · dsimp only; rw [set1_ne _ _ (by omega)]; exact h.next q hq hq'
      · dsimp only; rw [hopen q hq]; simp
      · intro s d; dsimp only; rw [h.png]; simp
      · exact h.fil
    · have h1 : P = 1 := by omega
      subst h1
      have h0 : r = 0 := by omega
      subst h0
      have hd : AllDone 1 n parts { st with prog := set1 st.prog 0 (tailOps 1 0), isOpen := set1 st.isOpen 0 false } := by
        refine ⟨fun q hq => ?_, hopen, h.rsd, h.fil⟩
        have : q = 0 := by omega
        subst this
        dsimp only
        rw [set1_same]; rfl
      refine .done _ hd (fun q hq => ?_) _ ?_
      · have : q = 0 := by omega
        subst this
        exact hfit
      · simp only [Turn.idx]; omega
  | ping r d rest hr hp =>
    obtain ⟨rfl, ho⟩ := turn_only h hr hp (by simp)
    have htt := (turnOps_head ho).2.2.2.2 _ rfl
    subst htt
    have hP1 := h.two rfl
    have hfit := ht (.inr rfl)
    have hfits : ∀ q < r + 1, Fits n P q (parts q) := by
      intro q hq
      rcases Nat.lt_or_ge q r with hq' | hq'
      · exact hf q hq'
      · have : q = r := by omega
        subst this; exact hfit
    have hd : d = (r + 1) % P ∧ rest = doneOps P r := by
      unfold turnOps tailOps at ho
      dsimp only at ho
      by_cases h0 : r = 0
      · subst h0
        rw [if_pos rfl, if_pos hP1] at ho
        injection ho with ho1 ho2
        injection ho1 with ho1
        exact ⟨by rw [Nat.mod_eq_of_lt (by omega)]; omega, ho2.symm⟩
      · rw [if_neg h0] at ho
        injection ho with ho1 ho2
        injection ho1 with ho1
        refine ⟨ho1.symm, ?_⟩
        unfold doneOps
        rw [if_neg h0, ho2]
    obtain ⟨hd, rfl⟩ := hd
    have hopen : ∀ q < P, st.isOpen q = false := by
      intro q hq
      have := h.opn q hq
      cases hb : st.isOpen q
      · rfl
      · rw [hb] at this; simp at this
    have hpng0 : ∀ s d, st.pings s d = 0 := by intro s d; rw [h.png]; simp
    by_cases hlast : r + 1 < P
    · rw [Nat.mod_eq_of_lt hlast] at hd
      subst hd
      have hres : SaveInv P n parts (5 * (r + 1) + Turn.wait.idx) { st with prog := set1 st.prog r (doneOps P r), pings := setPing st.pings r (r + 1) (st.pings r (r + 1) + 1) } := by
        refine turnI (r + 1) .wait _ ⟨hlast, by simp, by simp, fun q hq => ?_, ?_, fun q hq hq' => ?_, fun q hq => ?_, h.rsd, ?_, ?_⟩ hfits (by simp)
        · rcases Nat.lt_or_ge q r with hq' | hq'
          · dsimp only; rw [set1_ne _ _ (by omega)]; exact h.prev q hq'
          · have : q = r := by omega
            subst this; exact set1_same _ _ _
        · dsimp only; rw [set1_ne _ _ (by omega), h.next (r + 1) (by omega) hlast, turnOps_full _ _ (by omega)]
        · dsimp only; rw [set1_ne _ _ (by omega)]; exact h.next q (by omega) hq'
        · dsimp only; rw [hopen q hq]; simp
        · intro s d
          simp only [setPing, hpng0, Nat.add_sub_cancel, true_and]
        · exact h.fil
      exact hres
    · have hrP : r + 1 = P := by omega
      rw [hrP, Nat.mod_self] at hd
      subst hd
      have hres : SaveInv P n parts (5 * P) { st with prog := set1 st.prog r (doneOps P r), pings := setPing st.pings r 0 (st.pings r 0 + 1) } := by
        refine endI _ ⟨hP1, fun q hq => ?_, hopen, h.rsd, ?_, ?_⟩ (hrP ▸ hfits)
        · rcases Nat.lt_or_ge q r with hq' | hq'
          · dsimp only; rw [set1_ne _ _ (by omega)]; exact h.prev q hq'
          · have : q = r := by omega
            subst this; exact set1_same _ _ _
        · intro s d
          have : P - 1 = r := by omega
          simp only [setPing, hpng0, this, Nat.zero_add]
        · have := h.fil
          simp only [turnFile, hrP] at this
          exact this
      rw [← hrP] at hres ⊢
      exact hres
  | await r s rest hr hp hpng =>
    obtain ⟨rfl, ho⟩ := turn_only h hr hp (by intro s' hs'; injection hs' with hs'; subst hs'; exact hpng)
    have htt : t = .wait := by
      rw [h.png] at hpng
      by_cases hc : t = .wait ∧ s = r - 1 ∧ r = r
      · exact hc.1
      · rw [if_neg hc] at hpng; omega
    subst htt
    have h0 := h.start rfl
    simp only [turnOps] at ho
    injection ho with ho1 ho2
    injection ho1 with ho1
    subst ho1
    subst ho2
    refine turnI r .opens _ ⟨hj, by simp, by simp, fun q hq => ?_, ?_, fun q hq hq' => ?_, fun q hq => ?_, h.rsd, ?_, ?_⟩ hf (by simp)
    · dsimp only; rw [set1_ne _ _ (by omega)]; exact h.prev q hq
    · dsimp only; rw [set1_same]; simp only [turnOps]; rw [if_neg (by omega)]
    · dsimp only; rw [set1_ne _ _ (by omega)]; exact h.next q hq hq'
    · dsimp only; rw [h.opn q hq]; simp
    · intro s d
      simp only [setPing, h.png]
      by_cases hc : s = r - 1 ∧ d = r
      · rw [if_pos hc]; simp
      · rw [if_neg hc, if_neg (by intro hh; exact hc hh.2)]; simp
    · dsimp only
      rw [h.fil]
      simp only [turnFile]
      rw [if_neg (by omega)]

/-- Nobody can make a step after a rank has raised. -/
theorem fail_stuck {P n : Nat} {parts : Nat → List α} {j : Nat} {st st' : SaveState α} (h : AtFail P j st) (hs : SaveStep P n parts st st') : False := by
  have key : ∀ (r : Nat) (op : IoOp) (rest : List IoOp), r < P → st.prog r = op :: rest → (∀ s, op = .await s → 0 < st.pings s r) → False := by
    intro r op rest hr hp ha
    by_cases hne : r = j
    · subst hne; rw [h.own] at hp; cases hp
    · have := ha _ (other_waits h.prev h.next hr hne hp)
      rw [h.png] at this
      omega
  cases hs with
  | create r rest hr hp => exact key r _ _ hr hp (by simp)
  | openRW r rest hr hp => exact key r _ _ hr hp (by simp)
  | write r rest file file' hr hp hfile hw => exact key r _ _ hr hp (by simp)
  | fail r rest hr hp hff => exact key r _ _ hr hp (by simp)
  | close r rest hr hp => exact key r _ _ hr hp (by simp)
  | ping r d rest hr hp => exact key r _ _ hr hp (by simp)
  | await r s rest hr hp hpng => exact key r _ _ hr hp (by intro s' hs'; injection hs' with hs'; subst hs'; exact hpng)

theorem done_stuck {P n : Nat} {parts : Nat → List α} {st st' : SaveState α} (h : AllDone P n parts st) (hs : SaveStep P n parts st st') : False := by
  have key : ∀ (r : Nat) (op : IoOp) (rest : List IoOp), r < P → st.prog r = op :: rest → False := by
    intro r op rest hr hp
    rw [h.prog r hr] at hp; cases hp
  cases hs with
  | create r rest hr hp => exact key r _ _ hr hp
  | openRW r rest hr hp => exact key r _ _ hr hp
  | write r rest file file' hr hp hfile hw => exact key r _ _ hr hp
  | fail r rest hr hp hff => exact key r _ _ hr hp
  | close r rest hr hp => exact key r _ _ hr hp
  | ping r d rest hr hp => exact key r _ _ hr hp
  | await r s rest hr hp hpng => exact key r _ _ hr hp

theorem end_step {P n : Nat} {parts : Nat → List α} {st st' : SaveState α} (h : AtEnd P n parts st) (hs : SaveStep P n parts st st') : AllDone P n parts st' := by
  have key : ∀ (r : Nat) (op : IoOp) (rest : List IoOp), r < P → st.prog r = op :: rest → r = 0 ∧ op = .await (P - 1) ∧ rest = [] := by
    intro r op rest hr hp
    rw [h.prog r hr] at hp
    unfold doneOps at hp
    by_cases h0 : r = 0
    · rw [if_pos h0] at hp
      injection hp with h1 h2
      exact ⟨h0, h1.symm, h2.symm⟩
    · rw [if_neg h0] at hp; cases hp
  cases hs with
  | create r rest hr hp => have := (key r _ _ hr hp).2.1; cases this
  | openRW r rest hr hp => have := (key r _ _ hr hp).2.1; cases this
  | write r rest file file' hr hp hfile hw => have := (key r _ _ hr hp).2.1; cases this
  | fail r rest hr hp hff => have := (key r _ _ hr hp).2.1; cases this
  | close r rest hr hp => have := (key r _ _ hr hp).2.1; cases this
  | ping r d rest hr hp => have := (key r _ _ hr hp).2.1; cases this
  | await r s rest hr hp hpng =>
    obtain ⟨rfl, hop, rfl⟩ := key r _ _ hr hp
    refine ⟨fun q hq => ?_, h.opn, h.rsd, h.fil⟩
    dsimp only
    by_cases h0 : q = 0
    · subst h0; exact set1_same _ _ _
    · rw [set1_ne _ _ h0, h.prog q hq]
      unfold doneOps
      rw [if_neg h0]

theorem save_inv {P n : Nat} (hP : 0 < P) {parts : Nat → List α} {k : Nat} {st : SaveState α} (h : Steps (SaveStep P n parts) k (saveInit P) st) : SaveInv P n parts (k + 1) st := by
  generalize hi : (saveInit P : SaveState α) = i at h
  induction h with
  | refl s => subst hi; exact saveInit_inv P n hP parts
  | tail _ hs ih =>
    have ih := ih hi
    cases ih with
    | turn j t _ h hf ht _ hk => rw [hk]; exact turn_step h hf ht hs
    | atEnd _ h hf _ hk =>
      refine .done _ (end_step h hs) hf _ (by omega)
    | done _ h hf _ hk => exact (done_stuck h hs).elim
    | fail j _ h hf _ hk => exact (fail_stuck h hs).elim

/-- A rank whose turn it is can make a step. -/
theorem turn_progress {P n : Nat} {parts : Nat → List α} {j : Nat} {t : Turn} {st : SaveState α} (h : AtTurn P n parts j t st) : ∃ st', SaveStep P n parts st st' := by
  have ho := h.own
  cases t with
  | wait =>
    refine ⟨_, .await st j (j - 1) _ h.jP ho ?_⟩
    rw [h.png]; simp
  | opens =>
    by_cases h0 : j = 0
    · simp only [turnOps, if_pos h0] at ho; exact ⟨_, .create st j _ h.jP ho⟩
    · simp only [turnOps, if_neg h0] at ho; exact ⟨_, .openRW st j _ h.jP ho⟩
  | writes =>
    have hfl := h.fil
    simp only [turnFile] at hfl
    cases hw : dsetWrite (fileSeq P n parts j) (chunkRange n j P).1 (chunkRange n j P).2 (parts j) with
    | some f' => exact ⟨_, .write st j _ _ f' h.jP ho hfl hw⟩
    | none =>
      refine ⟨_, .fail st j _ h.jP ho fun file hf => ?_⟩
      rw [hfl] at hf
      injection hf with hf
      rw [← hf]; exact hw
  | closes => exact ⟨_, .close st j _ h.jP ho⟩
  | pings =>
    have := h.two rfl
    by_cases h0 : j = 0
    · simp only [turnOps, tailOps, if_pos h0, if_pos this] at ho; exact ⟨_, .ping st j _ _ h.jP ho⟩
    · simp only [turnOps, tailOps, if_neg h0] at ho; exact ⟨_, .ping st j _ _ h.jP ho⟩

theorem end_progress {P n : Nat} {parts : Nat → List α} {st : SaveState α} (h : AtEnd P n parts st) : ∃ st', SaveStep P n parts st st' := by
  have h2 := h.two
  have hp := h.prog 0 (by omega)
  refine ⟨_, .await st 0 (P - 1) [] (by omega) hp ?_⟩
  rw [h.png]; simp

/-- C89.  Saving a distributed array without parallel I/O: in every interleaving, on every number of processes and for every distribution of the slabs
1. never two ranks have the file open at the same time; 2. there are at most `5 P` steps, so every execution ends; 3. an execution that cannot go on either
has all ranks returned or exactly one rank that raised.  -/
theorem save_hdf5_serial (P n : Nat) (hP : 0 < P) (parts : Nat → List α) {k : Nat} {st : SaveState α} (h : Steps (SaveStep P n parts) k (saveInit P) st) :
    (∀ r < P, ∀ q < P, st.isOpen r = true → st.isOpen q = true → r = q) ∧ k ≤ 5 * P ∧
    ((¬ ∃ st', SaveStep P n parts st st') → (∀ r < P, st.prog r = [] ∧ st.raised r = false) ∨ ∃ j < P, ∀ r < P, st.raised r = true ↔ r = j) := by
  cases save_inv hP h with
  | turn j t _ h hf ht _ hk =>
    refine ⟨fun r hr q hq h1 h2 => ?_, ?_, fun hs => absurd (turn_progress h) hs⟩
    · rw [((h.opn r hr).mp h1).1, ((h.opn q hq).mp h2).1]
    · have := h.jP
      cases t <;> simp only [Turn.idx] at * <;> omega
  | atEnd _ h hf _ hk =>
    refine ⟨fun r hr q hq h1 h2 => ?_, by omega, fun hs => absurd (end_progress h) hs⟩
    rw [h.opn r hr] at h1; cases h1
  | done _ h hf _ hk =>
    refine ⟨fun r hr q hq h1 h2 => ?_, by omega, fun _ => .inl fun r hr => ⟨h.prog r hr, h.rsd r hr⟩⟩
    rw [h.opn r hr] at h1; cases h1
  | fail j _ h hf _ hk =>
    refine ⟨fun r hr q hq h1 h2 => ?_, by omega, fun _ => .inr ⟨j, h.jP, fun r hr => ?_⟩⟩
    · rw [h.opn r hr] at h1; cases h1
    · rw [h.rsd r hr]; simp

/-- C89.  For a balanced array no rank raises, every execution can be continued until all ranks have returned, and then - in fact already when rank 0 has
returned - the file contains the array. -/
theorem save_hdf5_spec (P : Nat) (hP : 0 < P) (parts : Nat → List α) (hb : Balanced P parts) {k : Nat} {st : SaveState α}
    (h : Steps (SaveStep P (content P parts).length parts) k (saveInit P) st) :
    (∀ r < P, st.raised r = false) ∧ (st.prog 0 = [] → st.file = some ((content P parts).map some)) ∧
    ((¬ ∃ st', SaveStep P (content P parts).length parts st st') → ∀ r < P, st.prog r = []) := by
  have hfull : fileSeq P (content P parts).length parts P = (content P parts).map some := by
    rw [fileSeq_balanced P hP parts hb P (Nat.le_refl _)]; simp
  have hfit : ∀ r < P, Fits (content P parts).length P r (parts r) := by
    intro r hr
    refine .inr (.inl ?_)
    rw [hb r hr, chunkRange_size]
  generalize hn : (content P parts).length = n at *
  cases save_inv hP h with
  | turn j t _ h hf ht _ hk =>
    refine ⟨h.rsd, fun h0 => ?_, fun hs => absurd (turn_progress h) hs⟩
    have hp : st.prog 0 ≠ [] := by
      by_cases hj : j = 0
      · subst hj
        rw [h.own]
        cases t with
        | pings => have := h.two rfl; simp [turnOps, tailOps, this]
        | _ => simp [turnOps]
      · rw [h.prev 0 (by omega)]; simp [doneOps]
    exact absurd h0 hp
  | atEnd _ h hf _ hk =>
    refine ⟨h.rsd, fun h0 => ?_, fun hs => absurd (end_progress h) hs⟩
    rw [h.fil, hfull]
  | done _ h hf _ hk => exact ⟨h.rsd, fun _ => by rw [h.fil, hfull], fun _ => h.prog⟩
  | fail j _ h hf _ hk => exact absurd (hfit j h.jP) hf

/-- C89.  An unbalanced array cannot be saved: in every execution that cannot go on some rank has raised, and rank 0 never returns normally. -/
theorem save_hdf5_unbalanced (P : Nat) (hP : 0 < P) (parts : Nat → List α) (hb : ¬ Balanced P parts) {k : Nat} {st : SaveState α}
    (h : Steps (SaveStep P (content P parts).length parts) k (saveInit P) st) :
    ((¬ ∃ st', SaveStep P (content P parts).length parts st st') → ∃ r < P, st.raised r = true) ∧ ¬ (st.prog 0 = [] ∧ st.raised 0 = false) := by
  have hnf : ¬ ∀ r < P, Fits (content P parts).length P r (parts r) := fun hc => hb (balanced_of_fits P hP parts hc)
  generalize hn : (content P parts).length = n at *
  cases save_inv hP h with
  | turn j t _ h hf ht _ hk =>
    refine ⟨fun hs => absurd (turn_progress h) hs, fun h0 => ?_⟩
    have hp : st.prog 0 ≠ [] := by
      by_cases hj : j = 0
      · subst hj
        rw [h.own]
        cases t with
        | pings => have := h.two rfl; simp [turnOps, tailOps, this]
        | _ => simp [turnOps]
      · rw [h.prev 0 (by omega)]; simp [doneOps]
    exact hp h0.1
  | atEnd _ h hf _ hk => exact absurd hf hnf
  | done _ h hf _ hk => exact absurd hf hnf
  | fail j _ h hf _ hk =>
    refine ⟨fun _ => ⟨j, h.jP, by rw [h.rsd j h.jP]; simp⟩, fun h0 => ?_⟩
    by_cases hj : j = 0
    · have := h.rsd 0 hP
      rw [h0.2] at this
      simp at this
      exact this hj.symm
    · have := h.prev 0 (by omega)
      rw [h0.1] at this
      simp [doneOps] at this

/-- C90, the part that holds: when rank 0 has returned from saving a balanced array, the file contains the array.  (Missing: the other ranks, see
`save_hdf5_early_return_violated`.) -/
theorem save_hdf5_rank0_partial (P : Nat) (hP : 0 < P) (parts : Nat → List α) (hb : Balanced P parts) {k : Nat} {st : SaveState α}
    (h : Steps (SaveStep P (content P parts).length parts) k (saveInit P) st) (h0 : st.prog 0 = []) : st.file = some ((content P parts).map some) :=
  (save_hdf5_spec P hP parts hb h).2.1 h0

/-- One row per rank. -/
def oneRow (r : Nat) : List Nat := [10 * r]

example : Balanced 3 oneRow := by
  intro r hr
  have : r = 0 ∨ r = 1 ∨ r = 2 := by omega
  rcases this with rfl | rfl | rfl <;> decide +kernel

/-- Two rows on rank 0, none on rank 1. -/
def twoNone (r : Nat) : List Nat := if r = 0 then [1, 2] else []

example : ¬ Balanced 2 twoNone := by
  intro h
  have := h 0 (by omega)
  revert this
  decide +kernel

/-- C90, the claim "when a rank has returned from `save_hdf5`, the file is complete" is false: on three ranks rank 1 returns while the rows of rank 2 are not
written, so that rank 1 may load the file it has just saved and find the old contents. -/
theorem save_hdf5_early_return_violated : ∃ k st, Steps (SaveStep 3 3 oneRow) k (saveInit 3) st ∧ st.prog 1 = [] ∧ st.raised 1 = false ∧
    st.file = some [some 0, some 10, none] := by
  have s0 : Steps (SaveStep 3 3 oneRow) 0 (saveInit 3) _ := .refl _
  have s1 := s0.tail (.create _ 0 _ (by omega) rfl)
  have s2 := s1.tail (.write _ 0 _ _ _ (by omega) rfl rfl rfl)
  have s3 := s2.tail (.close _ 0 _ (by omega) rfl)
  have s4 := s3.tail (.ping _ 0 1 _ (by omega) rfl)
  have s5 := s4.tail (.await _ 1 0 _ (by omega) rfl (by decide))
  have s6 := s5.tail (.openRW _ 1 _ (by omega) rfl)
  have s7 := s6.tail (.write _ 1 _ _ _ (by omega) rfl rfl rfl)
  have s8 := s7.tail (.close _ 1 _ (by omega) rfl)
  have s9 := s8.tail (.ping _ 1 2 _ (by omega) rfl)
  exact ⟨_, _, s9, rfl, rfl, rfl⟩

end Heat
