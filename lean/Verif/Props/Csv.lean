import Verif.Model.Csv
import Verif.Props.Matmul
import Verif.Props.Distance
/-!
# C75, C76: load_csv
-/
namespace Heat

open Spec

/-! ## Line starts -/

/-- Positions after the line feeds of `c`, which starts at `off`. -/
def nlPos (off : Nat) : List Nat → List Nat
  | [] => []
  | b :: t => (if b = 10 then [off + 1] else []) ++ nlPos (off + 1) t

theorem nlPos_append (off : Nat) (a b : List Nat) : nlPos off (a ++ b) = nlPos off a ++ nlPos (off + a.length) b := by
  induction a generalizing off with
  | nil => simp [nlPos]
  | cons x t ih =>
    rw [List.cons_append, nlPos, nlPos, ih, List.append_assoc, List.length_cons]
    congr 3
    omega

theorem nlPos_shift (off k : Nat) (c : List Nat) : (nlPos k c).map (off + ·) = nlPos (off + k) c := by
  induction c generalizing k with
  | nil => rfl
  | cons b t ih =>
    rw [nlPos, nlPos, List.map_append, ih]
    congr 1
    split <;> simp <;> omega

theorem nlPos_length (off : Nat) (c : List Nat) : (nlPos off c).length = c.count 10 := by
  induction c generalizing off with
  | nil => rfl
  | cons b t ih =>
    rw [nlPos, List.length_append, ih, List.count_cons]
    by_cases h : b = 10
    · rw [if_pos h, h]; simp; omega
    · rw [if_neg h]; simp [h]

theorem startsAt_no13 {c : List Nat} (h : 13 ∉ c) {pos : Nat} (hp : pos < c.length) : startsAt c pos = if c.getD pos 0 = 10 then [pos + 1] else [] := by
  have hne : ∀ k < c.length, c.getD k 0 ≠ 13 := by
    intro k hk he
    rw [List.getD_eq_getElem?_getD, List.getElem?_eq_getElem hk] at he
    exact h (he ▸ List.getElem_mem hk)
  unfold startsAt
  by_cases h10 : c.getD pos 0 = 10
  · rw [if_pos h10, if_pos h10, if_pos]
    split
    · exact hne _ (by omega)
    · exact hne _ (by omega)
  · rw [if_neg h10, if_neg h10, if_neg (hne pos hp)]

theorem flatMap_range_cons {β : Type} (n : Nat) (f : Nat → List β) : (List.range (n + 1)).flatMap f = f 0 ++ (List.range n).flatMap fun i => f (i + 1) := by
  rw [List.range_succ_eq_map, List.flatMap_cons, List.flatMap_map]

theorem nlPos_range (c : List Nat) (k : Nat) : (List.range c.length).flatMap (fun pos => if c.getD pos 0 = 10 then [k + pos + 1] else []) = nlPos k c := by
  induction c generalizing k with
  | nil => rfl
  | cons b t ih =>
    rw [List.length_cons, flatMap_range_cons, nlPos]
    congr 1
    rw [← ih (k + 1)]
    congr 1
    funext i
    rw [List.getD_cons_succ, show k + (i + 1) + 1 = k + 1 + i + 1 by omega]

theorem lineStarts_no13 {bytes : List Nat} (h : 13 ∉ bytes) (P r : Nat) :
    lineStarts bytes P r = (if r = 0 then [0] else []) ++ nlPos 0 (csvChunk bytes P r) := by
  unfold lineStarts
  congr 1
  have h' : 13 ∉ csvChunk bytes P r := fun hm => h (List.mem_of_mem_take (List.mem_of_mem_drop hm))
  rw [← nlPos_range]
  have : ∀ (l : List Nat), (∀ p ∈ l, p < (csvChunk bytes P r).length) →
      l.flatMap (startsAt (csvChunk bytes P r)) = l.flatMap fun pos => if (csvChunk bytes P r).getD pos 0 = 10 then [0 + pos + 1] else [] := by
    intro l hl
    induction l with
    | nil => rfl
    | cons a t ih =>
      rw [List.flatMap_cons, List.flatMap_cons, ih fun p hp => hl p (List.mem_cons_of_mem _ hp), startsAt_no13 h' (hl a (List.mem_cons_self ..)), Nat.zero_add]
  exact this _ fun p hp => List.mem_range.1 hp

/-- All line starts of the file. -/
def allStarts (bytes : List Nat) : List Nat := 0 :: nlPos 0 bytes

/-- Line starts of rank `r` as positions in the file. -/
def absStarts (bytes : List Nat) (P r : Nat) : List Nat := (lineStarts bytes P r).map ((chunkRange bytes.length r P).1 + ·)

theorem csvChunk_prefix (bytes : List Nat) (P : Nat) (hP : 0 < P) : ∀ k ≤ P, content k (csvChunk bytes P) = bytes.take (chunkRange bytes.length k P).1 := by
  intro k hk
  induction k with
  | zero => rw [chunkRange_zero]; rfl
  | succ k ih =>
    rw [content_succ, ih (by omega), chunkRange_succ]
    have hle := chunk_le bytes.length P k hP (by omega)
    have := List.take_append_drop (chunkRange bytes.length k P).1 (bytes.take (chunkRange bytes.length k P).2)
    rw [List.take_take, Nat.min_eq_left hle.1] at this
    exact this

theorem csvChunk_length (bytes : List Nat) (P r : Nat) (hP : 0 < P) (hr : r < P) : (csvChunk bytes P r).length = evenSize bytes.length P r := by
  have hle := chunk_le bytes.length P r hP hr
  unfold csvChunk bytesOf
  rw [List.length_drop, List.length_take, Nat.min_eq_left hle.2, chunkRange_len]

theorem absStarts_prefix {bytes : List Nat} (h : 13 ∉ bytes) (P : Nat) (hP : 0 < P) : ∀ k, 0 < k → k ≤ P →
    content k (absStarts bytes P) = 0 :: nlPos 0 (bytes.take (chunkRange bytes.length k P).1) := by
  intro k h0 hk
  induction k with
  | zero => omega
  | succ k ih =>
    rw [← csvChunk_prefix bytes P hP (k + 1) hk, content_succ, content_succ]
    have habs : absStarts bytes P k = (if k = 0 then [0] else []) ++ nlPos (chunkRange bytes.length k P).1 (csvChunk bytes P k) := by
      unfold absStarts
      rw [lineStarts_no13 h, List.map_append, nlPos_shift, Nat.add_zero]
      congr 1
      by_cases hk0 : k = 0
      · subst hk0; simp [chunkRange_zero]
      · simp [hk0]
    by_cases hk0 : k = 0
    · subst hk0
      rw [habs, content_zero, content_zero, chunkRange_zero]
      rfl
    · rw [ih (by omega) (by omega), habs, if_neg hk0, csvChunk_prefix bytes P hP k (by omega), nlPos_append]
      have hle := chunk_le bytes.length P k hP (by omega)
      rw [List.length_take, Nat.min_eq_left (by omega), Nat.zero_add]
      rfl

theorem absStarts_content {bytes : List Nat} (h : 13 ∉ bytes) (P : Nat) (hP : 0 < P) : content P (absStarts bytes P) = allStarts bytes := by
  rw [absStarts_prefix h P hP P hP (Nat.le_refl _), chunkRange_at_P _ _ hP, List.take_length]
  rfl

theorem startsBefore_eq (bytes : List Nat) (P r : Nat) : startsBefore bytes P r = (content r (absStarts bytes P)).length := by
  unfold startsBefore
  rw [content_length_sum]
  congr 1
  refine List.map_congr_left fun q _ => ?_
  unfold absStarts
  rw [List.length_map]

/-! ## Lines between starts -/

/-- The lines starting at the given positions; `nxt` is the start of the line after them. -/
def segs (bytes : List Nat) : List Nat → Nat → List (List Nat)
  | [], _ => []
  | [s], nxt => [bytesOf bytes s (nxt - 1)]
  | s :: t :: rest, nxt => bytesOf bytes s (t - 1) :: segs bytes (t :: rest) nxt

theorem segs_cons (bytes : List Nat) (s : Nat) (S : List Nat) (nxt : Nat) : segs bytes (s :: S) nxt = bytesOf bytes s (S.headD nxt - 1) :: segs bytes S nxt := by
  cases S with
  | nil => rfl
  | cons t rest => rfl

theorem segs_append (bytes : List Nat) (A B : List Nat) (nxt : Nat) : segs bytes (A ++ B) nxt = segs bytes A (B.headD nxt) ++ segs bytes B nxt := by
  induction A with
  | nil => rfl
  | cons s S ih =>
    rw [List.cons_append, segs_cons, segs_cons, ih, List.cons_append]
    congr 3
    cases S <;> rfl

theorem segs_drop (bytes : List Nat) (A : List Nat) (nxt k : Nat) : segs bytes (A.drop k) nxt = (segs bytes A nxt).drop k := by
  induction A generalizing k with
  | nil => simp [segs]
  | cons s S ih =>
    cases k with
    | zero => rfl
    | succ k => rw [List.drop_succ_cons, segs_cons, List.drop_succ_cons, ih]

/-- Put bytes in front of the first piece. -/
def appHead (a : List Nat) : List (List Nat) → List (List Nat)
  | [] => [a]
  | l :: ls => (a ++ l) :: ls

theorem cutBytes_ne_nil (x : Nat) (l : List Nat) : cutBytes x l ≠ [] := by
  cases l with
  | nil => simp [cutBytes]
  | cons b t =>
    rw [cutBytes]
    split
    · simp
    · cases cutBytes x t <;> simp [consHead]

theorem appHead_nil (x : Nat) (l : List Nat) : appHead [] (cutBytes x l) = cutBytes x l := by
  have := cutBytes_ne_nil x l
  cases h : cutBytes x l with
  | nil => exact absurd h this
  | cons a b => rfl

theorem appHead_consHead (a : List Nat) (b : Nat) (L : List (List Nat)) (h : L ≠ []) : appHead a (consHead b L) = appHead (a ++ [b]) L := by
  cases L with
  | nil => exact absurd rfl h
  | cons l ls => simp [appHead, consHead]

theorem segs_lines (rest : List Nat) : ∀ (A : List Nat) (s : Nat), s ≤ A.length →
    segs (A ++ rest) (s :: nlPos A.length rest) ((A ++ rest).length + 1) = appHead (A.drop s) (cutBytes 10 rest) := by
  induction rest with
  | nil =>
    intro A s hs
    show [bytesOf (A ++ []) s _] = [A.drop s ++ []]
    unfold bytesOf
    rw [List.append_nil, List.append_nil, Nat.add_sub_cancel, List.take_length]
  | cons b t ih =>
    intro A s hs
    have e : A ++ b :: t = (A ++ [b]) ++ t := by simp
    have el : (A ++ [b]).length = A.length + 1 := by simp
    rw [nlPos, cutBytes]
    by_cases hb : b = 10
    · rw [if_pos hb, if_pos hb, List.singleton_append, segs_cons, e]
      have := ih (A ++ [b]) (A.length + 1) (Nat.le_of_eq el.symm)
      rw [el] at this
      rw [this, ← el, List.drop_length, appHead_nil]
      show bytesOf _ s ((A ++ [b]).length - 1) :: _ = (A.drop s ++ []) :: _
      rw [List.append_nil, el, Nat.add_sub_cancel]
      congr 1
      unfold bytesOf
      rw [List.append_assoc, List.take_left]
    · rw [if_neg hb, if_neg hb, List.nil_append, e]
      have := ih (A ++ [b]) s (by rw [el]; omega)
      rw [el] at this
      rw [this, appHead_consHead _ _ _ (cutBytes_ne_nil _ _), List.drop_append_of_le_length hs]

/-- The line starts of a file cut it into its lines. -/
theorem segs_allStarts (bytes : List Nat) : segs bytes (allStarts bytes) (bytes.length + 1) = cutBytes 10 bytes := by
  have := segs_lines bytes [] 0 (Nat.le_refl _)
  rw [List.drop_nil, appHead_nil] at this
  exact this

/-! ## The lines of a rank -/

theorem nlPos_le (off : Nat) (c : List Nat) : ∀ s ∈ nlPos off c, off + 1 ≤ s ∧ s ≤ off + c.length := by
  induction c generalizing off with
  | nil => intro s hs; simp [nlPos] at hs
  | cons b t ih =>
    intro s hs
    rw [nlPos, List.mem_append] at hs
    rw [List.length_cons]
    rcases hs with hs | hs
    · by_cases h : b = 10
      · rw [if_pos h, List.mem_singleton] at hs; omega
      · rw [if_neg h] at hs; simp at hs
    · have := ih (off + 1) s hs; omega

theorem lineterLen_no13 {c : List Nat} (h : 13 ∉ c) : lineterLen c = 1 := by
  unfold lineterLen
  rw [if_neg]
  intro hany
  obtain ⟨p, hp, hc⟩ := List.any_eq_true.1 hany
  unfold crlfAt at hc
  rw [Bool.and_eq_true, Bool.and_eq_true, beq_iff_eq] at hc
  have hp := List.mem_range.1 hp
  have he := hc.1.1
  rw [List.getD_eq_getElem?_getD, List.getElem?_eq_getElem hp] at he
  exact h (he ▸ List.getElem_mem hp)

/-- The slice of a chunk is a slice of the file. -/
theorem bytesOf_chunk (bytes : List Nat) (lo hi s t : Nat) (ht : lo + t ≤ hi) : bytesOf (bytesOf bytes lo hi) s t = bytesOf bytes (lo + s) (lo + t) := by
  unfold bytesOf
  rw [List.take_drop, List.drop_drop, List.take_take, Nat.min_eq_left (by omega)]

theorem rankLines_segs (bytes : List Nat) (lo hi last : Nat) (S : List Nat) (hS : ∀ s ∈ S, lo + s ≤ hi) :
    rankLines bytes (bytesOf bytes lo hi) lo 1 last S = segs bytes (S.map (lo + ·)) (last + 1) := by
  induction S with
  | nil => rfl
  | cons s S ih =>
    cases S with
    | nil => rfl
    | cons t rest =>
      rw [rankLines, ih fun x hx => hS x (List.mem_cons_of_mem _ hx), List.map_cons, List.map_cons]
      show _ = bytesOf bytes (lo + s) (lo + t - 1) :: segs bytes ((lo + t) :: rest.map (lo + ·)) (last + 1)
      congr 1
      have h2 := hS t (by simp)
      by_cases ht : t = 0
      · subst ht
        rw [bytesOf_chunk _ _ _ _ _ (by omega)]
        unfold bytesOf
        rw [List.drop_eq_nil_of_le (by rw [List.length_take]; omega), List.drop_eq_nil_of_le (by rw [List.length_take]; omega)]
      · rw [bytesOf_chunk _ _ _ _ _ (by omega)]
        congr 1
        omega

/-! ## All ranks -/

/-- Kept line starts of rank `r` as positions in the file. -/
def absKept (bytes : List Nat) (P header start r : Nat) : List Nat := (keptStarts bytes P header start r).map ((chunkRange bytes.length r P).1 + ·)

theorem firstRank_spec {bytes : List Nat} {P header start : Nat} (h : firstRank bytes P header = some start) :
    start < P ∧ startsBefore bytes P start ≤ header ∧ header < startsBefore bytes P (start + 1) := by
  unfold firstRank at h
  have h1 := List.find?_some h
  have h2 := List.mem_of_find?_eq_some h
  refine ⟨List.mem_range.1 h2, ?_, by simpa using h1⟩
  cases start with
  | zero => show 0 ≤ _; omega
  | succ k =>
    rw [List.find?_range_eq_some] at h
    have := h.2.2 k (by omega)
    simp at this
    exact this

theorem absKept_prefix {bytes : List Nat} {P header start : Nat} (hs : firstRank bytes P header = some start) :
    ∀ k, start < k → content k (absKept bytes P header start) = (content k (absStarts bytes P)).drop header := by
  obtain ⟨_, h1, h2⟩ := firstRank_spec hs
  rw [startsBefore_eq] at h1 h2
  have hlow : ∀ k ≤ start, content k (absKept bytes P header start) = [] := by
    intro k hk
    induction k with
    | zero => rfl
    | succ k ih =>
      rw [content_succ, ih (by omega)]
      unfold absKept keptStarts
      rw [if_pos (by omega)]
      rfl
  intro k hk
  induction k with
  | zero => omega
  | succ k ih =>
    rw [content_succ, content_succ]
    by_cases hks : k = start
    · subst hks
      rw [hlow k (Nat.le_refl _), List.drop_append, List.drop_eq_nil_of_le h1]
      unfold absKept keptStarts absStarts
      rw [if_neg (by omega), if_pos rfl, List.map_drop, startsBefore_eq]
      rfl
    · rw [ih (by omega), List.drop_append_of_le_length]
      · unfold absKept keptStarts absStarts
        rw [if_neg (by omega), if_neg hks]
      · have : (content (start + 1) (absStarts bytes P)).length ≤ (content k (absStarts bytes P)).length := content_length_mono _ (by omega)
        omega

/-- The lines of rank `r`. -/
def linesOf (bytes : List Nat) (P header start last r : Nat) : List (List Nat) :=
  rankLines bytes (csvChunk bytes P r) (chunkRange bytes.length r P).1 (lineterLen (csvChunk bytes P r)) last (keptStarts bytes P header start r)

theorem keptStarts_sub {bytes : List Nat} {P header start r s : Nat} (h : s ∈ keptStarts bytes P header start r) : s ∈ lineStarts bytes P r := by
  unfold keptStarts at h
  split at h
  · simp at h
  · split at h
    · exact List.mem_of_mem_drop h
    · exact h

theorem linesOf_segs {bytes : List Nat} (h13 : 13 ∉ bytes) (P : Nat) (hP : 0 < P) (header start last r : Nat) (hr : r < P) :
    linesOf bytes P header start last r = segs bytes (absKept bytes P header start r) (last + 1) := by
  unfold linesOf
  have h' : 13 ∉ csvChunk bytes P r := fun hm => h13 (List.mem_of_mem_take (List.mem_of_mem_drop hm))
  rw [lineterLen_no13 h']
  unfold csvChunk
  refine rankLines_segs bytes _ _ last _ fun s hs => ?_
  have hs := keptStarts_sub hs
  rw [lineStarts_no13 h13, List.mem_append] at hs
  have hle := chunk_le bytes.length P r hP hr
  have hlen := csvChunk_length bytes P r hP hr
  have hsz := chunkRange_snd bytes.length r P
  rcases hs with hs | hs
  · have : s = 0 := by
      split at hs
      · simpa using hs
      · simp at hs
    omega
  · have := nlPos_le 0 _ s hs; omega

/-- All lines after the header, on all ranks, if every rank after the first one concerned has a line start. -/
theorem lines_content {bytes : List Nat} (h13 : 13 ∉ bytes) (P : Nat) (hP : 0 < P) {header start : Nat} (hs : firstRank bytes P header = some start) (last : Nat → Nat)
    (hlast : ∀ r < P, lastLine bytes P header start r = some (last r)) :
    content P (fun r => linesOf bytes P header start (last r) r) = (cutBytes 10 bytes).drop header := by
  obtain ⟨hsP, _, _⟩ := firstRank_spec hs
  have hpre : ∀ k, start < k → k ≤ P → content k (fun r => linesOf bytes P header start (last r) r) =
      segs bytes (content k (absKept bytes P header start)) (if k = P then bytes.length + 1 else (absKept bytes P header start k).headD 0) ∧
      (k < P → absKept bytes P header start k ≠ []) := by
    intro k hk hkP
    have hnext : ∀ r, start ≤ r → r + 1 < P → absKept bytes P header start (r + 1) ≠ [] ∧ last r + 1 = (absKept bytes P header start (r + 1)).headD 0 := by
      intro r hr hr1
      have hl := hlast r (by omega)
      unfold lastLine at hl
      rw [if_pos ⟨hr, hr1⟩] at hl
      obtain ⟨s, hs1, hs2⟩ := Option.map_eq_some_iff.1 hl
      have hmem : s ∈ lineStarts bytes P (r + 1) := keptStarts_sub (List.mem_of_head? hs1)
      rw [lineStarts_no13 h13, if_neg (by omega), List.nil_append] at hmem
      have := nlPos_le 0 _ s hmem
      have habs : (absKept bytes P header start (r + 1)).head? = some ((chunkRange bytes.length (r + 1) P).1 + s) := by
        unfold absKept
        rw [List.head?_map, hs1]; rfl
      refine ⟨fun e => by rw [e] at habs; simp at habs, ?_⟩
      rw [List.headD_eq_head?_getD, habs, Option.getD_some]
      omega
    have hlow : ∀ k ≤ start, content k (fun r => linesOf bytes P header start (last r) r) = [] ∧ content k (absKept bytes P header start) = [] := by
      intro k hk
      induction k with
      | zero => exact ⟨rfl, rfl⟩
      | succ k ih =>
        obtain ⟨i1, i2⟩ := ih (by omega)
        have e : keptStarts bytes P header start k = [] := by unfold keptStarts; rw [if_pos (by omega)]
        constructor
        · rw [content_succ, i1]; unfold linesOf; rw [e]; rfl
        · rw [content_succ, i2]; unfold absKept; rw [e]; rfl
    have hnxt : ∀ r, start ≤ r → r < P → last r + 1 = if r + 1 = P then bytes.length + 1 else (absKept bytes P header start (r + 1)).headD 0 := by
      intro r hr hrP
      by_cases he : r + 1 = P
      · rw [if_pos he]
        have hl := hlast r hrP
        unfold lastLine at hl
        rw [if_neg (by omega)] at hl
        rw [Option.some.inj hl]
      · rw [if_neg he]; exact (hnext r hr (by omega)).2
    induction k with
    | zero => omega
    | succ k ih =>
      refine ⟨?_, fun h => (hnext k (by omega) h).1⟩
      rw [content_succ, content_succ, linesOf_segs h13 P hP _ _ _ k (by omega), hnxt k (by omega) (by omega)]
      by_cases hks : k = start
      · rw [(hlow k (by omega)).1, (hlow k (by omega)).2]; rfl
      · obtain ⟨e1, e2⟩ := ih (by omega) (by omega)
        rw [e1, if_neg (by omega), segs_append]
        have hne := e2 (by omega)
        congr 2
        cases hka : absKept bytes P header start k with
        | nil => exact absurd hka hne
        | cons a l => rfl
  rw [(hpre P hsP (Nat.le_refl _)).1, if_pos rfl, absKept_prefix hs P hsP, absStarts_content h13 P hP, segs_drop, segs_allStarts]

/-! ## Rows -/

theorem mapM_append_some {β γ : Type} (f : β → Option γ) (a b : List β) (x y : List γ) (ha : a.mapM f = some x) (hb : b.mapM f = some y) : (a ++ b).mapM f = some (x ++ y) := by
  rw [List.mapM_append, ha, hb]; rfl

theorem content_mapM {β γ : Type} (f : β → Option γ) (A : Nat → List β) (B : Nat → List γ) : ∀ P, (∀ r < P, (A r).mapM f = some (B r)) → (content P A).mapM f = some (content P B)
  | 0, _ => rfl
  | P + 1, h => by
    rw [content_succ, content_succ]
    exact mapM_append_some f _ _ _ _ (content_mapM f A B P fun r hr => h r (by omega)) (h P (by omega))

theorem content_filter {β : Type} (p : β → Bool) (A : Nat → List β) : ∀ P, content P (fun r => (A r).filter p) = (content P A).filter p
  | 0 => rfl
  | P + 1 => by rw [content_succ, content_succ, content_filter p A P, List.filter_append]

/-- What the ranks hold: each non-empty line after the header, cut and fitted to the number of columns. -/
theorem loadCsv_rows {bytes : List Nat} (h13 : 13 ∉ bytes) (P : Nat) (hP : 0 < P) {header sep cols : Nat} {parts : Nat → Option (List (List (List Nat)))}
    (h : loadCsv bytes P header sep = some (cols, parts)) {rows : Nat → List (List (List Nat))} (hrows : ∀ r < P, parts r = some (rows r)) :
    (csvRows bytes header sep).mapM (fitRow cols) = some (content P rows) := by
  unfold loadCsv at h
  obtain ⟨start, hs, he⟩ := Option.map_eq_some_iff.1 h
  obtain ⟨rfl, rfl⟩ := Prod.mk.inj he
  have hex : ∀ r, ∃ last, r < P → lastLine bytes P header start r = some last ∧
      ((linesOf bytes P header start last r).filter fun l => !l.isEmpty).mapM (fun l => fitRow (csvColumns bytes P header sep start) (cutBytes sep l)) = some (rows r) := by
    intro r
    by_cases hr : r < P
    · have := hrows r hr
      unfold rankRows at this
      by_cases hne : start < r ∧ keptStarts bytes P header start r = []
      · rw [if_pos hne] at this; simp at this
      rw [if_neg hne] at this
      obtain ⟨last, h1, h2⟩ := Option.bind_eq_some_iff.1 this
      exact ⟨last, fun _ => ⟨h1, h2⟩⟩
    · exact ⟨0, fun h => absurd h hr⟩
  choose last hlast using hex
  have := content_mapM _ (fun r => (linesOf bytes P header start (last r) r).filter fun l => !l.isEmpty) rows P fun r hr => (hlast r hr).2
  rw [content_filter, lines_content h13 P hP hs last fun r hr => (hlast r hr).1] at this
  unfold csvRows
  rw [List.mapM_map]
  exact this

theorem fitRow_two {k cols : Nat} (hk : 2 ≤ k) {row row' : List (List Nat)} (hl : row.length = k) (h : fitRow cols row = some row') : row' = row ∧ cols = k := by
  unfold fitRow at h
  by_cases he : row.length = cols
  · rw [if_pos he] at h; exact ⟨(Option.some.inj h).symm, by omega⟩
  · rw [if_neg he] at h
    match row, hl with
    | [], hl => simp at hl; omega
    | [x], hl => simp at hl; omega
    | _ :: _ :: _, _ => simp at h

/-- **C75.**  `load_csv(path, split=0)` of a file with line feeds whose rows all have `k ≥ 2` values: for every number of processes, if every process returns they hold, in
order, exactly the non-empty lines after the header, and the number of columns is `k`. -/
theorem load_csv_right_or_raises {bytes : List Nat} (h13 : 13 ∉ bytes) (P : Nat) (hP : 0 < P) {header sep cols k : Nat} (hk : 2 ≤ k)
    (hreg : ∀ row ∈ csvRows bytes header sep, row.length = k) {parts : Nat → Option (List (List (List Nat)))}
    (h : loadCsv bytes P header sep = some (cols, parts)) {rows : Nat → List (List (List Nat))} (hrows : ∀ r < P, parts r = some (rows r)) :
    content P rows = csvRows bytes header sep ∧ (csvRows bytes header sep ≠ [] → cols = k) := by
  have := loadCsv_rows h13 P hP h hrows
  generalize csvRows bytes header sep = R at this hreg
  generalize content P rows = R' at this
  induction R generalizing R' with
  | nil =>
    rw [List.mapM_nil] at this
    exact ⟨(Option.some.inj this).symm, fun h => absurd rfl h⟩
  | cons a R ih =>
    rw [List.mapM_cons] at this
    obtain ⟨a', h1, h2⟩ := Option.bind_eq_some_iff.1 this
    obtain ⟨R'', h3, h4⟩ := Option.bind_eq_some_iff.1 h2
    obtain ⟨e1, e2⟩ := fitRow_two hk (hreg a (List.mem_cons_self ..)) h1
    obtain ⟨e3, _⟩ := ih (fun row hr => hreg row (List.mem_cons_of_mem _ hr)) _ h3
    have : R' = a' :: R'' := (Option.some.inj h4).symm
    exact ⟨by rw [this, e1, e3], fun _ => e2⟩

/-! ## When every process returns -/

/-- A stretch without line feed lies in one line. -/
theorem stretch_in_line (A w B : List Nat) (h : 10 ∉ w) : ∃ l ∈ cutBytes 10 (A ++ (w ++ B)), w.length ≤ l.length := by
  induction A with
  | nil =>
    rw [List.nil_append]
    have : ∃ l ls, cutBytes 10 (w ++ B) = l :: ls ∧ w.length ≤ l.length := by
      induction w with
      | nil =>
        cases hc : cutBytes 10 ([] ++ B) with
        | nil => exact absurd hc (cutBytes_ne_nil _ _)
        | cons l ls => exact ⟨l, ls, rfl, Nat.zero_le _⟩
      | cons b w ih =>
        obtain ⟨l, ls, h1, h2⟩ := ih fun hm => h (List.mem_cons_of_mem _ hm)
        refine ⟨b :: l, ls, ?_, by simpa using h2⟩
        rw [List.cons_append, cutBytes, if_neg (fun hb => h (by rw [hb]; exact List.mem_cons_self ..)), h1]; rfl
    obtain ⟨l, ls, h1, h2⟩ := this
    exact ⟨l, by rw [h1]; exact List.mem_cons_self .., h2⟩
  | cons a A ih =>
    obtain ⟨l, hl, h2⟩ := ih
    rw [List.cons_append, cutBytes]
    split
    · exact ⟨l, List.mem_cons_of_mem _ hl, h2⟩
    · cases hc : cutBytes 10 (A ++ (w ++ B)) with
      | nil => exact absurd hc (cutBytes_ne_nil _ _)
      | cons l' ls =>
        rw [hc] at hl
        rcases List.mem_cons.1 hl with rfl | hl
        · exact ⟨a :: l, by simp [consHead], by simp; omega⟩
        · exact ⟨l, by simp [consHead, hl], h2⟩

/-- Long stretches hold many line feeds. -/
theorem stretch_count {L : Nat} (m : Nat) (A w B : List Nat) (hL : ∀ l ∈ cutBytes 10 (A ++ (w ++ B)), l.length < L) (hw : m * L ≤ w.length) : m ≤ w.count 10 := by
  induction m generalizing A w with
  | zero => exact Nat.zero_le _
  | succ m ih =>
    rw [Nat.succ_mul] at hw
    have e : w = w.take L ++ w.drop L := (List.take_append_drop L w).symm
    have h1 : m ≤ (w.drop L).count 10 := by
      refine ih (A ++ w.take L) (w.drop L) ?_ ?_
      · rw [List.append_assoc, ← List.append_assoc (w.take L), ← e]; exact hL
      · rw [List.length_drop]; omega
    have h2 : 0 < (w.take L).count 10 := by
      rw [List.count_pos_iff]
      by_contra hn
      obtain ⟨l, hl, hlen⟩ := stretch_in_line A (w.take L) (w.drop L ++ B) hn
      rw [← List.append_assoc (w.take L), ← e] at hl
      have := hL l hl
      rw [List.length_take] at hlen
      omega
    rw [e, List.count_append]
    omega

theorem bytesOf_split (l : List Nat) (lo hi : Nat) (h : lo ≤ hi) : l = l.take lo ++ (bytesOf l lo hi ++ l.drop hi) := by
  unfold bytesOf
  have h1 : (l.take hi).take lo = l.take lo := by rw [List.take_take, Nat.min_eq_left h]
  calc l = l.take hi ++ l.drop hi := (List.take_append_drop hi l).symm
    _ = ((l.take hi).take lo ++ (l.take hi).drop lo) ++ l.drop hi := by rw [List.take_append_drop lo, List.take_append_drop]
    _ = _ := by rw [h1, List.append_assoc]

/-- The number of pieces. -/
theorem cutBytes_length (x : Nat) (l : List Nat) : (cutBytes x l).length = 1 + l.count x := by
  induction l with
  | nil => rfl
  | cons b t ih =>
    rw [cutBytes, List.count_cons]
    by_cases h : b = x
    · rw [if_pos h, List.length_cons, ih, h]; simp; omega
    · rw [if_neg h]
      cases hc : cutBytes x t with
      | nil => exact absurd hc (cutBytes_ne_nil _ _)
      | cons a ls => rw [hc] at ih; simp [consHead, h] at *; omega

theorem nlPos_byte (off : Nat) (c : List Nat) : ∀ s ∈ nlPos off c, c[s - off - 1]? = some 10 := by
  induction c generalizing off with
  | nil => simp [nlPos]
  | cons b t ih =>
    intro s hs
    rw [nlPos, List.mem_append] at hs
    rcases hs with hs | hs
    · by_cases hb : b = 10
      · rw [if_pos hb] at hs
        have : s = off + 1 := by simpa using hs
        rw [this, show off + 1 - off - 1 = 0 by omega, List.getElem?_cons_zero, hb]
      · rw [if_neg hb] at hs; simp at hs
    · have h1 := nlPos_le _ _ s hs
      have h2 := ih _ s hs
      rw [show s - off - 1 = (s - (off + 1) - 1) + 1 by omega, List.getElem?_cons_succ]
      exact h2

/-- The separators up to and including the line feed are those of the line. -/
theorem count_line {c : List Nat} {s t sep : Nat} (hsep : sep ≠ 10) (ht : c[t - 1]? = some 10) (h0 : 0 < t) : (bytesOf c s t).count sep = (bytesOf c s (t - 1)).count sep := by
  unfold bytesOf
  have e : c.take t = c.take (t - 1) ++ [10] := by
    rw [show t = (t - 1) + 1 by omega, List.take_add_one, Nat.add_sub_cancel, ht]; rfl
  rw [e, List.drop_append, List.count_append]
  have : ((([10] : List Nat).drop (s - (c.take (t - 1)).length))).count sep = 0 := by
    rw [List.count_eq_zero]
    intro hm
    have := List.mem_of_mem_drop hm
    simp at this
    exact hsep this
  omega

theorem foldl_max_le (l : List Nat) (a k : Nat) (ha : a ≤ k) (h : ∀ x ∈ l, x ≤ k) : l.foldl max a ≤ k := by
  induction l generalizing a with
  | nil => exact ha
  | cons b t ih => exact ih _ (Nat.max_le.2 ⟨ha, h b (List.mem_cons_self ..)⟩) fun x hx => h x (List.mem_cons_of_mem _ hx)

theorem le_foldl_max (l : List Nat) (a x : Nat) (h : x ≤ a ∨ x ∈ l) : x ≤ l.foldl max a := by
  induction l generalizing a with
  | nil => simpa using h
  | cons b t ih =>
    refine ih _ ?_
    rcases h with h | h
    · exact Or.inl (by omega)
    · rcases List.mem_cons.1 h with h | h
      · exact Or.inl (by omega)
      · exact Or.inr h

theorem mem_content_of {β : Type} {P : Nat} {parts : Nat → List β} {r : Nat} (hr : r < P) {x : β} (hx : x ∈ parts r) : x ∈ content P parts := by
  induction P with
  | zero => omega
  | succ P ih =>
    rw [content_succ, List.mem_append]
    by_cases h : r = P
    · exact Or.inr (h ▸ hx)
    · exact Or.inl (ih (by omega))

theorem head_content {β : Type} {P : Nat} {parts : Nat → List β} (hP : 0 < P) {x : β} (hx : (parts 0).head? = some x) : (content P parts).head? = some x := by
  induction P with
  | zero => omega
  | succ P ih =>
    rw [content_succ]
    by_cases h : P = 0
    · rw [h, content_zero, List.nil_append, hx]
    · rw [List.head?_append, ih (by omega)]; rfl

theorem mapM_all_some {β γ : Type} (f : β → Option γ) (l : List β) (h : ∀ x ∈ l, ∃ y, f x = some y) : ∃ ys, l.mapM f = some ys := by
  induction l with
  | nil => exact ⟨[], rfl⟩
  | cons a t ih =>
    obtain ⟨y, hy⟩ := h a (List.mem_cons_self ..)
    obtain ⟨ys, hys⟩ := ih fun x hx => h x (List.mem_cons_of_mem _ hx)
    exact ⟨y :: ys, by rw [List.mapM_cons, hy, hys]; rfl⟩

/-- **C75.**  When `load_csv(path, split=0)` returns on every process: every line has fewer than `L` bytes, the share of a process is at least `header + 2` times `L`
bytes, every non-empty line after the header has `k ≥ 1` values and the first line after the header is not empty.  Then the processes hold, in order, exactly the
non-empty lines after the header. -/
theorem load_csv_spec {bytes : List Nat} (h13 : 13 ∉ bytes) (P : Nat) (hP : 0 < P) {header sep k L : Nat} (hsep : sep ≠ 10) (hk : 1 ≤ k)
    (hL : ∀ l ∈ cutBytes 10 bytes, l.length < L) (hshare : (header + 2) * L ≤ bytes.length / P)
    (hreg : ∀ row ∈ csvRows bytes header sep, row.length = k) (hfirst : ∀ l, (cutBytes 10 bytes)[header]? = some l → l ≠ []) :
    ∃ parts rows, loadCsv bytes P header sep = some (k, parts) ∧ (∀ r < P, parts r = some (rows r)) ∧ content P rows = csvRows bytes header sep := by
  -- every process has two line starts after the header
  have hcnt : ∀ r < P, header + 2 ≤ (csvChunk bytes P r).count 10 := by
    intro r hr
    have hle := chunk_le bytes.length P r hP hr
    have hlen := csvChunk_length bytes P r hP hr
    have hn : bytes.length / P ≤ evenSize bytes.length P r := by unfold evenSize; split <;> omega
    refine stretch_count (L := L) _ (bytes.take (chunkRange bytes.length r P).1) _ (bytes.drop (chunkRange bytes.length r P).2) ?_ (by omega)
    unfold csvChunk
    rw [← bytesOf_split _ _ _ hle.1]
    exact hL
  have hstarts : ∀ r < P, header + 2 ≤ (lineStarts bytes P r).length := by
    intro r hr
    rw [lineStarts_no13 h13, List.length_append, nlPos_length]
    have := hcnt r hr
    omega
  have hfr : firstRank bytes P header = some 0 := by
    unfold firstRank
    obtain ⟨Q, rfl⟩ : ∃ Q, P = Q + 1 := ⟨P - 1, by omega⟩
    rw [List.range_succ_eq_map, List.find?_cons_of_pos]
    have := hstarts 0 (by omega)
    simp [startsBefore]
    omega
  have hkept : ∀ r < P, 2 ≤ (keptStarts bytes P header 0 r).length := by
    intro r hr
    have := hstarts r hr
    unfold keptStarts
    rw [if_neg (by omega)]
    split
    · rename_i he
      rw [List.length_drop]
      have : startsBefore bytes P 0 = 0 := rfl
      rw [← he]
      omega
    · omega
  have hlast : ∀ r, ∃ last, r < P → lastLine bytes P header 0 r = some last := by
    intro r
    by_cases h : r < P
    · unfold lastLine
      by_cases h1 : 0 ≤ r ∧ r + 1 < P
      · rw [if_pos h1]
        have := hkept (r + 1) h1.2
        match hc : keptStarts bytes P header 0 (r + 1) with
        | [] => rw [hc] at this; simp at this
        | s :: _ => exact ⟨_, fun _ => rfl⟩
      · rw [if_neg h1]; exact ⟨_, fun _ => rfl⟩
    · exact ⟨0, fun h' => absurd h' h⟩
  choose last hlast using hlast
  have hlines := lines_content h13 P hP hfr last hlast
  -- the lines that determine the number of columns
  have hcol : ∀ r < P, ∃ l, (linesOf bytes P header 0 (last r) r).head? = some l ∧
      rankColumns (csvChunk bytes P r) sep (keptStarts bytes P header 0 r) = (cutBytes sep l).length := by
    intro r hr
    have h2 := hkept r hr
    unfold linesOf
    have h' : 13 ∉ csvChunk bytes P r := fun hm => h13 (List.mem_of_mem_take (List.mem_of_mem_drop hm))
    rw [lineterLen_no13 h']
    match hc : keptStarts bytes P header 0 r with
    | [] => rw [hc] at h2; simp at h2
    | [_] => rw [hc] at h2; simp at h2
    | s :: t :: rest =>
      refine ⟨bytesOf (csvChunk bytes P r) s (t - 1), rfl, ?_⟩
      have ht : t ∈ nlPos 0 (csvChunk bytes P r) := by
        have hmem : t ∈ (keptStarts bytes P header 0 r).drop 1 := by rw [hc]; simp
        unfold keptStarts at hmem
        rw [if_neg (by omega)] at hmem
        rw [lineStarts_no13 h13] at hmem
        by_cases he : r = 0
        · rw [if_pos he, if_pos he, List.drop_drop, show header - startsBefore bytes P 0 + 1 = 1 + (header - startsBefore bytes P 0) by omega, ← List.drop_drop] at hmem
          exact List.mem_of_mem_drop hmem
        · rw [if_neg he, if_neg he] at hmem
          exact List.mem_of_mem_drop hmem
      have hb := nlPos_byte _ _ t ht
      have hpos := nlPos_le _ _ t ht
      rw [Nat.sub_zero] at hb
      rw [rankColumns, cutBytes_length, count_line hsep hb (by omega)]
  have hle : ∀ l ∈ (cutBytes 10 bytes).drop header, l ≠ [] → (cutBytes sep l).length = k := by
    intro l hl hne
    refine hreg _ ?_
    unfold csvRows
    refine List.mem_map.2 ⟨l, List.mem_filter.2 ⟨hl, ?_⟩, rfl⟩
    cases l with
    | nil => exact absurd rfl hne
    | cons a t => rfl
  have hcols : csvColumns bytes P header sep 0 = k := by
    unfold csvColumns
    refine Nat.le_antisymm (foldl_max_le _ _ _ (Nat.zero_le _) ?_) (le_foldl_max _ _ _ (Or.inr ?_))
    · intro x hx
      obtain ⟨r, hr, rfl⟩ := List.mem_map.1 hx
      rw [List.mem_range] at hr
      obtain ⟨l, h1, h2⟩ := hcol r hr
      rw [h2]
      have hmem : l ∈ (cutBytes 10 bytes).drop header := by
        rw [← hlines]
        exact mem_content_of hr (List.mem_of_head? h1)
      by_cases he : l = []
      · rw [he]; exact hk
      · exact Nat.le_of_eq (hle l hmem he)
    · refine List.mem_map.2 ⟨0, List.mem_range.2 hP, ?_⟩
      obtain ⟨l, h1, h2⟩ := hcol 0 hP
      rw [h2]
      have hhead : (cutBytes 10 bytes)[header]? = some l := by
        rw [← List.head?_drop, ← hlines]
        exact head_content hP h1
      have hmem : l ∈ (cutBytes 10 bytes).drop header := by
        rw [← hlines]
        exact mem_content_of hP (List.mem_of_head? h1)
      exact hle l hmem (hfirst l hhead)
  have hparts : ∀ r, ∃ rows, r < P → rankRows bytes P header sep 0 r = some rows := by
    intro r
    by_cases hr : r < P
    · have : ∃ rows, ((linesOf bytes P header 0 (last r) r).filter fun l => !l.isEmpty).mapM (fun l => fitRow (csvColumns bytes P header sep 0) (cutBytes sep l)) = some rows := by
        refine mapM_all_some _ _ fun l hl => ?_
        obtain ⟨h1, h2⟩ := List.mem_filter.1 hl
        have hmem : l ∈ (cutBytes 10 bytes).drop header := by
          rw [← hlines]
          exact mem_content_of hr h1
        have := hle l hmem (by rintro rfl; simp at h2)
        refine ⟨cutBytes sep l, ?_⟩
        unfold fitRow
        rw [if_pos (by rw [this, hcols])]
      obtain ⟨rows, hrows⟩ := this
      refine ⟨rows, fun _ => ?_⟩
      unfold rankRows
      have h2 := hkept r hr
      rw [if_neg (fun h => by rw [h.2] at h2; simp at h2), hlast r hr, Option.bind_some]
      exact hrows
    · exact ⟨[], fun h => absurd h hr⟩
  choose rows hrows using hparts
  refine ⟨_, rows, by unfold loadCsv; rw [hfr, Option.map_some, hcols], hrows, ?_⟩
  have hl : loadCsv bytes P header sep = some (k, rankRows bytes P header sep 0) := by unfold loadCsv; rw [hfr, Option.map_some, hcols]
  have := loadCsv_rows h13 P hP hl hrows
  have hid : ∀ R : List (List (List Nat)), (∀ row ∈ R, row.length = k) → R.mapM (fitRow k) = some R := by
    intro R hR
    induction R with
    | nil => rfl
    | cons a R ih =>
      rw [List.mapM_cons, ih fun row h => hR row (List.mem_cons_of_mem _ h)]
      unfold fitRow
      rw [if_pos (hR a (List.mem_cons_self ..))]; rfl
  rw [hid _ hreg] at this
  exact (Option.some.inj this).symm

/-- "1,2\n3,4\n5,6\n7,8\n9,0" on two processes meets the hypotheses of `load_csv_spec` with `L = 4`, `k = 2` and no header. -/
def csvGood : List Nat := [49, 44, 50, 10, 51, 44, 52, 10, 53, 44, 54, 10, 55, 44, 56, 10, 57, 44, 48]

example : 13 ∉ csvGood ∧ (∀ l ∈ cutBytes 10 csvGood, l.length < 4) ∧ (0 + 2) * 4 ≤ csvGood.length / 2 ∧ (∀ row ∈ csvRows csvGood 0 44, row.length = 2) ∧
    (∀ l, (cutBytes 10 csvGood)[0]? = some l → l ≠ []) ∧ (csvRows csvGood 0 44).length = 5 := by
  refine ⟨by decide +kernel, by decide +kernel, by decide +kernel, by decide +kernel, ?_, by decide +kernel⟩
  intro l h
  have : (cutBytes 10 csvGood)[0]? = some [49, 44, 50] := by decide +kernel
  rw [this] at h
  rw [← Option.some.inj h]
  decide

/-- With a header line and three processes `load_csv_right_or_raises` applies. -/
example : (loadCsv csvGood 3 1 44).map (fun x => (x.1, (List.range 3).map x.2)) =
    some (2, [some [[[51], [52]]], some [[[53], [54]], [[55], [56]]], some [[[57], [48]]]]) := by decide +kernel

/-! ## Violations -/

/-- **C76, violated.**  One column, two processes: "1\n2" — no process sees two line starts, the result has no column and the values are lost without an error. -/
theorem load_csv_one_column_violated : (csvRows [49, 49, 49, 10, 50] 0 44 = [[[49, 49, 49]], [[50]]]) ∧
    (loadCsv [49, 49, 49, 10, 50] 2 0 44).map (fun x => (x.1, (List.range 2).map x.2)) = some (0, [some [[]], some [[]]]) := by decide +kernel

/-- **C76, violated.**  A line longer than a process's share: "1,2,3,4,5,6,7\n" on three processes — the process without a line start raises. -/
theorem load_csv_long_line_violated : csvRows [49, 44, 50, 44, 51, 44, 52, 44, 53, 44, 54, 10] 0 44 = [[[49], [50], [51], [52], [53], [54]]] ∧
    (loadCsv [49, 44, 50, 44, 51, 44, 52, 44, 53, 44, 54, 10] 3 0 44).map (fun x => (List.range 3).map x.2) = some [none, none, some []] := by decide +kernel

/-- "1,22\r\n3,44\r\n5,66\r\n7,8" -/
def csvCrlf : List Nat := [49, 44, 50, 50, 13, 10, 51, 44, 52, 52, 13, 10, 53, 44, 54, 54, 13, 10, 55, 44, 56]

/-- **C76, violated.**  Lines that end with carriage return and line feed, two processes, the boundary of the shares between the two: the second row is read as `3,4`
instead of `3,44`. -/
theorem load_csv_crlf_violated : csvRows (csvCrlf.filter (· ≠ 13)) 0 44 = [[[49], [50, 50]], [[51], [52, 52]], [[53], [54, 54]], [[55], [56]]] ∧
    (loadCsv csvCrlf 2 0 44).map (fun x => (x.1, (List.range 2).map x.2)) =
      some (2, [some [[[49], [50, 50]], [[51], [52]]], some [[[53], [54, 54]], [[55], [56]]]]) := by decide +kernel

/-! ## The exchange of the line starts -/

/-- The transfers in the order of the sending ranks. -/
def csvXfer (start i : Nat) : Xfer (Nat × Nat) Nat := { src := start + i + 1, dst := start + i, tag := 0, msg := Prod.fst, after := id, take := fun m s => (s.1, m) }

theorem csvMessages_eq (P start : Nat) : csvMessages P start = fun r => ((List.range (P - start - 1)).map (csvXfer start)).filterMap (Xfer.proj r) := by
  funext r
  unfold csvMessages
  obtain h | ⟨n, h⟩ : P - start ≤ 1 ∨ ∃ n, P = start + n + 2 := by
    by_cases h : P - start ≤ 1
    · exact Or.inl h
    · exact Or.inr ⟨P - start - 2, by omega⟩
  · rw [if_neg (by omega), show P - start - 1 = 0 by omega]; rfl
  · rw [if_pos (by omega), show P - start - 1 = n + 1 by omega, h]
    clear h
    induction n with
    | zero =>
      show _ = List.filterMap (Xfer.proj r) [csvXfer start 0]
      unfold Xfer.proj csvXfer
      simp only [List.filterMap_cons, List.filterMap_nil, Nat.add_zero]
      by_cases h1 : r = start
      · subst h1
        simp [csvRecv]
      · by_cases h2 : r = start + 1
        · subst h2
          simp [csvSend]
        · rw [if_neg h1, if_neg (by omega), if_neg (by omega), if_neg (by omega), if_neg (by omega)]
    | succ n ih =>
      rw [List.range_succ, List.map_append, List.filterMap_append, ← ih]
      have e : List.filterMap (Xfer.proj r) (List.map (csvXfer start) [n + 1]) =
          if r = start + n + 2 then [csvSend r] else if r = start + n + 1 then [csvRecv r] else [] := by
        unfold Xfer.proj csvXfer
        simp only [List.map_cons, List.map_nil, List.filterMap_cons, List.filterMap_nil]
        by_cases h1 : r = start + n + 2
        · subst h1
          simp [csvSend, show start + (n + 1) = start + n + 1 by omega]
        · rw [if_neg (by omega), if_neg h1]
          by_cases h2 : r = start + n + 1
          · subst h2
            simp [csvRecv, show start + (n + 1) = start + n + 1 by omega]
          · rw [if_neg (by omega), if_neg h2]
      rw [e]
      by_cases h1 : r = start
      · rw [if_pos h1, if_pos h1, if_neg (by omega), if_neg (by omega)]; rfl
      · rw [if_neg h1, if_neg h1]
        by_cases h2 : r = start + n + 2
        · rw [if_pos (by omega), if_neg (by omega), if_neg (by omega), if_pos h2]; rfl
        · rw [if_neg (by omega), if_neg h2]
          by_cases h3 : r = start + n + 1
          · rw [if_pos (by omega), if_pos (by omega), if_pos h3]; rfl
          · rw [if_neg h3, List.append_nil, if_neg (show ¬ r + 1 = start + n + 2 by omega)]
            by_cases h4 : start < r ∧ r + 1 < start + n + 2
            · rw [if_pos (by omega), if_pos h4]
            · rw [if_neg (by omega), if_neg h4]

theorem csv_runSeq (start size : Nat) (first : Nat → Nat) (n : Nat) :
    runSeq ((List.range n).map (csvXfer start)) (fun r => (first r, size)) = fun r => (first r, if start ≤ r ∧ r < start + n then first (r + 1) else size) := by
  induction n with
  | zero =>
    funext r
    rw [if_neg (by omega)]; rfl
  | succ n ih =>
    rw [List.range_succ, List.map_append]
    unfold runSeq at ih ⊢
    rw [List.foldl_append, ih]
    funext r
    show Xfer.apply _ _ r = _
    unfold Xfer.apply set1 csvXfer
    dsimp only [id]
    by_cases h1 : r = start + n
    · subst h1
      rw [if_pos rfl, if_pos (by omega)]
    · rw [if_neg h1]
      by_cases h2 : r = start + n + 1
      · rw [if_pos h2, if_neg (by omega), if_neg (by omega), h2]
      · rw [if_neg h2]
        by_cases h3 : start ≤ r ∧ r < start + n
        · rw [if_pos h3, if_pos (by omega)]
        · rw [if_neg h3, if_neg (by omega)]

/-- **C75 (schedules).**  The processes of `load_csv` never wait for ever for each other, whether MPI buffers sends or not; the number of steps is bounded; and when all
are done, every process from `start` on that is not the last one has the value of the next one, the others the size of the file. -/
theorem load_csv_schedule (P start size : Nat) (first : Nat → Nat) {n : Nat} {st : BState (Nat × Nat) Nat} (h : Steps BStep n (csvShare P start size first) st) :
    (∀ r, st.prog r ≠ [] → MustStep st) ∧ n ≤ 2 * (P - start - 1) ∧
    ((∀ r, st.prog r = []) → (∀ r, (st.loc r).2 = if start ≤ r ∧ r + 1 < P then first (r + 1) else size) ∧ ∀ s d t, st.chan s d t = []) := by
  have hi : csvShare P start size first = scheduleInit ((List.range (P - start - 1)).map (csvXfer start)) fun r => (first r, size) := by
    unfold csvShare scheduleInit
    rw [csvMessages_eq]
  rw [hi] at h
  have hne : ∀ x ∈ (List.range (P - start - 1)).map (csvXfer start), x.src ≠ x.dst := by
    intro x hx
    obtain ⟨i, _, rfl⟩ := List.mem_map.1 hx
    show start + i + 1 ≠ start + i
    omega
  have h1 := ordered_transfers _ hne _ h
  have h2 := ordered_transfers_terminate _ _ h
  rw [List.length_map, List.length_range] at h2
  refine ⟨h1.1, h2, fun hf => ⟨fun r => ?_, (h1.2 hf).2⟩⟩
  rw [(h1.2 hf).1, csv_runSeq]
  show (if _ then _ else _) = _
  by_cases h3 : start ≤ r ∧ r + 1 < P
  · rw [if_pos h3, if_pos (by omega)]
  · rw [if_neg h3, if_neg (by omega)]

/-- Complete executions exist. -/
theorem load_csv_completes (P start size : Nat) (first : Nat → Nat) : ∃ n st, Steps BStep n (csvShare P start size first) st ∧ ∀ r, st.prog r = [] := by
  have hi : csvShare P start size first = scheduleInit ((List.range (P - start - 1)).map (csvXfer start)) fun r => (first r, size) := by
    unfold csvShare scheduleInit
    rw [csvMessages_eq]
  rw [hi]
  refine ordered_completes _ ?_ _
  intro x hx
  obtain ⟨i, _, rfl⟩ := List.mem_map.1 hx
  show start + i + 1 ≠ start + i
  omega

/-- The value received is the one `lastLine` uses. -/
theorem lastLine_shared {bytes : List Nat} {P header start r last : Nat} (h : lastLine bytes P header start r = some last) :
    last = if start ≤ r ∧ r + 1 < P then (chunkRange bytes.length (r + 1) P).1 + (keptStarts bytes P header start (r + 1)).headD 0 - 1 else bytes.length := by
  unfold lastLine at h
  by_cases h1 : start ≤ r ∧ r + 1 < P
  · rw [if_pos h1] at h ⊢
    obtain ⟨s, hs, he⟩ := Option.map_eq_some_iff.1 h
    rw [List.headD_eq_head?_getD, hs, Option.getD_some, he]
  · rw [if_neg h1] at h ⊢
    exact (Option.some.inj h).symm

/-- `r[pos - 1]` wraps around: a line feed at the start of a share that ends with a carriage return is not a line start. -/
example : startsAt [10, 49, 13] 0 = [] ∧ startsAt [10, 49, 49] 0 = [1] := by decide

end Heat
