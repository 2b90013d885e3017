import Verif.Model.SaveCsv
import Verif.Props.Csv
import Verif.Spec.CsvText
import Mathlib.Tactic.Ring
import Mathlib.Tactic.Linarith
import Mathlib.Tactic.FieldSimp
import Mathlib.Tactic.NormNum
import Mathlib.Tactic.Positivity
import Mathlib.Data.Nat.Digits.Lemmas
/-!
# C91-C93: save_csv
-/
namespace Heat

open Spec
variable {β : Type}

/-! ## Writes that agree with a text -/

/-- A position of the file is written. -/
def Covered (ws : List (Nat × List Nat)) (p : Nat) : Prop := ∃ w ∈ ws, w.1 ≤ p ∧ p < w.1 + w.2.length

theorem fileWrite_length (f : List Nat) (off : Nat) (bs : List Nat) (h : bs ≠ []) : (fileWrite f off bs).length = max f.length (off + bs.length) := by
  unfold fileWrite
  rw [if_neg h]
  simp only [List.length_append, List.length_take, List.length_replicate, List.length_drop]
  omega

theorem fileWrite_inside (f : List Nat) (off : Nat) (bs : List Nat) (i : Nat) (hi : i < bs.length) : (fileWrite f off bs)[off + i]? = bs[i]? := by
  unfold fileWrite
  rw [if_neg (by intro h; subst h; simp at hi)]
  have hl : ((f ++ List.replicate (off - f.length) 0).take off).length = off := by simp; omega
  rw [List.getElem?_append_left (by rw [List.length_append, hl]; omega), List.getElem?_append_right (by omega), hl]
  congr 1; omega

theorem fileWrite_outside (f : List Nat) (off : Nat) (bs : List Nat) (p : Nat) (hp : p < f.length) (ho : p < off ∨ off + bs.length ≤ p) :
    (fileWrite f off bs)[p]? = f[p]? := by
  unfold fileWrite
  split
  · rfl
  · have hl : ((f ++ List.replicate (off - f.length) 0).take off).length = off := by simp; omega
    rcases ho with ho | ho
    · rw [List.getElem?_append_left (by rw [List.length_append, hl]; omega), List.getElem?_append_left (by omega), List.getElem?_take_of_lt ho,
        List.getElem?_append_left hp]
    · rw [List.getElem?_append_right (by rw [List.length_append, hl]; omega), List.length_append, hl, List.getElem?_drop]
      congr 1; omega

/-- Writes that agree with the text `T`, in any order, never write anything else, and write all of what they cover. -/
theorem applyWrites_agree (T : List Nat) (ws : List (Nat × List Nat)) : ∀ (f : List Nat), (∀ w ∈ ws, w.2 <+: T.drop w.1) → f.length ≤ T.length →
    (applyWrites ws f).length ≤ T.length ∧ ∀ p < T.length, (f[p]? = T[p]? ∨ Covered ws p) → (applyWrites ws f)[p]? = T[p]? := by
  induction ws with
  | nil =>
    intro f _ hl
    refine ⟨hl, fun p _ h => ?_⟩
    rcases h with h | ⟨w, hw, _⟩
    · exact h
    · simp at hw
  | cons w ws ih =>
    intro f hag hl
    have hw := hag w (List.mem_cons_self ..)
    obtain ⟨t, ht⟩ := hw
    have hlen : w.2.length ≤ T.length - w.1 := by
      have := congrArg List.length ht
      rw [List.length_append, List.length_drop] at this
      omega
    have hin : ∀ i < w.2.length, T[w.1 + i]? = w.2[i]? := by
      intro i hi
      rw [← List.getElem?_drop, ← ht, List.getElem?_append_left hi]
    have hl' : (fileWrite f w.1 w.2).length ≤ T.length := by
      by_cases he : w.2 = []
      · unfold fileWrite; rw [if_pos he]; exact hl
      · rw [fileWrite_length _ _ _ he]
        have : 0 < w.2.length := List.length_pos_iff.mpr he
        omega
    have hstep : applyWrites (w :: ws) f = applyWrites ws (fileWrite f w.1 w.2) := rfl
    obtain ⟨h1, h2⟩ := ih (fileWrite f w.1 w.2) (fun v hv => hag v (List.mem_cons_of_mem _ hv)) hl'
    rw [hstep]
    refine ⟨h1, fun p hp hor => h2 p hp ?_⟩
    by_cases hc : w.1 ≤ p ∧ p < w.1 + w.2.length
    · left
      have := fileWrite_inside f w.1 w.2 (p - w.1) (by omega)
      rw [show w.1 + (p - w.1) = p by omega] at this
      rw [this, ← hin (p - w.1) (by omega)]
      congr 1; omega
    · rcases hor with hor | ⟨v, hv, hv2⟩
      · left
        have hpf : p < f.length := by
          by_contra hcon
          rw [List.getElem?_eq_none (by omega), List.getElem?_eq_getElem hp] at hor
          cases hor
        rw [fileWrite_outside _ _ _ _ hpf (by omega)]
        exact hor
      · right
        rcases List.mem_cons.mp hv with rfl | hv
        · exact absurd hv2 hc
        · exact ⟨v, hv, hv2⟩

theorem applyWrites_text (T : List Nat) (ws : List (Nat × List Nat)) (hag : ∀ w ∈ ws, w.2 <+: T.drop w.1) (hcov : ∀ p < T.length, Covered ws p) :
    applyWrites ws [] = T := by
  obtain ⟨h1, h2⟩ := applyWrites_agree T ws [] hag (by simp)
  apply List.ext_getElem?
  intro p
  by_cases hp : p < T.length
  · exact h2 p hp (.inr (hcov p hp))
  · rw [List.getElem?_eq_none (by omega), List.getElem?_eq_none (by omega)]

/-! ## The text of a table as cells of equal width -/

/-- Items followed by a separator, the last one by a line feed (or a separator if the row goes on elsewhere). -/
def cellsOf (fmt : β → List Nat) (s : Nat) (last : Bool) : List β → List (List Nat)
  | [] => []
  | [x] => [fmt x ++ [if last then 10 else s]]
  | x :: y :: t => (fmt x ++ [s]) :: cellsOf fmt s last (y :: t)

theorem cellsOf_length (fmt : β → List Nat) (s : Nat) (last : Bool) : ∀ row : List β, (cellsOf fmt s last row).length = row.length
  | [] => rfl
  | [x] => rfl
  | x :: y :: t => by rw [cellsOf, List.length_cons, cellsOf_length fmt s last (y :: t)]; rfl

theorem cellsOf_append (fmt : β → List Nat) (s : Nat) (last : Bool) (b : List β) (hb : b ≠ []) : ∀ a : List β, cellsOf fmt s last (a ++ b) = cellsOf fmt s false a ++ cellsOf fmt s last b
  | [] => rfl
  | [x] => by
    cases b with
    | nil => exact absurd rfl hb
    | cons y t => rfl
  | x :: y :: t => by
    rw [List.cons_append, List.cons_append, cellsOf, cellsOf, List.cons_append, ← List.cons_append, cellsOf_append fmt s last b hb (y :: t)]

theorem rowText_cells (fmt : β → List Nat) (s : Nat) (last : Bool) : ∀ row : List β, row ≠ [] → rowText fmt [s] last row = (cellsOf fmt s last row).flatten
  | [], h => absurd rfl h
  | [x], _ => by simp only [rowText, cellsOf, List.map_cons, List.map_nil, joinItems]; cases last <;> simp
  | x :: y :: t, _ => by
    have := rowText_cells fmt s last (y :: t) (by simp)
    unfold rowText at this ⊢
    rw [cellsOf, List.flatten_cons, ← this]
    simp only [List.map_cons, joinItems, List.append_assoc]

theorem cellsOf_width (fmt : β → List Nat) (s w : Nat) (last : Bool) : ∀ row : List β, (∀ x ∈ row, (fmt x).length = w) → ∀ c ∈ cellsOf fmt s last row, c.length = w + 1
  | [], _, c, hc => by simp [cellsOf] at hc
  | [x], h, c, hc => by
    simp only [cellsOf, List.mem_singleton] at hc
    subst hc
    rw [List.length_append, h x (by simp)]; rfl
  | x :: y :: t, h, c, hc => by
    rw [cellsOf] at hc
    rcases List.mem_cons.mp hc with rfl | hc
    · rw [List.length_append, h x (by simp)]; rfl
    · exact cellsOf_width fmt s w last (y :: t) (fun z hz => h z (List.mem_cons_of_mem _ hz)) c hc

theorem flatten_drop {γ : Type} {C : List (List γ)} {K : Nat} (h : ∀ c ∈ C, c.length = K) (i : Nat) : C.flatten.drop (i * K) = (C.drop i).flatten := by
  induction i generalizing C with
  | zero => simp
  | succ i ih =>
    cases C with
    | nil => simp
    | cons c C =>
      have hc := h c (List.mem_cons_self ..)
      rw [List.flatten_cons, Nat.succ_mul, Nat.add_comm, ← List.drop_drop, ← hc, List.drop_left, hc, ih fun d hd => h d (List.mem_cons_of_mem _ hd)]
      rfl

theorem flatten_len {γ : Type} {C : List (List γ)} {K : Nat} (h : ∀ c ∈ C, c.length = K) : C.flatten.length = C.length * K := by
  induction C with
  | nil => simp
  | cons c C ih =>
    rw [List.flatten_cons, List.length_append, h c (List.mem_cons_self ..), ih fun d hd => h d (List.mem_cons_of_mem _ hd), List.length_cons, Nat.succ_mul]
    omega

/-- A run of whole cells is where it belongs. -/
theorem run_prefix (H : List Nat) {C : List (List Nat)} {K : Nat} (h : ∀ c ∈ C, c.length = K) (c : Nat) {R : List (List Nat)} (hR : R <+: C.drop c) :
    R.flatten <+: (H ++ C.flatten).drop (H.length + c * K) := by
  rw [← List.drop_drop, List.drop_left, flatten_drop h]
  obtain ⟨t, ht⟩ := hR
  exact ⟨t.flatten, by rw [← List.flatten_append, ht]⟩

/-! ## The header -/

theorem headerWrites_agree (enc : Nat → List Nat) (lines : List (List Nat)) : ∀ (pos : Nat) (pre rest : List Nat), pre.length = pos →
    (∀ w ∈ headerWrites enc pos lines, w.2 <+: (pre ++ (lines.flatMap fun hl => (headerLine hl).flatMap enc) ++ rest).drop w.1) ∧
    ∀ p, pos ≤ p → p < pos + (lines.flatMap fun hl => (headerLine hl).flatMap enc).length → Covered (headerWrites enc pos lines) p := by
  induction lines with
  | nil =>
    intro pos pre rest _
    refine ⟨by simp [headerWrites], fun p h1 h2 => ?_⟩
    simp at h2; omega
  | cons hl t ih =>
    intro pos pre rest hp
    obtain ⟨h1, h2⟩ := ih (pos + ((headerLine hl).flatMap enc).length) (pre ++ (headerLine hl).flatMap enc) rest (by rw [List.length_append, hp])
    rw [List.flatMap_cons]
    simp only [headerWrites]
    generalize (headerLine hl).flatMap enc = bs at *
    refine ⟨?_, ?_⟩
    · intro w hw
      rcases List.mem_cons.mp hw with rfl | hw
      · rw [List.append_assoc, List.append_assoc, ← hp, List.drop_left]
        exact List.prefix_append _ _
      · have := h1 w hw
        rw [List.append_assoc pre] at this
        exact this
    · intro p hp1 hp2
      by_cases hc : p < pos + bs.length
      · exact ⟨_, List.mem_cons_self .., hp1, hc⟩
      · rw [List.length_append] at hp2
        obtain ⟨w, hw, hw2⟩ := h2 p (by omega) (by omega)
        exact ⟨w, List.mem_cons_of_mem _ hw, hw2⟩

/-! ## All ranks -/

/-- The local rows of all ranks make up the table `rows` with `cols` columns. -/
def TableParts (split : Option Nat) (P cols : Nat) (lcols displs : Nat → Nat) (loc : Nat → List (List β)) (rows : List (List β)) : Prop :=
  (∀ row ∈ rows, row.length = cols) ∧
  match split with
  | none => ∀ r < P, loc r = rows ∧ lcols r = cols
  | some 0 => content P loc = rows ∧ ∀ r < P, lcols r = cols ∧ displs r = startOf loc r
  | some 1 => (∀ r < P, (loc r).length = rows.length ∧ displs r = ((List.range r).map lcols).sum ∧ ∀ i < rows.length, ((loc r).getD i []).length = lcols r) ∧
      ∀ i < rows.length, content P (fun r => (loc r).getD i []) = rows.getD i []
  | _ => False

/-- The cells of the whole table. -/
def tableCells (fmt : β → List Nat) (s : Nat) (rows : List (List β)) : List (List Nat) := rows.flatMap (cellsOf fmt s true)

theorem tableCells_width {fmt : β → List Nat} {s w : Nat} {rows : List (List β)} (h : ∀ row ∈ rows, ∀ x ∈ row, (fmt x).length = w) : ∀ c ∈ tableCells fmt s rows, c.length = w + 1 := by
  intro c hc
  obtain ⟨row, hr, hc⟩ := List.mem_flatMap.mp hc
  exact cellsOf_width fmt s w true row (h row hr) c hc

theorem tableCells_row {fmt : β → List Nat} {s cols : Nat} {rows : List (List β)} (h : ∀ row ∈ rows, row.length = cols) {i : Nat} (hi : i < rows.length) :
    cellsOf fmt s true (rows.getD i []) <+: (tableCells fmt s rows).drop (i * cols) := by
  unfold tableCells
  rw [List.flatMap_def, flatten_drop (K := cols)]
  · rw [← List.map_drop, List.drop_eq_getElem_cons hi, List.map_cons, List.flatten_cons, List.getD_eq_getElem?_getD, List.getElem?_eq_getElem hi]
    exact List.prefix_append _ _
  · intro c hc
    obtain ⟨row, hr, rfl⟩ := List.mem_map.mp hc
    rw [cellsOf_length, h row hr]

theorem tableCells_length {fmt : β → List Nat} {s cols : Nat} {rows : List (List β)} (h : ∀ row ∈ rows, row.length = cols) : (tableCells fmt s rows).length = rows.length * cols := by
  unfold tableCells
  rw [List.flatMap_def, flatten_len (K := cols)]
  · rw [List.length_map]
  · intro c hc
    obtain ⟨row, hr, rfl⟩ := List.mem_map.mp hc
    rw [cellsOf_length, h row hr]

/-- The cells of a row that is distributed over the ranks. -/
theorem cells_content (fmt : β → List Nat) (s : Nat) (d : Nat → List β) (m : Nat) : ∀ k, startOf d k ≤ m →
    content k (fun r => cellsOf fmt s (decide (startOf d r + (d r).length = m)) (d r)) = cellsOf fmt s (decide (startOf d k = m)) (content k d) := by
  intro k
  induction k with
  | zero => intro _; rfl
  | succ k ih =>
    intro hk
    have hs := startOf_succ d k
    rw [content_succ, ih (by omega), content_succ]
    by_cases he : d k = []
    · rw [he] at hs ⊢
      rw [List.append_nil, hs]
      simp [cellsOf]
    · have : 0 < (d k).length := List.length_pos_iff.mpr he
      rw [cellsOf_append fmt s _ _ he, decide_eq_false (by omega : ¬ startOf d k = m), hs]

theorem content_drop {γ : Type} (d : Nat → List γ) {P r : Nat} (hr : r < P) : d r <+: (content P d).drop (startOf d r) := by
  have h : content P d = content r d ++ (d r ++ ((content P d).drop (startOf d (r + 1)))) := by
    induction P with
    | zero => omega
    | succ P ih =>
      rcases Nat.lt_or_ge r P with h | h
      · have hle : startOf d (r + 1) ≤ (content P d).length := content_length_mono d h
        rw [content_succ, List.drop_append_of_le_length hle, ← List.append_assoc (d r), ← List.append_assoc (content r d), ← ih h]
      · have : r = P := by omega
        subst this
        have : (content (r + 1) d).drop (startOf d (r + 1)) = [] := List.drop_eq_nil_of_le (Nat.le_refl _)
        rw [this, List.append_nil, content_succ]
  rw [h]
  have : startOf d r = (content r d).length := rfl
  rw [this, List.drop_left]
  exact List.prefix_append _ _

theorem prefix_drop_add {γ : Type} {L A B : List γ} {a b : Nat} (h1 : A <+: L.drop a) (h2 : B <+: A.drop b) (hb : b ≤ A.length) : B <+: L.drop (a + b) := by
  obtain ⟨t, ht⟩ := h1
  rw [← List.drop_drop, ← ht, List.drop_append_of_le_length hb]
  exact h2.trans (List.prefix_append _ _)

theorem header_len (enc : Nat → List Nat) : ∀ (lines : List (List Nat)), (∀ hl ∈ lines, ∀ c ∈ headerLine hl, (enc c).length = 1) →
    headerDispl lines = (lines.flatMap fun hl => (headerLine hl).flatMap enc).length
  | [], _ => rfl
  | hl :: t, henc => by
    have h0 : ∀ L : List Nat, (∀ c ∈ L, (enc c).length = 1) → L.length = (L.flatMap enc).length := by
      intro L
      induction L with
      | nil => intro _; rfl
      | cons c L ih2 =>
        intro h
        rw [List.flatMap_cons, List.length_append, h c (List.mem_cons_self ..), List.length_cons, ih2 fun d hd => h d (List.mem_cons_of_mem _ hd)]
        omega
    have := header_len enc t fun l hl => henc l (List.mem_cons_of_mem _ hl)
    unfold headerDispl at this ⊢
    rw [List.map_cons, List.sum_cons, this, List.flatMap_cons, List.length_append, h0 _ (henc hl (List.mem_cons_self ..))]

/-- The cells of local row `i` of rank `r` and the number of cells before them. -/
def runOf (fmt : β → List Nat) (s : Nat) (split : Option Nat) (cols : Nat) (lcols displs : Nat → Nat) (loc : Nat → List (List β)) (r i : Nat) : Nat × List (List Nat) :=
  match split with
  | none => (i * cols, cellsOf fmt s true ((loc r).getD i []))
  | some 0 => ((displs r + i) * cols, cellsOf fmt s true ((loc r).getD i []))
  | some _ => (i * cols + displs r, cellsOf fmt s (decide (displs r + lcols r = cols)) ((loc r).getD i []))

theorem runOf_zero (fmt : β → List Nat) (s cols : Nat) (lcols displs : Nat → Nat) (loc : Nat → List (List β)) (r i : Nat) :
    runOf fmt s (some 0) cols lcols displs loc r i = ((displs r + i) * cols, cellsOf fmt s true ((loc r).getD i [])) := rfl

theorem runOf_succ (fmt : β → List Nat) (s cols k : Nat) (lcols displs : Nat → Nat) (loc : Nat → List (List β)) (r i : Nat) :
    runOf fmt s (some (k + 1)) cols lcols displs loc r i = (i * cols + displs r, cellsOf fmt s (decide (displs r + lcols r = cols)) ((loc r).getD i [])) := rfl

theorem csvWrites_run (fmt : β → List Nat) (s w h : Nat) (split : Option Nat) (cols : Nat) (lcols displs : Nat → Nat) (loc : Nat → List (List β)) (r : Nat)
    (hl : lcols r ≠ 0) (hr : split = none → r = 0) (hne : ∀ i < (loc r).length, (loc r).getD i [] ≠ []) :
    csvWrites fmt [s] w h split cols lcols displs loc r = (List.range (loc r).length).map fun i =>
      (h + (runOf fmt s split cols lcols displs loc r i).1 * (w + 1), (runOf fmt s split cols lcols displs loc r i).2.flatten) := by
  unfold csvWrites
  dsimp only
  rw [if_neg hl, if_neg (by rintro ⟨h1, h2⟩; exact h2 (hr h1))]
  apply List.map_congr_left
  intro i hi
  have hi := hne i (List.mem_range.mp hi)
  match split with
  | none => dsimp only [runOf]; rw [rowText_cells _ _ _ _ hi]; congr 1; ring
  | some 0 =>
    rw [runOf_zero, rowText_cells _ _ _ _ hi]; congr 1
    show h + displs r * (cols * (w + 1)) + i * (cols * (w + 1)) = _
    ring
  | some (k + 1) =>
    rw [runOf_succ, rowText_cells _ _ _ _ hi]; congr 1
    show h + displs r * (w + 1) + i * (cols * (w + 1)) = _
    ring

/-- Every run of cells is where it belongs in the table. -/
theorem run_ok (fmt : β → List Nat) (s : Nat) {split : Option Nat} {P cols : Nat} {lcols displs : Nat → Nat} {loc : Nat → List (List β)} {rows : List (List β)}
    (htab : TableParts split P cols lcols displs loc rows) {r i : Nat} (hr : r < P) (hi : i < (loc r).length) :
    (runOf fmt s split cols lcols displs loc r i).2 <+: (tableCells fmt s rows).drop (runOf fmt s split cols lcols displs loc r i).1 ∧
    (runOf fmt s split cols lcols displs loc r i).2.length = lcols r ∧ ((loc r).getD i []).length = lcols r := by
  obtain ⟨hrow, hsplit⟩ := htab
  match split, hsplit with
  | none, hsplit =>
    obtain ⟨h1, h2⟩ := hsplit r hr
    dsimp only [runOf]
    rw [h1] at hi ⊢
    have h3 : (rows.getD i []).length = cols := by
      rw [List.getD_eq_getElem?_getD, List.getElem?_eq_getElem hi]; exact hrow _ (List.getElem_mem hi)
    refine ⟨tableCells_row hrow hi, ?_, ?_⟩
    · rw [cellsOf_length, h2, h3]
    · rw [h2, h3]
  | some 0, hsplit =>
    obtain ⟨h1, h2⟩ := hsplit
    obtain ⟨h2, h4⟩ := h2 r hr
    rw [runOf_zero]
    have hg := content_get loc P r i hr hi
    rw [h1] at hg
    have hlt : startOf loc r + i < rows.length := by
      by_contra hc
      rw [List.getElem?_eq_none (by omega)] at hg; cases hg
    have he : (loc r).getD i [] = rows.getD (startOf loc r + i) [] := by
      rw [List.getD_eq_getElem?_getD, List.getD_eq_getElem?_getD, hg, List.getElem?_eq_getElem hi]
    have h3 : (rows.getD (startOf loc r + i) []).length = cols := by
      rw [List.getD_eq_getElem?_getD, List.getElem?_eq_getElem hlt]; exact hrow _ (List.getElem_mem hlt)
    rw [he, h4]
    refine ⟨tableCells_row hrow hlt, ?_, ?_⟩
    · rw [cellsOf_length, h2, h3]
    · rw [h2, h3]
  | some 1, hsplit =>
    obtain ⟨h1, h2⟩ := hsplit
    obtain ⟨h3, h4, h5⟩ := h1 r hr
    rw [h3] at hi
    rw [runOf_succ fmt s cols 0]
    refine ⟨?_, by rw [cellsOf_length, h5 i hi], h5 i hi⟩
    have hst : ∀ q ≤ P, startOf (fun r => (loc r).getD i []) q = ((List.range q).map lcols).sum := by
      intro q hq
      unfold startOf
      rw [content_length_sum]
      congr 1
      apply List.map_congr_left
      intro t ht
      exact (h1 t (by have := List.mem_range.mp ht; omega)).2.2 i hi
    have hlen : startOf (fun r => (loc r).getD i []) P = cols := by
      unfold startOf
      rw [h2 i hi, List.getD_eq_getElem?_getD, List.getElem?_eq_getElem hi]; exact hrow _ (List.getElem_mem hi)
    have hc := cells_content fmt s (fun r => (loc r).getD i []) cols P (by omega)
    rw [h2 i hi, hlen, decide_eq_true rfl] at hc
    have hd := content_drop (fun r => cellsOf fmt s (decide (startOf (fun r => (loc r).getD i []) r + ((loc r).getD i []).length = cols)) ((loc r).getD i [])) hr
    rw [hc] at hd
    have hs2 : startOf (fun r => cellsOf fmt s (decide (startOf (fun r => (loc r).getD i []) r + ((loc r).getD i []).length = cols)) ((loc r).getD i [])) r = displs r := by
      rw [h4, ← hst r (by omega)]
      unfold startOf
      rw [content_length_sum, content_length_sum]
      congr 1
      apply List.map_congr_left
      intro t _
      exact cellsOf_length ..
    rw [hs2, hst r (by omega), ← h4, h5 i hi] at hd
    refine prefix_drop_add (tableCells_row hrow hi) hd ?_
    rw [cellsOf_length]
    have h6 : (rows.getD i []).length = cols := by
      rw [List.getD_eq_getElem?_getD, List.getElem?_eq_getElem hi]; exact hrow _ (List.getElem_mem hi)
    rw [h6, h4, ← hst r (by omega), ← hlen]
    exact startOf_mono _ (by omega)

/-- Every cell belongs to a run. -/
theorem run_cover (fmt : β → List Nat) (s : Nat) {split : Option Nat} {P cols : Nat} (hP : 0 < P) (hcols : 0 < cols) {lcols displs : Nat → Nat} {loc : Nat → List (List β)}
    {rows : List (List β)} (htab : TableParts split P cols lcols displs loc rows) {c : Nat} (hc : c < rows.length * cols) :
    ∃ r < P, (split = none → r = 0) ∧ lcols r ≠ 0 ∧ ∃ i < (loc r).length,
      (runOf fmt s split cols lcols displs loc r i).1 ≤ c ∧ c < (runOf fmt s split cols lcols displs loc r i).1 + lcols r := by
  obtain ⟨hrow, hsplit⟩ := htab
  have hq : c / cols < rows.length := Nat.div_lt_of_lt_mul (by rw [Nat.mul_comm]; exact hc)
  have hm := Nat.mod_lt c hcols
  have hdm : c / cols * cols + c % cols = c := Nat.div_add_mod' c cols
  generalize hi : c / cols = i at *
  match split, hsplit with
  | none, hsplit =>
    obtain ⟨h1, h2⟩ := hsplit 0 hP
    refine ⟨0, hP, fun _ => rfl, by omega, i, by rw [h1]; exact hq, ?_⟩
    dsimp only [runOf]
    omega
  | some 0, hsplit =>
    obtain ⟨h1, h2⟩ := hsplit
    obtain ⟨r, hr, h3, h4⟩ := startOf_owner loc P i (by unfold startOf; rw [h1]; exact hq)
    obtain ⟨h5, h6⟩ := h2 r hr
    rw [startOf_succ] at h4
    refine ⟨r, hr, fun h => absurd h (by simp), by omega, i - startOf loc r, by omega, ?_⟩
    rw [runOf_zero, h6, show startOf loc r + (i - startOf loc r) = i by omega]
    omega
  | some 1, hsplit =>
    obtain ⟨h1, h2⟩ := hsplit
    have hst : ∀ q ≤ P, startOf (fun r => (loc r).getD i []) q = ((List.range q).map lcols).sum := by
      intro q hqq
      unfold startOf
      rw [content_length_sum]
      congr 1
      apply List.map_congr_left
      intro t ht
      exact (h1 t (by have := List.mem_range.mp ht; omega)).2.2 i hq
    have hlen : startOf (fun r => (loc r).getD i []) P = cols := by
      unfold startOf
      rw [h2 i hq, List.getD_eq_getElem?_getD, List.getElem?_eq_getElem hq]; exact hrow _ (List.getElem_mem hq)
    obtain ⟨r, hr, h3, h4⟩ := startOf_owner (fun r => (loc r).getD i []) P (c % cols) (by omega)
    obtain ⟨h5, h6, h7⟩ := h1 r hr
    rw [startOf_succ] at h4
    rw [hst r (by omega), ← h6] at h3 h4
    have h7 := h7 i hq
    rw [h7] at h4
    refine ⟨r, hr, fun h => absurd h (by simp), by omega, i, by omega, ?_⟩
    rw [runOf_succ fmt s cols 0]
    dsimp only
    omega

/-- C91.  The bytes of the file after `save_csv`: for every split axis, distribution, number of ranks and order in which the writes reach the file it
consists of the header lines and the cells, row by row - provided the separator is one byte, every item has the computed width, and the header is encoded with one
byte per character. -/
theorem save_csv_text (enc : Nat → List Nat) (lines : List (List Nat)) (henc : ∀ hl ∈ lines, ∀ c ∈ headerLine hl, (enc c).length = 1)
    (fmt : β → List Nat) (s w : Nat) (split : Option Nat) (cols : Nat) (hcols : 0 < cols) (lcols displs : Nat → Nat) (P : Nat) (hP : 0 < P)
    (loc : Nat → List (List β)) (rows : List (List β)) (htab : TableParts split P cols lcols displs loc rows) (hw : ∀ row ∈ rows, ∀ x ∈ row, (fmt x).length = w)
    (ws : List (Nat × List Nat)) (hws : ws.Perm (saveCsvWrites enc lines fmt [s] w split cols lcols displs P loc)) :
    applyWrites ws [] = (lines.flatMap fun hl => (headerLine hl).flatMap enc) ++ (tableCells fmt s rows).flatten := by
  have hH := header_len enc lines henc
  have hcw := tableCells_width (s := s) hw
  have hhead := headerWrites_agree enc lines 0 [] ((tableCells fmt s rows).flatten) rfl
  unfold saveCsvWrites at hws
  rw [hH] at hws
  generalize (lines.flatMap fun hl => (headerLine hl).flatMap enc) = H at *
  rw [List.nil_append, Nat.zero_add] at hhead
  obtain ⟨hh1, hh2⟩ := hhead
  have hne : ∀ r < P, lcols r ≠ 0 → ∀ i < (loc r).length, (loc r).getD i [] ≠ [] := by
    intro r hr hl i hi h0
    have := (run_ok fmt s htab hr hi).2.2
    rw [h0] at this
    exact hl this.symm
  apply applyWrites_text
  · intro v hv
    rcases List.mem_append.mp (hws.mem_iff.mp hv) with hv | hv
    · exact hh1 v hv
    · obtain ⟨r, hr, hv⟩ := List.mem_flatMap.mp hv
      have hr := List.mem_range.mp hr
      by_cases hl : lcols r = 0
      · unfold csvWrites at hv; dsimp only at hv; rw [if_pos hl] at hv; simp at hv
      · by_cases hs : split = none ∧ r ≠ 0
        · unfold csvWrites at hv; dsimp only at hv; rw [if_neg hl, if_pos hs] at hv; simp at hv
        · rw [csvWrites_run fmt s w _ split cols lcols displs loc r hl (by intro h; by_contra h2; exact hs ⟨h, h2⟩) (hne r hr hl)] at hv
          obtain ⟨i, hi, rfl⟩ := List.mem_map.mp hv
          exact run_prefix H hcw _ (run_ok fmt s htab hr (List.mem_range.mp hi)).1
  · intro p hp
    by_cases hpH : p < H.length
    · obtain ⟨v, hv, hv2⟩ := hh2 p (Nat.zero_le _) hpH
      exact ⟨v, hws.mem_iff.mpr (List.mem_append_left _ hv), hv2⟩
    · rw [List.length_append, flatten_len hcw, tableCells_length htab.1] at hp
      have hc : (p - H.length) / (w + 1) < rows.length * cols := Nat.div_lt_of_lt_mul (by rw [Nat.mul_comm]; omega)
      obtain ⟨r, hr, hs, hl, i, hi, h1, h2⟩ := run_cover fmt s hP hcols htab hc
      obtain ⟨h3, h4, h5⟩ := run_ok fmt s htab hr hi
      refine ⟨(H.length + (runOf fmt s split cols lcols displs loc r i).1 * (w + 1), (runOf fmt s split cols lcols displs loc r i).2.flatten),
        hws.mem_iff.mpr (List.mem_append_right _ (List.mem_flatMap.mpr ⟨r, List.mem_range.mpr hr, ?_⟩)), ?_⟩
      · rw [csvWrites_run fmt s w _ split cols lcols displs loc r hl hs (hne r hr hl)]
        exact List.mem_map.mpr ⟨i, List.mem_range.mpr hi, rfl⟩
      · dsimp only
        have hK : ∀ x ∈ (runOf fmt s split cols lcols displs loc r i).2, x.length = w + 1 := fun x hx => hcw x (List.mem_of_mem_drop (h3.subset hx))
        rw [flatten_len hK, h4]
        generalize (runOf fmt s split cols lcols displs loc r i).1 = c0 at *
        generalize lcols r = l at *
        have e1 : c0 * (w + 1) ≤ p - H.length := (Nat.le_div_iff_mul_le (by omega)).mp h1
        have e2 : p - H.length < (c0 + l) * (w + 1) := (Nat.div_lt_iff_lt_mul (by omega)).mp h2
        rw [Nat.add_mul] at e2
        omega

/-! ## Reading the file back -/

theorem cutBytes_app (x : Nat) (a rest : List Nat) (h : x ∉ a) : cutBytes x (a ++ x :: rest) = a :: cutBytes x rest := by
  induction a with
  | nil => rw [List.nil_append, cutBytes, if_pos rfl]
  | cons b a ih =>
    rw [List.cons_append, cutBytes, if_neg (by intro hb; exact h (by rw [hb]; exact List.mem_cons_self ..)), ih (fun hm => h (List.mem_cons_of_mem _ hm))]
    rfl

theorem cutBytes_none (x : Nat) (a : List Nat) (h : x ∉ a) : cutBytes x a = [a] := by
  induction a with
  | nil => rfl
  | cons b a ih =>
    rw [cutBytes, if_neg (by intro hb; exact h (by rw [hb]; exact List.mem_cons_self ..)), ih (fun hm => h (List.mem_cons_of_mem _ hm))]
    rfl

theorem cutBytes_join (s : Nat) : ∀ items : List (List Nat), items ≠ [] → (∀ x ∈ items, s ∉ x) → cutBytes s (joinItems [s] items) = items
  | [], h, _ => absurd rfl h
  | [x], _, h => cutBytes_none s x (h x (by simp))
  | x :: y :: t, _, h => by
    have := cutBytes_join s (y :: t) (by simp) (fun z hz => h z (List.mem_cons_of_mem _ hz))
    rw [joinItems, List.append_assoc, List.singleton_append, cutBytes_app s x _ (h x (by simp)), this]

theorem mem_joinItems {s b : Nat} : ∀ items : List (List Nat), b ∈ joinItems [s] items → b = s ∨ ∃ x ∈ items, b ∈ x
  | [], h => by simp [joinItems] at h
  | [x], h => .inr ⟨x, by simp, h⟩
  | x :: y :: t, h => by
    rw [joinItems, List.append_assoc] at h
    rcases List.mem_append.mp h with h | h
    · exact .inr ⟨x, by simp, h⟩
    · rcases List.mem_append.mp h with h | h
      · exact .inl (by simpa using h)
      · rcases mem_joinItems (y :: t) h with h | ⟨z, hz, h⟩
        · exact .inl h
        · exact .inr ⟨z, List.mem_cons_of_mem _ hz, h⟩

/-- A header line without its line feed. -/
def headerBody (hl : List Nat) : List Nat := if hl.getLast? = some 10 then hl.dropLast else hl

theorem headerLine_body (hl : List Nat) : headerLine hl = headerBody hl ++ [10] := by
  unfold headerLine headerBody
  split
  · rename_i h
    exact (List.dropLast_append_getLast? 10 h).symm
  · rfl

theorem headerBody_no10 {hl : List Nat} (h : 10 ∉ hl.dropLast) : 10 ∉ headerBody hl := by
  unfold headerBody
  split
  · exact h
  · rename_i h2
    intro hm
    rcases List.eq_nil_or_concat hl with h0 | ⟨L, b, h0⟩
    · rw [h0] at hm; simp at hm
    · subst h0
      simp at h hm h2
      exact (hm.resolve_left h) |> fun e => h2 e.symm

theorem cutBytes_header (rest : List Nat) : ∀ lines : List (List Nat), (∀ hl ∈ lines, 10 ∉ hl.dropLast) →
    cutBytes 10 ((lines.flatMap headerLine) ++ rest) = lines.map headerBody ++ cutBytes 10 rest
  | [], _ => rfl
  | hl :: t, h => by
    rw [List.flatMap_cons, headerLine_body, List.append_assoc, List.append_assoc, List.singleton_append, cutBytes_app 10 _ _ (headerBody_no10 (h hl (by simp))),
      cutBytes_header rest t (fun l hl => h l (List.mem_cons_of_mem _ hl))]
    rfl

theorem cutBytes_rows (fmt : β → List Nat) (s : Nat) (hs : s ≠ 10) (hf : ∀ x, 10 ∉ fmt x) : ∀ rows : List (List β), (∀ row ∈ rows, row ≠ []) →
    cutBytes 10 (tableCells fmt s rows).flatten = (rows.map fun row => joinItems [s] (row.map fmt)) ++ [[]]
  | [], _ => rfl
  | row :: t, h => by
    have ih := cutBytes_rows fmt s hs hf t (fun r hr => h r (List.mem_cons_of_mem _ hr))
    unfold tableCells at ih ⊢
    rw [List.flatMap_cons, List.flatten_append, ← rowText_cells fmt s true row (h row (by simp))]
    unfold rowText
    rw [if_pos rfl, List.append_assoc, List.singleton_append, cutBytes_app, ih]
    · rfl
    · intro hm
      rcases mem_joinItems _ hm with h1 | ⟨z, hz, h1⟩
      · exact hs h1.symm
      · obtain ⟨x, _, rfl⟩ := List.mem_map.mp hz
        exact hf x h1

/-- C91.  Someone who reads the file as a table - skip the header lines, cut the other lines at the separator - gets the formatted items of the array, row by row. -/
theorem save_csv_rows (lines : List (List Nat)) (hlines : ∀ hl ∈ lines, 10 ∉ hl.dropLast)
    (fmt : β → List Nat) (s w : Nat) (hs : s ≠ 10) (hf : ∀ x, 10 ∉ fmt x ∧ s ∉ fmt x) (hw0 : 0 < w) (split : Option Nat) (cols : Nat) (hcols : 0 < cols)
    (lcols displs : Nat → Nat) (P : Nat) (hP : 0 < P) (loc : Nat → List (List β)) (rows : List (List β)) (htab : TableParts split P cols lcols displs loc rows)
    (hw : ∀ row ∈ rows, ∀ x ∈ row, (fmt x).length = w) (ws : List (Nat × List Nat))
    (hws : ws.Perm (saveCsvWrites (fun c => [c]) lines fmt [s] w split cols lcols displs P loc)) :
    csvRows (applyWrites ws []) lines.length s = rows.map (List.map fmt) := by
  rw [save_csv_text (fun c => [c]) lines (fun _ _ _ _ => rfl) fmt s w split cols hcols lcols displs P hP loc rows htab hw ws hws]
  have h1 : (lines.flatMap fun hl => (headerLine hl).flatMap fun c => [c]) = lines.flatMap headerLine := by
    congr 1
    funext hl
    rw [List.flatMap_singleton']
  have hne : ∀ row ∈ rows, row ≠ [] := by
    intro row hr h0
    have := htab.1 row hr
    rw [h0] at this
    simp at this; omega
  rw [h1]
  unfold csvRows
  rw [cutBytes_header _ lines hlines, cutBytes_rows fmt s hs (fun x => (hf x).1) rows hne, List.drop_left' (by rw [List.length_map]), List.filter_append]
  have h2 : (List.filter (fun l : List Nat => !l.isEmpty) [[]]) = [] := rfl
  rw [h2, List.append_nil, List.filter_eq_self.mpr, List.map_map]
  · apply List.map_congr_left
    intro row hr
    dsimp only [Function.comp]
    exact cutBytes_join s _ (by simpa using hne row hr) (fun x hx => by obtain ⟨y, _, rfl⟩ := List.mem_map.mp hx; exact (hf y).2)
  · intro l hl
    obtain ⟨row, hr, rfl⟩ := List.mem_map.mp hl
    cases row with
    | nil => exact absurd rfl (hne [] hr)
    | cons x t =>
      have hx := hw _ hr x (by simp)
      cases hfx : fmt x with
      | nil => rw [hfx] at hx; simp at hx; omega
      | cons b u =>
        cases t with
        | nil => rw [List.map_cons, List.map_nil, hfx]; rfl
        | cons y v => rw [List.map_cons, List.map_cons, hfx]; rfl

/-! ## Integers: the computed width is the width of every item -/

theorem decText_length (n : Nat) : (decText n).length = prePointInt n := by
  unfold decText prePointInt
  by_cases h : n = 0
  · rw [if_pos h, if_neg (by omega)]; rfl
  · rw [if_neg h, if_pos (by omega), List.length_map, List.length_reverse, Nat.digits_len 10 n (by omega) h]

theorem prePointInt_mono {a b : Nat} (h : a ≤ b) : prePointInt a ≤ prePointInt b := by
  unfold prePointInt
  have := Nat.log_mono_right (b := 10) h
  split <;> split <;> omega

theorem padLeft_length (w : Nat) (t : List Nat) (h : t.length ≤ w) : (padLeft w t).length = w := by
  unfold padLeft
  rw [List.length_append, List.length_replicate]
  omega

/-- C92.  Integers: every item between the minimum and the maximum of the array takes exactly the width with which the positions in the file are computed. -/
theorem fmtInt_width {lo hi x : Int} (h1 : lo ≤ x) (h2 : x ≤ hi) : (fmtInt lo hi x).length = itemSizeInt lo hi := by
  unfold fmtInt itemSizeInt
  have hm := prePointInt_mono (show x.natAbs ≤ max hi.natAbs lo.natAbs by omega)
  rw [padLeft_length]
  · omega
  · rw [List.length_append, decText_length]
    unfold csvSign
    by_cases hx : x < 0
    · rw [if_pos hx, if_pos (decide_eq_true (by omega))]
      simp only [List.length_cons, List.length_nil]
      omega
    · rw [if_neg hx]
      simp only [List.length_nil]
      omega

/-! ## What the items say -/

theorem digitsValue_rev (L : List Nat) : digitsValue (L.reverse.map (48 + ·)) = Nat.ofDigits 10 L := by
  unfold digitsValue
  induction L with
  | nil => rfl
  | cons d L ih =>
    rw [List.reverse_cons, List.map_append, List.foldl_append, ih, Nat.ofDigits_cons]
    simp only [List.map_cons, List.map_nil, List.foldl_cons, List.foldl_nil]
    omega

theorem digitsValue_decText (n : Nat) : digitsValue (decText n) = n := by
  unfold decText
  split
  · rename_i h; rw [h]; rfl
  · rw [digitsValue_rev, Nat.ofDigits_digits]

/-- All characters are digits. -/
theorem decText_digits (n : Nat) : ∀ c ∈ decText n, 48 ≤ c ∧ c ≤ 57 := by
  intro c hc
  unfold decText at hc
  split at hc
  · simp at hc; omega
  · obtain ⟨d, hd, rfl⟩ := List.mem_map.mp hc
    have := Nat.digits_lt_base (b := 10) (by omega) (List.mem_reverse.mp hd)
    omega

theorem decText_ne_nil (n : Nat) : decText n ≠ [] := by
  intro h
  have := decText_length n
  rw [h] at this
  unfold prePointInt at this
  simp at this
  split at this <;> omega

theorem digitsValue_append (a b : List Nat) : digitsValue (a ++ b) = digitsValue a * 10 ^ b.length + digitsValue b := by
  have h : ∀ (b : List Nat) (v : Nat), b.foldl (fun a c => 10 * a + (c - 48)) v = v * 10 ^ b.length + digitsValue b := by
    intro b
    induction b with
    | nil => intro v; simp [digitsValue]
    | cons c b ih =>
      intro v
      unfold digitsValue
      rw [List.foldl_cons, List.foldl_cons, ih, ih (10 * 0 + (c - 48)), List.length_cons, pow_succ]
      ring
  unfold digitsValue
  rw [List.foldl_append, h]
  rfl

theorem digitsValue_zeros (k : Nat) : digitsValue (List.replicate k 48) = 0 := by
  induction k with
  | zero => rfl
  | succ k ih =>
    rw [List.replicate_succ', digitsValue_append, ih]; rfl

/-- Blanks in front do not matter. -/
theorem textValue_pad (w : Nat) (t : List Nat) : textValue (padLeft w t) = textValue t := by
  unfold textValue padLeft
  have : ∀ k, (List.replicate k 32 ++ t).dropWhile (· = 32) = t.dropWhile (· = 32) := by
    intro k
    induction k with
    | zero => rfl
    | succ k ih => rw [List.replicate_succ, List.cons_append, List.dropWhile_cons, if_pos (by simp), ih]
  rw [this]

theorem textValue_signed (neg : Prop) [Decidable neg] (t : List Nat) (h : t.head? ≠ some 32 ∧ t.head? ≠ some 45) :
    textValue ((if neg then [45] else []) ++ t) = if neg then - unsignedValue t else unsignedValue t := by
  unfold textValue
  by_cases hn : neg
  · rw [if_pos hn, if_pos hn, List.singleton_append, List.dropWhile_cons_of_neg (by simp)]
    simp
  · rw [if_neg hn, if_neg hn, List.nil_append]
    have : t.dropWhile (· = 32) = t := by
      cases t with
      | nil => rfl
      | cons c t => rw [List.dropWhile_cons, if_neg (by simpa using h.1)]
    rw [this]
    dsimp only
    rw [if_neg h.2]

theorem head_digit {t u : List Nat} (h : t ≠ []) (hd : ∀ c ∈ t, 48 ≤ c ∧ c ≤ 57) : (t ++ u).head? ≠ some 32 ∧ (t ++ u).head? ≠ some 45 := by
  cases t with
  | nil => exact absurd rfl h
  | cons c t =>
    have := hd c (by simp)
    simp
    omega

theorem takeWhile_digits {t u : List Nat} (hd : ∀ c ∈ t, 48 ≤ c ∧ c ≤ 57) : (t ++ 46 :: u).takeWhile (· ≠ 46) = t ∧ (t ++ 46 :: u).dropWhile (· ≠ 46) = 46 :: u := by
  induction t with
  | nil => simp
  | cons c t ih =>
    have hc := hd c (by simp)
    obtain ⟨h1, h2⟩ := ih fun d hd' => hd d (List.mem_cons_of_mem _ hd')
    constructor
    · rw [List.cons_append, List.takeWhile_cons, if_pos (by simp; omega), h1]
    · rw [List.cons_append, List.dropWhile_cons, if_pos (by simp; omega), h2]

theorem takeWhile_all {t : List Nat} (hd : ∀ c ∈ t, 48 ≤ c ∧ c ≤ 57) : t.takeWhile (· ≠ 46) = t ∧ t.dropWhile (· ≠ 46) = [] := by
  induction t with
  | nil => simp
  | cons c t ih =>
    have hc := hd c (by simp)
    obtain ⟨h1, h2⟩ := ih fun d hd' => hd d (List.mem_cons_of_mem _ hd')
    constructor
    · rw [List.takeWhile_cons, if_pos (by simp; omega), h1]
    · rw [List.dropWhile_cons, if_pos (by simp; omega), h2]

theorem unsignedValue_digits {t : List Nat} (hd : ∀ c ∈ t, 48 ≤ c ∧ c ≤ 57) : unsignedValue t = digitsValue t := by
  unfold unsignedValue
  obtain ⟨h1, h2⟩ := takeWhile_all hd
  rw [h1, h2]
  simp

theorem unsignedValue_point {t u : List Nat} (hd : ∀ c ∈ t, 48 ≤ c ∧ c ≤ 57) : unsignedValue (t ++ 46 :: u) = (digitsValue (t ++ u) : Rat) / 10 ^ u.length := by
  unfold unsignedValue
  obtain ⟨h1, h2⟩ := takeWhile_digits (u := u) hd
  rw [h1, h2]
  simp

/-- C92.  The text of an integer denotes the integer. -/
theorem fmtInt_value (lo hi x : Int) : textValue (fmtInt lo hi x) = x := by
  unfold fmtInt
  rw [textValue_pad, textValue_signed _ _ (by simpa using head_digit (u := []) (decText_ne_nil _) (decText_digits _)), unsignedValue_digits (decText_digits _),
    digitsValue_decText]
  by_cases h : x < 0
  · rw [if_pos h]
    have : (x.natAbs : Int) = -x := by omega
    rw [← Int.cast_natCast (R := Rat), this]
    simp
  · rw [if_neg h]
    have : (x.natAbs : Int) = x := by omega
    rw [← Int.cast_natCast (R := Rat), this]

/-- C92.  Only blanks, digits and the minus sign occur in the text of an integer. -/
theorem fmtInt_chars (lo hi x : Int) : ∀ c ∈ fmtInt lo hi x, c = 32 ∨ c = 45 ∨ (48 ≤ c ∧ c ≤ 57) := by
  intro c hc
  unfold fmtInt padLeft at hc
  rcases List.mem_append.mp hc with hc | hc
  · exact .inl (List.eq_of_mem_replicate hc)
  · rcases List.mem_append.mp hc with hc | hc
    · split at hc
      · exact .inr (.inl (by simpa using hc))
      · simp at hc
    · exact .inr (.inr (decText_digits _ c hc))

/-! ## Floats -/

theorem roundEven_bounds (q : Rat) (hq : 0 ≤ q) : (q : Rat) - 1 / 2 ≤ roundEven q ∧ (roundEven q : Rat) ≤ q + 1 / 2 ∧ ⌊q⌋.toNat ≤ roundEven q ∧ roundEven q ≤ ⌊q⌋.toNat + 1 := by
  have h0 : 0 ≤ ⌊q⌋ := Int.floor_nonneg.mpr hq
  have hf : ((⌊q⌋.toNat : Nat) : Rat) = (⌊q⌋ : Rat) := by
    rw [← Int.cast_natCast, Int.toNat_of_nonneg h0]
  have h1 := Int.floor_le q
  have h2 := Int.lt_floor_add_one q
  unfold roundEven
  dsimp only
  rw [hf]
  split
  · refine ⟨?_, ?_, ?_, ?_⟩
    · rw [hf]; linarith
    · rw [hf]; linarith
    · omega
    · omega
  · split
    · refine ⟨?_, ?_, ?_, ?_⟩
      · push_cast; rw [hf]; linarith
      · push_cast; rw [hf]; linarith
      · omega
      · omega
    · split
      · refine ⟨?_, ?_, ?_, ?_⟩
        · rw [hf]; linarith
        · rw [hf]; linarith
        · omega
        · omega
      · refine ⟨?_, ?_, ?_, ?_⟩
        · push_cast; rw [hf]; linarith
        · push_cast; rw [hf]; linarith
        · omega
        · omega

theorem roundEven_mono {a b : Rat} (h0 : 0 ≤ a) (h : a ≤ b) : roundEven a ≤ roundEven b := by
  have ha := roundEven_bounds a h0
  have hb := roundEven_bounds b (le_trans h0 h)
  have hfl : ⌊a⌋.toNat ≤ ⌊b⌋.toNat := Int.toNat_le_toNat (Int.floor_mono h)
  rcases Nat.lt_or_ge ⌊a⌋.toNat ⌊b⌋.toNat with hlt | hge
  · omega
  · have he : ⌊a⌋.toNat = ⌊b⌋.toNat := by omega
    unfold roundEven
    dsimp only
    rw [he]
    generalize ⌊b⌋.toNat = f
    split_ifs <;> first | omega | (exfalso; linarith)

theorem decText_small {a d : Nat} (hd : 0 < d) (h : a < 10 ^ d) : (decText a).length ≤ d := by
  rw [decText_length]
  unfold prePointInt
  split
  · have := Nat.log_lt_of_lt_pow (b := 10) (by omega : a ≠ 0) h
    omega
  · omega

/-- The digits after the point. -/
def fracText (dec n : Nat) : List Nat := List.replicate (dec - (decText (n % 10 ^ dec)).length) 48 ++ decText (n % 10 ^ dec)

theorem fracText_length {dec : Nat} (hd : 0 < dec) (n : Nat) : (fracText dec n).length = dec := by
  unfold fracText
  have := decText_small hd (Nat.mod_lt n (Nat.pow_pos (by omega : 0 < 10)))
  rw [List.length_append, List.length_replicate]
  omega

theorem fixedText_eq (dec : Nat) (x : Rat) : fixedText dec x = (if x < 0 then [45] else []) ++
    (decText (roundEven (|x| * 10 ^ dec) / 10 ^ dec) ++ (if dec = 0 then [] else 46 :: fracText dec (roundEven (|x| * 10 ^ dec)))) := by
  unfold fixedText fracText
  dsimp only
  rw [List.append_assoc]
  congr 2

/-- C93.  The text of a number with `dec` decimals denotes the number rounded to `dec` decimals. -/
theorem fmtFloat_value (dec : Nat) (lo hi x : Rat) :
    textValue (fmtFloat dec lo hi x) = (if x < 0 then -1 else 1) * ((roundEven (|x| * 10 ^ dec) : Rat) / 10 ^ dec) := by
  unfold fmtFloat
  rw [textValue_pad, fixedText_eq, textValue_signed _ _ (head_digit (decText_ne_nil _) (decText_digits _))]
  have key : unsignedValue (decText (roundEven (|x| * 10 ^ dec) / 10 ^ dec) ++ (if dec = 0 then [] else 46 :: fracText dec (roundEven (|x| * 10 ^ dec)))) =
      (roundEven (|x| * 10 ^ dec) : Rat) / 10 ^ dec := by
    generalize roundEven (|x| * 10 ^ dec) = n
    by_cases hd : dec = 0
    · rw [if_pos hd, List.append_nil, unsignedValue_digits (decText_digits _), digitsValue_decText, hd]
      simp
    · rw [if_neg hd, unsignedValue_point (decText_digits _), fracText_length (by omega), digitsValue_append, digitsValue_decText, fracText_length (by omega)]
      congr 2
      unfold fracText
      rw [digitsValue_append, digitsValue_zeros, digitsValue_decText, Nat.zero_mul, Nat.zero_add]
      exact Nat.div_add_mod' n (10 ^ dec)
  rw [key]
  split <;> ring

/-- C93.  ... and that differs from the number by at most half a unit of the last decimal. -/
theorem fmtFloat_error (dec : Nat) (lo hi x : Rat) : |textValue (fmtFloat dec lo hi x) - x| ≤ 1 / 2 / 10 ^ dec := by
  rw [fmtFloat_value]
  have hp : (0 : Rat) < 10 ^ dec := by positivity
  obtain ⟨h1, h2, _, _⟩ := roundEven_bounds (|x| * 10 ^ dec) (by positivity)
  have e1 : |x| - 1 / 2 / 10 ^ dec ≤ (roundEven (|x| * 10 ^ dec) : Rat) / 10 ^ dec := by
    rw [le_div_iff₀ hp, sub_mul, div_mul_cancel₀ _ (ne_of_gt hp)]; exact h1
  have e2 : (roundEven (|x| * 10 ^ dec) : Rat) / 10 ^ dec ≤ |x| + 1 / 2 / 10 ^ dec := by
    rw [div_le_iff₀ hp, add_mul, div_mul_cancel₀ _ (ne_of_gt hp)]; exact h2
  rw [abs_le]
  by_cases hx : x < 0
  · rw [if_pos hx]
    rw [abs_of_neg hx] at e1 e2 ⊢
    constructor <;> linarith
  · rw [if_neg hx]
    rw [abs_of_nonneg (not_lt.mp hx)] at e1 e2 ⊢
    constructor <;> linarith

/-- C93.  Floats: if the largest absolute value is zero or more than one tenth, and rounding it to `dec` decimals does not give it one more digit before the point, every item takes
exactly the width with which the positions in the file are computed. -/
theorem fmtFloat_width_partial {dec : Nat} {lo hi x : Rat} (h1 : lo ≤ x) (h2 : x ≤ hi) (hm : max |hi| |lo| = 0 ∨ 1 / 10 < max |hi| |lo|)
    (hc : roundEven (max |hi| |lo| * 10 ^ dec) < 10 ^ ((prePointFloat (max |hi| |lo|)).toNat + dec)) :
    ((fmtFloat dec lo hi x).length : Int) = itemSizeFloat dec lo hi := by
  have hpp : 1 ≤ prePointFloat (max |hi| |lo|) := by
    unfold prePointFloat
    split
    · rename_i hpos
      split
      · omega
      · rename_i hlt
        have h10 : 1 / max |hi| |lo| < 10 := by
          rcases hm with hm | hm
          · rw [hm] at hpos; exact absurd hpos (lt_irrefl _)
          · rw [div_lt_iff₀ hpos]; linarith
        have : ⌊1 / max |hi| |lo|⌋.toNat < 10 := by
          have : ⌊1 / max |hi| |lo|⌋ < 10 := Int.floor_lt.mpr (by exact_mod_cast h10)
          omega
        rw [Nat.log_of_lt this]
        omega
    · omega
  have hx : |x| ≤ max |hi| |lo| := by
    rw [abs_le]
    constructor
    · have := neg_abs_le lo
      have := le_max_right |hi| |lo|
      linarith
    · have := le_abs_self hi
      have := le_max_left |hi| |lo|
      linarith
  have hn : roundEven (|x| * 10 ^ dec) ≤ roundEven (max |hi| |lo| * 10 ^ dec) := roundEven_mono (by positivity) (mul_le_mul_of_nonneg_right hx (by positivity))
  unfold fmtFloat itemSizeFloat
  generalize hpq : prePointFloat (max |hi| |lo|) = pp at *
  obtain ⟨k, rfl⟩ : ∃ k : Nat, pp = k := ⟨pp.toNat, by omega⟩
  rw [padLeft_length]
  · omega
  · rw [fixedText_eq, List.length_append, List.length_append]
    generalize roundEven (|x| * 10 ^ dec) = n at *
    have hq : (decText (n / 10 ^ dec)).length ≤ k := by
      refine decText_small (by omega) ?_
      rw [Nat.div_lt_iff_lt_mul (Nat.pow_pos (by omega)), ← Nat.pow_add]
      have : ((k : Int).toNat) = k := rfl
      rw [this] at hc
      omega
    have hs : (if x < 0 then [45] else []).length ≤ csvSign (decide (lo < 0)) := by
      by_cases hx0 : x < 0
      · rw [if_pos hx0, decide_eq_true (lt_of_le_of_lt h1 hx0)]; rfl
      · rw [if_neg hx0]; exact Nat.zero_le _
    have hfr : (if dec = 0 then [] else 46 :: fracText dec n).length ≤ dec + 1 := by
      by_cases hd : dec = 0
      · rw [if_pos hd]; exact Nat.zero_le _
      · rw [if_neg hd, List.length_cons, fracText_length (by omega)]
    omega

/-! ## Whole arrays -/

theorem itemSizeInt_pos (lo hi : Int) : 0 < itemSizeInt lo hi := by
  unfold itemSizeInt prePointInt
  split <;> omega

/-- C92.  Integer arrays: whatever the split axis, the distribution, the number of ranks and the order of the writes - the table in the file has the values of the array.
(`s`: any one-byte separator that is no blank, digit, minus sign or line feed.) -/
theorem save_csv_int (lines : List (List Nat)) (hlines : ∀ hl ∈ lines, 10 ∉ hl.dropLast) (s : Nat) (hs : s ≠ 10 ∧ s ≠ 32 ∧ s ≠ 45 ∧ ¬ (48 ≤ s ∧ s ≤ 57))
    (lo hi : Int) (split : Option Nat) (cols : Nat) (hcols : 0 < cols) (lcols displs : Nat → Nat) (P : Nat) (hP : 0 < P) (loc : Nat → List (List Int))
    (rows : List (List Int)) (htab : TableParts split P cols lcols displs loc rows) (hlohi : ∀ row ∈ rows, ∀ x ∈ row, lo ≤ x ∧ x ≤ hi) (ws : List (Nat × List Nat))
    (hws : ws.Perm (saveCsvWrites (fun c => [c]) lines (fmtInt lo hi) [s] (itemSizeInt lo hi) split cols lcols displs P loc)) :
    (csvRows (applyWrites ws []) lines.length s).map (List.map textValue) = rows.map (List.map fun (x : Int) => (x : Rat)) := by
  rw [save_csv_rows lines hlines (fmtInt lo hi) s (itemSizeInt lo hi) hs.1 (fun x => ?_) (itemSizeInt_pos lo hi) split cols hcols lcols displs P hP loc rows htab
    (fun row hr x hx => fmtInt_width (hlohi row hr x hx).1 (hlohi row hr x hx).2) ws hws, List.map_map]
  · apply List.map_congr_left
    intro row _
    dsimp only [Function.comp]
    rw [List.map_map]
    apply List.map_congr_left
    intro x _
    exact fmtInt_value lo hi x
  · have := fmtInt_chars lo hi x
    refine ⟨fun h => ?_, fun h => ?_⟩
    · have := this _ h; omega
    · have := this _ h; omega

theorem fmtFloat_chars (dec : Nat) (lo hi x : Rat) : ∀ c ∈ fmtFloat dec lo hi x, c = 32 ∨ c = 45 ∨ c = 46 ∨ (48 ≤ c ∧ c ≤ 57) := by
  intro c hc
  unfold fmtFloat padLeft at hc
  rcases List.mem_append.mp hc with hc | hc
  · exact .inl (List.eq_of_mem_replicate hc)
  · rw [fixedText_eq] at hc
    rcases List.mem_append.mp hc with hc | hc
    · split at hc
      · exact .inr (.inl (by simpa using hc))
      · simp at hc
    · rcases List.mem_append.mp hc with hc | hc
      · exact .inr (.inr (.inr (decText_digits _ c hc)))
      · split at hc
        · simp at hc
        · rcases List.mem_cons.mp hc with hc | hc
          · exact .inr (.inr (.inl hc))
          · unfold fracText at hc
            rcases List.mem_append.mp hc with hc | hc
            · have := List.eq_of_mem_replicate hc
              omega
            · exact .inr (.inr (.inr (decText_digits _ c hc)))

/-- C93.  Floating point arrays: under the two conditions on the largest absolute value, the table in the file has the values of the array rounded to `dec` decimals. -/
theorem save_csv_float_partial (lines : List (List Nat)) (hlines : ∀ hl ∈ lines, 10 ∉ hl.dropLast) (s : Nat) (hs : s ≠ 10 ∧ s ≠ 32 ∧ s ≠ 45 ∧ s ≠ 46 ∧ ¬ (48 ≤ s ∧ s ≤ 57))
    (dec : Nat) (lo hi : Rat) (hm : max |hi| |lo| = 0 ∨ 1 / 10 < max |hi| |lo|)
    (hc : roundEven (max |hi| |lo| * 10 ^ dec) < 10 ^ ((prePointFloat (max |hi| |lo|)).toNat + dec))
    (split : Option Nat) (cols : Nat) (hcols : 0 < cols) (lcols displs : Nat → Nat) (P : Nat) (hP : 0 < P) (loc : Nat → List (List Rat))
    (rows : List (List Rat)) (htab : TableParts split P cols lcols displs loc rows) (hlohi : ∀ row ∈ rows, ∀ x ∈ row, lo ≤ x ∧ x ≤ hi) (ws : List (Nat × List Nat))
    (hws : ws.Perm (saveCsvWrites (fun c => [c]) lines (fmtFloat dec lo hi) [s] (itemSizeFloat dec lo hi).toNat split cols lcols displs P loc)) :
    (csvRows (applyWrites ws []) lines.length s).map (List.map textValue) =
      rows.map (List.map fun x => (if x < 0 then -1 else 1) * ((roundEven (|x| * 10 ^ dec) : Rat) / 10 ^ dec)) := by
  have hwidth : ∀ row ∈ rows, ∀ x ∈ row, (fmtFloat dec lo hi x).length = (itemSizeFloat dec lo hi).toNat := by
    intro row hr x hx
    have := fmtFloat_width_partial (hlohi row hr x hx).1 (hlohi row hr x hx).2 hm hc
    omega
  by_cases hrows : rows = []
  · have hpos : ∀ row ∈ rows, ∀ x ∈ row, (fmtFloat dec lo hi x).length = (itemSizeFloat dec lo hi).toNat := hwidth
    rw [save_csv_text (fun c => [c]) lines (fun _ _ _ _ => rfl) _ s _ split cols hcols lcols displs P hP loc rows htab hpos ws hws, hrows]
    have h1 : (lines.flatMap fun hl => (headerLine hl).flatMap fun c => [c]) = lines.flatMap headerLine := by
      congr 1
      funext hl
      rw [List.flatMap_singleton']
    unfold csvRows
    rw [h1, show (tableCells (fmtFloat dec lo hi) s []).flatten = [] from rfl, cutBytes_header [] lines hlines, List.drop_left' (by rw [List.length_map])]
    rfl
  · have hw0 : 0 < (itemSizeFloat dec lo hi).toNat := by
      cases rows with
      | nil => exact absurd rfl hrows
      | cons row t =>
        cases row with
        | nil =>
          have := htab.1 [] (by simp)
          simp at this; omega
        | cons x u =>
          rw [← hwidth (x :: u) (by simp) x (by simp)]
          unfold fmtFloat padLeft
          rw [fixedText_eq]
          have := decText_ne_nil (roundEven (|x| * 10 ^ dec) / 10 ^ dec)
          have := List.length_pos_iff.mpr this
          simp only [List.length_append]
          omega
    rw [save_csv_rows lines hlines (fmtFloat dec lo hi) s _ hs.1 (fun x => ?_) hw0 split cols hcols lcols displs P hP loc rows htab hwidth ws hws, List.map_map]
    · apply List.map_congr_left
      intro row _
      dsimp only [Function.comp]
      rw [List.map_map]
      apply List.map_congr_left
      intro x _
      exact fmtFloat_value dec lo hi x
    · have := fmtFloat_chars dec lo hi x
      refine ⟨fun h => ?_, fun h => ?_⟩
      · have := this _ h; omega
      · have := this _ h; omega

theorem joinItems_length (s w : Nat) : ∀ items : List (List Nat), items ≠ [] → (∀ x ∈ items, x.length = w) → (joinItems [s] items).length + 1 = items.length * (w + 1)
  | [], h, _ => absurd rfl h
  | [x], _, h => by rw [joinItems, h x (by simp)]; simp
  | x :: y :: t, _, h => by
    have := joinItems_length s w (y :: t) (by simp) (fun z hz => h z (List.mem_cons_of_mem _ hz))
    rw [joinItems, List.length_append, List.length_append, h x (by simp), List.length_cons (as := y :: t), Nat.succ_mul, ← this]
    simp
    omega

theorem mem_applyInt {lines : List (List Nat)} {rows : List (List Int)} {lo hi : Int} {s : Nat} :
    ∀ b ∈ (lines.flatMap headerLine) ++ (tableCells (fmtInt lo hi) s rows).flatten, (∃ hl ∈ lines, b ∈ hl) ∨ b = 10 ∨ b = s ∨ b = 32 ∨ b = 45 ∨ (48 ≤ b ∧ b ≤ 57) := by
  intro b hb
  rcases List.mem_append.mp hb with hb | hb
  · obtain ⟨hl, h1, h2⟩ := List.mem_flatMap.mp hb
    unfold headerLine at h2
    split at h2
    · exact .inl ⟨hl, h1, h2⟩
    · rcases List.mem_append.mp h2 with h2 | h2
      · exact .inl ⟨hl, h1, h2⟩
      · exact .inr (.inl (by simpa using h2))
  · obtain ⟨c, hc, hb⟩ := List.mem_flatten.mp hb
    obtain ⟨row, _, hc⟩ := List.mem_flatMap.mp hc
    have h : ∀ row : List Int, ∀ c ∈ cellsOf (fmtInt lo hi) s true row, ∀ b ∈ c, b = 10 ∨ b = s ∨ b = 32 ∨ b = 45 ∨ (48 ≤ b ∧ b ≤ 57) := by
      intro row
      induction row with
      | nil => intro c hc; simp [cellsOf] at hc
      | cons x t ih =>
        intro c hc b hb
        cases t with
        | nil =>
          simp only [cellsOf, List.mem_singleton] at hc
          subst hc
          rcases List.mem_append.mp hb with hb | hb
          · exact .inr (.inr (fmtInt_chars _ _ _ b hb))
          · exact .inl (by simpa using hb)
        | cons y t =>
          rw [cellsOf] at hc
          rcases List.mem_cons.mp hc with rfl | hc
          · rcases List.mem_append.mp hb with hb | hb
            · exact .inr (.inr (fmtInt_chars _ _ _ b hb))
            · exact .inr (.inl (by simpa using hb))
          · exact ih c hc b hb
    exact .inr (h row c hc b hb)

/-- C92.  Round trip: an integer array that is saved on `P` ranks with any split and read again on `Q` ranks (with the number of header lines and the separator of the file) has
the same values in the same order, provided the file is not too short for `Q` ranks: `L` exceeds the length of every line, and every rank's share of the bytes holds `header + 2`
lines. -/
theorem csv_roundtrip_int (lines : List (List Nat)) (hlines : ∀ hl ∈ lines, 10 ∉ hl.dropLast ∧ 13 ∉ hl) (s : Nat)
    (hs : s ≠ 10 ∧ s ≠ 13 ∧ s ≠ 32 ∧ s ≠ 45 ∧ ¬ (48 ≤ s ∧ s ≤ 57))
    (lo hi : Int) (split : Option Nat) (cols : Nat) (hcols : 0 < cols) (lcols displs : Nat → Nat) (P : Nat) (hP : 0 < P) (loc : Nat → List (List Int))
    (rows : List (List Int)) (hne : rows ≠ []) (htab : TableParts split P cols lcols displs loc rows) (hlohi : ∀ row ∈ rows, ∀ x ∈ row, lo ≤ x ∧ x ≤ hi) (ws : List (Nat × List Nat))
    (hws : ws.Perm (saveCsvWrites (fun c => [c]) lines (fmtInt lo hi) [s] (itemSizeInt lo hi) split cols lcols displs P loc))
    (Q : Nat) (hQ : 0 < Q) (L : Nat) (hL1 : cols * (itemSizeInt lo hi + 1) ≤ L) (hL2 : ∀ hl ∈ lines, hl.length < L) (hshare : (lines.length + 2) * L ≤ (applyWrites ws []).length / Q) :
    ∃ parts loaded, loadCsv (applyWrites ws []) Q lines.length s = some (cols, parts) ∧ (∀ r < Q, parts r = some (loaded r)) ∧
      (content Q loaded).map (List.map textValue) = rows.map (List.map fun (x : Int) => (x : Rat)) := by
  have hwidth : ∀ row ∈ rows, ∀ x ∈ row, (fmtInt lo hi x).length = itemSizeInt lo hi := fun row hr x hx => fmtInt_width (hlohi row hr x hx).1 (hlohi row hr x hx).2
  have htext := save_csv_text (fun c => [c]) lines (fun _ _ _ _ => rfl) _ s _ split cols hcols lcols displs P hP loc rows htab hwidth ws hws
  have h1 : (lines.flatMap fun hl => (headerLine hl).flatMap fun c => [c]) = lines.flatMap headerLine := by
    congr 1
    funext hl
    rw [List.flatMap_singleton']
  rw [h1] at htext
  have hchars : ∀ x, 10 ∉ fmtInt lo hi x ∧ s ∉ fmtInt lo hi x := by
    intro x
    have := fmtInt_chars lo hi x
    refine ⟨fun h => ?_, fun h => ?_⟩
    · have := this _ h; omega
    · have := this _ h; omega
  have hrne : ∀ row ∈ rows, row ≠ [] := by
    intro row hr h0
    have := htab.1 row hr
    rw [h0] at this
    simp at this; omega
  have hrows := save_csv_rows lines (fun hl h => (hlines hl h).1) (fmtInt lo hi) s (itemSizeInt lo hi) hs.1 hchars (itemSizeInt_pos lo hi) split cols hcols lcols displs P hP loc rows htab hwidth ws hws
  have hvals := save_csv_int lines (fun hl h => (hlines hl h).1) s ⟨hs.1, hs.2.2.1, hs.2.2.2.1, hs.2.2.2.2⟩ lo hi split cols hcols lcols displs P hP loc rows htab hlohi ws hws
  have hcut : cutBytes 10 (applyWrites ws []) = lines.map headerBody ++ ((rows.map fun row => joinItems [s] (row.map (fmtInt lo hi))) ++ [[]]) := by
    rw [htext, cutBytes_header _ lines (fun hl h => (hlines hl h).1), cutBytes_rows _ s hs.1 (fun x => (hchars x).1) rows hrne]
  have hjl : ∀ row ∈ rows, (joinItems [s] (row.map (fmtInt lo hi))).length + 1 = cols * (itemSizeInt lo hi + 1) := by
    intro row hr
    rw [joinItems_length s (itemSizeInt lo hi) _ (by simpa using hrne row hr) (fun x hx => by obtain ⟨y, hy, rfl⟩ := List.mem_map.mp hx; exact hwidth row hr y hy), List.length_map,
      htab.1 row hr]
  have hpos : 0 < cols * (itemSizeInt lo hi + 1) := Nat.mul_pos hcols (by omega)
  have hbig : 1 < cols * (itemSizeInt lo hi + 1) := by
    have h2 : 1 * 2 ≤ cols * (itemSizeInt lo hi + 1) := Nat.mul_le_mul hcols (by have := itemSizeInt_pos lo hi; omega)
    omega
  have g1 : 13 ∉ applyWrites ws [] := by
    rw [htext]
    intro h
    rcases mem_applyInt 13 h with ⟨hl, h5, h6⟩ | h5
    · exact (hlines hl h5).2 h6
    · omega
  have g2 : ∀ l ∈ cutBytes 10 (applyWrites ws []), l.length < L := by
    intro l hl
    rw [hcut] at hl
    rcases List.mem_append.mp hl with hl | hl
    · obtain ⟨h, hh, rfl⟩ := List.mem_map.mp hl
      have := hL2 h hh
      unfold headerBody
      split
      · rw [List.length_dropLast]; omega
      · omega
    · rcases List.mem_append.mp hl with hl | hl
      · obtain ⟨row, hr, rfl⟩ := List.mem_map.mp hl
        have := hjl row hr
        omega
      · rw [List.mem_singleton.mp hl]
        simp
        omega
  have g3 : ∀ row ∈ csvRows (applyWrites ws []) lines.length s, row.length = cols := by
    rw [hrows]
    intro row hr
    obtain ⟨r0, h5, rfl⟩ := List.mem_map.mp hr
    rw [List.length_map, htab.1 r0 h5]
  have g4 : ∀ l, (cutBytes 10 (applyWrites ws []))[lines.length]? = some l → l ≠ [] := by
    intro l hl
    rw [hcut, List.getElem?_append_right (by rw [List.length_map]), List.length_map, Nat.sub_self] at hl
    cases rows with
    | nil => exact absurd rfl hne
    | cons row t =>
      simp only [List.map_cons, List.cons_append, List.getElem?_cons_zero, Option.some.injEq] at hl
      intro h0
      have := hjl row (by simp)
      rw [hl, h0] at this
      simp at this
      omega
  obtain ⟨parts, loaded, h2, h3, h4⟩ := load_csv_spec g1 Q hQ hs.1 hcols g2 hshare g3 g4
  exact ⟨parts, loaded, h2, h3, by rw [h4, hvals]⟩

/-! ## Examples and counterexamples -/

/-- Three rows of two columns on two ranks, split along the columns; rank 0 has column 0. -/
def csvDemo (r : Nat) : List (List Int) := if r = 0 then [[-5], [7], [0]] else [[12], [-103], [4]]

theorem csvDemo_parts : TableParts (some 1) 2 2 (fun _ => 1) (fun r => r) csvDemo [[-5, 12], [7, -103], [0, 4]] := by
  refine ⟨by decide, ?_, by decide⟩
  intro r hr
  have : r = 0 ∨ r = 1 := by omega
  rcases this with rfl | rfl <;> decide

/-- The hypotheses of `save_csv_int` are met, in an order of the writes in which rank 1 comes first, and with a header line. -/
example : (csvRows (applyWrites (saveCsvWrites (fun c => [c]) [[97, 44, 98]] (fmtInt (-103) 12) [44] (itemSizeInt (-103) 12) (some 1) 2 (fun _ => 1) (fun r => r) 2
    csvDemo).reverse []) 1 44).map (List.map textValue) = [[-5, 12], [7, -103], [0, 4]] := by
  have := save_csv_int [[97, 44, 98]] (by decide) 44 (by decide) (-103) 12 (some 1) 2 (by decide) (fun _ => 1) (fun r => r) 2 (by decide) csvDemo _ csvDemo_parts (by decide) _
    (List.reverse_perm _)
  rw [List.length_singleton] at this
  rw [this]
  norm_num

/-- The file: `a,b`, then `  -5,  12` and so on. -/
example : applyWrites (saveCsvWrites (fun c => [c]) [[97, 44, 98]] (fmtInt (-103) 12) [44] (itemSizeInt (-103) 12) (some 1) 2 (fun _ => 1) (fun r => r) 2 csvDemo) [] =
    [97, 44, 98, 10] ++ [32, 32, 45, 53, 44, 32, 32, 49, 50, 10] ++ [32, 32, 32, 55, 44, 45, 49, 48, 51, 10] ++ [32, 32, 32, 48, 44, 32, 32, 32, 52, 10] := by
  decide +kernel

/-- The hypotheses of `csv_roundtrip_int` are met: the table above, saved on two ranks and read on one. -/
example : ∃ parts loaded, loadCsv (applyWrites (saveCsvWrites (fun c => [c]) [] (fmtInt (-103) 12) [44] (itemSizeInt (-103) 12) (some 1) 2 (fun _ => 1) (fun r => r) 2 csvDemo) []) 1 0 44 =
    some (2, parts) ∧ (∀ r < 1, parts r = some (loaded r)) ∧ (content 1 loaded).map (List.map textValue) = [[-5, 12], [7, -103], [0, 4]].map (List.map fun (x : Int) => (x : Rat)) :=
  csv_roundtrip_int [] (by decide) 44 (by decide) (-103) 12 (some 1) 2 (by decide) (fun _ => 1) (fun r => r) 2 (by decide) csvDemo _ (by decide) csvDemo_parts (by decide) _
    (List.Perm.refl _) 1 (by decide) 10 (by decide +kernel) (by decide) (by decide +kernel)

/-- The hypotheses of `save_csv_float_partial` are met by `[[1/2, -3], [9/4, 1/3]]`, split along the rows. -/
example : (csvRows (applyWrites (saveCsvWrites (fun c => [c]) [] (fmtFloat 2 (-3) (9 / 4)) [44] (itemSizeFloat 2 (-3) (9 / 4)).toNat (some 0) 2 (fun _ => 2) (fun r => r) 2
    (fun r => if r = 0 then [[1 / 2, -3]] else [[9 / 4, 1 / 3]])) []) 0 44).map (List.map textValue) = [[1 / 2, -3], [9 / 4, 33 / 100]] := by
  have htab : TableParts (some 0) 2 2 (fun _ => 2) (fun r => r) (fun r => if r = 0 then [[1 / 2, -3]] else [[9 / 4, 1 / 3]]) [[(1 / 2 : Rat), -3], [9 / 4, 1 / 3]] := by
    refine ⟨by decide +kernel, by decide +kernel, ?_⟩
    intro r hr
    have : r = 0 ∨ r = 1 := by omega
    rcases this with rfl | rfl <;> decide +kernel
  have := save_csv_float_partial [] (by decide) 44 (by decide) 2 (-3) (9 / 4) (by right; decide +kernel) (by decide +kernel) (some 0) 2 (by decide) (fun _ => 2) (fun r => r) 2 (by decide) _ _
    htab (by decide +kernel) _ (List.Perm.refl _)
  rw [List.length_nil] at this
  rw [this]
  decide +kernel

/-- C93 is false of the code as it stands: an array whose largest absolute value is below one tenth gets too small a width, the line feeds are overwritten: the two rows `0.05`
and `0.05` become one line `0.05000000.0500000`. -/
theorem save_csv_small_violated : csvRows (applyWrites (saveCsvWrites (fun c => [c]) [] (fmtFloat 7 (1 / 20) (1 / 20)) [44] (itemSizeFloat 7 (1 / 20) (1 / 20)).toNat (some 0) 1
    (fun _ => 1) (fun r => r) 2 (fun _ => [[(1 / 20 : Rat)]])) []) 0 44 = [[[48, 46, 48, 53, 48, 48, 48, 48, 48, 48, 46, 48, 53, 48, 48, 48, 48, 48]]] := by decide +kernel

/-- ... and so does one whose largest value gets one more digit by rounding: `9.99` with one decimal. -/
theorem save_csv_carry_violated : csvRows (applyWrites (saveCsvWrites (fun c => [c]) [] (fmtFloat 1 1 (999 / 100)) [44] (itemSizeFloat 1 1 (999 / 100)).toNat none 1
    (fun _ => 1) (fun _ => 0) 1 (fun _ => [[(999 / 100 : Rat)], [1]])) []) 0 44 = [[[49, 48, 46, 48, 49, 46, 48]]] := by decide +kernel

/-- C91 without the condition on the header: the offset counts characters, the file has bytes.  With the header line `é` (two bytes in UTF-8) the line feed after the header is
overwritten and the first row becomes part of the header. -/
theorem save_csv_header_violated : csvRows (applyWrites (saveCsvWrites (fun c => if c = 233 then [195, 169] else [c]) [[233]] (fmtInt 1 2) [44] (itemSizeInt 1 2) none 1 (fun _ => 1)
    (fun _ => 0) 1 (fun _ => [[(1 : Int)], [2]])) []) 1 44 = [[[50]]] := by decide +kernel

/-- C91 without the condition on the separator: a separator of two characters is not counted in the width of a row. -/
theorem save_csv_separator_violated : csvRows (applyWrites (saveCsvWrites (fun c => [c]) [] (fmtInt 1 4) [59, 32] (itemSizeInt 1 4) none 2 (fun _ => 2)
    (fun _ => 0) 1 (fun _ => [[(1 : Int), 2], [3, 4]])) []) 0 59 = [[[49], [32, 50, 51], [32, 52]]] := by decide +kernel

end Heat
