import Verif.Model.StackVec
import Verif.Props.BinaryOp
import Verif.Props.Concat
import Verif.Props.Unique
import Verif.Props.Gauss
/-!
# C162: combining vectors with hstack, vstack, row_stack and column_stack
-/
namespace Heat
open Heat.Spec
variable {α : Type}

/-! ## Rows below each other -/

theorem rowsMore_error (P : Nat) (e : Err) (L : List (Nat × CatArr (List α))) : L.foldl (rowsMore P) (.error e) = .error e := by
  induction L with
  | nil => rfl
  | cons x L ih => exact ih

/-- Equal numbers of columns: the checks pass and `concatenate` decides. -/
theorem rowsMore_fold (P w : Nat) : ∀ (L : List (Nat × CatArr (List α))), (∀ x ∈ L, x.1 = w) → ∀ (c : Except Err (CatArr (List α))),
    L.foldl (rowsMore P) (c.map fun a => (w, a)) = ((L.map Prod.snd).foldl (concatMore P [0, w] 0) c).map fun a => (w, a)
  | [], _, _ => rfl
  | x :: L, h, c => by
    have ih := rowsMore_fold P w L (fun y hy => h y (List.mem_cons_of_mem _ hy))
    have hx := h x (List.mem_cons_self ..)
    rw [List.foldl_cons, List.map_cons, List.foldl_cons, ← ih]
    congr 1
    cases c with
    | error e => rfl
    | ok a =>
      show (if w ≠ x.1 then _ else _) = _
      rw [if_neg (by rw [hx]; simp)]
      show _ = (concat2 P [0, w] 0 a x.2).map _
      cases concat2 P [0, w] 0 a x.2 <;> rfl

theorem rowsConcat_same (P w : Nat) (L : List (Nat × CatArr (List α))) (h : ∀ x ∈ L, x.1 = w) :
    rowsConcat P L = (concatN P [0, w] 0 (L.map Prod.snd)).map fun a => (w, a) := by
  match L, h with
  | [], _ => rfl
  | [_], _ => rfl
  | a :: b :: rest, h =>
    have ha := h a (List.mem_cons_self ..)
    have hf := rowsMore_fold P w (b :: rest) (fun y hy => h y (List.mem_cons_of_mem _ hy)) (.ok a.2)
    have e : (.ok a : Except Err (Nat × CatArr (List α))) = (Except.ok a.2).map fun c => (w, c) := by
      show _ = Except.ok (w, a.2)
      rw [← ha]
    show (b :: rest).foldl (rowsMore P) (.ok a) = _
    rw [e, hf]
    rfl

/-- Whatever is returned, all arrays had the same number of columns. -/
theorem rowsMore_widths (P : Nat) : ∀ (L : List (Nat × CatArr (List α))) (a res : Nat × CatArr (List α)), L.foldl (rowsMore P) (.ok a) = .ok res → ∀ x ∈ L, x.1 = a.1
  | [], _, _, _ => fun x hx => by cases hx
  | x :: L, a, res, h => by
    rw [List.foldl_cons] at h
    have hstep : rowsMore P (.ok a) x = if a.1 ≠ x.1 then .error .valueError else match concat2 P [0, a.1] 0 a.2 x.2 with
      | .error e => .error e
      | .ok c => .ok (a.1, c) := rfl
    rw [hstep] at h
    by_cases hw : a.1 ≠ x.1
    · rw [if_pos hw, rowsMore_error] at h; cases h
    · rw [if_neg hw] at h
      have hw : x.1 = a.1 := by omega
      cases hc : concat2 P [0, a.1] 0 a.2 x.2 with
      | error e => rw [hc] at h; dsimp only at h; rw [rowsMore_error] at h; cases h
      | ok c =>
        rw [hc] at h; dsimp only at h
        have ih := rowsMore_widths P L (a.1, c) res h
        intro y hy
        rcases List.mem_cons.1 hy with rfl | hy
        · exact hw
        · exact ih y hy

theorem rowsConcat_widths (P : Nat) (L : List (Nat × CatArr (List α))) (res : Nat × CatArr (List α)) (h : rowsConcat P L = .ok res) :
    2 ≤ L.length ∧ ∀ x ∈ L, ∀ y ∈ L, x.1 = y.1 := by
  match L, h with
  | [], h => cases h
  | [_], h => cases h
  | a :: b :: rest, h =>
    have hw := rowsMore_widths P (b :: rest) a res h
    have hw' : ∀ x ∈ a :: b :: rest, x.1 = a.1 := by
      intro x hx
      rcases List.mem_cons.1 hx with rfl | hx
      · rfl
      · exact hw x hx
    exact ⟨by simp, fun x hx y hy => by rw [hw' x hx, hw' y hy]⟩

theorem rowOf_glob {P : Nat} (hP : 0 < P) {a : Opnd α} {v : List α} (h : Holds P a v) : (rowOf P a).glob P = [v] ∧ (rowOf P a).Canonical P ∧ (rowOf P a).isRep = !a.dist := by
  unfold rowOf
  cases hd : a.dist with
  | false =>
    simp only [Bool.false_eq_true, if_false]
    exact ⟨by show [a.loc 0] = [v]; rw [h.2.2.1 hd 0 hP], trivial, rfl⟩
  | true =>
    simp only [if_true]
    have e := h.2.1 hd
    have hc : content P (fun r => ([content P a.loc].take (chunkRange 1 r P).2).drop (chunkRange 1 r P).1) = [v] := by
      have := chunkRows_content P hP [content P a.loc]
      rw [e] at this ⊢
      exact this
    refine ⟨hc, ?_, rfl⟩
    intro r hr
    rw [hc]
    exact chunkRows_length P hP [content P a.loc] r hr

theorem all_congr_mem {β : Type} {f g : β → Bool} : ∀ (l : List β), (∀ a ∈ l, f a = g a) → l.all f = l.all g
  | [], _ => rfl
  | x :: l, h => by
    rw [List.all_cons, List.all_cons, h x (List.mem_cons_self ..), all_congr_mem l fun a ha => h a (List.mem_cons_of_mem _ ha)]

theorem flatten_map_singleton (vs : List (List α)) : (vs.map fun v => [v]).flatten = vs := by
  induction vs with
  | nil => rfl
  | cons v vs ih => rw [List.map_cons, List.flatten_cons, ih]; rfl

/-- **C162 (partial), vstack.** Two or more vectors of the same length `n`, each replicated or distributed in any way: the rows of the result are the vectors in the given
order, evenly distributed if any of them is distributed.  Missing: replicated next to distributed vectors of length 1 (`vstack_unit_violated`). -/
theorem vstack_spec_partial {P : Nat} (hP : 0 < P) (n : Nat) (ops : List (Opnd α)) (vs : List (List α)) (h : List.Forall₂ (Holds P) ops vs) (h2 : 2 ≤ vs.length)
    (hn : ∀ v ∈ vs, v.length = n) (hu : (∀ a ∈ ops, ∀ b ∈ ops, a.dist = b.dist) ∨ n ≠ 1) :
    ∃ c, vstack P ops = .ok (n, c) ∧ c.glob P = vs ∧ c.Canonical P ∧ c.isRep = ops.all fun a => !a.dist := by
  have hlen := h.length_eq
  have hops : ∀ a ∈ ops, ∃ v ∈ vs, Holds P a v := by
    intro a ha
    obtain ⟨i, hi, rfl⟩ := List.getElem_of_mem ha
    exact ⟨vs[i]'(by omega), List.getElem_mem _, (List.forall₂_iff_get.1 h).2 i hi (by omega)⟩
  have hglob : (ops.map fun a => (rowOf P a).glob P) = vs.map fun v => [v] := by
    clear hlen hops hu hn h2
    induction h with
    | nil => rfl
    | cons ha _ ih => rw [List.map_cons, List.map_cons, ih, (rowOf_glob hP ha).1]
  unfold vstack
  rw [rowsConcat_same P n]
  · obtain ⟨c, h1, h3, h4, h5⟩ := concat_spec_partial P hP [0, n] 0 (by simp) (ops.map (rowOf P)) (by rw [List.length_map, hlen]; exact h2)
      (by
        intro x hx
        obtain ⟨a, ha, rfl⟩ := List.mem_map.1 hx
        obtain ⟨v, _, hv⟩ := hops a ha
        exact (rowOf_glob hP hv).2.1)
      (by
        rcases hu with hu | hu
        · left
          intro x hx y hy
          obtain ⟨a, ha, rfl⟩ := List.mem_map.1 hx
          obtain ⟨b, hb, rfl⟩ := List.mem_map.1 hy
          obtain ⟨v, _, hv⟩ := hops a ha
          obtain ⟨w, _, hw⟩ := hops b hb
          rw [(rowOf_glob hP hv).2.2, (rowOf_glob hP hw).2.2, hu a ha b hb]
        · right
          intro i hi hne
          match i, hi with
          | 0, _ => exact absurd rfl hne
          | 1, _ => exact hu)
    refine ⟨c, ?_, ?_, h4, ?_⟩
    · rw [List.map_map]
      have : (Prod.snd ∘ fun a => (a.n, rowOf P a)) = rowOf (α := α) P := rfl
      rw [this, h1]; rfl
    · rw [h3, List.map_map]
      have : (CatArr.glob P ∘ rowOf P) = fun a : Opnd α => (rowOf P a).glob P := rfl
      rw [this, hglob, flatten_map_singleton]
    · rw [h5, List.all_map]
      refine all_congr_mem _ fun a ha => ?_
      obtain ⟨v, _, hv⟩ := hops a ha
      exact (rowOf_glob hP hv).2.2
  · intro x hx
    obtain ⟨a, ha, rfl⟩ := List.mem_map.1 hx
    obtain ⟨v, hv, hav⟩ := hops a ha
    show a.n = n
    rw [hav.1, hn v hv]

/-- **C162, vstack: refusals.** Fewer than two vectors, or vectors of different lengths, are an error, whatever the distribution. -/
theorem vstack_refused (P : Nat) (ops : List (Opnd α)) (h : ops.length < 2 ∨ ∃ a ∈ ops, ∃ b ∈ ops, a.n ≠ b.n) : ∃ e, vstack P ops = .error e := by
  cases hv : vstack P ops with
  | error e => exact ⟨e, rfl⟩
  | ok res =>
    exfalso
    obtain ⟨h1, h2⟩ := rowsConcat_widths P _ res hv
    rcases h with h | ⟨a, ha, b, hb, hne⟩
    · rw [List.length_map] at h1; omega
    · exact hne (h2 _ (List.mem_map_of_mem ha) _ (List.mem_map_of_mem hb))

namespace Spec
/-- A vector is one row; a matrix has its rows, each of the declared length, in canonical distribution. -/
def RowHolds (P w : Nat) : RowOpnd α → List (List α) → Prop
  | .vec a, rows => ∃ v, rows = [v] ∧ Holds P a v ∧ v.length = w
  | .mat w' m, rows => w' = w ∧ m.glob P = rows ∧ m.Canonical P
end Spec

/-- The array is distributed. -/
def RowOpnd.dist : RowOpnd α → Bool
  | .vec a => a.dist
  | .mat _ m => !m.isRep

theorem rowHolds_rows {P w : Nat} (hP : 0 < P) {a : RowOpnd α} {rows : List (List α)} (h : RowHolds P w a rows) :
    (a.rows P).1 = w ∧ (a.rows P).2.glob P = rows ∧ (a.rows P).2.Canonical P ∧ (a.rows P).2.isRep = !a.dist := by
  cases a with
  | vec a =>
    obtain ⟨v, rfl, hv, hw⟩ := h
    obtain ⟨h1, h2, h3⟩ := rowOf_glob hP hv
    exact ⟨by show a.n = w; rw [hv.1, hw], h1, h2, h3⟩
  | mat w' m =>
    obtain ⟨h1, h2, h3⟩ := h
    exact ⟨h1, h2, h3, by show m.isRep = !!m.isRep; simp⟩

/-- **C162 (partial), row_stack of vectors and matrices.** The rows of the result are all rows in the given order, for vectors in any distribution and evenly distributed
matrices (split along axis 0). -/
theorem row_stack_mixed_partial {P : Nat} (hP : 0 < P) (w : Nat) (ops : List (RowOpnd α)) (rows : List (List (List α))) (h : List.Forall₂ (RowHolds P w) ops rows)
    (h2 : 2 ≤ rows.length) (hu : (∀ a ∈ ops, ∀ b ∈ ops, a.dist = b.dist) ∨ w ≠ 1) :
    ∃ c, rowStackMixed P ops = .ok (w, c) ∧ c.glob P = rows.flatten ∧ c.Canonical P ∧ c.isRep = ops.all fun a => !a.dist := by
  have hlen := h.length_eq
  have hops : ∀ a ∈ ops, ∃ v, RowHolds P w a v := by
    intro a ha
    obtain ⟨i, hi, rfl⟩ := List.getElem_of_mem ha
    exact ⟨_, (List.forall₂_iff_get.1 h).2 i hi (by omega)⟩
  have hglob : (ops.map fun a => (a.rows P).2.glob P) = rows := by
    clear hlen hops hu h2
    induction h with
    | nil => rfl
    | cons ha _ ih => rw [List.map_cons, ih, (rowHolds_rows hP ha).2.1]
  unfold rowStackMixed
  rw [rowsConcat_same P w]
  · obtain ⟨c, h1, h3, h4, h5⟩ := concat_spec_partial P hP [0, w] 0 (by simp) (ops.map fun a => (a.rows P).2) (by rw [List.length_map, hlen]; exact h2)
      (by
        intro x hx
        obtain ⟨a, ha, rfl⟩ := List.mem_map.1 hx
        obtain ⟨v, hv⟩ := hops a ha
        exact (rowHolds_rows hP hv).2.2.1)
      (by
        rcases hu with hu | hu
        · left
          intro x hx y hy
          obtain ⟨a, ha, rfl⟩ := List.mem_map.1 hx
          obtain ⟨b, hb, rfl⟩ := List.mem_map.1 hy
          obtain ⟨v, hv⟩ := hops a ha
          obtain ⟨w', hw⟩ := hops b hb
          rw [(rowHolds_rows hP hv).2.2.2, (rowHolds_rows hP hw).2.2.2, hu a ha b hb]
        · right
          intro i hi hne
          match i, hi with
          | 0, _ => exact absurd rfl hne
          | 1, _ => exact hu)
    refine ⟨c, ?_, ?_, h4, ?_⟩
    · rw [List.map_map]
      have : (Prod.snd ∘ RowOpnd.rows P) = fun a : RowOpnd α => (a.rows P).2 := rfl
      rw [this, h1]; rfl
    · rw [h3, List.map_map]
      have : (CatArr.glob P ∘ fun a : RowOpnd α => (a.rows P).2) = fun a : RowOpnd α => (a.rows P).2.glob P := rfl
      rw [this, hglob]
    · rw [h5, List.all_map]
      refine all_congr_mem _ fun a ha => ?_
      obtain ⟨v, hv⟩ := hops a ha
      exact (rowHolds_rows hP hv).2.2.2
  · intro x hx
    obtain ⟨a, ha, rfl⟩ := List.mem_map.1 hx
    obtain ⟨v, hv⟩ := hops a ha
    exact (rowHolds_rows hP hv).1

/-! ## hstack -/

theorem cat_glob {P : Nat} (hP : 0 < P) {a : Opnd α} {v : List α} (h : Holds P a v) (hb : a.dist = true → Balanced P a.loc) :
    a.cat.glob P = v ∧ a.cat.Canonical P ∧ a.cat.isRep = !a.dist := by
  unfold Opnd.cat
  cases hd : a.dist with
  | false => simp only [Bool.false_eq_true, if_false]; exact ⟨h.2.2.1 hd 0 hP, trivial, rfl⟩
  | true => simp only [if_true]; exact ⟨h.2.1 hd, hb hd, rfl⟩

/-- **C162 (partial), hstack of two vectors.** Two vectors, each replicated or evenly distributed: the result is the one followed by the other, evenly distributed if one of
them is distributed.  Missing: more than two vectors (`hstack_many_violated`) and uneven distributions (as for `concatenate`, C61). -/
theorem hstack_two_partial {P : Nat} (hP : 0 < P) (a b : Opnd α) (v w : List α) (ha : Holds P a v) (hb : Holds P b w) (hba : a.dist = true → Balanced P a.loc)
    (hbb : b.dist = true → Balanced P b.loc) : ∃ c, hstack P [a, b] = .ok (.vec c) ∧ c.glob P = v ++ w ∧ c.Canonical P ∧ c.isRep = (!a.dist && !b.dist) := by
  obtain ⟨a1, a2, a3⟩ := cat_glob hP ha hba
  obtain ⟨b1, b2, b3⟩ := cat_glob hP hb hbb
  obtain ⟨c, h1, h2, h3, h4⟩ := concat2_canonical P hP [0] 0 (by simp) a.cat b.cat a2 b2 (Or.inr fun i hi hne => by
    match i, hi with
    | 0, _ => exact absurd rfl hne)
  refine ⟨c, ?_, by rw [h2, a1, b1], h3, by rw [h4, a3, b3]⟩
  show (match concat2 P [0] 0 a.cat b.cat with | .error e => Except.error e | .ok c => .ok (HStackRes.vec c)) = _
  rw [h1]

/-- Three or more vectors are never concatenated: whatever the vectors and their distribution, `hstack` returns a matrix or raises. -/
theorem hstack_many_violated (P : Nat) (ops : List (Opnd α)) (h : 3 ≤ ops.length) (c : CatArr α) : hstack P ops ≠ .ok (.vec c) := by
  match ops, h with
  | a :: b :: d :: rest, _ =>
    intro hc
    have e : hstack P (a :: b :: d :: rest) = match (b :: d :: rest).foldl (fun acc x => acrossMore P acc (x.cat.mapEl fun v => [v])) (.ok (a.cat.mapEl fun v => [v])) with
      | .error e => .error e
      | .ok c => .ok (.mat c) := rfl
    rw [e] at hc
    cases hf : (b :: d :: rest).foldl (fun acc x => acrossMore P acc (x.cat.mapEl fun v => [v])) (.ok (a.cat.mapEl fun v => [v])) with
    | error e => rw [hf] at hc; cases hc
    | ok m => rw [hf] at hc; cases hc

/-- In particular for replicated vectors of one length `n`, the result is the `n`-by-3 matrix with the vectors as columns. -/
theorem hstack_three_violated {P : Nat} (hP : 0 < P) (a b c : Opnd α) (u v w : List α) (ha : Holds P a u) (hb : Holds P b v) (hc : Holds P c w) (da : a.dist = false)
    (db : b.dist = false) (dc : c.dist = false) (h1 : v.length = u.length) (h2 : w.length = u.length) :
    ∃ m, hstack P [a, b, c] = .ok (.mat (.rep m)) ∧ m = List.zipWith (· ++ ·) (List.zipWith (fun x y => [x, y]) u v) (w.map fun z => [z]) := by
  have ea : a.cat = .rep u := by unfold Opnd.cat; rw [da]; simp only [Bool.false_eq_true, if_false]; rw [ha.2.2.1 da 0 hP]
  have eb : b.cat = .rep v := by unfold Opnd.cat; rw [db]; simp only [Bool.false_eq_true, if_false]; rw [hb.2.2.1 db 0 hP]
  have ec : c.cat = .rep w := by unfold Opnd.cat; rw [dc]; simp only [Bool.false_eq_true, if_false]; rw [hc.2.2.1 dc 0 hP]
  have step : ∀ (l l' : List (List α)), l.length = l'.length → concatAcross P (.rep l) (.rep l') = .ok (.rep (List.zipWith (· ++ ·) l l')) := by
    intro l l' hl
    unfold concatAcross
    rw [if_neg (by show ¬ l.length ≠ l'.length; omega)]
    have e : catRows l l' = .ok (List.zipWith (· ++ ·) l l') := by unfold catRows; rw [if_pos hl]
    dsimp only
    rw [e]
    rw [if_neg]
    · rfl
    · simp [isErr]
  refine ⟨_, ?_, rfl⟩
  unfold hstack
  simp only [List.foldl_cons, List.foldl_nil, ea, eb, ec, CatArr.mapEl, acrossMore]
  rw [step _ _ (by simp [h1])]
  dsimp only
  rw [step _ _ (by simp [h1, h2])]
  dsimp only
  congr 4
  rw [List.zipWith_map]; rfl

/-! ## row_stack and column_stack of vectors -/

/-- The vector `l` held by the processes is `v`, aligned with the operand `t`. -/
def AlignedTo (P : Nat) (t : Opnd α) (l : Nat → List α) (v : List α) : Prop :=
  (t.dist = true → content P l = v ∧ ∀ r < P, (l r).length = (t.loc r).length) ∧ (t.dist = false → ∀ r < P, l r = v)

theorem stackAlign_spec (fuel P : Nat) (hP : 1 < P) (hfuel : 2 ≤ fuel) (t a : Opnd α) (lt v : List α) (ht : Holds P t lt) (ha : Holds P a v) (hn : v.length = lt.length)
    (hd : a.dist = true → t.dist = true) : ∃ l, stackAlign fuel P t a = .ok l ∧ AlignedTo P t l v := by
  unfold stackAlign
  cases htd : t.dist with
  | false =>
    have had : a.dist = false := by
      cases h : a.dist
      · rfl
      · rw [hd h] at htd; cases htd
    simp only [Bool.not_false, if_true, had, Bool.false_eq_true, if_false]
    exact ⟨_, rfl, (fun h => by rw [htd] at h; cases h), fun _ => ha.2.2.1 had⟩
  | true =>
    simp only [Bool.not_true, Bool.false_eq_true, if_false]
    obtain ⟨res, h1, h2, h3⟩ := sanitize_distribution_spec fuel P hP hfuel t lt ht htd a v ha hn
    exact ⟨res, h1, (fun _ => ⟨h2, h3⟩), fun h => by rw [htd] at h; cases h⟩

theorem mapM_forall₂ {β γ δ : Type} {R : β → δ → Prop} {S : γ → δ → Prop} {f : β → Except Err γ} {L : List β} {V : List δ} (h : List.Forall₂ R L V)
    (hf : ∀ a ∈ L, ∀ v ∈ V, R a v → ∃ l, f a = .ok l ∧ S l v) : ∃ ls, L.mapM f = .ok ls ∧ List.Forall₂ S ls V := by
  induction h with
  | nil => exact ⟨[], rfl, .nil⟩
  | @cons a v L V ha _ ih =>
    obtain ⟨l, h1, h2⟩ := hf a (List.mem_cons_self ..) v (List.mem_cons_self ..) ha
    obtain ⟨ls, h3, h4⟩ := ih fun a ha v hv => hf a (List.mem_cons_of_mem _ ha) v (List.mem_cons_of_mem _ hv)
    refine ⟨l :: ls, ?_, .cons h2 h4⟩
    rw [List.mapM_cons, h1, h3]; rfl

theorem torchStackRows_ok (ls : List (List α)) (k : Nat) (h0 : ls ≠ []) (h : ∀ l ∈ ls, l.length = k) : torchStackRows ls = .ok ls := by
  match ls, h0 with
  | l :: rest, _ =>
    unfold torchStackRows
    dsimp only
    rw [if_pos]
    rw [List.all_eq_true]
    intro l' hl'
    rw [beq_iff_eq, h l' (List.mem_cons_of_mem _ hl'), h l (List.mem_cons_self ..)]

theorem content_range_map {β : Type} (F : Nat → β) (len S : Nat → Nat) (h0 : S 0 = 0) : ∀ P, (∀ r < P, S (r + 1) = S r + len r) →
    content P (fun r => (List.range (len r)).map fun i => F (S r + i)) = (List.range (S P)).map F
  | 0, _ => by rw [h0]; rfl
  | P + 1, h => by
    rw [content_succ, content_range_map F len S h0 P fun r hr => h r (by omega), h P (by omega), List.range_add, List.map_append, List.map_map]
    rfl

section
variable (fuel P : Nat) (hP : 1 < P) (hfuel : 2 ≤ fuel) (t : Opnd α) (rest : List (Opnd α)) (vs : List (List α)) (h : List.Forall₂ (Holds P) (t :: rest) vs) (h1 : rest ≠ [])
  (n : Nat) (hn : ∀ v ∈ vs, v.length = n) (hd : ∀ a ∈ rest, a.dist = true → t.dist = true)
include hP hfuel h h1 hn hd

/-- All operands are aligned with the first. -/
theorem stack_aligned : ∃ ls, (t :: rest).mapM (stackAlign fuel P t) = .ok ls ∧ List.Forall₂ (AlignedTo P t) ls vs := by
  have ht : ∃ lt, Holds P t lt ∧ lt.length = n := by
    cases h with
    | cons ha _ => exact ⟨_, ha, hn _ (List.mem_cons_self ..)⟩
  obtain ⟨lt, ht, hlt⟩ := ht
  refine mapM_forall₂ h ?_
  intro a ha v hv hav
  refine stackAlign_spec fuel P hP hfuel t a lt v ht hav (by rw [hn v hv, hlt]) ?_
  rcases List.mem_cons.1 ha with rfl | ha
  · exact id
  · exact hd a ha

/-- **C162 (partial), row_stack of vectors.** Two or more vectors of one length, the first one distributed (in any way) or none: every process returns its part; row `j` of the
result is vector `j`, and the result is distributed along the columns exactly as the first vector. -/
theorem row_stack_partial : ∃ loc : Nat → Except Err (List (List α)), rowStack fuel P (t :: rest) = .ok loc ∧ ∃ parts : Nat → List (List α), (∀ r < P, loc r = .ok (parts r)) ∧
      (t.dist = true → (∀ r < P, (parts r).length = vs.length ∧ ∀ row ∈ parts r, row.length = (t.loc r).length) ∧
        ∀ j < vs.length, content P (fun r => (parts r).getD j []) = vs.getD j []) ∧
      (t.dist = false → ∀ r < P, parts r = vs) := by
  obtain ⟨ls, e, hal⟩ := stack_aligned fuel P hP hfuel t rest vs h h1 n hn hd
  have hlen := hal.length_eq
  have hvs : vs.length = rest.length + 1 := by rw [← h.length_eq]; rfl
  have hne : ls ≠ [] := fun hc => by rw [hc] at hlen; simp at hlen; omega
  have hmem : ∀ l ∈ ls, ∃ v ∈ vs, AlignedTo P t l v := by
    intro l hl
    obtain ⟨i, hi, rfl⟩ := List.getElem_of_mem hl
    exact ⟨vs[i]'(by omega), List.getElem_mem _, (List.forall₂_iff_get.1 hal).2 i hi (by omega)⟩
  have hrow : rowStack fuel P (t :: rest) = .ok (fun r => torchStackRows (ls.map fun (l : Nat → List α) => l r)) := by
    match rest, h1 with
    | b :: rest', _ =>
      unfold rowStack
      dsimp only
      rw [e]
  refine ⟨_, hrow, fun r => ls.map fun l => l r, ?_, ?_, ?_⟩
  · intro r hr
    refine torchStackRows_ok _ (if t.dist then (t.loc r).length else n) (by simpa using hne) ?_
    intro l hl
    obtain ⟨l', hl', rfl⟩ := List.mem_map.1 hl
    obtain ⟨v, hv, hav⟩ := hmem l' hl'
    cases hd' : t.dist with
    | true => simp only [if_true]; exact (hav.1 hd').2 r hr
    | false => simp only [Bool.false_eq_true, if_false]; rw [hav.2 hd' r hr, hn v hv]
  · intro hd'
    refine ⟨?_, ?_⟩
    · intro r hr
      refine ⟨by rw [List.length_map, hlen], ?_⟩
      intro row hrow
      obtain ⟨l', hl', rfl⟩ := List.mem_map.1 hrow
      obtain ⟨v, hv, hav⟩ := hmem l' hl'
      exact (hav.1 hd').2 r hr
    · intro j hj
      have hj' : j < ls.length := by omega
      have hav := (List.forall₂_iff_get.1 hal).2 j hj' hj
      have e1 : (fun r => (ls.map fun l => l r).getD j []) = ls[j] := by
        funext r
        simp [List.getD_eq_getElem?_getD, List.getElem?_eq_getElem hj']
      rw [e1]
      have := (hav.1 hd').1
      simp only [List.get_eq_getElem] at this
      rw [this]
      simp [List.getD_eq_getElem?_getD, List.getElem?_eq_getElem hj]
  · intro hd' r hr
    show (ls.map fun l => l r) = vs
    clear hrow hmem hne hvs hlen e hn h
    induction hal with
    | nil => rfl
    | cons ha _ ih => rw [List.map_cons, ha.2 hd' r hr, ih]

/-- **C162 (partial), column_stack of vectors.** Two or more vectors of one length, the first one distributed (in any way) or none: row `i` of the result consists of the
elements `i` of the vectors, and the result is distributed along the rows exactly as the first vector. -/
theorem column_stack_partial [Inhabited α] : ∃ loc : Nat → Except Err (List (List α)), columnStack fuel P (t :: rest) = .ok loc ∧ ∃ parts : Nat → List (List α), (∀ r < P, loc r = .ok (parts r)) ∧
      (t.dist = true → (∀ r < P, (parts r).length = (t.loc r).length) ∧ content P parts = (List.range n).map fun i => vs.map fun v => v.getD i default) ∧
      (t.dist = false → ∀ r < P, parts r = (List.range n).map fun i => vs.map fun v => v.getD i default) := by
  obtain ⟨ls, e, hal⟩ := stack_aligned fuel P hP hfuel t rest vs h h1 n hn hd
  have hlen := hal.length_eq
  have hvs : vs.length = rest.length + 1 := by rw [← h.length_eq]; rfl
  have hne : ls ≠ [] := fun hc => by rw [hc] at hlen; simp at hlen; omega
  have hmem : ∀ l ∈ ls, ∃ v ∈ vs, AlignedTo P t l v := by
    intro l hl
    obtain ⟨i, hi, rfl⟩ := List.getElem_of_mem hl
    exact ⟨vs[i]'(by omega), List.getElem_mem _, (List.forall₂_iff_get.1 hal).2 i hi (by omega)⟩
  have hcol : columnStack fuel P (t :: rest) = .ok (fun r => torchStackCols (ls.map fun (l : Nat → List α) => l r)) := by
    match rest, h1 with
    | b :: rest', _ =>
      unfold columnStack
      dsimp only
      rw [e]
  have hlocal : ∀ r < P, ∀ k, (∀ l ∈ ls, (l r).length = k) → torchStackCols (ls.map fun l => l r) = .ok ((List.range k).map fun i => ls.map fun l => (l r).getD i default) := by
    intro r hr k hk
    unfold torchStackCols
    rw [torchStackRows_ok _ k (by simpa using hne) (by
      intro l hl
      obtain ⟨l', hl', rfl⟩ := List.mem_map.1 hl
      exact hk l' hl')]
    dsimp only
    have e0 : ((ls.map fun l => l r).headD []).length = k := by
      match ls, hne, hk with
      | l :: _, _, hk => exact hk l (List.mem_cons_self ..)
    rw [e0]
    simp only [List.map_map]
    rfl
  cases hd' : t.dist with
  | false =>
    refine ⟨_, hcol, fun r => (List.range n).map fun i => ls.map fun l => (l r).getD i default, ?_, (fun hc => by cases hc), ?_⟩
    · intro r hr
      refine hlocal r hr n ?_
      intro l hl
      obtain ⟨v, hv, hav⟩ := hmem l hl
      rw [hav.2 hd' r hr, hn v hv]
    · intro _ r hr
      refine List.map_congr_left fun i _ => ?_
      clear hcol hlocal hmem hne hvs hlen e
      clear hn h
      induction hal with
      | nil => rfl
      | cons ha _ ih => rw [List.map_cons, List.map_cons, ha.2 hd' r hr, ih]
  | true =>
    refine ⟨_, hcol, fun r => (List.range (t.loc r).length).map fun i => ls.map fun l => (l r).getD i default, ?_, (fun _ => ⟨fun r hr => by simp, ?_⟩), (fun hc => by cases hc)⟩
    · intro r hr
      refine hlocal r hr _ ?_
      intro l hl
      obtain ⟨v, hv, hav⟩ := hmem l hl
      exact (hav.1 hd').2 r hr
    · have hval : ∀ r < P, (List.range (t.loc r).length).map (fun i => ls.map fun l => (l r).getD i default) =
          (List.range (t.loc r).length).map fun i => vs.map fun v => v.getD (startOf t.loc r + i) default := by
        intro r hr
        refine List.map_congr_left fun i hi => ?_
        have hi := List.mem_range.1 hi
        clear hcol hlocal hmem hne hvs hlen e hn h
        induction hal with
        | nil => rfl
        | @cons l v _ _ ha _ ih =>
          rw [List.map_cons, List.map_cons, ih]
          congr 1
          obtain ⟨hc, hl⟩ := ha.1 hd'
          have h3 := content_get_at (P := P) l hr (k := i) (by rw [hl r hr]; exact hi)
          have h4 : (content r l).length = startOf t.loc r := content_length_congr l t.loc r fun q hq => hl q (by omega)
          rw [hc, h4] at h3
          rw [List.getD_eq_getElem?_getD, List.getD_eq_getElem?_getD, h3]
      rw [content_congr hval, content_range_map (fun j => vs.map fun v => v.getD j default) (fun r => (t.loc r).length) (startOf t.loc) rfl P fun r _ => startOf_succ t.loc r]
      have hS : startOf t.loc P = n := by
        cases h with
        | cons ha _ => show (content P t.loc).length = n; rw [ha.2.1 hd', hn _ (List.mem_cons_self ..)]
      rw [hS]

end

/-- A vector with a single element is not refused but repeated, if the first vector has one element on every process: for every number of processes `P ≥ 2` and every vector
of `P` elements distributed evenly, `row_stack` returns a matrix with `P` columns on all processes, where numpy raises. -/
theorem row_stack_broadcast_violated (fuel P : Nat) (hP : 1 < P) (t a : Opnd α) (v : List α) (x : α) (ht : Holds P t v) (hd : t.dist = true)
    (ho : ∀ r < P, (t.loc r).length = 1) (ha : Holds P a [x]) : ∃ loc, rowStack fuel P [t, a] = .ok loc ∧ ∀ r < P, loc r = .ok [t.loc r, [x]] := by
  have hv : v.length = P := by
    rw [← ht.2.1 hd, content_length_congr t.loc (fun _ => [x]) P ho]
    clear hP ht ho hd ha
    induction P with
    | zero => rfl
    | succ k ih => rw [content_succ, List.length_append, ih]; rfl
  have e1 : ∃ l, stackAlign fuel P t t = .ok l ∧ ∀ r < P, l r = t.loc r := by
    refine ⟨t.loc, ?_, fun _ _ => rfl⟩
    unfold stackAlign
    rw [hd]
    simp only [Bool.not_true, Bool.false_eq_true, if_false]
    unfold sanitizeDist
    rw [if_neg (by rw [ht.1]; omega), if_neg (by simp), hd]
    simp only [Bool.not_true, Bool.false_eq_true, if_false]
    split
    · rw [if_neg (by simp)]
    · rfl
  have e2 : ∃ l, stackAlign fuel P t a = .ok l ∧ ∀ r < P, l r = [x] := by
    obtain ⟨res, h1, h2⟩ := sanitize_distribution_broadcast fuel P (fun r => ((t.loc r).length : Int)) t.n (t.isBalanced P) a x ha (by rw [ht.1]; omega)
    refine ⟨res, ?_, h2⟩
    unfold stackAlign
    rw [hd]
    simp only [Bool.not_true, Bool.false_eq_true, if_false]
    exact h1
  obtain ⟨l1, f1, g1⟩ := e1
  obtain ⟨l2, f2, g2⟩ := e2
  have hm : [t, a].mapM (stackAlign fuel P t) = .ok [l1, l2] := by
    rw [List.mapM_cons, List.mapM_cons, f1, f2]; rfl
  refine ⟨fun r => torchStackRows [l1 r, l2 r], ?_, ?_⟩
  · unfold rowStack
    dsimp only
    rw [hm]; rfl
  · intro r hr
    dsimp only
    rw [g1 r hr, g2 r hr]
    exact torchStackRows_ok _ 1 (by simp) (by
      intro l hl
      simp only [List.mem_cons, List.not_mem_nil, or_false] at hl
      rcases hl with rfl | rfl
      · exact ho r hr
      · rfl)

/-- Vectors of different lengths are refused on every process otherwise. -/
theorem row_stack_refused (fuel P : Nat) (t a : Opnd α) (rest : List (Opnd α)) (hd : t.dist = true) (h : a.n ≠ t.n) (h1 : ¬ (a.n = 1 ∧ 1 < t.n)) (ht : ∃ l, stackAlign fuel P t t = .ok l) :
    rowStack fuel P (t :: a :: rest) = .error .valueError := by
  obtain ⟨l, hl⟩ := ht
  have e : stackAlign fuel P t a = .error .valueError := by
    unfold stackAlign
    rw [hd]
    simp only [Bool.not_true, Bool.false_eq_true, if_false]
    exact sanitize_distribution_mismatch fuel P _ _ _ a (by omega) (by omega)
  unfold rowStack
  dsimp only
  rw [List.mapM_cons, List.mapM_cons, hl, e]; rfl

/-- A split vector next to a first vector that is not split is refused, whatever else is stacked. -/
theorem row_stack_replicated_refused (fuel P : Nat) (t : Opnd α) (rest : List (Opnd α)) (hd : t.dist = false) (h : ∃ a ∈ rest, a.dist = true) :
    rowStack fuel P (t :: rest) = .error .valueError := by
  have key : ∀ l : List (Opnd α), (∃ a ∈ l, a.dist = true) → l.mapM (stackAlign fuel P t) = .error .valueError := by
    intro l
    induction l with
    | nil => rintro ⟨a, ha, _⟩; cases ha
    | cons b l ih =>
      rintro ⟨a, ha, hda⟩
      rw [List.mapM_cons]
      unfold stackAlign
      rw [hd]
      simp only [Bool.not_false, if_true]
      cases hb : b.dist with
      | true => rfl
      | false =>
        have hal : ∃ a ∈ l, a.dist = true := by
          rcases List.mem_cons.1 ha with rfl | h
          · rw [hda] at hb; cases hb
          · exact ⟨a, h, hda⟩
        have := ih hal
        unfold stackAlign at this
        rw [hd] at this
        simp only [Bool.not_false, if_true] at this
        simp only [Bool.false_eq_true, if_false]
        rw [this]; rfl
  obtain ⟨a, ha, hda⟩ := h
  cases rest with
  | nil => cases ha
  | cons b rest =>
    unfold rowStack
    dsimp only
    rw [key (t :: b :: rest) ⟨a, List.mem_cons_of_mem _ ha, hda⟩]

/-! ## hsplit -/

/-- `hsplit` of a distributed vector raises on every process that does not hold the whole vector: it never works if two processes hold elements. -/
theorem hsplit_vector_violated (P : Nat) (a : Opnd α) (v : List α) (h : Holds P a v) (r : Nat) (hl : (a.loc r).length ≠ v.length) : hsplitShape a r = .error .valueError := by
  unfold hsplitShape
  rw [if_pos]
  rw [h.1]
  simp only [List.prod_cons, List.prod_nil]
  omega

/-! ## Cases -/

def svDist : Opnd Nat := ⟨3, true, fun r => ([[1], [2, 3]] : List (List Nat)).getD r [], some false⟩
def svEven : Opnd Nat := ⟨3, true, fun r => ([[4, 5], [6]] : List (List Nat)).getD r [], none⟩
def svRep : Opnd Nat := ⟨3, false, fun _ => [7, 8, 9], none⟩

theorem svDist_holds : Holds 2 svDist [1, 2, 3] := ⟨rfl, fun _ => by decide +kernel, (fun h => by cases h), fun _ h => by cases h⟩
theorem svEven_holds : Holds 2 svEven [4, 5, 6] := ⟨rfl, fun _ => by decide +kernel, (fun h => by cases h), fun _ h => by cases h⟩
theorem svRep_holds : Holds 2 svRep [7, 8, 9] := ⟨rfl, (fun h => by cases h), fun _ _ _ => rfl, fun h => by cases h⟩

/-- Unevenly distributed, evenly distributed and replicated vectors. -/
example : ∃ c, vstack 2 [svDist, svEven, svRep] = .ok (3, c) ∧ c.glob 2 = [[1, 2, 3], [4, 5, 6], [7, 8, 9]] := by
  obtain ⟨c, h1, h2, _⟩ := vstack_spec_partial (P := 2) (by decide) 3 [svDist, svEven, svRep] [[1, 2, 3], [4, 5, 6], [7, 8, 9]]
    (.cons svDist_holds (.cons svEven_holds (.cons svRep_holds .nil))) (by decide) (by decide) (Or.inr (by decide))
  exact ⟨c, h1, h2⟩
example : ∃ c, rowStackMixed 2 [.vec svDist, .mat 3 (.rep [[0, 0, 0], [1, 1, 1]])] = .ok (3, c) ∧ c.glob 2 = [[1, 2, 3], [0, 0, 0], [1, 1, 1]] := by
  obtain ⟨c, h1, h2, _⟩ := row_stack_mixed_partial (P := 2) (by decide) 3 [.vec svDist, .mat 3 (.rep [[0, 0, 0], [1, 1, 1]])] [[[1, 2, 3]], [[0, 0, 0], [1, 1, 1]]]
    (.cons ⟨_, rfl, svDist_holds, rfl⟩ (.cons ⟨rfl, rfl, trivial⟩ .nil)) (by decide) (Or.inr (by decide))
  exact ⟨c, h1, h2⟩
example : ∃ c, hstack 2 [svEven, svRep] = .ok (.vec c) ∧ c.glob 2 = [4, 5, 6, 7, 8, 9] := by
  obtain ⟨c, h1, h2, _⟩ := hstack_two_partial (P := 2) (by decide) svEven svRep [4, 5, 6] [7, 8, 9] svEven_holds svRep_holds (fun _ => by unfold Balanced; decide +kernel) (fun h => by cases h)
  exact ⟨c, h1, h2⟩
example : ∃ m, hstack 2 [svRep, svRep, svRep] = .ok (.mat (.rep m)) ∧ m = [[7, 7, 7], [8, 8, 8], [9, 9, 9]] := by
  obtain ⟨m, h1, h2⟩ := hstack_three_violated (P := 2) (by decide) svRep svRep svRep _ _ _ svRep_holds svRep_holds svRep_holds rfl rfl rfl rfl rfl
  exact ⟨m, h1, h2⟩
example : ∃ (loc : Nat → Except Err (List (List Nat))) (parts : Nat → List (List Nat)), columnStack 2 2 [svDist, svEven, svRep] = .ok loc ∧ (∀ r < 2, loc r = .ok (parts r)) ∧ content 2 parts = [[1, 4, 7], [2, 5, 8], [3, 6, 9]] := by
  obtain ⟨loc, h1, parts, h2, h3, _⟩ := column_stack_partial 2 2 (by decide) (by decide) svDist [svEven, svRep] [[1, 2, 3], [4, 5, 6], [7, 8, 9]]
    (.cons svDist_holds (.cons svEven_holds (.cons svRep_holds .nil))) (by simp) 3 (by decide) (fun _ _ _ => rfl)
  exact ⟨loc, parts, h1, h2, (h3 rfl).2⟩
example : ∃ (loc : Nat → Except Err (List (List Nat))) (parts : Nat → List (List Nat)), rowStack 2 2 [svDist, svRep] = .ok loc ∧ (∀ r < 2, loc r = .ok (parts r)) ∧ ∀ j < 2, content 2 (fun r => (parts r).getD j []) = ([[1, 2, 3], [7, 8, 9]] : List (List Nat)).getD j [] := by
  obtain ⟨loc, h1, parts, h2, h3, _⟩ := row_stack_partial 2 2 (by decide) (by decide) svDist [svRep] [[1, 2, 3], [7, 8, 9]]
    (.cons svDist_holds (.cons svRep_holds .nil)) (by simp) 3 (by decide) (fun _ _ _ => rfl)
  exact ⟨loc, parts, h1, h2, (h3 rfl).2⟩
/-- A vector of two elements on two processes and a vector of one element: no exception. -/
example : ∃ loc, rowStack 2 2 [⟨2, true, fun r => ([[1], [2]] : List (List Nat)).getD r [], none⟩, ⟨1, false, fun _ => [9], none⟩] = .ok loc ∧ loc 0 = .ok [[1], [9]] ∧ loc 1 = .ok [[2], [9]] := by
  obtain ⟨loc, h1, h2⟩ := row_stack_broadcast_violated 2 2 (by decide) ⟨2, true, fun r => ([[1], [2]] : List (List Nat)).getD r [], none⟩ ⟨1, false, fun _ => [9], none⟩
    [1, 2] 9 ⟨rfl, fun _ => by decide +kernel, (fun h => by cases h), fun _ h => by cases h⟩ rfl (by decide +kernel) ⟨rfl, (fun h => by cases h), fun _ _ _ => rfl, fun h => by cases h⟩
  exact ⟨loc, h1, h2 0 (by decide), h2 1 (by decide)⟩
/-- A replicated next to a distributed vector of length 1: RuntimeError although the lengths agree. -/
theorem vstack_unit_violated : (vstack 2 [(⟨1, false, fun _ => [9], none⟩ : Opnd Nat), ⟨1, true, fun r => ([[1], []] : List (List Nat)).getD r [], none⟩]).map (fun p => p.1) = .error .runtimeError := by
  decide +kernel
example : hsplitShape svEven 0 = .error .valueError ∧ hsplitShape svEven 1 = .error .valueError ∧ hsplitShape svRep 0 = .ok [1, 3] :=
  ⟨hsplit_vector_violated 2 svEven _ svEven_holds 0 (by decide), hsplit_vector_violated 2 svEven _ svEven_holds 1 (by decide), rfl⟩
example : ∃ e, vstack 2 [svDist, (⟨1, false, fun _ => [9], none⟩ : Opnd Nat)] = .error e := vstack_refused 2 _ (Or.inr ⟨_, List.mem_cons_self .., _, List.mem_cons_of_mem _ (List.mem_cons_self ..), by decide⟩)

end Heat
