import Verif.Model.OutOp
import Verif.Props.BinaryOp
import Verif.Props.Hdf5
/-!
# C149: `out=`, `where=` and in-place operators
-/
namespace Heat
open Heat.Spec
variable {α β γ : Type}

namespace Spec
/-- The sizes along the split axis match, or one of them is 1 and the other larger. -/
def Sizes (a b : Nat) : Prop := a = b ∨ (a = 1 ∧ 2 ≤ b) ∨ (2 ≤ a ∧ b = 1)

/-- The local parts `loc` are an array distributed (or replicated) as `a` is, with the content `l`. -/
def SameDist (P : Nat) (a : Opnd γ) (loc : Nat → List γ) (l : List γ) : Prop :=
  (∀ r < P, (loc r).length = (a.loc r).length) ∧ (a.dist = true → content P loc = l) ∧ (a.dist = false → ∀ r < P, loc r = l)

/-- Where the condition holds the new value, elsewhere the old one. -/
def select (w : List Bool) (new old : List γ) : List γ :=
  List.zipWith (fun (p : Bool × γ) o => if p.1 then p.2 else o) (List.zipWith Prod.mk w new) old
end Spec

theorem bzip_length (f : α → β → γ) (l1 : List α) (l2 : List β) (h : Sizes l1.length l2.length) :
    (bzip f l1 l2).length = max l1.length l2.length := by
  rcases h with h | ⟨h1, h2⟩ | ⟨h1, h2⟩
  · rw [bzip_eq f l1 l2 h, List.length_zipWith]; omega
  · match l1, h1 with
    | [x], _ => rw [bzip_left, List.length_map]; simp only [List.length_singleton]; omega
  · match l2, h2 with
    | [x], _ => rw [bzip_right, List.length_map]; simp only [List.length_singleton]; omega

theorem torchZip_bzip (f : α → β → γ) (l1 : List α) (l2 : List β) (h : Sizes l1.length l2.length) :
    torchZip f l1 l2 = .ok (bzip f l1 l2) := by
  rcases h with h | ⟨h1, h2⟩ | ⟨h1, h2⟩
  · rw [bzip_eq f l1 l2 h, torchZip_eq f l1 l2 h]
  · match l1, h1 with
    | [x], _ => rw [bzip_left, torchZip_left]
  · match l2, h2 with
    | [x], _ => rw [bzip_right, torchZip_right]

theorem torchCopy_same (m : Nat) (l : List γ) (h : l.length = m) : torchCopy m l = .ok l := by
  subst h
  match l with
  | [] => rfl
  | [x] => rfl
  | x :: y :: t => show (if _ then _ else _) = _; rw [if_pos rfl]

theorem bcastSize_sizes (a b : Nat) (h : Sizes a b) : bcastSize a b = some (max a b) := by
  unfold bcastSize
  rcases h with h | ⟨h1, h2⟩ | ⟨h1, h2⟩
  · rw [if_pos h]; congr 1; omega
  · rw [if_neg (by omega), if_pos h1]; congr 1; omega
  · rw [if_neg (by omega), if_neg (by omega), if_pos h2]; congr 1; omega

/-- The operands of the local operation: for every operand that has the size of `out` or one slab. -/
theorem sanitize_operand (fuel P : Nat) (hP : 1 < P) (hfuel : 2 ≤ fuel) (out : Opnd γ) (lo : List γ) (ho : Holds P out lo) (hd : out.dist = true)
    (t : Opnd α) (l : List α) (h : Holds P t l) (hn : l.length = lo.length ∨ (l.length = 1 ∧ 2 ≤ lo.length)) :
    ∃ res, sanitizeDist fuel P (fun r => ((out.loc r).length : Int)) out.n (out.isBalanced P) t = .ok res ∧
      ((l.length = lo.length ∧ content P res = l ∧ ∀ r < P, (res r).length = (out.loc r).length) ∨
       (∃ x, l = [x] ∧ 2 ≤ lo.length ∧ ∀ r < P, res r = [x])) := by
  rcases hn with hn | ⟨h1, h2⟩
  · obtain ⟨res, r1, r2, r3⟩ := sanitize_distribution_spec fuel P hP hfuel out lo ho hd t l h hn
    exact ⟨res, r1, Or.inl ⟨hn, r2, r3⟩⟩
  · match l, h1 with
    | [x], _ =>
      obtain ⟨res, r1, r2⟩ := sanitize_distribution_broadcast fuel P (fun r => ((out.loc r).length : Int)) out.n (out.isBalanced P) t x h
        (by rw [ho.1]; omega)
      exact ⟨res, r1, Or.inr ⟨x, rfl, h2, r2⟩⟩

theorem repl_length {P : Nat} {a : Opnd γ} {l : List γ} (h : Holds P a l) (hd : a.dist = false) (r : Nat) (hr : r < P) : (a.loc r).length = l.length := by
  rw [h.2.2.1 hd r hr]

/-- The local results of `outOperands`, for any local operation: rank by rank the element-wise operation, of the size of `out`. -/
theorem outOperands_spec (fuel P : Nat) (hP : 1 < P) (hfuel : 2 ≤ fuel) (f : α → β → γ) (t1 : Opnd α) (t2 : Opnd β) (out : Opnd γ)
    (l1 : List α) (l2 : List β) (lo : List γ) (h1 : Holds P t1 l1) (h2 : Holds P t2 l2) (ho : Holds P out lo)
    (hd : (t1.dist || t2.dist) = out.dist) (hs : Sizes l1.length l2.length) (hn : lo.length = max l1.length l2.length) :
    ∃ a b, outOperands fuel P t1 t2 (max t1.n t2.n) out = .ok (a, b) ∧
      ∃ loc : Nat → List γ, (∀ r < P, torchZip f (a r) (b r) = .ok (loc r)) ∧ SameDist P out loc (bzip f l1 l2) := by
  unfold outOperands
  rw [if_neg (by rw [h1.1, h2.1, ho.1]; omega), if_neg (by rw [hd]; simp)]
  cases hdist : out.dist with
  | false =>
    simp only [Bool.not_false, if_true]
    have hd1 : t1.dist = false := by rw [hdist] at hd; cases h : t1.dist <;> simp_all
    have hd2 : t2.dist = false := by rw [hdist] at hd; cases h : t2.dist <;> simp_all
    refine ⟨_, _, rfl, fun _ => bzip f l1 l2, ?_, ?_, ?_, ?_⟩
    · intro r hr
      rw [h1.2.2.1 hd1 r hr, h2.2.2.1 hd2 r hr, torchZip_bzip f l1 l2 hs]
    · intro r hr
      rw [bzip_length f l1 l2 hs, repl_length ho hdist r hr, hn]
    · rw [hdist]; simp
    · intro _ r _; rfl
  | true =>
    simp only [Bool.not_true, Bool.false_eq_true, if_false]
    obtain ⟨a, a1, a2⟩ := sanitize_operand fuel P hP hfuel out lo ho hdist t1 l1 h1 (by unfold Sizes at hs; omega)
    obtain ⟨b, b1, b2⟩ := sanitize_operand fuel P hP hfuel out lo ho hdist t2 l2 h2 (by unfold Sizes at hs; omega)
    rw [a1, b1]
    refine ⟨a, b, rfl, ?_⟩
    rcases a2 with ⟨an, ac, al⟩ | ⟨x, rfl, _, ax⟩
    · rcases b2 with ⟨bn, bc, bl⟩ | ⟨y, rfl, _, by'⟩
      · refine ⟨fun r => List.zipWith f (a r) (b r), ?_, ?_, ?_, ?_⟩
        · intro r hr; exact torchZip_eq f _ _ (by rw [al r hr, bl r hr])
        · intro r hr; rw [List.length_zipWith, al r hr, bl r hr]; omega
        · intro _
          rw [content_zipWith f P a b (fun r hr => by rw [al r hr, bl r hr]), ac, bc, bzip_eq f l1 l2 (by omega)]
        · rw [hdist]; simp
      · refine ⟨fun r => (a r).map (f · y), ?_, ?_, ?_, ?_⟩
        · intro r hr; rw [by' r hr, torchZip_right]
        · intro r hr; rw [List.length_map, al r hr]
        · intro _; rw [content_map (f · y) P a, ac, bzip_right]
        · rw [hdist]; simp
    · rcases b2 with ⟨bn, bc, bl⟩ | ⟨y, rfl, h2', _⟩
      · refine ⟨fun r => (b r).map (f x), ?_, ?_, ?_, ?_⟩
        · intro r hr; rw [ax r hr, torchZip_left]
        · intro r hr; rw [List.length_map, bl r hr]
        · intro _; rw [content_map (f x) P b, bc, bzip_left]
        · rw [hdist]; simp
      · simp only [List.length_singleton] at hn; omega

/-- **C149, `out`.**  For every operation, two operands that are distributed in any way along the same axis or replicated, of equal size or
one of them with one slab, and every buffer of the size of the result that is distributed (in any way) if and only if one of the operands
is: the call succeeds, the buffer keeps its distribution and holds the element-wise operation of the whole arrays. -/
theorem binaryOut_spec (fuel P : Nat) (hP : 1 < P) (hfuel : 2 ≤ fuel) (f : α → β → γ) (t1 : Opnd α) (t2 : Opnd β) (out : Opnd γ)
    (l1 : List α) (l2 : List β) (lo : List γ) (h1 : Holds P t1 l1) (h2 : Holds P t2 l2) (ho : Holds P out lo)
    (hd : (t1.dist || t2.dist) = out.dist) (hs : Sizes l1.length l2.length) (hn : lo.length = max l1.length l2.length) :
    ∃ res, binaryOut fuel P f t1 t2 out = .ok res ∧
      ∃ loc : Nat → List γ, (∀ r < P, res r = .ok (loc r)) ∧ SameDist P out loc (bzip f l1 l2) := by
  obtain ⟨a, b, e, loc, hl, hsd⟩ := outOperands_spec fuel P hP hfuel f t1 t2 out l1 l2 lo h1 h2 ho hd hs hn
  unfold binaryOut
  rw [bcastSize_sizes t1.n t2.n (by rw [h1.1, h2.1]; exact hs)]
  dsimp only
  rw [e]
  refine ⟨_, rfl, loc, ?_, hsd⟩
  intro r hr
  rw [hl r hr]
  exact torchCopy_same _ _ (hsd.1 r hr)

/-- **C149, in place.**  `t1 += t2` and the other in-place operators, when `t2` is not distributed unless `t1` is, and `t2` has the size of
`t1` or one slab (`t1` not empty then): `t1` keeps its distribution, whatever it is, and gets the element-wise result. -/
theorem inplace_spec (fuel P : Nat) (hP : 1 < P) (hfuel : 2 ≤ fuel) (f : α → β → α) (t1 : Opnd α) (t2 : Opnd β)
    (l1 : List α) (l2 : List β) (h1 : Holds P t1 l1) (h2 : Holds P t2 l2)
    (hd : t2.dist = true → t1.dist = true) (hs : l2.length = l1.length ∨ (l2.length = 1 ∧ 1 ≤ l1.length)) :
    ∃ res, inplaceOp fuel P f t1 t2 = .ok res ∧
      ∃ loc : Nat → List α, (∀ r < P, res r = .ok (loc r)) ∧ SameDist P t1 loc (bzip f l1 l2) := by
  unfold inplaceOp
  refine binaryOut_spec fuel P hP hfuel f t1 t2 t1 l1 l2 l1 h1 h2 h1 ?_ ?_ ?_
  · cases e1 : t1.dist <;> cases e2 : t2.dist <;> simp_all
  · unfold Sizes; omega
  · omega

/-- Buffers of another size, or not distributed as the result, are refused with ValueError by every process, and before anything is
written: in particular a replicated array is never combined in place with a distributed one, nor a smaller array with a larger one. -/
theorem binaryOut_refused (fuel P : Nat) (f : α → β → γ) (t1 : Opnd α) (t2 : Opnd β) (out : Opnd γ)
    (h : bcastSize t1.n t2.n ≠ some out.n ∨ (t1.dist || t2.dist) ≠ out.dist) : binaryOut fuel P f t1 t2 out = .error .valueError := by
  unfold binaryOut
  cases hb : bcastSize t1.n t2.n with
  | none => rfl
  | some m =>
    dsimp only
    unfold outOperands
    by_cases hm : m ≠ out.n
    · rw [if_pos hm]
    · rw [if_neg hm]
      rcases h with h | h
      · exact absurd (by rw [hb, Decidable.not_not.1 hm]) h
      · rw [if_pos h]

/-- An empty distributed array and a scalar: ValueError instead of an empty result. -/
theorem inplace_empty_violated (fuel P : Nat) (f : α → β → α) (t1 : Opnd α) (t2 : Opnd β) (h1 : t1.n = 0) (h2 : t2.n = 1) (hd : t1.dist = true) :
    inplaceOp fuel P f t1 t2 = .error .valueError := by
  unfold inplaceOp binaryOut bcastSize
  rw [h1, h2]
  simp only [Nat.zero_ne_one, if_false, if_true]
  unfold outOperands
  rw [if_neg (by omega), if_neg (by rw [hd]; simp)]
  simp only [hd, Bool.not_true, Bool.false_eq_true, if_false]
  cases hs : sanitizeDist fuel P (fun r => ((t1.loc r).length : Int)) (t1.n : Int) (t1.isBalanced P) t1 with
  | error e =>
    dsimp only
    by_cases hval : e = .valueError
    · rw [hval]
    · exfalso
      unfold sanitizeDist at hs
      rw [if_neg (by omega), if_neg (by simp)] at hs
      simp only [hd, Bool.not_true, Bool.false_eq_true, if_false] at hs
      have hany : ((List.range P).any fun r => ((t1.loc r).length : Int) != ((t1.loc r).length : Int)) = false := by
        rw [List.any_eq_false]; intro r _; simp
      rw [hany] at hs
      by_cases h3 : (!(Opnd.isBalanced P t1 && Opnd.isBalanced P t1)) = true
      · rw [if_pos h3] at hs; simp at hs
      · rw [if_neg h3] at hs; simp at hs
  | ok l =>
    dsimp only
    rw [sanitize_distribution_mismatch fuel P _ _ _ t2 (by omega) (by omega)]

/-! ## Conditions -/

theorem select_length (w : List Bool) (a b : List γ) (h1 : w.length = a.length) (h2 : b.length = a.length) : (select w a b).length = a.length := by
  unfold select; rw [List.length_zipWith, List.length_zipWith]; omega

theorem torchWhere_same (w : List Bool) (a b : List γ) (h1 : w.length = a.length) (h2 : b.length = a.length) : torchWhere w a b = .ok (select w a b) := by
  unfold torchWhere select
  rw [torchZip_eq _ w a h1]
  show torchZip _ _ _ = _
  rw [torchZip_eq _ _ b (by rw [List.length_zipWith]; omega)]

theorem content_select (P : Nat) (w : Nat → List Bool) (a b : Nat → List γ) (h1 : ∀ r < P, (w r).length = (a r).length)
    (h2 : ∀ r < P, (b r).length = (a r).length) : content P (fun r => select (w r) (a r) (b r)) = select (content P w) (content P a) (content P b) := by
  unfold select
  rw [content_zipWith _ P (fun r => List.zipWith Prod.mk (w r) (a r)) b, content_zipWith Prod.mk P w a h1]
  intro r hr
  rw [List.length_zipWith, h1 r hr, h2 r hr]; omega

/-- **C149 (partial), `where`.**  With `out`, and a condition of the size of `out` that is replicated, or distributed exactly like `out`: the
elements of `out` where the condition holds get the result, the others keep their value.  Missing: conditions that are distributed in
another way (`where_misaligned_violated`, `where_silent_violated`). -/
theorem where_out_partial (fuel P : Nat) (hP : 1 < P) (hfuel : 2 ≤ fuel) (f : α → β → γ) (t1 : Opnd α) (t2 : Opnd β) (w : Opnd Bool) (out : Opnd γ)
    (l1 : List α) (l2 : List β) (lw : List Bool) (lo : List γ) (h1 : Holds P t1 l1) (h2 : Holds P t2 l2) (hw : Holds P w lw) (ho : Holds P out lo)
    (hd : (t1.dist || t2.dist) = out.dist) (hs : Sizes l1.length l2.length) (hn : lo.length = max l1.length l2.length)
    (hwn : lw.length = lo.length) (hwd : w.dist = false ∨ (w.dist = true ∧ out.dist = true ∧ ∀ r < P, (w.loc r).length = (out.loc r).length)) :
    ∃ res, binaryWhere fuel P f t1 t2 w out = .ok res ∧
      ∃ loc : Nat → List γ, (∀ r < P, res r = .ok (loc r)) ∧ SameDist P out loc (select lw (bzip f l1 l2) lo) := by
  obtain ⟨a, b, e, loc, hl, hsd⟩ := outOperands_spec fuel P hP hfuel f t1 t2 out l1 l2 lo h1 h2 ho hd hs hn
  have hbl := bzip_length f l1 l2 hs
  have hw' : ∃ c, whereOperand fuel P w out = .ok c ∧ (∀ r < P, (c r).length = (out.loc r).length) ∧ (out.dist = true → content P c = lw) ∧
      (out.dist = false → ∀ r < P, c r = lw) := by
    unfold whereOperand
    rcases hwd with hwd | ⟨hwd, hod, hal⟩
    · cases hod : out.dist with
      | false =>
        rw [if_pos hwd]
        refine ⟨_, rfl, ?_, by simp, fun _ => hw.2.2.1 hwd⟩
        intro r hr
        rw [hw.2.2.1 hwd r hr, repl_length ho hod r hr, hwn]
      | true =>
        rw [hwd, if_neg (by simp)]
        simp only [Bool.not_true, Bool.false_eq_true, if_false]
        obtain ⟨c, c1, c2, c3⟩ := sanitize_distribution_spec fuel P hP hfuel out lo ho hod w lw hw hwn
        exact ⟨c, c1, c3, fun _ => c2, by simp⟩
    · rw [if_pos (by rw [hwd, hod])]
      exact ⟨_, rfl, hal, fun _ => hw.2.1 hwd, by rw [hod]; simp⟩
  obtain ⟨c, c1, c2, c3, c4⟩ := hw'
  unfold binaryWhere
  rw [bcastSize_sizes t1.n t2.n (by rw [h1.1, h2.1]; exact hs)]
  dsimp only
  have hmax : max t1.n t2.n = lo.length := by rw [h1.1, h2.1, hn]
  rw [bcastSize_sizes w.n _ (Or.inl (by rw [hmax, hw.1, hwn]))]
  have hmax' : max w.n (max t1.n t2.n) = max t1.n t2.n := by rw [hmax, hw.1, hwn]; omega
  dsimp only
  rw [hmax', e]
  dsimp only
  rw [c1]
  refine ⟨_, rfl, fun r => select (c r) (loc r) (out.loc r), ?_, ?_, ?_, ?_⟩
  · intro r hr
    dsimp only
    rw [hl r hr]
    show (torchWhere _ _ _).bind _ = _
    rw [torchWhere_same _ _ _ (by rw [c2 r hr, hsd.1 r hr]) (by rw [hsd.1 r hr])]
    exact torchCopy_same _ _ (by rw [select_length _ _ _ (by rw [c2 r hr, hsd.1 r hr]) (by rw [hsd.1 r hr]), hsd.1 r hr])
  · intro r hr
    rw [select_length _ _ _ (by rw [c2 r hr, hsd.1 r hr]) (by rw [hsd.1 r hr]), hsd.1 r hr]
  · intro hod
    rw [content_select P c loc out.loc (fun r hr => by rw [c2 r hr, hsd.1 r hr]) (fun r hr => by rw [hsd.1 r hr]), c3 hod, hsd.2.1 hod, ho.2.1 hod]
  · intro hod r hr
    show select (c r) (loc r) (out.loc r) = _
    rw [c4 hod r hr, hsd.2.2 hod r hr, ho.2.2.1 hod r hr]

/-- A condition distributed along the same axis but in another way: raises. -/
theorem where_misaligned_violated :
    (binaryWhere 2 2 (fun (x y : Nat) => x + y) ⟨3, true, fun r => ([[1, 2], [3]] : List (List Nat)).getD r [], some true⟩ ⟨1, false, fun _ => [10], none⟩
      ⟨3, true, fun r => ([[], [true, false, true]] : List (List Bool)).getD r [], none⟩
      ⟨3, true, fun r => ([[0, 0], [0]] : List (List Nat)).getD r [], some true⟩).map (fun l => (l 0, l 1)) =
    .ok (.error .runtimeError, .error .runtimeError) := by decide +kernel

/-- The same silently: process 0 holds both elements and one element of the condition, which is used for both, so that the second element
is overwritten although its condition is false. -/
theorem where_silent_violated :
    (binaryWhere 2 2 (fun (x y : Nat) => x + y) ⟨2, true, fun r => ([[1, 2], []] : List (List Nat)).getD r [], none⟩ ⟨1, false, fun _ => [10], none⟩
      ⟨2, true, fun r => ([[true], [false]] : List (List Bool)).getD r [], some true⟩
      ⟨2, true, fun r => ([[0, 0], []] : List (List Nat)).getD r [], none⟩).map (fun l => (l 0, l 1)) = .ok (.ok [11, 12], .ok []) ∧
    select [true, false] (bzip (fun (x y : Nat) => x + y) [1, 2] [10]) [0, 0] = [11, 0] := by decide +kernel

/-- Without `out`, the buffer is balanced but the result is distributed like the operands: an unbalanced operand raises. -/
theorem where_new_violated (junk : List Nat) (hj : junk.length = 2) :
    (binaryWhereNew 2 2 (fun (x y : Nat) => x + y) ⟨2, true, fun r => ([[1, 2], []] : List (List Nat)).getD r [], none⟩ ⟨1, false, fun _ => [10], none⟩
      ⟨2, true, fun r => ([[true, true], []] : List (List Bool)).getD r [], none⟩ junk).map (fun l => (l 0).isOk) = .ok false := by
  match junk, hj with
  | [a, b], _ => rfl

/-- **C149 (partial), `where` without `out`.**  Both results are new arrays.  If the first operand is distributed, balanced and not broadcast,
and the condition is replicated, or distributed like it: the elements where the condition holds are the result of the operation, the others
are those of the uninitialised buffer (`junk`), whatever the distribution of the second operand.  Missing: unbalanced operands
(`where_new_violated`). -/
theorem where_new_partial (fuel P : Nat) (hP : 1 < P) (hfuel : 2 ≤ fuel) (f : α → β → γ) (t1 : Opnd α) (t2 : Opnd β) (w : Opnd Bool)
    (junk : List γ) (l1 : List α) (l2 : List β) (lw : List Bool) (h1 : Holds P t1 l1) (h2 : Holds P t2 l2) (hw : Holds P w lw)
    (hd : t1.dist = true) (hb : Balanced P t1.loc) (hs : Sizes l1.length l2.length) (hle : l2.length ≤ l1.length)
    (hwn : lw.length = l1.length) (hj : junk.length = l1.length)
    (hwd : w.dist = false ∨ (w.dist = true ∧ ∀ r < P, (w.loc r).length = (t1.loc r).length)) :
    ∃ res, binaryWhereNew fuel P f t1 t2 w junk = .ok res ∧
      ∃ loc : Nat → List γ, (∀ r < P, res r = .ok (loc r)) ∧ (∀ r < P, (loc r).length = (t1.loc r).length) ∧
        content P loc = select lw (bzip f l1 l2) junk := by
  obtain ⟨res, e, hrd, loc, hl, hc, _, hd1, _⟩ := binaryOp_spec_partial fuel P hP hfuel f t1 t2 l1 l2 h1 h2 hs
  obtain ⟨res', loc', e', _, hn, _⟩ := binaryOp_flag_truthful fuel P hP hfuel f t1 t2 l1 l2 h1 h2 hs (Or.inl ⟨hd, hle⟩)
  have : res' = res := by rw [e] at e'; exact (Except.ok.inj e').symm
  subst this
  have hrd' : res'.dist = true := by rw [hrd, hd]; rfl
  have hn' : res'.n = junk.length := by rw [hn, hj]; omega
  have hlen := hd1 hd hle
  unfold binaryWhereNew
  rw [e]
  dsimp only
  rw [hrd', hn']
  simp only [if_true]
  have hjl : ∀ r < P, ((junk.take (chunkRange junk.length r P).2).drop (chunkRange junk.length r P).1).length = (t1.loc r).length := by
    intro r hr
    have hr' := hb r hr
    rw [h1.2.1 hd] at hr'
    rw [hr', ← hj, ← chunkRange_size, List.length_drop, List.length_take]
    have h3 := chunkRange_mono junk.length P (r := r) (s := r + 1) (by omega)
    have h4 := chunkRange_mono junk.length P (r := r + 1) (s := P) (by omega)
    rw [chunkRange_at_P _ _ (by omega), chunkRange_succ] at h4
    rw [chunkRange_succ] at h3
    omega
  have hjc := content_chunkParts junk P (by omega) P (Nat.le_refl _)
  rw [chunkRange_at_P _ _ (by omega), List.take_length] at hjc
  generalize hO : (⟨junk.length, true, fun r => (junk.take (chunkRange junk.length r P).2).drop (chunkRange junk.length r P).1, some true⟩ : Opnd γ) = O
  have hOloc : O.loc = fun r => (junk.take (chunkRange junk.length r P).2).drop (chunkRange junk.length r P).1 := by rw [← hO]
  have hOd : O.dist = true := by rw [← hO]
  have hOh : Holds P O junk := by
    refine ⟨by rw [← hO], (fun _ => by rw [hOloc]; exact hjc), (fun h => by rw [hOd] at h; cases h), fun _ _ => ?_⟩
    intro r hr
    rw [hOloc, hjc]
    show ((junk.take (chunkRange junk.length r P).2).drop (chunkRange junk.length r P).1).length = _
    rw [hjl r hr, hb r hr, h1.2.1 hd, hj]
  have hw' : ∃ c, whereOperand fuel P w O = .ok c ∧ (∀ r < P, (c r).length = (O.loc r).length) ∧ content P c = lw := by
    unfold whereOperand
    rcases hwd with hwd | ⟨hwd, hal⟩
    · rw [hwd, hOd, if_neg (by simp)]
      simp only [Bool.not_true, Bool.false_eq_true, if_false]
      obtain ⟨c, c1, c2, c3⟩ := sanitize_distribution_spec fuel P hP hfuel O junk hOh hOd w lw hw (by rw [hwn, hj])
      exact ⟨c, c1, c3, c2⟩
    · rw [if_pos (by rw [hwd, hOd])]
      refine ⟨_, rfl, fun r hr => ?_, hw.2.1 hwd⟩
      rw [hal r hr, hOloc]; exact (hjl r hr).symm
  obtain ⟨c, c1, c2, c3⟩ := hw'
  have hOl : ∀ r < P, (O.loc r).length = (t1.loc r).length := fun r hr => by rw [hOloc]; exact hjl r hr
  rw [c1]
  dsimp only
  have hsame : ∀ r < P, (c r).length = (loc r).length ∧ (O.loc r).length = (loc r).length := fun r hr =>
    ⟨by rw [c2 r hr, hOl r hr, hlen r hr], by rw [hOl r hr, hlen r hr]⟩
  refine ⟨_, rfl, fun r => select (c r) (loc r) (O.loc r), ?_, ?_, ?_⟩
  · intro r hr
    rw [hl r hr]
    rw [show ((junk.take (chunkRange junk.length r P).2).drop (chunkRange junk.length r P).1) = O.loc r by rw [hOloc]]
    show (torchWhere _ _ _).bind _ = _
    rw [torchWhere_same _ _ _ (hsame r hr).1 (hsame r hr).2]
    exact torchCopy_same _ _ (by rw [select_length _ _ _ (hsame r hr).1 (hsame r hr).2, (hsame r hr).2])
  · intro r hr
    rw [select_length _ _ _ (hsame r hr).1 (hsame r hr).2, hlen r hr]
  · rw [content_select P c loc O.loc (fun r hr => (hsame r hr).1) (fun r hr => (hsame r hr).2), c3, hc hrd', hOloc, hjc]

/-- The hypotheses of the theorems are met by an unbalanced array that is increased in place by a balanced one. -/
example : (inplaceOp 2 2 (fun (x y : Nat) => x + y) ⟨3, true, fun r => ([[1], [2, 3]] : List (List Nat)).getD r [], none⟩
    ⟨3, true, fun r => ([[10, 20], [30]] : List (List Nat)).getD r [], some true⟩).map (fun l => (l 0, l 1)) = .ok (.ok [11], .ok [22, 33]) := by
  decide +kernel

end Heat
