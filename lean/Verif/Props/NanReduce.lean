import Verif.Model.NanReduce
import Verif.Proof.Dist
import Mathlib.Tactic.SplitIfs
import Mathlib.Algebra.Order.Field.Rat
import Mathlib.Algebra.Order.AbsoluteValue.Basic
import Mathlib.Tactic.Linarith
import Mathlib.Tactic.Ring
import Mathlib.Tactic.NormNum
/-!
# C196 `nansum` and `nanprod`
-/
namespace Heat
open Spec

/-- The sum of numbers none of which is not-a-number: the sum of the finite ones if there is no infinity, that infinity if only one kind occurs, not-a-number otherwise. -/
def SumIs (l : List ENum) (s : ENum) : Prop :=
  if .nan ∈ l ∨ (.pinf ∈ l ∧ .ninf ∈ l) then s = .nan
  else if .pinf ∈ l then s = .pinf
  else if .ninf ∈ l then s = .ninf
  else ∃ qs : List Rat, l = qs.map .fin ∧ s = .fin qs.sum

namespace ENum

theorem add_zero' (x : ENum) : x.add (.fin 0) = x := by cases x <;> simp [add]

theorem zero_add' (x : ENum) : (ENum.fin 0).add x = x := by cases x <;> simp [add]

theorem add_assoc' (x y z : ENum) : (x.add y).add z = x.add (y.add z) := by
  cases x <;> cases y <;> cases z <;> simp [add, add_assoc]

end ENum

/-- Sum from the right. -/
def esum (l : List ENum) : ENum := l.foldr ENum.add (.fin 0)

theorem esum_append (a b : List ENum) : esum (a ++ b) = (esum a).add (esum b) := by
  induction a with
  | nil => exact (ENum.zero_add' _).symm
  | cons x a ih =>
    show x.add (esum (a ++ b)) = (x.add (esum a)).add (esum b)
    rw [ih, ENum.add_assoc']

theorem foldl_esum {α : Type} (f : α → ENum) (l : List α) (a : ENum) : l.foldl (fun acc x => acc.add (f x)) a = a.add (esum (l.map f)) := by
  induction l generalizing a with
  | nil => exact (ENum.add_zero' a).symm
  | cons x l ih =>
    rw [List.foldl_cons, ih, ENum.add_assoc']
    rfl

theorem esum_spec (l : List ENum) : SumIs l (esum l) := by
  induction l with
  | nil => simp [SumIs, esum]
  | cons x l ih =>
    have e : esum (x :: l) = x.add (esum l) := rfl
    rw [e]
    unfold SumIs at ih ⊢
    by_cases hn : ENum.nan ∈ l
    · rw [if_pos (Or.inl hn)] at ih
      rw [if_pos (Or.inl (List.mem_cons_of_mem _ hn)), ih]
      cases x <;> rfl
    · by_cases hp : ENum.pinf ∈ l <;> by_cases hm : ENum.ninf ∈ l <;> simp [hn, hp, hm] at ih
      · cases x <;> simp [ih, hp, hm, hn, ENum.add]
      · cases x <;> simp [ih, hp, hm, hn, ENum.add]
      · cases x <;> simp [ih, hp, hm, hn, ENum.add]
      · obtain ⟨qs, hl, hs⟩ := ih
        cases x with
        | fin q =>
          simp [hn, hp, hm]
          exact ⟨q :: qs, by rw [hl]; rfl, by rw [hs]; simp [ENum.add]⟩
        | pinf => simp [hn, hm, hs, ENum.add]
        | ninf => simp [hn, hp, hs, ENum.add]
        | nan => simp [hs, ENum.add]

theorem esum_filter (l : List ENum) : esum (l.map fun x => if x = .nan then .fin 0 else x) = esum (l.filter fun x => x ≠ .nan) := by
  induction l with
  | nil => rfl
  | cons x l ih =>
    rw [List.map_cons, List.filter_cons]
    by_cases hx : x = .nan
    · subst hx
      simp only [if_true, ne_eq, not_true_eq_false, decide_false, Bool.false_eq_true, if_false]
      rw [← ih]
      exact ENum.zero_add' _
    · rw [if_neg hx, if_pos (by simpa using hx)]
      show x.add (esum _) = x.add (esum _)
      rw [ih]

/-- **C196, `nansum`:** for every distribution, empty parts included, `nansum` is the sum of all elements that are numbers. -/
theorem nansum_spec (P : Nat) (d : Nat → List ENum) : SumIs ((content P d).filter fun x => x ≠ .nan) (nansumAll P d) := by
  have e : nansumAll P d = esum ((content P d).filter fun x => x ≠ .nan) := by
    unfold nansumAll
    rw [foldl_esum, ENum.zero_add']
    induction P with
    | zero => rfl
    | succ P ih =>
      rw [List.range_succ, List.map_append, esum_append, ih, content_succ, List.filter_append, esum_append]
      congr 1
      show (nansumLocal (d P)).add (.fin 0) = _
      rw [ENum.add_zero']
      unfold nansumLocal
      rw [foldl_esum, ENum.zero_add', esum_filter]
  rw [e]
  exact esum_spec _

theorem prod_fin (qs : List Rat) (a : Rat) : (qs.map ENum.fin).foldl ENum.mul (.fin a) = .fin (a * qs.prod) := by
  induction qs generalizing a with
  | nil => simp
  | cons q qs ih =>
    rw [List.map_cons, List.foldl_cons]
    show List.foldl ENum.mul (.fin (a * q)) _ = _
    rw [ih, List.prod_cons, mul_assoc]

/-- The value that `nan_to_num` gives to an element. -/
def numOf (big : Rat) : ENum → Rat
  | .nan => 1
  | .pinf => big
  | .ninf => -big
  | .fin q => q

theorem nanprod_eq (big : Rat) (P : Nat) (d : Nat → List ENum) : nanprodAll big P d = .fin (((content P d).map (numOf big)).prod) := by
  have loc : ∀ r, ((d r).map (nanToNum big 1)).foldl ENum.mul (.fin 1) = .fin (((d r).map (numOf big)).prod) := by
    intro r
    have : (d r).map (nanToNum big 1) = ((d r).map (numOf big)).map ENum.fin := by
      rw [List.map_map]
      exact List.map_congr_left fun x _ => by cases x <;> rfl
    rw [this, prod_fin, one_mul]
  unfold nanprodAll
  simp only [loc]
  induction P with
  | zero => rfl
  | succ P ih =>
    rw [List.range_succ, List.foldl_append, ih, content_succ, List.map_append, List.prod_append]
    rfl

/-- **C196, `nanprod`, partial:** for every distribution of an array without infinities `nanprod` is the product of all elements that are numbers.
Missing: infinities (`nanprod_violated`). -/
theorem nanprod_partial (big : Rat) (P : Nat) (d : Nat → List ENum) (h : ∀ x ∈ content P d, x ≠ .pinf ∧ x ≠ .ninf) :
    ∃ qs : List Rat, ((content P d).filter fun x => x ≠ .nan) = qs.map .fin ∧ nanprodAll big P d = .fin qs.prod := by
  rw [nanprod_eq]
  generalize content P d = l at h
  induction l with
  | nil => exact ⟨[], rfl, rfl⟩
  | cons x l ih =>
    obtain ⟨qs, e1, e2⟩ := ih fun y hy => h y (List.mem_cons_of_mem _ hy)
    rw [ENum.fin.injEq] at e2
    cases x with
    | fin q => exact ⟨q :: qs, by rw [List.filter_cons, if_pos (by simp), e1]; rfl, by rw [List.map_cons, List.prod_cons, List.prod_cons, e2]; rfl⟩
    | nan => exact ⟨qs, by rw [List.filter_cons, if_neg (by simp), e1], by rw [List.map_cons, List.prod_cons, e2]; simp [numOf]⟩
    | pinf => exact absurd rfl (h _ List.mem_cons_self).1
    | ninf => exact absurd rfl (h _ List.mem_cons_self).2

/-- **C196 violated:** an infinite element counts as the largest finite number of the type: with one infinity, and all other numbers of absolute value at most 1, the result is a finite number of absolute
value at most `big`, although a product with an infinite factor is infinite or not-a-number. -/
theorem nanprod_violated (big : Rat) (hb : 0 ≤ big) (P : Nat) (d : Nat → List ENum) (a b : List ENum) (x : ENum) (hx : x = .pinf ∨ x = .ninf) (hc : content P d = a ++ x :: b)
    (h : ∀ y ∈ a ++ b, y = .nan ∨ ∃ q, y = .fin q ∧ |q| ≤ 1) : ∃ q, nanprodAll big P d = .fin q ∧ |q| ≤ big := by
  rw [nanprod_eq]
  refine ⟨_, rfl, ?_⟩
  have one : ∀ l : List ENum, (∀ y ∈ l, y = .nan ∨ ∃ q, y = .fin q ∧ |q| ≤ 1) → |(l.map (numOf big)).prod| ≤ 1 := by
    intro l hl
    induction l with
    | nil => simp
    | cons y l ih =>
      rw [List.map_cons, List.prod_cons, abs_mul]
      have h1 := ih fun z hz => hl z (List.mem_cons_of_mem _ hz)
      have h2 : |numOf big y| ≤ 1 := by
        rcases hl y List.mem_cons_self with rfl | ⟨q, rfl, hq⟩
        · simp [numOf]
        · exact hq
      exact mul_le_one₀ h2 (abs_nonneg _) h1
  rw [hc, List.map_append, List.map_cons, List.prod_append, List.prod_cons, abs_mul, abs_mul]
  have ha := one a fun y hy => h y (List.mem_append_left _ hy)
  have hb' := one b fun y hy => h y (List.mem_append_right _ hy)
  have hxv : |numOf big x| = big := by
    rcases hx with rfl | rfl
    · exact abs_of_nonneg hb
    · show |-big| = big
      rw [abs_neg]; exact abs_of_nonneg hb
  rw [hxv]
  have h1 : big * |(b.map (numOf big)).prod| ≤ big * 1 := mul_le_mul_of_nonneg_left hb' hb
  have h2 : |(a.map (numOf big)).prod| * (big * |(b.map (numOf big)).prod|) ≤ 1 * (big * |(b.map (numOf big)).prod|) := mul_le_mul_of_nonneg_right ha (mul_nonneg hb (abs_nonneg _))
  linarith

/-- The product with an infinite factor is never finite. -/
theorem inf_mul_not_fin (x y : ENum) (h : x = .pinf ∨ x = .ninf) (q : Rat) : x.mul y ≠ .fin q ∧ y.mul x ≠ .fin q := by
  have key : ∀ b s, ENum.infMul b s ≠ .fin q := by
    intro b s
    unfold ENum.infMul
    split_ifs <;> simp
  rcases h with rfl | rfl <;> cases y <;> refine ⟨?_, ?_⟩ <;> first | exact key _ _ | simp [ENum.mul]

example : nanprodAll 100 2 (fun r => if r = 0 then [.pinf, .nan] else [.fin (1/2)]) = .fin 50 := by
  rw [nanprod_eq]; simp [content_succ, content_zero, numOf]; norm_num

example : nansumAll 3 (fun r => if r = 0 then [.fin 1, .nan] else if r = 1 then [] else [.fin 2]) = .fin 3 := by
  simp [nansumAll, nansumLocal, List.range_succ, ENum.add]; norm_num

end Heat
