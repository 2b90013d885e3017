import Verif.Model.Norm
import Verif.Props.Reduce
import Verif.Props.Pad
import Mathlib.Analysis.Matrix.Normed
import Mathlib.Analysis.Normed.Lp.PiLp
/-!
# C157: norms
-/
namespace Heat
open Heat.Spec
variable {α : Type}

/-! ## Axes -/

/-- The axis meant by the integer `a` for an array with `n` dimensions. -/
def Spec.axisOf (n : Nat) (a : Int) : Nat := (if a < 0 then a + n else a).toNat

/-- `a` names an axis of an array with `n` dimensions. -/
def Spec.IsAxis (n : Nat) (a : Int) : Prop := -(n : Int) ≤ a ∧ a < n

theorem sanitize_axisOf (n : Nat) (a : Int) (h : IsAxis n a) : sanitizeAxis n (some a) = .ok (some (axisOf n a)) := by
  obtain ⟨h1, h2⟩ := h
  unfold sanitizeAxis axisOf
  have hn : n ≠ 0 := by omega
  simp only [if_neg hn]
  by_cases ha : a < 0
  · rw [if_neg (by omega), if_pos ha, if_neg (by omega)]
  · rw [if_pos (by omega), if_neg ha]

theorem sanitize_eq_iff (n : Nat) (a : Int) (k : Nat) : sanitizeAxis n (some a) = .ok (some k) ↔ IsAxis n a ∧ axisOf n a = k := by
  constructor
  · intro h
    by_cases hv : IsAxis n a
    · rw [sanitize_axisOf n a hv] at h
      exact ⟨hv, by injection h with h; injection h⟩
    · exfalso
      unfold IsAxis at hv
      unfold sanitizeAxis at h
      by_cases hn : n = 0
      · simp [hn] at h
      · simp only [if_neg hn] at h
        by_cases ha : a < 0
        · rw [if_neg (by omega), if_pos ha, if_pos (by omega)] at h; cases h
        · rw [if_neg (by omega), if_neg ha, if_pos (by omega)] at h; cases h
  · rintro ⟨h, rfl⟩; exact sanitize_axisOf n a h

theorem axisOf_iff (m : Nat) (a : Int) (k : Nat) : (IsAxis m a ∧ axisOf m a = k) ↔ (k < m ∧ ((k : Int) = a ∨ (k : Int) = a + m ∧ a < 0)) := by
  unfold IsAxis axisOf
  by_cases h : a < 0
  · rw [if_pos h]; omega
  · rw [if_neg h]; omega

theorem axisOf_cases (m : Nat) (a : Int) (h : IsAxis m a) :
    axisOf m a < m ∧ ((0 ≤ a ∧ (axisOf m a : Int) = a) ∨ (a < 0 ∧ (axisOf m a : Int) = a + m)) := by
  unfold IsAxis at h
  unfold axisOf
  by_cases h' : a < 0
  · rw [if_pos h']; omega
  · rw [if_neg h']; omega

/-- The axes given to `matrix_norm` for which its second reduction goes along the axis meant by `c` (the first along `r`). -/
def Spec.GoodAxes (n : Nat) (r c : Int) (keep : Bool) : Prop :=
  keep = true ∨ (0 ≤ r ∧ 0 ≤ c) ∨ (0 ≤ r ∧ c < 0 ∧ r < n + c) ∨ (r < 0 ∧ 0 ≤ c ∧ ((n : Int) + r < c ∨ n = 2))

/-- Position of axis `c` after axis `r` has been removed. -/
def Spec.posAfter (r c : Nat) : Nat := if c < r then c else c - 1

/-- **C157.**  Exactly which pairs of axes are treated rightly without `keepdims`: the second reduction of `matrix_norm(x, axis=(r, c), ord=1)`
(for `ord=inf`: exchange `r` and `c`) goes along the axis meant iff the axes are both non-negative, or only the first is and lies before the
second, or only the second is and lies behind the first (or the array is a matrix). -/
theorem matrix_norm_axes (n : Nat) (r c : Int) (hr : IsAxis n r) (hc : IsAxis n c) (hne : axisOf n r ≠ axisOf n c) :
    sanitizeAxis (n - 1) (some (normAxes true r c false).2) = .ok (some (posAfter (axisOf n r) (axisOf n c))) ↔ GoodAxes n r c false := by
  rw [sanitize_eq_iff, axisOf_iff]
  have h1 := axisOf_cases n r hr
  have h2 := axisOf_cases n c hc
  have hx : (normAxes true r c false).2 = if c > r then c - 1 else c := by simp [normAxes]
  rw [hx]
  unfold GoodAxes posAfter
  have hn : (((n - 1 : Nat) : Int)) = n - 1 := by omega
  rw [hn]
  simp only [Bool.false_eq_true, false_or]
  generalize axisOf n r = R at *
  generalize axisOf n c = C at *
  by_cases h3 : c > r <;> by_cases h4 : C < R <;> simp only [h3, h4, if_true, if_false] <;> omega

/-! ## Values -/

/-- The index `j` with position `i` on axis `r` and position `k` on axis `c`. -/
def Spec.at2 (j : Nat → Nat) (r i c k : Nat) : Nat → Nat := fun m => if m = r then i else if m = c then k else j m

/-- `g` over axis `c` of the sums of absolute values over axis `r`, for the matrix at position `j` of the other axes: for `g = max` this is
the operator norm belonging to the sum of absolute values if `r` numbers the rows. -/
def Spec.absSums [AddGroup α] [Lattice α] (g : List α → α) (x : NArr α) (r c : Nat) (j : Nat → Nat) : α :=
  g ((List.range (x.dim c)).map fun k => ((List.range (x.dim r)).map fun i => |x.get (at2 j r i c k)|).sum)

/-- `y` has one value `v j` for each matrix of `x`, the axes `r` and `c` being removed or, with `keepdims`, of extent 1.  For a single matrix the
result has one axis of extent 1. -/
structure Spec.Reduced2 (x : NArr α) (r c : Nat) (keep : Bool) (v : (Nat → Nat) → α) (y : NArr α) : Prop where
  kept : keep = true → y.ndim = x.ndim ∧ (∀ k, y.dim k = if k = r ∨ k = c then 1 else x.dim k) ∧ ∀ j, y.get j = v j
  single : keep = false → x.ndim = 2 → y.ndim = 1 ∧ y.dim 0 = 1 ∧ ∀ i j, y.get i = v j
  batch : keep = false → x.ndim > 2 → y.ndim = x.ndim - 2 ∧ ∃ old : Nat → Nat, (∀ a b, a < b → old a < old b) ∧
    (∀ k < x.ndim - 2, old k < x.ndim ∧ old k ≠ r ∧ old k ≠ c ∧ y.dim k = x.dim (old k)) ∧ ∀ j, y.get (fun k => j (old k)) = v j

/-- The axis of the array that is axis `k` of the result after `r` and `c` have been removed. -/
def oldAxis (R C k : Nat) : Nat :=
  if (if k < posAfter R C then k else k + 1) < R then (if k < posAfter R C then k else k + 1) else (if k < posAfter R C then k else k + 1) + 1

theorem unReduce_old (R C k i m : Nat) (j : Nat → Nat) (hne : R ≠ C) :
    unReduce false R (unReduce false (posAfter R C) (fun q => j (oldAxis R C q)) k) i m = at2 j R i C k m := by
  unfold unReduce at2 oldAxis posAfter
  simp only [Bool.false_eq_true, if_false]
  by_cases h0 : C < R
  · simp only [if_pos h0]
    split_ifs <;> first | rfl | (congr 1; omega) | (exfalso; omega)
  · simp only [if_neg h0]
    split_ifs <;> first | rfl | (congr 1; omega) | (exfalso; omega)

theorem twoStep_spec [AddGroup α] [Lattice α] (g : List α → α) (x : NArr α) (hx : Local x) (hn : 2 ≤ x.ndim) (r c : Int) (keep : Bool)
    (hr : IsAxis x.ndim r) (hc : IsAxis x.ndim c) (hne : axisOf x.ndim r ≠ axisOf x.ndim c) (hg : GoodAxes x.ndim r c keep) :
    ∃ y, twoStep g x (normAxes true r c keep) keep = .ok y ∧
      Reduced2 x (axisOf x.ndim r) (axisOf x.ndim c) keep (absSums g x (axisOf x.ndim r) (axisOf x.ndim c)) y := by
  have hR := (axisOf_cases x.ndim r hr).1
  have hC := (axisOf_cases x.ndim c hc).1
  have e1 : (normAxes true r c keep).1 = r := rfl
  have hred : reduceH List.sum (x.mapE fun v => |v|) r keep = .ok (redAxis List.sum (x.mapE fun v => |v|) (axisOf x.ndim r) keep) := by
    unfold reduceH
    rw [show (x.mapE fun v => |v|).ndim = x.ndim from rfl, sanitize_axisOf _ _ hr]
  unfold twoStep
  rw [e1, hred]
  dsimp only
  cases keep with
  | true =>
    have e2 : (normAxes true r c true).2 = c := by simp [normAxes]
    have : reduceH g (redAxis List.sum (x.mapE fun v => |v|) (axisOf x.ndim r) true) c true =
        .ok (redAxis g (redAxis List.sum (x.mapE fun v => |v|) (axisOf x.ndim r) true) (axisOf x.ndim c) true) := by
      unfold reduceH
      rw [show (redAxis List.sum (x.mapE fun v => |v|) (axisOf x.ndim r) true).ndim = x.ndim from rfl, sanitize_axisOf _ _ hc]
    rw [e2, this]
    refine ⟨_, rfl, ⟨fun _ => ⟨rfl, ?_, ?_⟩, by simp, by simp⟩⟩
    · intro k
      simp only [redAxis, NArr.mapE, Bool.true_or, if_true]
      by_cases h1 : k = axisOf x.ndim c
      · rw [if_pos h1, if_pos (Or.inr h1)]
      · by_cases h2 : k = axisOf x.ndim r
        · rw [if_neg h1, if_pos h2, if_pos (Or.inl h2)]
        · rw [if_neg h1, if_neg h2, if_neg (by tauto)]
    · intro j
      have hd : (redAxis List.sum (x.mapE fun v => |v|) (axisOf x.ndim r) true).dim (axisOf x.ndim c) = x.dim (axisOf x.ndim c) := by
        simp only [redAxis, NArr.mapE, Bool.true_or, if_true]
        rw [if_neg (Ne.symm hne)]
      unfold absSums
      rw [redAxis]
      dsimp only
      rw [hd]
      rfl
  | false =>
    have hax := (matrix_norm_axes x.ndim r c hr hc hne).2 hg
    have hnd : (redAxis List.sum (x.mapE fun v => |v|) (axisOf x.ndim r) false).ndim = x.ndim - 1 := by
      simp only [redAxis, NArr.mapE, Bool.false_or]
      rw [if_neg (by simp; omega)]
    have : reduceH g (redAxis List.sum (x.mapE fun v => |v|) (axisOf x.ndim r) false) (normAxes true r c false).2 false =
        .ok (redAxis g (redAxis List.sum (x.mapE fun v => |v|) (axisOf x.ndim r) false) (posAfter (axisOf x.ndim r) (axisOf x.ndim c)) false) := by
      unfold reduceH
      rw [hnd, hax]
    rw [this]
    generalize axisOf x.ndim r = R at *
    generalize axisOf x.ndim c = C at *
    have hb : (x.ndim == 1) = false := by simp; omega
    refine ⟨_, rfl, ⟨by simp, ?_, ?_⟩⟩
    · intro _ h2
      have hp : posAfter R C = 0 := by unfold posAfter; split <;> omega
      rw [hp]
      have hd : (redAxis List.sum (x.mapE fun v => |v|) R false).dim 0 = x.dim C := by
        simp only [redAxis, NArr.mapE, Bool.false_or, hb]
        rw [if_neg (by simp)]
        split
        · congr 1; omega
        · congr 1; omega
      have hb1 : ((redAxis List.sum (x.mapE fun v => |v|) R false).ndim == 1) = true := by rw [hnd]; simp; omega
      refine ⟨?_, ?_, ?_⟩
      · rw [redAxis, hb1]; simp only [Bool.or_true, if_true]; rw [hnd]; omega
      · rw [redAxis, hb1]; simp
      · intro i j
        rw [redAxis, hb1]
        simp only [Bool.or_true]
        rw [hd]
        unfold absSums
        congr 1
        apply List.map_congr_left
        intro k hk
        simp only [redAxis, NArr.mapE, Bool.false_or, hb]
        congr 1
        apply List.map_congr_left
        intro i' hi'
        congr 1
        apply hx
        intro m hm
        simp only [unReduce, at2, if_true, if_false, Bool.false_eq_true]
        rcases (show (m < R ∧ m = C) ∨ m = R ∨ (m > R ∧ m = C) by omega) with ⟨h, h'⟩ | h | ⟨h, h'⟩
        · rw [if_pos h, if_pos (by omega), if_neg (by omega), if_pos h']
        · rw [if_neg (by omega), if_pos h, if_pos h]
        · rw [if_neg (by omega), if_neg (by omega), if_pos (by omega), if_neg (by omega), if_pos h']
    · intro _ h3
      have hb1 : ((redAxis List.sum (x.mapE fun v => |v|) R false).ndim == 1) = false := by rw [hnd]; simp; omega
      have hdim : ∀ k, (redAxis List.sum (x.mapE fun v => |v|) R false).dim k = if k < R then x.dim k else x.dim (k + 1) := by
        intro k
        simp only [redAxis, NArr.mapE, Bool.false_or, hb]
        rw [if_neg (by simp)]
      refine ⟨?_, oldAxis R C, ?_, ?_, ?_⟩
      · rw [redAxis, hb1]; simp only [Bool.false_or, Bool.false_eq_true, if_false]; rw [hnd]; omega
      · intro a b hab; unfold oldAxis posAfter; repeat' split
        all_goals omega
      · intro k hk
        refine ⟨?_, ?_, ?_, ?_⟩
        · unfold oldAxis posAfter; repeat' split
          all_goals omega
        · unfold oldAxis posAfter; repeat' split
          all_goals omega
        · unfold oldAxis posAfter; repeat' split
          all_goals omega
        · rw [redAxis, hb1]; simp only [Bool.false_or, Bool.false_eq_true, if_false]
          rw [hdim, hdim]
          unfold oldAxis
          by_cases h1 : k < posAfter R C
          · simp only [if_pos h1]; split <;> rfl
          · simp only [if_neg h1]; split <;> rfl
      · intro j
        rw [redAxis, hb1]
        simp only [Bool.or_false]
        rw [hdim]
        have hdC : (if posAfter R C < R then x.dim (posAfter R C) else x.dim (posAfter R C + 1)) = x.dim C := by
          unfold posAfter
          by_cases h1 : C < R
          · rw [if_pos h1, if_pos h1]
          · rw [if_neg h1, if_neg (by omega)]; congr 1; omega
        rw [hdC]
        unfold absSums
        congr 1
        apply List.map_congr_left
        intro k hk
        simp only [redAxis, NArr.mapE, Bool.false_or, hb]
        congr 1
        apply List.map_congr_left
        intro i' hi'
        congr 2
        funext m
        exact unReduce_old R C k i' m j hne

theorem normAxes_swap (r c : Int) (keep : Bool) : normAxes false r c keep = normAxes true c r keep := rfl

/-- **C157.**  Matrix norms by absolute sums, for every array of two or more dimensions and every position of the other axes, provided the axes
are among those treated rightly (`GoodAxes`, all axes if `keepdims`): `ord=1` is the largest and `ord=-1` the smallest sum over axis `r`,
`ord=inf` and `ord=-inf` those over axis `c`. -/
theorem matrix_norm_partial [AddGroup α] [LinearOrder α] (sq rt : α → α) (x : NArr α) (hx : Local x) (hn : 2 ≤ x.ndim) (r c : Int) (keep : Bool)
    (hr : IsAxis x.ndim r) (hc : IsAxis x.ndim c) (hne : axisOf x.ndim r ≠ axisOf x.ndim c) :
    (GoodAxes x.ndim r c keep → (∃ y, matrixNorm sq rt x (some [r, c]) keep .one = .ok y ∧
        Reduced2 x (axisOf x.ndim r) (axisOf x.ndim c) keep (absSums lmax x (axisOf x.ndim r) (axisOf x.ndim c)) y) ∧
      ∃ y, matrixNorm sq rt x (some [r, c]) keep .negOne = .ok y ∧
        Reduced2 x (axisOf x.ndim r) (axisOf x.ndim c) keep (absSums lmin x (axisOf x.ndim r) (axisOf x.ndim c)) y) ∧
    (GoodAxes x.ndim c r keep → (∃ y, matrixNorm sq rt x (some [r, c]) keep .inf = .ok y ∧
        Reduced2 x (axisOf x.ndim c) (axisOf x.ndim r) keep (absSums lmax x (axisOf x.ndim c) (axisOf x.ndim r)) y) ∧
      ∃ y, matrixNorm sq rt x (some [r, c]) keep .negInf = .ok y ∧
        Reduced2 x (axisOf x.ndim c) (axisOf x.ndim r) keep (absSums lmin x (axisOf x.ndim c) (axisOf x.ndim r)) y) := by
  have h0 : ¬ x.ndim < 2 := by omega
  refine ⟨fun hg => ⟨?_, ?_⟩, fun hg => ⟨?_, ?_⟩⟩ <;> unfold matrixNorm <;>
    rw [if_neg h0, if_neg (by simp)] <;> dsimp only [Option.getD]
  · exact twoStep_spec lmax x hx hn r c keep hr hc hne hg
  · exact twoStep_spec lmin x hx hn r c keep hr hc hne hg
  · rw [normAxes_swap]; exact twoStep_spec lmax x hx hn c r keep hc hr (Ne.symm hne) hg
  · rw [normAxes_swap]; exact twoStep_spec lmin x hx hn c r keep hc hr (Ne.symm hne) hg

/-- Both axes counted from the end: never right without `keepdims`. -/
theorem matrix_norm_negative (n : Nat) (r c : Int) (hr : r < 0) (hc : c < 0) : ¬ GoodAxes n r c false := by
  unfold GoodAxes; simp; omega

/-- **C157 is false** for axes counted from the end: for the stack of the two matrices `[[1, 2], [3, 4]]` and `[[5, 6], [7, 8]]`, the column sum
norms are 6 and 14.  `matrix_norm(x, axis=(-2, -1), ord=1)` returns the maximum over the two matrices, 12 and 14; for a single matrix it raises
ValueError.  `axis=(0, 0)` is accepted. -/
theorem matrix_norm_violated :
    (let x : NArr Int := ⟨3, fun _ => 2, fun i => 4 * i 0 + 2 * i 1 + i 2 + 1⟩
     (matrixNorm id id x (some [1, 2]) false .one).map (fun y => (y.shape, y.get fun _ => 0, y.get fun _ => 1)) = .ok ([2], 6, 14) ∧
     (matrixNorm id id x (some [-2, -1]) false .one).map (fun y => (y.shape, y.get fun _ => 0, y.get fun _ => 1)) = .ok ([2], 12, 14)) ∧
    (let x : NArr Int := ⟨2, fun _ => 2, fun i => 2 * i 0 + i 1 + 1⟩
     (matrixNorm id id x (some [-2, -1]) false .one).map (fun y => y.get fun _ => 0) = .error .valueError ∧
     (matrixNorm id id x none false .one).map (fun y => y.get fun _ => 0) = .ok 6 ∧
     (matrixNorm id id x (some [0, 0]) false .one).map (fun y => y.get fun _ => 0) = .ok 6) := by decide +kernel

/-- What is not offered is refused: 2, -2 and 'nuc' (NotImplementedError), unknown orders, vectors, missing axes (ValueError), a number of axes
other than two (TypeError). -/
theorem matrix_norm_refused [AddGroup α] [LinearOrder α] (sq rt : α → α) (x : NArr α) (axis : Option (List Int)) (keep : Bool) (ord : MOrd) :
    (x.ndim < 2 → matrixNorm sq rt x axis keep ord = .error .valueError) ∧
    (2 < x.ndim → matrixNorm sq rt x none keep ord = .error .valueError) ∧
    (2 ≤ x.ndim → ∀ l, l.length ≠ 2 → matrixNorm sq rt x (some l) keep ord = .error .typeError) ∧
    (2 ≤ x.ndim → ∀ r c, ord = .two ∨ ord = .negTwo ∨ ord = .nuc → matrixNorm sq rt x (some [r, c]) keep ord = .error .notImplemented) ∧
    (2 ≤ x.ndim → ∀ r c, ord = .other → matrixNorm sq rt x (some [r, c]) keep ord = .error .valueError) ∧
    (x.ndim = 2 → matrixNorm sq rt x none keep ord = matrixNorm sq rt x (some [0, 1]) keep ord) := by
  unfold matrixNorm
  refine ⟨fun h => if_pos h, fun h => ?_, fun h l hl => ?_, fun h r c ho => ?_, fun h r c ho => ?_, fun h => ?_⟩
  · rw [if_neg (by omega), if_pos ⟨rfl, h⟩]
  · rw [if_neg (by omega), if_neg (by simp)]
    rcases l with _ | ⟨a, _ | ⟨b, _ | ⟨c, l⟩⟩⟩ <;> simp at hl <;> rfl
  · rw [if_neg (by omega), if_neg (by simp)]
    rcases ho with rfl | rfl | rfl <;> rfl
  · rw [if_neg (by omega), if_neg (by simp)]
    subst ho; rfl
  · rw [if_neg (by omega), if_neg (by omega), if_neg (by omega), if_neg (by simp)]; rfl

/-! ## The Frobenius norm -/

/-- The sum over both axes of `f` of the elements. -/
def Spec.allSum [AddGroup α] (f : α → α) (x : NArr α) (r c : Nat) (j : Nat → Nat) : α :=
  ((List.range (x.dim c)).map fun k => ((List.range (x.dim r)).map fun i => f (x.get (at2 j r i c k))).sum).sum

theorem sanitizeAxes_two (n : Nat) (r c : Int) (hr : IsAxis n r) (hc : IsAxis n c) :
    sanitizeAxes n [r, c] = .ok (some [axisOf n r, axisOf n c]) := by
  obtain ⟨r1, r2⟩ := hr
  obtain ⟨c1, c2⟩ := hc
  unfold sanitizeAxes axisOf
  rw [if_neg (by omega)]
  have : (([r, c].map fun dim => if dim < 0 then dim + (n : Int) else dim).any fun dim => dim < 0 || dim ≥ (n : Int)) = false := by
    simp only [List.map_cons, List.map_nil, List.any_cons, List.any_nil, Bool.or_false, Bool.or_eq_false_iff, decide_eq_false_iff_not]
    refine ⟨⟨?_, ?_⟩, ?_, ?_⟩ <;> split <;> omega
  dsimp only
  rw [this]; rfl

/-- **C157.**  The Frobenius norm (`ord=None` or `'fro'`) is the root of the sum of the squares, for all axes, also those counted from the end. -/
theorem matrix_norm_fro [AddGroup α] [LinearOrder α] (sq rt : α → α) (x : NArr α) (hx : Local x) (hn : 2 ≤ x.ndim) (r c : Int) (keep : Bool)
    (hr : IsAxis x.ndim r) (hc : IsAxis x.ndim c) (hne : axisOf x.ndim r ≠ axisOf x.ndim c) :
    ∃ y, matrixNorm sq rt x (some [r, c]) keep .fro = .ok y ∧
      (keep = true → y.ndim = x.ndim ∧ (∀ k, y.dim k = if k = axisOf x.ndim r ∨ k = axisOf x.ndim c then 1 else x.dim k) ∧
        ∀ j, y.get j = rt (allSum sq x (axisOf x.ndim r) (axisOf x.ndim c) j)) ∧
      (keep = false → y.ndim = x.ndim - 2 ∧ ∃ old : Nat → Nat, (∀ a b, a < b → b < x.ndim - 2 → old a < old b) ∧
        (∀ k < x.ndim - 2, old k < x.ndim ∧ old k ≠ axisOf x.ndim r ∧ old k ≠ axisOf x.ndim c ∧ y.dim k = x.dim (old k)) ∧
        ∀ j, y.get (fun k => j (old k)) = rt (allSum sq x (axisOf x.ndim r) (axisOf x.ndim c) j)) := by
  have h0 : ¬ x.ndim < 2 := by omega
  unfold matrixNorm
  rw [if_neg h0, if_neg (by simp)]
  dsimp only [Option.getD]
  rw [sanitizeAxes_two _ _ _ hr hc]
  dsimp only
  have hR := (axisOf_cases x.ndim r hr).1
  have hC := (axisOf_cases x.ndim c hc).1
  generalize axisOf x.ndim r = R at *
  generalize axisOf x.ndim c = C at *
  refine ⟨_, rfl, ?_, ?_⟩
  · intro hk
    subst hk
    refine ⟨rfl, ?_, ?_⟩
    · intro k
      simp only [sumAxes, NArr.mapE, List.foldl, redAxis, Bool.true_or, if_true]
      by_cases h1 : k = C
      · rw [if_pos h1, if_pos (Or.inr h1)]
      · by_cases h2 : k = R
        · rw [if_neg h1, if_pos h2, if_pos (Or.inl h2)]
        · rw [if_neg h1, if_neg h2, if_neg (by tauto)]
    · intro j
      simp only [sumAxes, NArr.mapE, List.foldl, redAxis, Bool.true_or, if_true, allSum]
      rw [if_neg (Ne.symm hne)]
      rfl
  · intro hk
    subst hk
    have hb : (x.ndim == 1) = false := by simp; omega
    have e : sumAxes (x.mapE sq) [R, C] false = (redAxis List.sum (redAxis List.sum (x.mapE sq) R true) C true).dropAxes [R, C] := by
      unfold sumAxes
      rw [show (x.mapE sq).ndim = x.ndim from rfl, hb]
      rfl
    rw [e]
    set keepL := (List.range x.ndim).filter fun k => k ∉ [R, C] with hkeep
    have hlen : keepL.length = x.ndim - 2 := by
      have h1 : keepL.toFinset = (Finset.range x.ndim) \ {R, C} := by
        ext m; simp [hkeep]
      have h2 : keepL.Nodup := List.nodup_range.filter _
      rw [← List.toFinset_card_of_nodup h2, h1, Finset.card_sdiff_of_subset, Finset.card_range, Finset.card_pair hne]
      intro m hm
      simp at hm ⊢
      rcases hm with rfl | rfl <;> assumption
    have hnod : keepL.Nodup := List.nodup_range.filter _
    have hsort : keepL.Pairwise (· < ·) := List.pairwise_lt_range.filter _
    have hmem : ∀ k, k < x.ndim - 2 → keepL.getD k 0 ∈ keepL := by
      intro k hk
      rw [List.getD_eq_getElem?_getD, List.getElem?_eq_getElem (by omega)]
      exact List.getElem_mem _
    refine ⟨hlen, fun k => keepL.getD k 0, ?_, ?_, ?_⟩
    · intro a b hab hb'
      simp only [List.getD_eq_getElem?_getD]
      rw [List.getElem?_eq_getElem (by omega), List.getElem?_eq_getElem (by omega)]
      exact List.pairwise_iff_getElem.1 hsort a b (by omega) (by omega) hab
    · intro k hk
      have hm := hmem k hk
      have hm' : keepL.getD k 0 < x.ndim ∧ keepL.getD k 0 ≠ R ∧ keepL.getD k 0 ≠ C := by
        rw [hkeep, List.mem_filter] at hm
        rw [hkeep]
        simpa using hm
      refine ⟨hm'.1, hm'.2.1, hm'.2.2, ?_⟩
      show (redAxis List.sum (redAxis List.sum (x.mapE sq) R true) C true).dim (keepL.getD k 0) = _
      simp only [redAxis, NArr.mapE, Bool.true_or, if_true]
      rw [if_neg hm'.2.2, if_neg hm'.2.1]
    · intro j
      show rt ((redAxis List.sum (redAxis List.sum (x.mapE sq) R true) C true).get fun m => if m ∈ [R, C] then 0 else j (keepL.getD (keepL.idxOf m) 0)) = _
      congr 1
      simp only [NArr.mapE, redAxis, Bool.true_or, if_true, allSum]
      rw [if_neg (Ne.symm hne)]
      congr 1
      apply List.map_congr_left
      intro k _
      congr 1
      apply List.map_congr_left
      intro i _
      congr 1
      apply hx
      intro m hm
      simp only [unReduce, at2, if_true]
      by_cases h1 : m = R
      · rw [if_pos h1, if_pos h1]
      · by_cases h2 : m = C
        · rw [if_neg h1, if_pos h2, if_neg h1, if_pos h2]
        · rw [if_neg h1, if_neg h2, if_neg h1, if_neg h2, if_neg (by simp [h1, h2])]
          have hm' : m ∈ keepL := by simp [hkeep, hm, h1, h2]
          congr 1
          rw [List.getD_eq_getElem?_getD, List.getElem?_eq_getElem (List.idxOf_lt_length_iff.2 hm')]
          simp

/-! ## The norms of analysis -/

theorem foldl_max_lmax {β : Type} [LinearOrder β] (l : List β) (x : β) : (l.foldl max x) ∈ x :: l ∧ ∀ y ∈ x :: l, y ≤ l.foldl max x := by
  induction l generalizing x with
  | nil => simp
  | cons a l ih =>
    obtain ⟨h1, h2⟩ := ih (max x a)
    rw [List.foldl_cons]
    refine ⟨?_, ?_⟩
    · rcases List.mem_cons.1 h1 with h | h
      · rw [h]
        rcases max_choice x a with h' | h' <;> rw [h'] <;> simp
      · exact List.mem_cons_of_mem _ (List.mem_cons_of_mem _ h)
    · intro y hy
      rcases List.mem_cons.1 hy with rfl | hy
      · exact le_trans (le_max_left _ _) (h2 _ List.mem_cons_self)
      · rcases List.mem_cons.1 hy with rfl | hy
        · exact le_trans (le_max_right _ _) (h2 _ List.mem_cons_self)
        · exact h2 _ (List.mem_cons_of_mem _ hy)

theorem lmax_spec {β : Type} [LinearOrder β] [Zero β] (l : List β) (h : l ≠ []) : lmax l ∈ l ∧ ∀ y ∈ l, y ≤ lmax l := by
  cases l with
  | nil => exact absurd rfl h
  | cons x l => exact foldl_max_lmax l x

theorem lmax_unique {β : Type} [LinearOrder β] [Zero β] (l : List β) (v : β) (h1 : v ∈ l) (h2 : ∀ y ∈ l, y ≤ v) : lmax l = v := by
  obtain ⟨a, b⟩ := lmax_spec l (List.ne_nil_of_mem h1)
  exact le_antisymm (h2 _ a) (b _ h1)

/-- A matrix as an array. -/
def Spec.ofMatrix {m n : Nat} (A : Matrix (Fin m) (Fin n) Real) : NArr Real :=
  ⟨2, fun k => if k = 0 then m else n, fun i => if h : i 0 < m ∧ i 1 < n then A ⟨i 0, h.1⟩ ⟨i 1, h.2⟩ else 0⟩

theorem ofMatrix_local {m n : Nat} (A : Matrix (Fin m) (Fin n) Real) : Local (ofMatrix A) := by
  intro i j h
  have h0 : i 0 = j 0 := h 0 (by simp [ofMatrix])
  have h1 : i 1 = j 1 := h 1 (by simp [ofMatrix])
  simp only [ofMatrix, h0, h1]

theorem range_sum_fin (n : Nat) (f : Nat → Real) : ((List.range n).map f).sum = ∑ k : Fin n, f k := by
  induction n with
  | zero => simp
  | succ n ih => rw [List.range_succ, List.map_append, List.sum_append, ih, Fin.sum_univ_castSucc]; simp

theorem linfty_of_max {m n : Nat} (A : Matrix (Fin m) (Fin n) Real) (hm : 0 < m) (l : List Real)
    (hl : l = (List.range m).map fun i => ∑ k : Fin n, |if h : i < m then A ⟨i, h⟩ k else 0|) :
    lmax l = @norm _ (Matrix.linftyOpNormedAddCommGroup (m := Fin m) (n := Fin n) (α := Real)).toNorm A := by
  rw [Matrix.linfty_opNorm_def]
  have : Nonempty (Fin m) := ⟨⟨0, hm⟩⟩
  have hne : (Finset.univ : Finset (Fin m)).Nonempty := Finset.univ_nonempty
  obtain ⟨i, _, hi⟩ := Finset.exists_mem_eq_sup _ hne (fun i : Fin m => ∑ j : Fin n, ‖A i j‖₊)
  apply lmax_unique
  · rw [hi, hl, List.mem_map]
    refine ⟨i, by simp, ?_⟩
    push_cast
    simp
  · intro y hy
    rw [hl, List.mem_map] at hy
    obtain ⟨q, hq, rfl⟩ := hy
    rw [List.mem_range] at hq
    have := Finset.le_sup (f := fun i : Fin m => ∑ j : Fin n, ‖A i j‖₊) (Finset.mem_univ (⟨q, hq⟩ : Fin m))
    have h2 : ((∑ j : Fin n, ‖A ⟨q, hq⟩ j‖₊ : NNReal) : Real) ≤ _ := NNReal.coe_le_coe.2 this
    refine le_trans (le_of_eq ?_) h2
    push_cast
    simp [hq]

/-- **C157.**  For a matrix with at least one element the results are the norms of analysis: `ord=inf` is the norm of the matrix as an operator
for the maximum norm, `ord=1` that of the transposed matrix, and `ord=None` or `'fro'` the Frobenius norm; any `keepdims`. -/
theorem matrix_norm_analysis {m n : Nat} (hm : 0 < m) (hn : 0 < n) (A : Matrix (Fin m) (Fin n) Real) (keep : Bool) :
    (∃ y, matrixNorm (fun v => v * v) Real.sqrt (ofMatrix A) none keep .inf = .ok y ∧
      ∀ i, y.get i = @norm _ (Matrix.linftyOpNormedAddCommGroup (m := Fin m) (n := Fin n) (α := Real)).toNorm A) ∧
    (∃ y, matrixNorm (fun v => v * v) Real.sqrt (ofMatrix A) none keep .one = .ok y ∧
      ∀ i, y.get i = @norm _ (Matrix.linftyOpNormedAddCommGroup (m := Fin n) (n := Fin m) (α := Real)).toNorm A.transpose) ∧
    (∃ y, matrixNorm (fun v => v * v) Real.sqrt (ofMatrix A) none keep .fro = .ok y ∧
      ∀ i, y.get i = @norm _ (Matrix.frobeniusNormedAddCommGroup (m := Fin m) (n := Fin n) (α := Real)).toNorm A) := by
  have hR := (matrix_norm_refused (fun v => v * v) Real.sqrt (ofMatrix A) none keep)
  have hnd : (ofMatrix A).ndim = 2 := rfl
  have a0 : axisOf (ofMatrix A).ndim 0 = 0 := rfl
  have a1 : axisOf (ofMatrix A).ndim 1 = 1 := rfl
  have i0 : IsAxis (ofMatrix A).ndim 0 := by rw [hnd]; unfold IsAxis; omega
  have i1 : IsAxis (ofMatrix A).ndim 1 := by rw [hnd]; unfold IsAxis; omega
  have g01 : GoodAxes (ofMatrix A).ndim 0 1 keep := Or.inr (Or.inl ⟨by omega, by omega⟩)
  have g10 : GoodAxes (ofMatrix A).ndim 1 0 keep := Or.inr (Or.inl ⟨by omega, by omega⟩)
  have key := matrix_norm_partial (fun v => v * v) Real.sqrt (ofMatrix A) (ofMatrix_local A) (by rw [hnd]) 0 1 keep i0 i1 (by rw [a0, a1]; omega)
  have d0 : (ofMatrix A).dim 0 = m := rfl
  have d1 : (ofMatrix A).dim 1 = n := rfl
  refine ⟨?_, ?_, ?_⟩
  · obtain ⟨y, hy, hred⟩ := (key.2 g10).1
    rw [((hR .inf).2.2.2.2.2 rfl)]
    refine ⟨y, hy, fun i => ?_⟩
    have : y.get i = absSums lmax (ofMatrix A) 1 0 i := by
      cases keep with
      | true => exact (hred.kept rfl).2.2 i
      | false => exact (hred.single rfl rfl).2.2 i i
    rw [this]
    unfold absSums
    rw [d0, d1]
    apply linfty_of_max A hm
    apply List.map_congr_left
    intro q hq
    rw [List.mem_range] at hq
    rw [range_sum_fin]
    apply Finset.sum_congr rfl
    intro k _
    simp [ofMatrix, at2, hq, k.2]
  · obtain ⟨y, hy, hred⟩ := (key.1 g01).1
    rw [((hR .one).2.2.2.2.2 rfl)]
    refine ⟨y, hy, fun i => ?_⟩
    have : y.get i = absSums lmax (ofMatrix A) 0 1 i := by
      cases keep with
      | true => exact (hred.kept rfl).2.2 i
      | false => exact (hred.single rfl rfl).2.2 i i
    rw [this]
    unfold absSums
    rw [d0, d1]
    apply linfty_of_max A.transpose hn
    apply List.map_congr_left
    intro q hq
    rw [List.mem_range] at hq
    rw [range_sum_fin]
    apply Finset.sum_congr rfl
    intro k _
    simp [ofMatrix, at2, hq, k.2]
  · obtain ⟨y, hy, hk, hnk⟩ := matrix_norm_fro (fun v => v * v) Real.sqrt (ofMatrix A) (ofMatrix_local A) (by rw [hnd]) 0 1 keep i0 i1
      (by rw [a0, a1]; omega)
    rw [((hR .fro).2.2.2.2.2 rfl)]
    refine ⟨y, hy, fun i => ?_⟩
    have hval : ∀ j, Real.sqrt (allSum (fun v => v * v) (ofMatrix A) 0 1 j) =
        @norm _ (Matrix.frobeniusNormedAddCommGroup (m := Fin m) (n := Fin n) (α := Real)).toNorm A := by
      intro j
      rw [Matrix.frobenius_norm_def, ← Real.sqrt_eq_rpow]
      congr 1
      unfold allSum
      rw [d0, d1, range_sum_fin, Finset.sum_comm]
      apply Finset.sum_congr rfl
      intro k _
      rw [range_sum_fin]
      apply Finset.sum_congr rfl
      intro q _
      simp [ofMatrix, at2, k.2, q.2, sq]
    cases keep with
    | true => rw [(hk rfl).2.2 i]; exact hval i
    | false =>
      obtain ⟨_, old, _, _, h⟩ := hnk rfl
      have hc : y.get i = y.get (fun k => (fun _ => 0) (old k)) := by
        have : matrixNorm (fun v => v * v) Real.sqrt (ofMatrix A) (some [0, 1]) false .fro = .ok y := hy
        unfold matrixNorm at this
        rw [if_neg (by rw [hnd]; omega), if_neg (by simp)] at this
        dsimp only [Option.getD] at this
        rw [sanitizeAxes_two _ _ _ i0 i1] at this
        injection this with this
        rw [← this]
        rfl
      rw [hc]; exact (h fun _ => 0).trans (hval _)

/-! ## Vectors -/

theorem reduce_sum_real (P : Nat) (d : Nat → List Real) (v : Real) (hv : ReduceResult (· + ·) id 0 P d v) : v = (content P d).sum := by
  have h := reduce_spec (· + ·) add_assoc add_comm id (0 : Real) P d (by simp) (by simp) v hv
  by_cases hne : content P d = []
  · rw [h.2 hne, hne]; rfl
  · have h' := h.1 hne
    rw [List.map_id] at h'
    have : ∀ l : List Real, l ≠ [] → Spec.reduceList (· + ·) l = some l.sum := by
      intro l hl
      induction l with
      | nil => exact absurd rfl hl
      | cons x xs ih =>
        show oadd _ (some x) (reduceList _ xs) = _
        cases xs with
        | nil => simp [reduceList, oadd]
        | cons y ys => rw [ih (by simp)]; simp [oadd]
    rw [this _ hne] at h'
    exact (Option.some.inj h').symm

theorem reduceList_lmax {β : Type} [LinearOrder β] [Zero β] (l : List β) (hl : l ≠ []) : Spec.reduceList max l = some (lmax l) := by
  cases l with
  | nil => exact absurd rfl hl
  | cons x l => exact (foldl_reduceList max_assoc l x).symm

theorem reduceList_lmin {β : Type} [LinearOrder β] [Zero β] (l : List β) (hl : l ≠ []) : Spec.reduceList min l = some (lmin l) := by
  cases l with
  | nil => exact absurd rfl hl
  | cons x l => exact (foldl_reduceList min_assoc l x).symm

theorem reduce_max_real (P : Nat) (d : Nat → List Real) (low v : Real) (hne : content P d ≠ []) (hlow : ∀ x ∈ content P d, low ≤ x)
    (hv : ReduceResult max id low P d v) : v = lmax (content P d) := by
  have h := (reduce_spec max max_assoc max_comm id low P d (by simp) (fun x hx => max_eq_right (hlow x hx)) v hv).1 hne
  rw [List.map_id, reduceList_lmax _ hne] at h
  exact (Option.some.inj h).symm

theorem reduce_min_real (P : Nat) (d : Nat → List Real) (high v : Real) (hne : content P d ≠ []) (hhigh : ∀ x ∈ content P d, x ≤ high)
    (hv : ReduceResult min id high P d v) : v = lmin (content P d) := by
  have h := (reduce_spec min min_assoc min_comm id high P d (by simp) (fun x hx => min_eq_right (hhigh x hx)) v hv).1 hne
  rw [List.map_id, reduceList_lmin _ hne] at h
  exact (Option.some.inj h).symm

theorem foldl_min_spec {β : Type} [LinearOrder β] (l : List β) (x : β) : (l.foldl min x) ∈ x :: l ∧ ∀ y ∈ x :: l, l.foldl min x ≤ y := by
  induction l generalizing x with
  | nil => simp
  | cons a l ih =>
    obtain ⟨h1, h2⟩ := ih (min x a)
    rw [List.foldl_cons]
    refine ⟨?_, ?_⟩
    · rcases List.mem_cons.1 h1 with h | h
      · rw [h]
        rcases min_choice x a with h' | h' <;> rw [h'] <;> simp
      · exact List.mem_cons_of_mem _ (List.mem_cons_of_mem _ h)
    · intro y hy
      rcases List.mem_cons.1 hy with rfl | hy
      · exact le_trans (h2 _ List.mem_cons_self) (min_le_left _ _)
      · rcases List.mem_cons.1 hy with rfl | hy
        · exact le_trans (h2 _ List.mem_cons_self) (min_le_right _ _)
        · exact h2 _ (List.mem_cons_of_mem _ hy)

theorem lmin_spec {β : Type} [LinearOrder β] [Zero β] (l : List β) (h : l ≠ []) : lmin l ∈ l ∧ ∀ y ∈ l, lmin l ≤ y := by
  cases l with
  | nil => exact absurd rfl h
  | cons x l => exact foldl_min_spec l x

theorem ofFn_map_sum {n : Nat} (x : Fin n → Real) (f : Real → Real) : ((List.ofFn x).map f).sum = ∑ i, f (x i) := by
  rw [List.map_ofFn, List.sum_ofFn]; rfl

/-- **C157.**  Vector norms for every vector, number of processes and distribution, with or without empty processes, and for every order in which
MPI combines the contributions: `ord=1`, `2` (or None) and `p ≥ 1` are the p-norms of analysis; `ord=0` counts the elements that are not zero;
other exponents give the formula of the documentation. -/
theorem vector_norm_sum {n : Nat} (x : Fin n → Real) (big : Real) (P : Nat) (d : Nat → List Real) (hd : content P d = List.ofFn x) (v : Real) :
    (VNorm big .one P d v → v = ‖WithLp.toLp 1 x‖) ∧
    (VNorm big .two P d v → v = ‖WithLp.toLp 2 x‖) ∧
    (VNorm big .zero P d v → v = (Finset.univ.filter fun i => x i ≠ 0).card) ∧
    (∀ q, VNorm big (.p q) P d v → v = (∑ i, |x i| ^ q) ^ (1 / q)) ∧
    (∀ q : Real, 1 ≤ q → VNorm big (.p q) P d v → v = ‖WithLp.toLp (ENNReal.ofReal q) x‖) := by
  have hp : ∀ q, VNorm big (.p q) P d v → v = (∑ i, |x i| ^ q) ^ (1 / q) := by
    rintro q ⟨s, hs, rfl⟩
    rw [reduce_sum_real _ _ _ hs, content_map_fun, hd, ofFn_map_sum]
  refine ⟨fun h => ?_, ?_, fun h => ?_, hp, fun q hq h => ?_⟩
  · rw [reduce_sum_real _ _ _ h, content_map_fun, hd, ofFn_map_sum, PiLp.norm_eq_of_L1]; rfl
  · rintro ⟨s, hs, rfl⟩
    rw [reduce_sum_real _ _ _ hs, content_map_fun, hd, ofFn_map_sum, PiLp.norm_eq_of_L2]
    congr 1
    apply Finset.sum_congr rfl
    intro i _
    simp [sq]
  · rw [reduce_sum_real _ _ _ h, content_map_fun, hd, ofFn_map_sum, Finset.card_filter]
    push_cast
    apply Finset.sum_congr rfl
    intro i _
    by_cases h0 : x i = 0 <;> simp [h0]
  · have hq' : (ENNReal.ofReal q).toReal = q := ENNReal.toReal_ofReal (by linarith)
    rw [hp q h, PiLp.norm_eq_sum (by rw [hq']; linarith), hq']
    rfl

/-- **C157.**  `ord=inf` and `ord=-inf` are the largest and the smallest absolute value; the former is the maximum norm of analysis. -/
theorem vector_norm_max {n : Nat} (hn : 0 < n) (x : Fin n → Real) (big : Real) (hbig : ∀ i, |x i| ≤ big) (P : Nat) (d : Nat → List Real)
    (hd : content P d = List.ofFn x) (v : Real) :
    (VNorm big .inf P d v → v = ‖x‖) ∧ (VNorm big .negInf P d v → (∃ i, v = |x i|) ∧ ∀ i, v ≤ |x i|) := by
  have hc : content P (fun r => (d r).map fun x => |x|) = (List.ofFn x).map fun x => |x| := by rw [content_map_fun, hd]
  have hne : (List.ofFn x).map (fun x => |x|) ≠ [] := by
    intro h; have := congrArg List.length h; simp at this; omega
  have : Nonempty (Fin n) := ⟨⟨0, hn⟩⟩
  constructor
  · intro h
    have h1 := reduce_max_real P _ _ _ (by rw [hc]; exact hne) (by
      rw [hc]; intro y hy
      obtain ⟨z, hz, rfl⟩ := List.mem_map.1 hy
      have := hbig ⟨0, hn⟩
      have h0 := abs_nonneg (x ⟨0, hn⟩)
      have h2 := abs_nonneg z
      linarith) h
    rw [h1, hc]
    obtain ⟨i, hi⟩ := (Finset.exists_max_image (Finset.univ : Finset (Fin n)) (fun i => |x i|) Finset.univ_nonempty)
    have hx : ‖x‖ = |x i| := by
      apply le_antisymm
      · exact (pi_norm_le_iff_of_nonneg (abs_nonneg _)).2 fun j => hi.2 j (Finset.mem_univ _)
      · exact norm_le_pi_norm x i
    rw [hx]
    apply lmax_unique
    · exact List.mem_map.2 ⟨x i, by simp, rfl⟩
    · intro y hy
      obtain ⟨z, hz, rfl⟩ := List.mem_map.1 hy
      obtain ⟨j, rfl⟩ := (List.mem_ofFn' _ _).1 hz
      exact hi.2 j (Finset.mem_univ _)
  · intro h
    have h1 := reduce_min_real P _ _ _ (by rw [hc]; exact hne) (by
      rw [hc]; intro y hy
      obtain ⟨z, hz, rfl⟩ := List.mem_map.1 hy
      obtain ⟨j, rfl⟩ := (List.mem_ofFn' _ _).1 hz
      exact hbig j) h
    rw [hc] at h1
    obtain ⟨h2, h3⟩ := lmin_spec _ hne
    rw [← h1] at h2 h3
    constructor
    · obtain ⟨z, hz, he⟩ := List.mem_map.1 h2
      obtain ⟨j, rfl⟩ := (List.mem_ofFn' _ _).1 hz
      exact ⟨j, he.symm⟩
    · intro i
      exact h3 _ (List.mem_map.2 ⟨x i, by simp, rfl⟩)

/-- Three elements on two of three processes. -/
example : content 3 (fun r => ([[3, -4], [], [12]] : List (List Real)).getD r []) = List.ofFn ![3, -4, 12] ∧
    VNorm 100 .one 3 (fun r => ([[3, -4], [], [12]] : List (List Real)).getD r []) 19 := by
  constructor
  · simp [content, List.range_succ]
  · have : ReduceResult (· + ·) id (0 : Real) 3 (fun r => (([[3, -4], [], [12]] : List (List Real)).getD r []).map fun x => |x|) 19 := by
      have h := Combine.node (op := ((· + ·) : Real → Real → Real)) (l := [7, 0, 12]) (Combine.one (12 : Real))
        (Combine.node (Combine.one (7 : Real)) (Combine.one 0) (List.Perm.refl _)) (List.perm_append_comm (l₁ := [7, 0]) (l₂ := [12]))
      unfold ReduceResult
      convert h using 1
      · simp [List.range_succ, localPartial]; norm_num
      · norm_num
    exact this

/-! ## Matrices distributed along their rows -/

theorem reduce_sum_fun (P : Nat) (d : Nat → List (Nat → Real)) (v : Nat → Real)
    (hv : ReduceResult (fun a b k => a k + b k) id (fun _ => 0) P d v) (k : Nat) : v k = ((content P d).map fun row => row k).sum := by
  have h := reduce_spec (fun a b (k : Nat) => a k + b k) (fun a b c => funext fun k => add_assoc _ _ _) (fun a b => funext fun k => add_comm _ _) id
    (fun _ => (0 : Real)) P d (by simp) (by simp) v hv
  by_cases hne : content P d = []
  · rw [h.2 hne, hne]; rfl
  · have h' := h.1 hne
    rw [List.map_id] at h'
    have : ∀ l : List (Nat → Real), l ≠ [] → Spec.reduceList (fun a b (k : Nat) => a k + b k) l = some fun k => (l.map fun row => row k).sum := by
      intro l hl
      induction l with
      | nil => exact absurd rfl hl
      | cons x xs ih =>
        show oadd _ (some x) (reduceList _ xs) = _
        cases xs with
        | nil => simp [reduceList, oadd]
        | cons y ys => rw [ih (by simp)]; simp [oadd]
    rw [this _ hne] at h'
    rw [← Option.some.inj h']

/-- **C157.**  A matrix distributed along its rows over any number of processes, some possibly empty, and any order of combination: `ord=1` is the
largest column sum and `ord=inf` the largest row sum of absolute values. (For a matrix distributed along its columns exchange the two.) -/
theorem matrix_norm_rows (big : Real) (m P : Nat) (d : Nat → List (Nat → Real)) (v : Real) :
    (MNormRows big m true P d v → v = lmax ((List.range m).map fun k => ((content P d).map fun row => |row k|).sum)) ∧
    (0 ≤ big → content P d ≠ [] → MNormRows big m false P d v →
      v = lmax ((content P d).map fun row => ((List.range m).map fun k => |row k|).sum)) := by
  constructor
  · intro h
    unfold MNormRows at h
    rw [if_pos rfl] at h
    obtain ⟨s, hs, rfl⟩ := h
    congr 1
    apply List.map_congr_left
    intro k _
    rw [reduce_sum_fun P _ _ hs k, content_map_fun, List.map_map]
    rfl
  · intro hb hne h
    unfold MNormRows at h
    rw [if_neg (by simp)] at h
    have h1 := reduce_max_real P _ _ _ (by rw [content_map_fun]; simpa using hne) (by
      rw [content_map_fun]; intro y hy
      obtain ⟨z, hz, rfl⟩ := List.mem_map.1 hy
      have : 0 ≤ ((List.range m).map fun k => |z k|).sum := by
        apply List.sum_nonneg
        intro w hw
        obtain ⟨k, _, rfl⟩ := List.mem_map.1 hw
        exact abs_nonneg _
      linarith) h
    rw [h1, content_map_fun]

example : ∃ v, MNormRows 10 2 true 2 (fun r => ([[fun k => (k : Real) + 1], [fun _ => -3]] : List (List (Nat → Real))).getD r []) v ∧ v = 5 := by
  refine ⟨_, ?_, rfl⟩
  unfold MNormRows
  rw [if_pos rfl]
  refine ⟨fun k => |(k : Real) + 1| + |-3|, ?_, ?_⟩
  · exact Combine.node (op := fun a b (k : Nat) => a k + b k) (l₁ := [fun k : Nat => |(k : Real) + 1|]) (l₂ := [fun _ => |(-3 : Real)|])
      (Combine.one _) (Combine.one _) (List.Perm.refl _)
  · norm_num [lmax, List.range_succ]

/-! ## norm -/

/-- **C157.**  Without axes, `norm` of a vector or of an array of any dimension is the 2-norm of all elements (`ord=None`), for matrices also for
'fro'; other orders go to `matrix_norm` for matrices and to `vector_norm` of all elements otherwise; one axis selects vector norms, two axes matrix norms,
anything else is refused. -/
theorem norm_call (ndim : Nat) (ord : NOrd) :
    normCall ndim none .none = .dot ∧ normCall 1 none .two = .dot ∧ normCall 2 none .fro = .dot ∧
    (normCall ndim none ord = .matrix ↔ ndim = 2 ∧ (ord = .two ∨ ord = .other)) ∧
    (normCall ndim none ord = .vector ↔ ndim ≠ 2 ∧ ord ≠ .none ∧ ¬ (ord = .two ∧ ndim = 1)) ∧
    normCall ndim (some 1) ord = .vector ∧ normCall ndim (some 2) ord = .matrix ∧
    (∀ k, k ≠ 1 → k ≠ 2 → normCall ndim (some k) ord = .improper) := by
  refine ⟨by simp [normCall], by simp [normCall], by simp [normCall], ?_, ?_, rfl, rfl, ?_⟩
  · unfold normCall
    cases ord <;> by_cases h : ndim = 2 <;> by_cases h' : ndim = 1 <;> simp [h, h'] <;> omega
  · unfold normCall
    cases ord <;> by_cases h : ndim = 2 <;> by_cases h' : ndim = 1 <;> simp [h, h'] <;> omega
  · intro k h1 h2
    match k with
    | 0 => rfl
    | 1 => exact absurd rfl h1
    | 2 => exact absurd rfl h2
    | k + 3 => rfl

/-- **C157 is false** for integer arrays: the products wrap around before the root is taken, so a vector that is not zero has norm 0
(`ht.norm(ht.array([65536], dtype=ht.int32))`), or the square is negative and the norm is not a number. -/
theorem norm_int_violated : int32Dot [65536] = 0 ∧ int32Dot [46341] < 0 ∧ int32Dot [3, 4] = 25 := by decide +kernel

/-- Without wrap-around the sum of squares is right. -/
theorem norm_int_partial (x : List Int) (h : (x.map fun v => v * v).sum < 2 ^ 31) : int32Dot x = (x.map fun v => v * v).sum := by
  unfold int32Dot
  have bm : ∀ a : Int, 0 ≤ a → a < 2 ^ 31 → Int.bmod a (2 ^ 32) = a := by
    intro a h0 h1; rw [Int.bmod_eq_of_le] <;> norm_num <;> omega
  have : ∀ (l : List Int) (a : Int), 0 ≤ a → a + (l.map fun v => v * v).sum < 2 ^ 31 →
      (l.map fun v => Int.bmod (v * v) (2 ^ 32)).foldl (fun a b => Int.bmod (a + b) (2 ^ 32)) a = a + (l.map fun v => v * v).sum := by
    intro l
    induction l with
    | nil => intro a _ _; simp
    | cons y l ih =>
      intro a ha hl
      have hs : 0 ≤ (l.map fun v => v * v).sum := by
        apply List.sum_nonneg; intro w hw
        obtain ⟨k, _, rfl⟩ := List.mem_map.1 hw
        exact mul_self_nonneg k
      have hy := mul_self_nonneg y
      simp only [List.map_cons, List.sum_cons, List.foldl_cons] at hl ⊢
      rw [bm (y * y) hy (by omega), bm (a + y * y) (by omega) (by omega), ih _ (by omega) (by omega)]
      omega
  have := this x 0 le_rfl (by omega)
  simpa using this

end Heat
