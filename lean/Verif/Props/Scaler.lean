import Verif.Model.Scaler
import Verif.Props.Moments
import Verif.Props.Reduce
import Verif.Props.BinaryOp
import Verif.Props.Percentile
import Mathlib.Algebra.Order.Ring.Abs
import Mathlib.Algebra.Order.BigOperators.Group.Finset
import Mathlib.Algebra.BigOperators.Field
import Mathlib.Tactic.Positivity
/-!
# C110-C113: scalers
-/
namespace Heat
open Heat.Spec
variable {n : Nat}

/-! ### The four guards act feature by feature -/

theorem guardAbs_eq (tol : Rat) (v : Fin n → Rat) (hv : ∀ j, 0 ≤ v j) (j : Fin n) : guardAbs tol v j = if tol ≤ v j then v j else 1 := by
  unfold guardAbs
  split
  · dsimp only; rw [abs_of_nonneg (hv j)]
  · rename_i h
    rw [if_pos]
    by_contra hj
    exact h ⟨j, lt_of_not_ge hj⟩

theorem guardPlain_eq (tol : Rat) (v : Fin n → Rat) (j : Fin n) : guardPlain tol v j = if tol ≤ v j then v j else 1 := by
  unfold guardPlain
  split
  · rfl
  · rename_i h
    rw [if_pos]
    by_contra hj
    exact h ⟨j, lt_of_not_ge hj⟩

theorem guardRange_eq (tol : Rat) (v s : Fin n → Rat) (j : Fin n) : guardRange tol v s j = if tol ≤ |v j| then s j else 1 := by
  unfold guardRange
  split
  · rfl
  · rename_i h
    rw [if_pos]
    by_contra hj
    exact h ⟨j, lt_of_not_ge hj⟩

theorem guardIqr_eq (tol : Rat) (v : Fin n → Rat) (j : Fin n) : guardIqr tol v j = if tol ≤ |v j| then v j else 1 := by
  unfold guardIqr
  split
  · rfl
  · rename_i h
    rw [if_pos]
    by_contra hj
    exact h ⟨j, lt_of_not_ge hj⟩

/-! ### Transform and inverse transform -/

theorem unscale_scale (p : ScalerParams n) (h : ∀ j, p.scale j ≠ 0) (x : Fin n → Rat) : unscaledRow p (scaledRow p x) = x := by
  funext j
  unfold unscaledRow scaledRow
  have := h j
  field_simp
  ring

theorem scale_unscale (p : ScalerParams n) (h : ∀ j, p.scale j ≠ 0) (y : Fin n → Rat) : scaledRow p (unscaledRow p y) = y := by
  funext j
  unfold unscaledRow scaledRow
  have := h j
  field_simp
  ring

theorem applyRows_ok (f : (Fin n → Rat) → Fin n → Rat) (d : Nat → List (Fin n → Rat)) : applyRows f d = .ok fun r => (d r).map f := by
  unfold applyRows
  rw [dif_pos rfl]

theorem applyRows_error (f : (Fin n → Rat) → Fin n → Rat) {n' : Nat} (h : n' ≠ n) (d : Nat → List (Fin n' → Rat)) : applyRows f d = .error .valueError := by
  unfold applyRows
  rw [dif_neg h]

/-- What a user may rely on for each scaler: with `copy=True` the argument keeps its values and the result is returned, with `copy=False` the argument has the values of the result;
transforming back leads to the original data, in both orders; data with another number of features are refused. -/
theorem scaler_calls (p : ScalerParams n) (h : ∀ j, p.scale j ≠ 0) (d : Nat → List (Fin n → Rat)) :
    (∃ y, scalerCall true (scaledRow p) d = .ok ⟨some y, d⟩ ∧ scalerCall false (scaledRow p) d = .ok ⟨none, y⟩ ∧
      scalerCall true (unscaledRow p) y = .ok ⟨some d, y⟩ ∧ scalerCall false (unscaledRow p) y = .ok ⟨none, d⟩) ∧
    (∃ x, scalerCall true (unscaledRow p) d = .ok ⟨some x, d⟩ ∧ scalerCall false (unscaledRow p) d = .ok ⟨none, x⟩ ∧
      scalerCall true (scaledRow p) x = .ok ⟨some d, x⟩ ∧ scalerCall false (scaledRow p) x = .ok ⟨none, d⟩) ∧
    ∀ (copy : Bool) (n' : Nat), n' ≠ n → ∀ d' : Nat → List (Fin n' → Rat), scalerCall copy (scaledRow p) d' = .error .valueError ∧ scalerCall copy (unscaledRow p) d' = .error .valueError := by
  have h1 : (fun r => ((d r).map (scaledRow p)).map (unscaledRow p)) = d := by
    funext r
    rw [List.map_map, show unscaledRow p ∘ scaledRow p = id from funext (unscale_scale p h), List.map_id]
  have h2 : (fun r => ((d r).map (unscaledRow p)).map (scaledRow p)) = d := by
    funext r
    rw [List.map_map, show scaledRow p ∘ unscaledRow p = id from funext (scale_unscale p h), List.map_id]
  refine ⟨⟨fun r => (d r).map (scaledRow p), ?_, ?_, ?_, ?_⟩, ⟨fun r => (d r).map (unscaledRow p), ?_, ?_, ?_, ?_⟩, ?_⟩
  · unfold scalerCall; rw [applyRows_ok]; rfl
  · unfold scalerCall; rw [applyRows_ok]; rfl
  · unfold scalerCall; rw [applyRows_ok]; dsimp only; rw [h1]; rfl
  · unfold scalerCall; rw [applyRows_ok]; dsimp only; rw [h1]; rfl
  · unfold scalerCall; rw [applyRows_ok]; rfl
  · unfold scalerCall; rw [applyRows_ok]; rfl
  · unfold scalerCall; rw [applyRows_ok]; dsimp only; rw [h2]; rfl
  · unfold scalerCall; rw [applyRows_ok]; dsimp only; rw [h2]; rfl
  · intro copy n' hn d'
    unfold scalerCall
    rw [applyRows_error _ hn, applyRows_error _ hn]
    exact ⟨rfl, rfl⟩

theorem feature_scaled (p : ScalerParams n) (P : Nat) (d : Nat → List (Fin n → Rat)) (j : Fin n) :
    feature (content P fun r => (d r).map (scaledRow p)) j = (feature (content P d) j).map fun x => (x - p.shift j) * p.scale j + p.low := by
  unfold feature
  rw [content_map, List.map_map, List.map_map]
  rfl

theorem content_colParts (P : Nat) (d : Nat → List (Fin n → Rat)) (j : Fin n) : content P (colParts d j) = feature (content P d) j := by
  unfold colParts feature
  rw [content_map]

/-! ### StandardScaler -/

theorem sum_affine (c s : Rat) : ∀ l : List Rat, (l.map fun x => (x - c) * s + 0).sum = (l.sum - l.length * c) * s
  | [] => by simp
  | a :: l => by
    rw [List.map_cons, List.sum_cons, sum_affine c s l]
    simp only [List.sum_cons, List.length_cons, Nat.cast_add, Nat.cast_one]
    ring

theorem sumsq_affine (c s : Rat) : ∀ l : List Rat, sumSq (l.map fun x => (x - c) * s + 0) = (l.map fun x => (x - c) * (x - c)).sum * (s * s)
  | [] => by simp [sumSq]
  | a :: l => by
    have := sumsq_affine c s l
    unfold sumSq at this ⊢
    simp only [List.map_cons, List.sum_cons] at this ⊢
    rw [this]
    ring

theorem sqdev_nonneg (l : List Rat) : 0 ≤ sqdev l := by
  unfold sqdev
  apply List.sum_nonneg
  intro x hx
  obtain ⟨a, _, rfl⟩ := List.mem_map.1 hx
  exact mul_self_nonneg _

/-- Centring a list at its mean and multiplying it by `s`: mean 0, and the variance is multiplied by the square. -/
theorem moments_affine (l : List Rat) (hl : l ≠ []) (s : Rat) :
    mean (l.map fun x => (x - mean0 l) * s + 0) = some 0 ∧ variance 0 (l.map fun x => (x - mean0 l) * s + 0) = some (var0 0 l * (s * s)) := by
  have hlen : 0 < l.length := List.length_pos_iff.2 hl
  have hne : (l.length : Rat) ≠ 0 := by exact_mod_cast hlen.ne'
  have hs : (l.map fun x => (x - mean0 l) * s + 0).sum = 0 := by
    rw [sum_affine]
    unfold mean0
    field_simp
    ring
  constructor
  · rw [mean_of_pos (by simpa using hlen)]
    unfold mean0 at hs ⊢
    rw [hs, zero_div]
  · rw [variance_of_gt (by simpa using hlen)]
    unfold var0
    rw [if_neg (by simpa using hl), if_neg (by omega)]
    rw [sqdev_eq, hs, sumsq_affine]
    simp only [List.length_map, zero_mul, zero_div, sub_zero]
    congr 1
    unfold sqdev mean0
    rw [mul_div_right_comm]

/-- **C110, `StandardScaler`.**  If the first or the second rank has data points (C62), `fit` finds parameters, and the transformed training data have mean 0 in every feature and variance 1 in
every feature whose variance is at least `tol`; features with a smaller variance are only centred.  Together with `scaler_calls` for the transformations.

Partial: exact arithmetic; an unbalanced array whose first two ranks are empty yields NaN (C62); `with_mean`, `with_std` and `sample_weight` are ignored (`standard_flags_violated`). -/
theorem standard_scaler_partial (sqrt : Rat → Rat) (tol : Rat) (htol : 0 < tol) (P : Nat) (hP : 0 < P) (d : Nat → List (Fin n → Rat)) (h01 : d 0 ≠ [] ∨ (1 < P ∧ d 1 ≠ []))
    (hsqrt : ∀ j v, variance 0 (feature (content P d) j) = some v → IsSqrt v (sqrt v)) (h1 : IsSqrt 1 (sqrt 1)) :
    ∃ p, stdFit sqrt tol true true false P d = some p ∧ (∀ j, p.scale j ≠ 0) ∧ ∀ j, ∃ v, variance 0 (feature (content P d) j) = some v ∧
      mean (feature (content P fun r => (d r).map (scaledRow p)) j) = some 0 ∧
      (tol ≤ v → variance 0 (feature (content P fun r => (d r).map (scaledRow p)) j) = some 1) ∧
      (v < tol → ∃ m, mean (feature (content P d) j) = some m ∧ ∀ x : Fin n → Rat, scaledRow p x j = x j - m) := by
  have hne : content P d ≠ [] := by
    rcases h01 with h | ⟨hp, h⟩
    · obtain ⟨x, hx⟩ := List.exists_mem_of_ne_nil _ h
      exact List.ne_nil_of_mem (mem_content.2 ⟨0, hP, hx⟩)
    · obtain ⟨x, hx⟩ := List.exists_mem_of_ne_nil _ h
      exact List.ne_nil_of_mem (mem_content.2 ⟨1, hp, hx⟩)
  have hpos : ∀ j, 0 < (feature (content P d) j).length := fun j => by
    unfold feature; rw [List.length_map]; exact List.length_pos_iff.2 hne
  have hl : ∀ j, ∀ r < P, (colParts d j r).length = 1 * (d r).length := by intro j r _; unfold colParts; simp
  have h01' : 0 < (d 0).length ∨ (1 < P ∧ 0 < (d 1).length) := by
    rcases h01 with h | ⟨hp, h⟩
    · exact .inl (List.length_pos_iff.2 h)
    · exact .inr ⟨hp, List.length_pos_iff.2 h⟩
  have hm : ∀ j, stdMean P d j = some (mean0 (feature (content P d) j)) := by
    intro j
    unfold stdMean
    rw [mean_axis_spec_partial P hP (colParts d j) (fun r => (d r).length) 1 (by omega) (hl j) h01', content_colParts, mean_of_pos (hpos j)]
  have hv : ∀ j, stdVar P d j = some (var0 0 (feature (content P d) j)) := by
    intro j
    unfold stdVar
    rw [var_axis_spec_partial P hP (colParts d j) (fun r => (d r).length) 1 (by omega) (hl j) h01', content_colParts, variance_of_gt (hpos j)]
  have hvn : ∀ j, 0 ≤ var0 0 (feature (content P d) j) := by
    intro j
    unfold var0
    rw [if_neg (by have := hpos j; omega)]
    exact div_nonneg (sqdev_nonneg _) (Nat.cast_nonneg _)
  have hfit : stdFit sqrt tol true true false P d = some ⟨fun j => mean0 (feature (content P d) j), fun j => 1 / sqrt (if tol ≤ var0 0 (feature (content P d) j) then var0 0 (feature (content P d) j) else 1), 0⟩ := by
    unfold stdFit
    rw [if_pos (fun j => by rw [hm, hv]; exact ⟨rfl, rfl⟩)]
    have e1 : (fun j => (stdMean P d j).getD 0) = fun j => mean0 (feature (content P d) j) := by funext j; rw [hm]; rfl
    have e2 : (fun j => (stdVar P d j).getD 0) = fun j => var0 0 (feature (content P d) j) := by funext j; rw [hv]; rfl
    rw [e1, e2]
    congr 2
    funext j
    rw [guardAbs_eq tol _ hvn]
  have hsv : ∀ j, IsSqrt (var0 0 (feature (content P d) j)) (sqrt (var0 0 (feature (content P d) j))) := fun j => hsqrt j _ (variance_of_gt (hpos j))
  have hs1 : sqrt 1 = 1 := by
    have := h1.2
    have h0 := h1.1
    nlinarith
  refine ⟨_, hfit, ?_, ?_⟩
  · intro j
    dsimp only
    apply one_div_ne_zero
    split
    · rename_i ht
      intro h0
      have := (hsv j).2
      rw [h0, zero_mul] at this
      linarith
    · rw [hs1]; exact one_ne_zero
  · intro j
    refine ⟨_, variance_of_gt (hpos j), ?_, ?_, ?_⟩
    · rw [feature_scaled]
      exact (moments_affine _ (List.length_pos_iff.1 (hpos j)) _).1
    · intro ht
      rw [feature_scaled]
      dsimp only
      rw [(moments_affine _ (List.length_pos_iff.1 (hpos j)) _).2, if_pos ht]
      have h2 := (hsv j).2
      have h3 : sqrt (var0 0 (feature (content P d) j)) ≠ 0 := by
        intro h0
        rw [h0, zero_mul] at h2
        linarith
      congr 1
      generalize hg : sqrt (var0 0 (feature (content P d) j)) = s at h2 h3
      rw [← h2]
      field_simp
    · intro ht
      refine ⟨_, mean_of_pos (hpos j), fun x => ?_⟩
      unfold scaledRow
      dsimp only
      rw [if_neg (not_le.2 ht), hs1]
      simp

/-- `with_mean`, `with_std` and `sample_weight` are ignored: the result is that of the default, so with `with_mean=False` the mean of two data points 1 and 3 is moved from 2 to 0. -/
theorem standard_flags_violated : (∀ (sqrt : Rat → Rat) (tol : Rat) (a b c : Bool) (P : Nat) (d : Nat → List (Fin n → Rat)), stdFit sqrt tol a b c P d = stdFit sqrt tol true true false P d) ∧
    let d : Nat → List (Fin 1 → Rat) := fun _ => [fun _ => 1, fun _ => 3]
    mean (feature (content 1 d) 0) = some 2 ∧ (stdFit id (1/10) false true false 1 d).map (fun p => mean (feature (content 1 fun r => (d r).map (scaledRow p)) 0)) = some (some 0) := by
  refine ⟨fun _ _ _ _ _ _ _ => rfl, ?_, ?_⟩ <;> decide +kernel

/-- With `copy=False`, `fit_transform` returns the scaler and not the transformed data (base.py:158-170). -/
theorem scaler_inplace_violated (p : ScalerParams n) (d : Nat → List (Fin n → Rat)) : ∃ c, scalerCall false (scaledRow p) d = .ok c ∧ c.returned = none := by
  unfold scalerCall
  rw [applyRows_ok]
  exact ⟨_, rfl, rfl⟩

/-! ### MinMaxScaler -/

theorem reduceList_min : ∀ (l : List Rat) (m : Rat), reduceList min l = some m → IsMin l m
  | [], m, h => by simp [reduceList] at h
  | [x], m, h => by
    simp [reduceList, oadd] at h
    subst h
    exact ⟨List.mem_singleton.2 rfl, fun y hy => by rw [List.mem_singleton.1 hy]⟩
  | x :: y :: t, m, h => by
    have hrec : ∃ m', reduceList min (y :: t) = some m' := by
      have e : reduceList min (y :: t) = oadd min (some y) (reduceList min t) := rfl
      rw [e]
      cases reduceList min t with
      | none => exact ⟨y, rfl⟩
      | some a => exact ⟨_, rfl⟩
    obtain ⟨m', hm'⟩ := hrec
    obtain ⟨h1, h2⟩ := reduceList_min (y :: t) m' hm'
    have h3 : reduceList min (x :: y :: t) = oadd min (some x) (reduceList min (y :: t)) := rfl
    rw [h3, hm'] at h
    simp only [oadd, Option.some.injEq] at h
    subst h
    constructor
    · rcases min_choice x m' with e | e
      · rw [e]; exact List.mem_cons_self
      · rw [e]; exact List.mem_cons_of_mem _ h1
    · intro z hz
      rcases List.mem_cons.1 hz with e | e
      · rw [e]; exact min_le_left _ _
      · exact le_trans (min_le_right _ _) (h2 z e)

theorem reduceList_max : ∀ (l : List Rat) (m : Rat), reduceList max l = some m → IsMax l m
  | [], m, h => by simp [reduceList] at h
  | [x], m, h => by
    simp [reduceList, oadd] at h
    subst h
    exact ⟨List.mem_singleton.2 rfl, fun y hy => by rw [List.mem_singleton.1 hy]⟩
  | x :: y :: t, m, h => by
    have hrec : ∃ m', reduceList max (y :: t) = some m' := by
      have e : reduceList max (y :: t) = oadd max (some y) (reduceList max t) := rfl
      rw [e]
      cases reduceList max t with
      | none => exact ⟨y, rfl⟩
      | some a => exact ⟨_, rfl⟩
    obtain ⟨m', hm'⟩ := hrec
    obtain ⟨h1, h2⟩ := reduceList_max (y :: t) m' hm'
    have h3 : reduceList max (x :: y :: t) = oadd max (some x) (reduceList max (y :: t)) := rfl
    rw [h3, hm'] at h
    simp only [oadd, Option.some.injEq] at h
    subst h
    constructor
    · rcases max_choice x m' with e | e
      · rw [e]; exact List.mem_cons_self
      · rw [e]; exact List.mem_cons_of_mem _ h1
    · intro z hz
      rcases List.mem_cons.1 hz with e | e
      · rw [e]; exact le_max_left _ _
      · exact le_trans (h2 z e) (le_max_right _ _)

/-- The distributed minimum of a feature is its minimum, in whatever order the parts are combined. -/
theorem colMin_spec (big : Rat) (P : Nat) (d : Nat → List (Fin n → Rat)) (j : Fin n) (m : Rat) (hne : content P d ≠ []) (hbig : ∀ x ∈ feature (content P d) j, x ≤ big) (h : ColMin big P d j m) :
    IsMin (feature (content P d) j) m := by
  have := (reduce_spec min min_assoc min_comm id big P (colParts d j) (min_self _) (fun x hx => by rw [content_colParts] at hx; exact min_eq_right (hbig x hx)) m h).1
    (by rw [content_colParts]; unfold feature; simpa using hne)
  rw [List.map_id, content_colParts] at this
  exact reduceList_min _ _ this

theorem colMax_spec (big : Rat) (P : Nat) (d : Nat → List (Fin n → Rat)) (j : Fin n) (m : Rat) (hne : content P d ≠ []) (hbig : ∀ x ∈ feature (content P d) j, -big ≤ x) (h : ColMax big P d j m) :
    IsMax (feature (content P d) j) m := by
  have := (reduce_spec max max_assoc max_comm id (-big) P (colParts d j) (max_self _) (fun x hx => by rw [content_colParts] at hx; exact max_eq_right (hbig x hx)) m h).1
    (by rw [content_colParts]; unfold feature; simpa using hne)
  rw [List.map_id, content_colParts] at this
  exact reduceList_max _ _ this

/-- **C111, `MinMaxScaler`.**  On the training data every feature whose range is at least `tol` is mapped into `[low, high]`, its smallest value to `low` and its largest to `high`; the values of other features are only shifted, so that
the smallest becomes `low`.  The order of the values is kept, and `min_` is the translation that `transform` amounts to. -/
theorem minmax_scaler (low high tol big : Rat) (htol : 0 < tol) (hinit : minMaxInit low high false = .ok ()) (P : Nat) (d : Nat → List (Fin n → Rat)) (hne : content P d ≠ [])
    (hbig : ∀ j, ∀ x ∈ feature (content P d) j, -big ≤ x ∧ x ≤ big) (lo hi : Fin n → Rat) (hlo : ∀ j, ColMin big P d j (lo j)) (hhi : ∀ j, ColMax big P d j (hi j)) :
    (∀ j, (minMaxParams low high tol lo hi).scale j ≠ 0) ∧ ∀ j,
      (tol ≤ hi j - lo j → (∀ y ∈ feature (content P fun r => (d r).map (scaledRow (minMaxParams low high tol lo hi))) j, low ≤ y ∧ y ≤ high) ∧
        IsMin (feature (content P fun r => (d r).map (scaledRow (minMaxParams low high tol lo hi))) j) low ∧ IsMax (feature (content P fun r => (d r).map (scaledRow (minMaxParams low high tol lo hi))) j) high) ∧
      (hi j - lo j < tol → ∀ x : Fin n → Rat, scaledRow (minMaxParams low high tol lo hi) x j = x j - lo j + low) ∧
      (∀ x x' : Fin n → Rat, x j < x' j ↔ scaledRow (minMaxParams low high tol lo hi) x j < scaledRow (minMaxParams low high tol lo hi) x' j) ∧
      (∀ x : Fin n → Rat, scaledRow (minMaxParams low high tol lo hi) x j = x j * (minMaxParams low high tol lo hi).scale j + minMaxTranslation (minMaxParams low high tol lo hi) j) := by
  have hlh : low < high := by
    unfold minMaxInit at hinit
    simp only [Bool.false_eq_true, if_false] at hinit
    by_contra h
    rw [if_pos (not_lt.1 h)] at hinit
    cases hinit
  have hmin := fun j => colMin_spec big P d j (lo j) hne (fun x hx => (hbig j x hx).2) (hlo j)
  have hmax := fun j => colMax_spec big P d j (hi j) hne (fun x hx => (hbig j x hx).1) (hhi j)
  have hr : ∀ j, 0 ≤ hi j - lo j := fun j => by linarith [(hmax j).2 _ (hmin j).1]
  have hsc : ∀ j, (minMaxParams low high tol lo hi).scale j = if tol ≤ hi j - lo j then (high - low) / (hi j - lo j) else 1 := by
    intro j
    unfold minMaxParams
    dsimp only
    rw [guardRange_eq, abs_of_nonneg (hr j)]
    split
    · rw [one_div_div]
    · norm_num
  have hpos : ∀ j, 0 < (minMaxParams low high tol lo hi).scale j := by
    intro j
    rw [hsc]
    split
    · exact div_pos (by linarith) (by linarith)
    · exact one_pos
  refine ⟨fun j => (hpos j).ne', fun j => ⟨?_, ?_, ?_, ?_⟩⟩
  · intro ht
    have hval : ∀ z, (z - (minMaxParams low high tol lo hi).shift j) * (minMaxParams low high tol lo hi).scale j + (minMaxParams low high tol lo hi).low = (z - lo j) * ((high - low) / (hi j - lo j)) + low := by
      intro z
      rw [hsc, if_pos ht]
      rfl
    have hq : 0 < (high - low) / (hi j - lo j) := div_pos (by linarith) (by linarith)
    have hend : (hi j - lo j) * ((high - low) / (hi j - lo j)) = high - low := mul_div_cancel₀ _ (by linarith)
    have hb : ∀ z ∈ feature (content P d) j, low ≤ (z - lo j) * ((high - low) / (hi j - lo j)) + low ∧ (z - lo j) * ((high - low) / (hi j - lo j)) + low ≤ high := by
      intro z hz
      have h1 := (hmin j).2 z hz
      have h2 := (hmax j).2 z hz
      have h3 : (z - lo j) * ((high - low) / (hi j - lo j)) ≤ (hi j - lo j) * ((high - low) / (hi j - lo j)) := mul_le_mul_of_nonneg_right (by linarith) hq.le
      have h4 : 0 ≤ (z - lo j) * ((high - low) / (hi j - lo j)) := mul_nonneg (by linarith) hq.le
      constructor <;> linarith
    have hall : ∀ y ∈ feature (content P fun r => (d r).map (scaledRow (minMaxParams low high tol lo hi))) j, low ≤ y ∧ y ≤ high := by
      intro y hy
      rw [feature_scaled] at hy
      obtain ⟨z, hz, rfl⟩ := List.mem_map.1 hy
      rw [hval]
      exact hb z hz
    refine ⟨hall, ⟨?_, fun y hy => (hall y hy).1⟩, ⟨?_, fun y hy => (hall y hy).2⟩⟩
    · rw [feature_scaled, List.mem_map]
      exact ⟨lo j, (hmin j).1, by rw [hval]; ring⟩
    · rw [feature_scaled, List.mem_map]
      exact ⟨hi j, (hmax j).1, by rw [hval]; linarith⟩
  · intro ht x
    unfold scaledRow
    rw [hsc, if_neg (not_le.2 ht), mul_one]
    rfl
  · intro x x'
    unfold scaledRow
    constructor
    · intro h
      have := mul_lt_mul_of_pos_right (show x j - (minMaxParams low high tol lo hi).shift j < x' j - (minMaxParams low high tol lo hi).shift j by linarith) (hpos j)
      linarith
    · intro h
      have h' : (x j - (minMaxParams low high tol lo hi).shift j) * (minMaxParams low high tol lo hi).scale j < (x' j - (minMaxParams low high tol lo hi).shift j) * (minMaxParams low high tol lo hi).scale j := by linarith
      have := lt_of_mul_lt_mul_right h' (hpos j).le
      linarith
  · intro x
    unfold scaledRow minMaxTranslation
    ring

/-! ### MaxAbsScaler -/

theorem colMaxAbs_spec (big : Rat) (P : Nat) (d : Nat → List (Fin n → Rat)) (j : Fin n) (m : Rat) (hne : content P d ≠ []) (hbig : 0 ≤ big) (h : ColMaxAbs big P d j m) :
    IsMax ((feature (content P d) j).map fun x => |x|) m := by
  have hc : content P (fun r => (colParts d j r).map fun x => |x|) = (feature (content P d) j).map fun x => |x| := by rw [content_map, content_colParts]
  have := (reduce_spec max max_assoc max_comm id (-big) P (fun r => (colParts d j r).map fun x => |x|) (max_self _)
    (fun x hx => by
      rw [hc] at hx
      obtain ⟨a, _, rfl⟩ := List.mem_map.1 hx
      exact max_eq_right (le_trans (by show -big ≤ 0; linarith) (abs_nonneg a))) m h).1
    (by rw [hc]; unfold feature; simpa using hne)
  rw [List.map_id, hc] at this
  exact reduceList_max _ _ this

/-- **C112, `MaxAbsScaler`.**  The largest absolute value of every feature of the transformed training data is 1, unless it was below `tol`: then the feature is left alone.  Zero stays zero. -/
theorem maxabs_scaler (tol big : Rat) (htol : 0 < tol) (hbig : 0 ≤ big) (P : Nat) (d : Nat → List (Fin n → Rat)) (hne : content P d ≠ []) (v : Fin n → Rat) (hv : ∀ j, ColMaxAbs big P d j (v j)) :
    (∀ j, (maxAbsParams tol v).scale j ≠ 0) ∧ ∀ j,
      (tol ≤ v j → IsMax ((feature (content P fun r => (d r).map (scaledRow (maxAbsParams tol v))) j).map fun y => |y|) 1) ∧
      (v j < tol → ∀ x : Fin n → Rat, scaledRow (maxAbsParams tol v) x j = x j) ∧ (∀ x : Fin n → Rat, x j = 0 → scaledRow (maxAbsParams tol v) x j = 0) := by
  have hmax := fun j => colMaxAbs_spec big P d j (v j) hne hbig (hv j)
  have hsc : ∀ j, (maxAbsParams tol v).scale j = 1 / if tol ≤ v j then v j else 1 := by
    intro j
    unfold maxAbsParams
    dsimp only
    rw [guardPlain_eq]
  have hpos : ∀ j, 0 < (maxAbsParams tol v).scale j := by
    intro j
    rw [hsc]
    split
    · exact one_div_pos.2 (by linarith)
    · norm_num
  refine ⟨fun j => (hpos j).ne', fun j => ⟨?_, ?_, ?_⟩⟩
  · intro ht
    have hvp : 0 < v j := by linarith
    have hval : ∀ z, |(z - (maxAbsParams tol v).shift j) * (maxAbsParams tol v).scale j + (maxAbsParams tol v).low| = |z| / v j := by
      intro z
      rw [hsc, if_pos ht]
      show |(z - 0) * (1 / v j) + 0| = |z| / v j
      rw [sub_zero, add_zero, mul_one_div, abs_div, abs_of_pos hvp]
    rw [feature_scaled, List.map_map]
    constructor
    · obtain ⟨z, hz, he⟩ := List.mem_map.1 (hmax j).1
      refine List.mem_map.2 ⟨z, hz, ?_⟩
      show |_| = _
      rw [hval, he]
      exact div_self hvp.ne'
    · intro y hy
      obtain ⟨z, hz, rfl⟩ := List.mem_map.1 hy
      show |_| ≤ _
      rw [hval]
      exact (div_le_one hvp).2 ((hmax j).2 _ (List.mem_map.2 ⟨z, hz, rfl⟩))
  · intro ht x
    unfold scaledRow
    rw [hsc, if_neg (not_le.2 ht)]
    show (x j - 0) * (1 / 1) + 0 = x j
    ring
  · intro x hx
    unfold scaledRow
    rw [hx]
    show (0 - 0) * _ + (0 : Rat) = 0
    ring

/-! ### Normalizer -/

theorem foldl_max_spec : ∀ (l : List Rat) (a : Rat), a ≤ l.foldl max a ∧ (∀ x ∈ l, x ≤ l.foldl max a) ∧ (l.foldl max a = a ∨ l.foldl max a ∈ l)
  | [], a => ⟨le_refl _, fun x hx => absurd hx (List.not_mem_nil), .inl rfl⟩
  | b :: t, a => by
    rw [List.foldl_cons]
    obtain ⟨h1, h2, h3⟩ := foldl_max_spec t (max a b)
    refine ⟨le_trans (le_max_left _ _) h1, ?_, ?_⟩
    · intro x hx
      rcases List.mem_cons.1 hx with e | e
      · rw [e]; exact le_trans (le_max_right _ _) h1
      · exact h2 x e
    · rcases h3 with e | e
      · rcases max_choice a b with c | c
        · exact .inl (by rw [e, c])
        · exact .inr (by rw [e, c]; exact List.mem_cons_self)
      · exact .inr (List.mem_cons_of_mem _ e)

/-- The computed norm is the norm. -/
theorem rowNorm_spec (sqrt : Rat → Rat) (k : NormKind) (x : Fin n → Rat) (hn : 0 < n) (hs : k = .l2 → IsSqrt (∑ j, x j * x j) (sqrt (∑ j, x j * x j))) : IsNorm k x (rowNorm sqrt k x) := by
  cases k with
  | l1 => rfl
  | l2 => exact hs rfl
  | linf =>
    unfold IsNorm rowNorm
    dsimp only
    obtain ⟨_, h2, h3⟩ := foldl_max_spec (List.ofFn fun j => |x j|) 0
    have hle : ∀ j, |x j| ≤ (List.ofFn fun j => |x j|).foldl max 0 := fun j => h2 _ (List.mem_ofFn.2 ⟨j, rfl⟩)
    refine ⟨?_, hle⟩
    rcases h3 with e | e
    · refine ⟨⟨0, hn⟩, ?_⟩
      have := hle ⟨0, hn⟩
      rw [e] at this ⊢
      exact le_antisymm (abs_nonneg _) this
    · obtain ⟨j, hj⟩ := List.mem_ofFn.1 e
      exact ⟨j, hj.symm⟩

/-- The norm of a point divided by its norm is 1. -/
theorem norm_div (k : NormKind) (x : Fin n → Rat) (v : Rat) (hv : 0 < v) (h : IsNorm k x v) : IsNorm k (fun j => x j / v) 1 := by
  cases k with
  | l1 =>
    unfold IsNorm at h ⊢
    dsimp only at h ⊢
    have : ∀ j, |x j / v| = |x j| / v := fun j => by rw [abs_div, abs_of_pos hv]
    simp only [this]
    rw [← Finset.sum_div, ← h, div_self hv.ne']
  | l2 =>
    unfold IsNorm IsSqrt at h ⊢
    dsimp only at h ⊢
    refine ⟨by norm_num, ?_⟩
    have : ∀ j, x j / v * (x j / v) = x j * x j / (v * v) := fun j => by rw [div_mul_div_comm]
    simp only [this]
    rw [← Finset.sum_div, ← h.2, div_self (mul_ne_zero hv.ne' hv.ne'), one_mul]
  | linf =>
    unfold IsNorm at h ⊢
    dsimp only at h ⊢
    have he : ∀ j, |x j / v| = |x j| / v := fun j => by rw [abs_div, abs_of_pos hv]
    obtain ⟨⟨j, hj⟩, hle⟩ := h
    refine ⟨⟨j, by rw [he, ← hj, div_self hv.ne']⟩, fun i => by rw [he]; exact (div_le_one hv).2 (hle i)⟩

/-- **C113, `Normalizer`.**  Every data point whose norm is at least `tol` is divided by its norm (so that it has norm 1 and its direction is kept), the others are returned unchanged; every rank keeps its points in order. -/
theorem normalizer (sqrt : Rat → Rat) (k : NormKind) (tol : Rat) (htol : 0 < tol) (hn : 0 < n) (P : Nat) (d : Nat → List (Fin n → Rat))
    (hs : k = .l2 → ∀ x ∈ content P d, IsSqrt (∑ j, x j * x j) (sqrt (∑ j, x j * x j))) :
    ∃ f : (Fin n → Rat) → Fin n → Rat, (∀ r < P, normalizeRows sqrt k tol P d r = (d r).map f) ∧ ∀ x ∈ content P d, ∃ v, IsNorm k x v ∧
      (tol ≤ v → IsNorm k (f x) 1 ∧ ∀ j, f x j * v = x j) ∧ (v < tol → f x = x) := by
  refine ⟨fun x j => x j / if tol ≤ rowNorm sqrt k x then rowNorm sqrt k x else 1, ?_, ?_⟩
  · intro r hr
    unfold normalizeRows
    apply List.map_congr_left
    intro x hx
    funext j
    split
    · rfl
    · rename_i h
      rw [if_pos]
      by_contra hc
      exact h ⟨x, mem_content.2 ⟨r, hr, hx⟩, lt_of_not_ge hc⟩
  · intro x hx
    refine ⟨rowNorm sqrt k x, rowNorm_spec sqrt k x hn (fun e => hs e x hx), ?_, ?_⟩
    · intro ht
      have hp : 0 < rowNorm sqrt k x := by linarith
      simp only [if_pos ht]
      exact ⟨norm_div k x _ hp (rowNorm_spec sqrt k x hn (fun e => hs e x hx)), fun j => div_mul_cancel₀ _ hp.ne'⟩
    · intro ht
      simp only [if_neg (not_le.2 ht), div_one]

/-! ### RobustScaler -/

theorem orderStat_map (c s : Rat) (hs : 0 < s) {l : List Rat} {k : Nat} {x : Rat} (h : IsOrderStat l k x) : IsOrderStat (l.map fun x => (x - c) * s + 0) k ((x - c) * s + 0) := by
  obtain ⟨h1, h2, h3⟩ := h
  have hlt : ∀ a, ((a - c) * s + 0 < (x - c) * s + 0) ↔ a < x := by
    intro a
    constructor
    · intro h
      have := lt_of_mul_lt_mul_right (show (a - c) * s < (x - c) * s by linarith) hs.le
      linarith
    · intro h
      have := mul_lt_mul_of_pos_right (show a - c < x - c by linarith) hs
      linarith
  have hle : ∀ a, ((a - c) * s + 0 ≤ (x - c) * s + 0) ↔ a ≤ x := by
    intro a
    constructor
    · intro h
      have := le_of_mul_le_mul_right (show (a - c) * s ≤ (x - c) * s by linarith) hs
      linarith
    · intro h
      have := mul_le_mul_of_nonneg_right (show a - c ≤ x - c by linarith) hs.le
      linarith
  refine ⟨List.mem_map.2 ⟨x, h1, rfl⟩, ?_, ?_⟩
  · rw [List.countP_map]
    have : ((fun y => decide (y < (x - c) * s + 0)) ∘ fun x => (x - c) * s + 0) = fun y => decide (y < x) := by
      funext a; exact decide_eq_decide.2 (hlt a)
    rw [this]; exact h2
  · rw [List.countP_map]
    have : ((fun y => decide (y ≤ (x - c) * s + 0)) ∘ fun x => (x - c) * s + 0) = fun y => decide (y ≤ x) := by
      funext a; exact decide_eq_decide.2 (hle a)
    rw [this]; exact h3

/-- Percentiles follow increasing affine maps. -/
theorem percentile_affine (c s : Rat) (hs : 0 < s) {l : List Rat} {q y : Rat} (h : IsPercentile .linear l q y) : IsPercentile .linear (l.map fun x => (x - c) * s + 0) q ((y - c) * s + 0) := by
  unfold IsPercentile at h ⊢
  dsimp only at h ⊢
  rw [List.length_map]
  obtain ⟨a, b, ha, hb, he⟩ := h
  exact ⟨_, _, orderStat_map c s hs ha, orderStat_map c s hs hb, by rw [he]; ring⟩

/-- **C114, `RobustScaler`.**  `med`, `qlo`, `qhi` are the median and the two percentiles of the features (C97).  After `transform` the median of every feature of the training data is 0 (with centring) and its interquantile range is 1
(with scaling, if it was at least `tol`). -/
theorem robust_scaler (centering scaling : Bool) (qmin qmax tol : Rat) (htol : 0 < tol) (hinit : robustInit centering scaling qmin qmax false = .ok ()) (P : Nat) (d : Nat → List (Fin n → Rat)) (hne : content P d ≠ [])
    (med qlo qhi : Fin n → Rat) (hmed : ∀ j, IsPercentile .linear (feature (content P d) j) 50 (med j)) (hqlo : ∀ j, IsPercentile .linear (feature (content P d) j) qmin (qlo j))
    (hqhi : ∀ j, IsPercentile .linear (feature (content P d) j) qmax (qhi j)) :
    (∀ j, (robustParams centering scaling tol med qlo qhi).scale j ≠ 0) ∧ ∀ j, let Y := feature (content P fun r => (d r).map (scaledRow (robustParams centering scaling tol med qlo qhi))) j
      (centering = true → IsPercentile .linear Y 50 0) ∧
      (scaling = true → tol ≤ qhi j - qlo j → ∃ a b, IsPercentile .linear Y qmin a ∧ IsPercentile .linear Y qmax b ∧ b - a = 1) ∧
      (scaling = false ∨ qhi j - qlo j < tol → ∀ x : Fin n → Rat, scaledRow (robustParams centering scaling tol med qlo qhi) x j = x j - if centering then med j else 0) ∧
      (centering = false → ∀ x : Fin n → Rat, x j = 0 → scaledRow (robustParams centering scaling tol med qlo qhi) x j = 0) := by
  have hq : 0 ≤ qmin ∧ qmin < qmax := by
    unfold robustInit at hinit
    split at hinit
    · cases hinit
    · split at hinit
      · cases hinit
      · rename_i h
        simp only [not_or, not_le, not_lt] at h
        exact ⟨h.2.2, h.1⟩
  have hr : ∀ j, 0 ≤ qhi j - qlo j := fun j => by
    have hf : feature (content P d) j ≠ [] := by unfold feature; simpa using hne
    linarith [percentile_mono hf (hqlo j) (hqhi j) hq.1 hq.2.le]
  have hsc : ∀ j, (robustParams centering scaling tol med qlo qhi).scale j = if scaling = true ∧ tol ≤ qhi j - qlo j then 1 / (qhi j - qlo j) else 1 := by
    intro j
    show (if scaling then 1 / guardIqr tol (fun j => qhi j - qlo j) j else 1) = _
    rw [guardIqr_eq, abs_of_nonneg (hr j)]
    by_cases h1 : scaling = true <;> by_cases h2 : tol ≤ qhi j - qlo j <;> simp [h1, h2]
  have hpos : ∀ j, 0 < (robustParams centering scaling tol med qlo qhi).scale j := by
    intro j
    rw [hsc]
    split
    · rename_i h
      exact one_div_pos.2 (by linarith [h.2])
    · exact one_pos
  refine ⟨fun j => (hpos j).ne', fun j => ⟨?_, ?_, ?_, ?_⟩⟩
  · intro hc
    rw [feature_scaled]
    have := percentile_affine (med j) ((robustParams centering scaling tol med qlo qhi).scale j) (hpos j) (hmed j)
    rw [sub_self, zero_mul, zero_add] at this
    have hsh : (robustParams centering scaling tol med qlo qhi).shift j = med j := by unfold robustParams; simp [hc]
    rw [hsh]
    exact this
  · intro h1 h2
    rw [feature_scaled]
    refine ⟨_, _, percentile_affine _ _ (hpos j) (hqlo j), percentile_affine _ _ (hpos j) (hqhi j), ?_⟩
    rw [hsc, if_pos ⟨h1, h2⟩]
    have : qhi j - qlo j ≠ 0 := by linarith
    field_simp
    ring
  · intro h x
    unfold scaledRow
    rw [hsc, if_neg (by rintro ⟨h1, h2⟩; rcases h with e | e; · rw [e] at h1; cases h1
                        · linarith)]
    show (x j - if centering then med j else 0) * 1 + 0 = _
    ring
  · intro hc x hx
    unfold scaledRow
    rw [hx]
    show (0 - if centering then med j else 0) * _ + (0 : Rat) = 0
    rw [hc]
    simp

/-- `RobustScaler` returns the data in both modes; with `copy=True` the argument keeps its values. -/
theorem robust_calls (p : ScalerParams n) (h : ∀ j, p.scale j ≠ 0) (d : Nat → List (Fin n → Rat)) :
    (∃ y, robustCall true (scaledRow p) d = .ok ⟨some y, d⟩ ∧ robustCall false (scaledRow p) d = .ok ⟨some y, y⟩ ∧
      robustCall true (unscaledRow p) y = .ok ⟨some d, y⟩ ∧ robustCall false (unscaledRow p) y = .ok ⟨some d, d⟩) ∧
    ∀ (copy : Bool) (n' : Nat), n' ≠ n → ∀ d' : Nat → List (Fin n' → Rat), robustCall copy (scaledRow p) d' = .error .valueError ∧ robustCall copy (unscaledRow p) d' = .error .valueError := by
  have h1 : (fun r => ((d r).map (scaledRow p)).map (unscaledRow p)) = d := by
    funext r
    rw [List.map_map, show unscaledRow p ∘ scaledRow p = id from funext (unscale_scale p h), List.map_id]
  refine ⟨⟨fun r => (d r).map (scaledRow p), ?_, ?_, ?_, ?_⟩, ?_⟩
  · unfold robustCall; rw [applyRows_ok]; rfl
  · unfold robustCall; rw [applyRows_ok]; rfl
  · unfold robustCall; rw [applyRows_ok]; dsimp only; rw [h1]; rfl
  · unfold robustCall; rw [applyRows_ok]; dsimp only; rw [h1]; rfl
  · intro copy n' hn d'
    unfold robustCall
    rw [applyRows_error _ hn, applyRows_error _ hn]
    exact ⟨rfl, rfl⟩

/-- Which options the constructors accept. -/
theorem scaler_options : (∀ low high : Rat, minMaxInit low high false = if low < high then .ok () else .error .valueError) ∧ (∀ low high : Rat, minMaxInit low high true = .error .notImplemented) ∧
    (∀ (c s : Bool) (qmin qmax : Rat), robustInit c s qmin qmax false = if (c = true ∨ s = true) ∧ 0 ≤ qmin ∧ qmin < qmax ∧ qmax ≤ 100 then .ok () else .error .valueError) := by
  refine ⟨?_, fun _ _ => rfl, ?_⟩
  · intro low high
    unfold minMaxInit
    by_cases h : low < high
    · simp [h]
    · simp [h]
  · intro c s qmin qmax
    unfold robustInit
    by_cases h : 0 ≤ qmin ∧ qmin < qmax ∧ qmax ≤ 100
    · obtain ⟨h1, h2, h3⟩ := h
      cases c <;> cases s <;> simp [h1, h2, h3]
    · have h' : qmax ≤ qmin ∨ 100 < qmax ∨ qmin < 0 := by
        by_contra hc
        simp only [not_or, not_le, not_lt] at hc
        exact h ⟨hc.2.2, hc.1, hc.2.1⟩
      rw [if_pos h']
      rw [if_neg (c := (c = true ∨ s = true) ∧ 0 ≤ qmin ∧ qmin < qmax ∧ qmax ≤ 100) (fun hc => h hc.2)]
      split <;> rfl

/-! ### Examples: the hypotheses can be met -/

/-- Two data points with two features on two ranks: 1 and 5 in the first feature, 3 and 3 in the second. -/
def scalerExample : Nat → List (Fin 2 → Rat) := fun r => if r = 0 then [fun j => if j = 0 then 1 else 3] else if r = 1 then [fun j => if j = 0 then 5 else 3] else []

example : (scalerExample 0 ≠ []) ∧ (∀ j v, variance 0 (feature (content 2 scalerExample) j) = some v → IsSqrt v ((fun v => if v = 4 then 2 else v) v)) ∧
    variance 0 (feature (content 2 scalerExample) 0) = some 4 ∧ variance 0 (feature (content 2 scalerExample) 1) = some 0 := by
  have h0 : variance 0 (feature (content 2 scalerExample) 0) = some 4 := by decide +kernel
  have h1 : variance 0 (feature (content 2 scalerExample) 1) = some 0 := by decide +kernel
  refine ⟨by decide, ?_, h0, h1⟩
  intro j v hv
  have hj : j = 0 ∨ j = 1 := by omega
  rcases hj with rfl | rfl
  · rw [h0] at hv; cases hv; unfold IsSqrt; norm_num
  · rw [h1] at hv; cases hv; unfold IsSqrt; norm_num

example : minMaxInit 0 1 false = .ok () ∧ robustInit true true 25 75 false = .ok () ∧ content 2 scalerExample ≠ [] ∧
    (∀ j, ColMin 100 2 scalerExample j (if j = 0 then 1 else 3)) ∧ (∀ j, ColMax 100 2 scalerExample j (if j = 0 then 5 else 3)) ∧ ∀ j, ColMaxAbs 100 2 scalerExample j (if j = 0 then 5 else 3) := by
  refine ⟨by decide +kernel, by decide +kernel, by decide, ?_, ?_, ?_⟩
  · intro j
    have h : ColMin 100 2 scalerExample j (min ((scalerExample 0).head (by decide) j) ((scalerExample 1).head (by decide) j)) := .node (.one _) (.one _) (List.Perm.refl _)
    have hj : j = 0 ∨ j = 1 := by omega
    rcases hj with rfl | rfl <;> exact h
  · intro j
    have h : ColMax 100 2 scalerExample j (max ((scalerExample 0).head (by decide) j) ((scalerExample 1).head (by decide) j)) := .node (.one _) (.one _) (List.Perm.refl _)
    have hj : j = 0 ∨ j = 1 := by omega
    rcases hj with rfl | rfl
    · have e : max ((scalerExample 0).head (by decide) 0) ((scalerExample 1).head (by decide) 0) = if (0 : Fin 2) = 0 then 5 else 3 := by decide +kernel
      rw [e] at h; exact h
    · have e : max ((scalerExample 0).head (by decide) 1) ((scalerExample 1).head (by decide) 1) = if (1 : Fin 2) = 0 then 5 else 3 := by decide +kernel
      rw [e] at h; exact h
  · intro j
    have h : ColMaxAbs 100 2 scalerExample j (max |(scalerExample 0).head (by decide) j| |(scalerExample 1).head (by decide) j|) := .node (.one _) (.one _) (List.Perm.refl _)
    have hj : j = 0 ∨ j = 1 := by omega
    rcases hj with rfl | rfl
    · have e : max |(scalerExample 0).head (by decide) 0| |(scalerExample 1).head (by decide) 0| = if (0 : Fin 2) = 0 then 5 else 3 := by decide +kernel
      rw [e] at h; exact h
    · have e : max |(scalerExample 0).head (by decide) 1| |(scalerExample 1).head (by decide) 1| = if (1 : Fin 2) = 0 then 5 else 3 := by decide +kernel
      rw [e] at h; exact h

/-- A data point of length 5 is normalised, the zero point is kept. -/
example : (normalizeRows (fun v => if v = 25 then 5 else v) .l2 (1/10) 1 (fun _ => [fun j : Fin 2 => if j = 0 then 3 else 4, fun _ => 0]) 0).map (fun y => (y 0, y 1)) = [(3/5, 4/5), (0, 0)] := by decide +kernel

/-- Percentiles of the features of the example. -/
example : (∀ j, IsPercentile .linear (feature (content 2 scalerExample) j) 50 3) ∧ IsPercentile .linear (feature (content 2 scalerExample) 0) 25 2 ∧ IsPercentile .linear (feature (content 2 scalerExample) 0) 75 4 := by
  have e0 : feature (content 2 scalerExample) 0 = [1, 5] := by decide +kernel
  have e1 : feature (content 2 scalerExample) 1 = [3, 3] := by decide +kernel
  have hf : ∀ t : Rat, 0 < t → t < 1 → ⌊t⌋ = 0 ∧ ⌈t⌉ = 1 := fun t h0 h1 => ⟨Int.floor_eq_iff.2 ⟨by simpa using h0.le, by simpa using h1⟩, Int.ceil_eq_iff.2 ⟨by simpa using h0, by simpa using h1.le⟩⟩
  have key : ∀ (l : List Rat) (a b q : Rat), l = [a, b] → a ≤ b → 0 < q → q < 100 → IsPercentile .linear l q (a + (b - a) * (q / 100)) := by
    intro l a b q hl hab h0 h1
    subst hl
    unfold IsPercentile
    have ht : q / 100 * ((([a, b] : List Rat).length : Rat) - 1) = q / 100 := by norm_num
    dsimp only
    rw [ht]
    obtain ⟨f1, f2⟩ := hf (q / 100) (by linarith) (by linarith)
    rw [f1, f2]
    refine ⟨a, b, ?_, ?_, by norm_num⟩
    · exact orderStat_sorted (by simpa using hab) rfl
    · exact orderStat_sorted (by simpa using hab) rfl
  refine ⟨?_, ?_, ?_⟩
  · intro j
    have hj : j = 0 ∨ j = 1 := by omega
    rcases hj with rfl | rfl
    · have := key _ 1 5 50 e0 (by norm_num) (by norm_num) (by norm_num); norm_num at this; exact this
    · have := key _ 3 3 50 e1 (by norm_num) (by norm_num) (by norm_num); norm_num at this; exact this
  · have := key _ 1 5 25 e0 (by norm_num) (by norm_num) (by norm_num); norm_num at this; exact this
  · have := key _ 1 5 75 e0 (by norm_num) (by norm_num) (by norm_num); norm_num at this; exact this

end Heat
