import Verif.Model.StdVdot
import Verif.Props.Moments
import Verif.Props.BinaryOp
/-!
# C192 standard deviations, C193 `vdot`, C194 matrix exponentials
-/
namespace Heat
open Spec

/-! ## std -/

theorem stdDdof_small (ddof : Int) (h0 : 0 ≤ ddof) (h1 : ddof ≤ 1) : stdDdof ddof none = .ok ddof := by
  unfold stdDdof
  rw [if_neg (by omega)]
  by_cases h : ddof = 0
  · subst h; simp
  · have : ddof = 1 := by omega
    subst this; simp

/-- **C192, partial:** for `ddof` 0 and 1 and more elements than that, `std` over the whole array is the root of the variance with this `ddof`, for a replicated array and for every default distribution.
Missing: `ddof > 1` (`std_ddof_violated`), other distributions (C62). -/
theorem std_spec_partial (P : Nat) (hP : 0 < P) (d : Nat → List Rat) (ddof : Int) (h0 : 0 ≤ ddof) (h1 : ddof ≤ 1) (hb : Balanced P d) (hn : ddof.toNat < (content P d).length) :
    stdSq true P d ddof none = .ok (variance ddof.toNat (content P d)) ∧ ∀ l : List Rat, stdSq false P (fun _ => l) ddof none = .ok (variance ddof.toNat l) := by
  unfold stdSq
  rw [stdDdof_small ddof h0 h1]
  refine ⟨?_, fun l => by simp⟩
  by_cases h : ddof = 0
  · subst h
    have := var_all_canonical false P hP d hb (by simpa using hn)
    simp only [if_true, varCorrection]
    simpa using this
  · have e : ddof = 1 := by omega
    subst e
    have := var_all_canonical true P hP d hb (by simpa using hn)
    simp only [if_true, varCorrection]
    simpa using this

/-- **C192 violated:** every larger `ddof` gives the value for `ddof = 1`, distributed or not (`var` raises a `NotImplementedError`). -/
theorem std_ddof_violated (dist : Bool) (P : Nat) (d : Nat → List Rat) (ddof : Int) (h : 1 < ddof) : stdSq dist P d ddof none = stdSq dist P d 1 none := by
  have : stdDdof ddof none = stdDdof 1 none := by
    unfold stdDdof
    have a : ¬ ddof < 0 := by omega
    have b : ddof ≠ 0 := by omega
    simp [a, b]
  unfold stdSq
  rw [this]

/-- In particular the value is wrong: `std([0, 2, 4], ddof=2)` is 2 instead of the root of 8. -/
theorem std_ddof_value_violated : stdSq false 1 (fun _ => [0, 2, 4]) 2 none = .ok (some 4) ∧ variance 2 ([0, 2, 4] : List Rat) = some 8 := by
  constructor
  · rw [std_ddof_violated _ _ _ _ (by decide)]
    simp [stdSq, stdDdof, variance, sqdev, mean]
    norm_num
  · simp [variance, sqdev, mean]
    norm_num

/-- Negative values are refused. -/
theorem std_negative (dist : Bool) (P : Nat) (d : Nat → List Rat) (ddof : Int) (b : Option Bool) (h : ddof < 0) : stdSq dist P d ddof b = .error .valueError := by
  unfold stdSq stdDdof
  rw [if_pos h]

/-! ## vdot -/

/-- The sum of the products of the conjugates with the second operand. -/
def dotSum {K : Type} [Mul K] [Add K] [Zero K] (conj : K → K) (a b : List K) : K := (List.zipWith (fun x y => conj x * y) a b).sum

theorem fold_parts {K : Type} [Semiring K] (P : Nat) (loc : Nat → List K) (part : Nat → Except Err K) (h : ∀ r < P, part r = .ok (loc r).sum) :
    (List.range P).foldl (fun (acc : Except Err K) r => acc.bind fun a => (part r).map (a + ·)) (.ok 0 : Except Err K) = .ok (content P loc).sum := by
  have key : ∀ k ≤ P, (List.range k).foldl (fun (acc : Except Err K) r => acc.bind fun a => (part r).map (a + ·)) (.ok 0 : Except Err K) = .ok (content k loc).sum := by
    intro k hk
    induction k with
    | zero => simp [content_zero]
    | succ k ih =>
      rw [List.range_succ, List.foldl_append, ih (by omega), content_succ, List.sum_append]
      simp only [List.foldl_cons, List.foldl_nil, h k (by omega)]
      rfl
  exact key P (Nat.le_refl _)

theorem holds_map {α β : Type} (f : α → β) (P : Nat) (x : Opnd α) (l : List α) (h : Holds P x l) : Holds P (⟨x.n, x.dist, fun r => (x.loc r).map f, x.flag⟩ : Opnd β) (l.map f) := by
  obtain ⟨h1, h2, h3, h4⟩ := h
  refine ⟨by simpa using h1, fun hd => ?_, fun hd r hr => ?_, fun hd hf => ?_⟩
  · dsimp only; rw [content_map, h2 hd]
  · dsimp only; rw [h3 hd r hr]
  · have hbal := h4 hd hf
    intro r hr
    have := hbal r hr
    dsimp only
    rw [List.length_map, content_map, List.length_map]
    exact this

/-- **C193, partial:** for two arrays of the same size, each of them distributed in any way or replicated, `vdot` is the sum of the products of the conjugates of the first with the second.
Missing: the `ValueError` for different sizes (`vdot_size_violated`). -/
theorem vdot_spec_partial {K : Type} [Semiring K] (conj : K → K) (fuel P : Nat) (hP : 1 < P) (hfuel : 2 ≤ fuel) (x1 x2 : Opnd K) (l1 l2 : List K) (h1 : Holds P x1 l1) (h2 : Holds P x2 l2)
    (hn : l1.length = l2.length) : vdotModel conj fuel P x1 x2 = .ok (dotSum conj l1 l2) := by
  obtain ⟨res, e, ed, loc, hl, hc, hr, _⟩ := binaryOp_spec_partial fuel P hP hfuel (fun a b : K => a * b) _ x2 (l1.map conj) l2 (holds_map conj P x1 l1 h1) h2 (Or.inl (by simpa using hn))
  have hz : bzip (fun a b : K => a * b) (l1.map conj) l2 = List.zipWith (fun x y => conj x * y) l1 l2 := by
    rw [bzip_eq _ _ _ (by simpa using hn), List.zipWith_map_left]
  unfold vdotModel
  rw [e]
  dsimp only
  by_cases hd : res.dist = true
  · rw [if_pos hd, fold_parts P loc _ fun r hr' => by rw [hl r hr']; rfl, hc hd, hz]
    rfl
  · rw [if_neg hd, hl 0 (by omega), hr (by simpa using hd) 0 (by omega), hz]
    rfl

/-- **C193 violated:** an array with one element is multiplied with every element of the other one: no `ValueError` although the numbers of elements are inconsistent. -/
theorem vdot_size_violated : ∃ x1 x2 : Opnd Int, Holds 2 x1 [2] ∧ Holds 2 x2 [1, 2, 3] ∧ vdotModel id 2 2 x1 x2 = .ok 12 := by
  refine ⟨⟨1, false, fun _ => [2], none⟩, ⟨3, false, fun _ => [1, 2, 3], none⟩, ⟨rfl, ?_, ?_, ?_⟩, ⟨rfl, ?_, ?_, ?_⟩, by decide⟩ <;> simp

/-- Other inconsistent sizes are refused. -/
theorem vdot_mismatch {K : Type} [Semiring K] (conj : K → K) (fuel P : Nat) (x1 x2 : Opnd K) (h1 : x1.n ≠ x2.n) (h2 : x1.n ≠ 1) (h3 : x2.n ≠ 1) : vdotModel conj fuel P x1 x2 = .error .valueError := by
  unfold vdotModel
  have e := binaryOp_mismatch fuel P (fun a b : K => a * b) ⟨x1.n, x1.dist, fun r => (x1.loc r).map conj, x1.flag⟩ x2 h1 h2 h3
  rw [e]

/-! ## matrix_exp -/

/-- **C194, partial:** a batch in the default distribution: the exponentials of all matrices, in order.  Missing: other distributions (`matrixExp_unbalanced_violated`). -/
theorem matrixExp_partial {M : Type} (expm : M → M) (P n : Nat) (a : Nat → List M) (h : ∀ r < P, (a r).length = (chunkRange n r P).2 - (chunkRange n r P).1) :
    ∃ out : Nat → List M, (∀ r < P, matrixExpBatch expm P n a r = .ok (out r)) ∧ content P out = (content P a).map expm ∧ ∀ r < P, (out r).length = (a r).length := by
  refine ⟨fun r => (a r).map expm, fun r hr => ?_, content_map expm P a, fun r _ => by simp⟩
  unfold matrixExpBatch batchAssign
  rw [← h r hr]
  dsimp only
  generalize a r = t
  match t with
  | [] => simp
  | [x] => simp
  | x :: y :: l => simp

/-- **C194 violated:** for every batch in another distribution one of the processes raises a `RuntimeError`. -/
theorem matrixExp_unbalanced_violated {M : Type} (expm : M → M) (P n : Nat) (a : Nat → List M) (hP : 0 < P) (hn : (content P a).length = n)
    (h : ∃ r < P, (a r).length ≠ (chunkRange n r P).2 - (chunkRange n r P).1) : ∃ r < P, matrixExpBatch expm P n a r = .error .runtimeError := by
  by_contra hall
  push Not at hall
  have hle : ∀ r < P, (a r).length ≤ (chunkRange n r P).2 - (chunkRange n r P).1 ∨ (a r).length = 1 := by
    intro r hr
    by_contra hc
    push Not at hc
    apply hall r hr
    unfold matrixExpBatch batchAssign
    match hd : a r, hc with
    | [], hc => simp at hc
    | [x], hc => simp at hc
    | x :: y :: l, hc =>
      simp only [List.map_cons]
      rw [if_neg]
      simp only [List.length_cons, List.length_map]
      simp only [List.length_cons] at hc
      omega
  have hcase : ∀ r < P, (a r).length = (chunkRange n r P).2 - (chunkRange n r P).1 ∨ (a r).length = 1 := by
    intro r hr
    by_contra hc
    push Not at hc
    apply hall r hr
    unfold matrixExpBatch batchAssign
    match hd : a r, hc with
    | [], hc =>
      simp only [List.map_nil, List.length_nil] at hc ⊢
      rw [if_neg hc.1]
    | [x], hc => simp at hc
    | x :: y :: l, hc =>
      simp only [List.map_cons]
      rw [if_neg]
      simp only [List.length_cons, List.length_map]
      simp only [List.length_cons] at hc
      exact hc.1
  have hmono : ∀ r < P, (chunkRange n r P).1 ≤ (chunkRange n r P).2 := by
    intro r _
    rw [← chunkRange_succ]; exact chunkRange_mono n P (Nat.le_succ r)
  by_cases hsmall : ∀ r < P, (a r).length ≤ (chunkRange n r P).2 - (chunkRange n r P).1
  · -- the sums agree, so all terms agree
    have key : ∀ k ≤ P, (content k a).length ≤ (chunkRange n k P).1 ∧ ((∃ r < k, (a r).length ≠ (chunkRange n r P).2 - (chunkRange n r P).1) → (content k a).length < (chunkRange n k P).1) := by
      intro k hk
      induction k with
      | zero => simp [content_zero]
      | succ k ih =>
        obtain ⟨i1, i2⟩ := ih (by omega)
        have s1 := hsmall k (by omega)
        have s2 := hmono k (by omega)
        rw [content_succ, List.length_append, chunkRange_succ]
        refine ⟨by omega, ?_⟩
        rintro ⟨r, hr, hne⟩
        by_cases hrk : r < k
        · have := i2 ⟨r, hrk, hne⟩; omega
        · have : r = k := by omega
          subst this; omega
    have := (key P (Nat.le_refl _)).2 h
    rw [hn, chunkRange_at_P n P hP] at this
    omega
  · push Not at hsmall
    obtain ⟨r0, hr0, hgt⟩ := hsmall
    have h1 : (a r0).length = 1 := by
      rcases hcase r0 hr0 with h' | h'
      · omega
      · exact h'
    -- an empty chunk: then there are fewer matrices than processes, and all chunks have at most one
    have hz : (chunkRange n r0 P).2 - (chunkRange n r0 P).1 = 0 := by omega
    have hall1 : ∀ r < P, (chunkRange n r P).2 - (chunkRange n r P).1 ≤ 1 := by
      intro r hr
      have e0 := chunkRange_snd n r0 P
      have e1 := chunkRange_snd n r P
      unfold evenSize at e0 e1
      split at e0 <;> split at e1 <;> omega
    have hge : ∀ r < P, (chunkRange n r P).2 - (chunkRange n r P).1 ≤ (a r).length := by
      intro r hr
      rcases hcase r hr with h' | h'
      · omega
      · rw [h']; exact hall1 r hr
    have key : ∀ k ≤ P, (chunkRange n k P).1 ≤ (content k a).length ∧ (r0 < k → (chunkRange n k P).1 < (content k a).length) := by
      intro k hk
      induction k with
      | zero => simp [content_zero, chunkRange_zero]
      | succ k ih =>
        obtain ⟨i1, i2⟩ := ih (by omega)
        have s1 := hge k (by omega)
        have s2 := hmono k (by omega)
        rw [content_succ, List.length_append, chunkRange_succ]
        refine ⟨by omega, fun hlt => ?_⟩
        by_cases hrk : r0 < k
        · have := i2 hrk; omega
        · have : r0 = k := by omega
          subst this; omega
    have := (key P (Nat.le_refl _)).2 hr0
    rw [hn, chunkRange_at_P n P hP] at this
    omega

/-- The documented exception for a distribution along one of the two matrix axes. -/
theorem matrixExp_axis (split ndim : Nat) (h : split < ndim) : (matrixExpAxis true split ndim = .error .valueError ↔ split = ndim - 2 ∨ split = ndim - 1) ∧ matrixExpAxis false split ndim = .ok () := by
  unfold matrixExpAxis
  refine ⟨?_, rfl⟩
  by_cases hc : ndim ≤ split + 2
  · simp [hc]; omega
  · simp [hc]; omega

example : ∀ r < 2, (([[10], [11, 12]] : List (List Nat)).getD (1 - r) []).length = (chunkRange 3 r 2).2 - (chunkRange 3 r 2).1 := by decide
example : ∃ r < 2, (([[10], [11, 12, 13]] : List (List Nat)).getD r []).length ≠ (chunkRange 4 r 2).2 - (chunkRange 4 r 2).1 := ⟨0, by decide, by decide⟩

end Heat
