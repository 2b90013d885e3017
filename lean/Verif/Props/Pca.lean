import Verif.Model.Pca
import Verif.Props.Isvd
/-!
# Principal component analysis with the full decomposition (C137)
-/
namespace Heat
open Matrix
variable {K : Type} [Field K] [LinearOrder K] {m : Nat}
open Spec
variable [IsStrictOrderedRing K]
set_option linter.unusedSectionVars false

/-! ## The number of components for a fraction of the variance -/

theorem down_filter (p : Nat → Bool) (hd : ∀ i j, i ≤ j → p j = true → p i = true) : ∀ n, ∀ i < n, p i = true ↔ i < ((List.range n).filter p).length := by
  intro n
  induction n with
  | zero => intro i hi; omega
  | succ n ih =>
    intro i hi
    rw [List.range_succ, List.filter_append, List.length_append]
    by_cases hn : p n = true
    · have hall : (List.range n).filter p = List.range n := List.filter_eq_self.2 fun a ha => hd a n (List.mem_range.1 ha).le hn
      rw [hall, List.length_range]
      have h1 : ([n].filter p).length = 1 := by simp [hn]
      rw [h1]
      exact ⟨fun _ => hi, fun _ => hd i n (by omega) hn⟩
    · have h1 : ([n].filter p).length = 0 := by simp [hn]
      rw [h1, Nat.add_zero]
      rcases Nat.lt_or_ge i n with h | h
      · exact ih i h
      · have : i = n := by omega
        subst this
        have hle : ((List.range i).filter p).length ≤ i := by simpa using List.length_filter_le p (List.range i)
        exact ⟨fun h => absurd h hn, fun h => by omega⟩

theorem sqSum_take_mono (S : List K) {i j : Nat} (h : i ≤ j) : sqSum (S.take i) ≤ sqSum (S.take j) := by
  have e1 := sqSum_take_drop (S.take j) i
  rw [List.take_take, Nat.min_eq_left h] at e1
  have := sqSum_nonneg ((S.take j).drop i)
  linarith

/-- **C137, fraction of the variance**: the number of components kept is the smallest one whose variance exceeds the fraction `t` of the total variance, if that is not zero. -/
theorem pcaFracCount_spec {n : Nat} (hn : 2 ≤ n) {t : K} (ht0 : 0 < t) (ht1 : t < 1) {S : List K} (hS : 0 < sqSum S) :
    pcaFracCount n t S ≤ S.length ∧ t * sqSum S < sqSum (S.take (pcaFracCount n t S)) ∧ ∀ j < pcaFracCount n t S, sqSum (S.take j) ≤ t * sqSum S := by
  have hn1 : (0 : K) < (n : K) - 1 := by
    have : (2 : K) ≤ (n : K) := by exact_mod_cast hn
    linarith
  have hp : ∀ i, (((S.take (i + 1)).map fun s => s * s).sum / ((n : K) - 1) ≤ t * ((S.map fun s => s * s).sum / ((n : K) - 1))) ↔ sqSum (S.take (i + 1)) ≤ t * sqSum S := by
    intro i
    rw [← mul_div_assoc, div_le_div_iff_of_pos_right hn1]
    rfl
  have key := down_filter (fun i => decide (((S.take (i + 1)).map fun s => s * s).sum / ((n : K) - 1) ≤ t * ((S.map fun s => s * s).sum / ((n : K) - 1)))) (by
    intro i j hij hj
    rw [decide_eq_true_eq, hp] at hj ⊢
    exact (sqSum_take_mono S (by omega)).trans hj) S.length
  have hlen : pcaFracCount n t S = ((List.range S.length).filter fun i => decide (((S.take (i + 1)).map fun s => s * s).sum / ((n : K) - 1) ≤ t * ((S.map fun s => s * s).sum / ((n : K) - 1)))).length + 1 := rfl
  generalize ((List.range S.length).filter fun i => decide (((S.take (i + 1)).map fun s => s * s).sum / ((n : K) - 1) ≤ t * ((S.map fun s => s * s).sum / ((n : K) - 1)))).length = c at key hlen
  rw [hlen]
  simp only [decide_eq_true_eq, hp] at key
  have hfull : ¬ sqSum S ≤ t * sqSum S := by
    intro h
    nlinarith
  have hne : S.length ≠ 0 := by
    intro h
    rw [List.length_eq_zero_iff.1 h] at hS
    simp [sqSum] at hS
  have hc : c < S.length := by
    by_contra hc
    have := (key (S.length - 1) (by omega)).2 (by omega)
    rw [Nat.sub_add_cancel (by omega), List.take_of_length_le (le_refl _)] at this
    exact hfull this
  refine ⟨hc, ?_, ?_⟩
  · by_contra h
    have := (key c hc).1 (not_lt.1 h)
    omega
  · intro j hj
    rcases j with _ | j
    · simp only [List.take_zero, sqSum, List.map_nil, List.sum_nil]
      exact mul_nonneg ht0.le hS.le
    · exact (key j (by omega)).2 (by omega)

/-! ## Reconstruction -/

theorem pca_ok {D : Decomp K m} {nc : NComp K} {X : List (Fin m → K)} {x : Fin m → K} (hk : (pcaFit D nc X).ncomp = (pcaFit D nc X).comps.length) :
    pcaInverse (pcaFit D nc X) (pcaTransform (pcaFit D nc X) x) = .ok (((pcaFit D nc X).comps.map fun u => (u ⬝ᵥ (x - (pcaFit D nc X).mean)) • u).sum + (pcaFit D nc X).mean) := by
  generalize pcaFit D nc X = p at hk
  unfold pcaInverse pcaTransform
  rw [List.length_map, if_neg (by omega), List.zipWith_map_left, List.zipWith_self]
  simp only [dotProduct_comm]

/-- The error of the projection onto the leading vectors of a decomposition is what is dropped. -/
theorem projErr_take {M U : List (Fin m → K)} {σ : List K} (h : IsSvd M U σ) (k : Nat) : projErr (U.take k) M = sqSum (σ.drop k) := by
  have hlen : U.length = σ.length := by rw [h.lenU, h.lenS]
  rw [projErr_eq (ortho_take h.ortho k)]
  have e1 : frob2 M = sqSum σ := by
    rw [frob2_eq_gram]
    simp only [h.gram_eq]
    rw [← frob2_eq_gram]
    exact frob2_scaleCols h.ortho.2 hlen
  have e2 : ((U.take k).map fun u => gram M u u).sum = sqSum (σ.take k) := by
    rw [← gram_scale_sum (ortho_take h.ortho k) (by rw [List.length_take, List.length_take, hlen])]
    congr 1
    apply List.map_congr_left
    intro u hu
    rw [h.gram_eq, scaleCols_take_append U σ k, gram_append]
    have : gram (scaleCols (U.drop k) (σ.drop k)) u u = 0 := by
      unfold Spec.gram
      apply List.sum_eq_zero
      intro v hv
      obtain ⟨c, hc, rfl⟩ := List.mem_map.1 hv
      obtain ⟨i, hi, rfl⟩ := List.mem_iff_getElem.1 hc
      have hil : i < (U.drop k).length := by rw [scaleCols_length] at hi; omega
      have e0 : (scaleCols (U.drop k) (σ.drop k))[i] = ((σ.drop k)[i]'(by rw [scaleCols_length] at hi; omega)) • (U.drop k)[i] := by
        unfold scaleCols
        exact List.getElem_zipWith
      rw [e0, smul_dotProduct]
      obtain ⟨j, hj, rfl⟩ := List.mem_iff_getElem.1 hu
      rw [List.length_take] at hj
      rw [List.length_drop] at hil
      have : (U.drop k)[i] ⬝ᵥ (U.take k)[j] = 0 := by
        rw [List.getElem_drop, List.getElem_take, dotProduct_comm]
        exact List.pairwise_iff_getElem.1 h.ortho.1 j (k + i) (by omega) (by omega) (by omega)
      rw [this]
      simp
    rw [this, add_zero]
  rw [e1, e2, sqSum_take_drop σ k]
  ring

/-- **C137, reconstruction**: for a valid `n_components` that is not larger than the dimensions, and data with at least two samples that are not all equal, `inverse_transform(transform(x))` returns for every sample, the squared reconstruction error over the data is `1 - total_explained_variance_ratio_` times the variance of the data, nothing is lost without `n_components`, and with a fraction `t` more than `t` is explained. -/
theorem pca_roundtrip {D : Decomp K m} (ok : D.Ok) {nc : NComp K} (hv : nc.valid = true) {X : List (Fin m → K)} (hX : 2 ≤ X.length) (hvar : 0 < frob2 (X.map (· - sampleMean X))) (hnum : ∀ k, nc = .num k → k ≤ min X.length m) :
    ∃ rec : (Fin m → K) → Fin m → K, (∀ x, pcaInverse (pcaFit D nc X) (pcaTransform (pcaFit D nc X) x) = .ok (rec x)) ∧
      frob2 (X.map fun x => x - rec x) = (1 - (pcaFit D nc X).ratio) * frob2 (X.map (· - sampleMean X)) ∧
      (nc = .all → ∀ x ∈ X, rec x = x) ∧ (∀ t, nc = .frac t → t < (pcaFit D nc X).ratio) ∧ OrthoList (pcaFit D nc X).comps := by
  have hs := (ok.svd m (X.map (· - meanVec X))).left
  have hcomp : (pcaFit D nc X).comps = (D.svd m (X.map (· - meanVec X))).1.take (pcaCount nc X.length m (D.svd m (X.map (· - meanVec X))).2.1) := rfl
  have hncomp : (pcaFit D nc X).ncomp = pcaCount nc X.length m (D.svd m (X.map (· - meanVec X))).2.1 := rfl
  have hmean : (pcaFit D nc X).mean = sampleMean X := rfl
  have hratio : (pcaFit D nc X).ratio = (((D.svd m (X.map (· - meanVec X))).2.1.take (pcaCount nc X.length m (D.svd m (X.map (· - meanVec X))).2.1)).map fun s => s * s / ((X.length : K) - 1) / (((D.svd m (X.map (· - meanVec X))).2.1.map fun s => s * s).sum / ((X.length : K) - 1))).sum := rfl
  have hM : X.map (· - meanVec X) = X.map (· - sampleMean X) := rfl
  rw [hM] at hs hcomp hncomp hratio
  have hl : (X.map (· - sampleMean X)).length = X.length := List.length_map ..
  generalize D.svd m (X.map (· - sampleMean X)) = t at hs hcomp hncomp hratio
  have htot : sqSum t.2.1 = frob2 (X.map (· - sampleMean X)) := by
    rw [frob2_eq_gram]
    simp only [hs.gram_eq]
    rw [← frob2_eq_gram]
    exact (frob2_scaleCols hs.ortho.2 (by rw [hs.lenU, hs.lenS])).symm
  have hlU := hs.lenU
  have hlS := hs.lenS
  rw [hl] at hlU hlS
  have hcount : pcaCount nc X.length m t.2.1 ≤ t.2.1.length := by
    rcases nc with _ | k | f
    · simp only [pcaCount]; omega
    · have := hnum k rfl
      simp only [pcaCount]; omega
    · simp only [NComp.valid, Bool.and_eq_true, decide_eq_true_eq] at hv
      exact (pcaFracCount_spec hX hv.1 hv.2 (by rw [htot]; exact hvar)).1
  have hr : (pcaFit D nc X).ratio = sqSum (t.2.1.take (pcaCount nc X.length m t.2.1)) / sqSum t.2.1 := by
    rw [hratio]
    have hn1 : ((X.length : K) - 1) ≠ 0 := by
      have : (2 : K) ≤ (X.length : K) := by exact_mod_cast hX
      intro h
      linarith
    have hT : (t.2.1.map fun s => s * s).sum = sqSum t.2.1 := rfl
    have hTne : sqSum t.2.1 ≠ 0 := by rw [htot]; exact hvar.ne'
    rw [hT]
    have : ∀ l : List K, (l.map fun s => s * s / ((X.length : K) - 1) / (sqSum t.2.1 / ((X.length : K) - 1))).sum = sqSum l / sqSum t.2.1 := by
      intro l
      unfold sqSum at hTne ⊢
      induction l with
      | nil => simp
      | cons a l ih =>
        rw [List.map_cons, List.sum_cons, ih, List.map_cons, List.sum_cons]
        field_simp
    rw [this]
  generalize hk : pcaCount nc X.length m t.2.1 = k at hcomp hncomp hr hcount
  refine ⟨fun x => ((pcaFit D nc X).comps.map fun u => (u ⬝ᵥ (x - (pcaFit D nc X).mean)) • u).sum + (pcaFit D nc X).mean, fun x => pca_ok (by rw [hncomp, hcomp, List.length_take]; omega), ?_, ?_, ?_, ?_⟩
  · have e1 : frob2 (X.map fun x => x - (((pcaFit D nc X).comps.map fun u => (u ⬝ᵥ (x - (pcaFit D nc X).mean)) • u).sum + (pcaFit D nc X).mean)) = projErr (t.1.take k) (X.map (· - sampleMean X)) := by
      unfold Spec.projErr
      rw [List.map_map, hcomp, hmean]
      congr 1
      apply List.map_congr_left
      intro x _
      simp only [Function.comp]
      abel
    rw [e1, projErr_take hs, hr, ← htot]
    have hTne : sqSum t.2.1 ≠ 0 := by rw [htot]; exact hvar.ne'
    rw [sub_mul, one_mul, div_mul_cancel₀ _ hTne, sqSum_take_drop t.2.1 k]
    ring
  · intro hall x hx
    dsimp only
    have hkl : k = t.1.length := by
      rw [← hk, hall]
      simp only [pcaCount]
      omega
    have h0 : projErr (t.1.take k) (X.map (· - sampleMean X)) = 0 := by
      rw [projErr_take hs, List.drop_of_length_le (by omega)]
      rfl
    rw [hkl, List.take_of_length_le (le_refl _)] at h0 hcomp
    unfold Spec.projErr Spec.frob2 at h0
    rw [List.map_map, List.map_map] at h0
    have hz : ∀ a ∈ X, (fun c : Fin m → K => c ⬝ᵥ c) ((x - sampleMean X) - (t.1.map fun u => (u ⬝ᵥ (x - sampleMean X)) • u).sum) = 0 := by
      intro _ _
      have hnn : ∀ v ∈ X.map (((fun c => c ⬝ᵥ c) ∘ fun c => c - (t.1.map fun u => (u ⬝ᵥ c) • u).sum) ∘ fun x => x - sampleMean X), (0 : K) ≤ v := by
        intro v hv
        obtain ⟨c, _, rfl⟩ := List.mem_map.1 hv
        exact hdot_nonneg _
      have hle := List.single_le_sum hnn _ (List.mem_map_of_mem hx)
      rw [h0] at hle
      exact le_antisymm hle (hdot_nonneg _)
    have h1 := hdot_zero (hz x hx)
    rw [hcomp, hmean, ← sub_eq_zero.1 h1]
    abel
  · intro f hf
    subst hf
    simp only [NComp.valid, Bool.and_eq_true, decide_eq_true_eq] at hv
    have h1 := (pcaFracCount_spec hX hv.1 hv.2 (S := t.2.1) (by rw [htot]; exact hvar)).2.1
    have hk' : pcaFracCount X.length f t.2.1 = k := hk
    rw [hk'] at h1
    rw [hr, lt_div_iff₀ (by rw [htot]; exact hvar)]
    exact h1
  · rw [hcomp]
    exact ortho_take hs.ortho k

/-- **C137 fails for large `n_components`**: an integer larger than the number of samples or features is accepted, but `n_components_` is then larger than the number of components, and `inverse_transform(transform(x))` raises for every `x`. -/
theorem pca_large_violated {D : Decomp K m} (ok : D.Ok) {k : Nat} {X : List (Fin m → K)} (hk : min X.length m < k) (x : Fin m → K) : pcaInverse (pcaFit D (.num k) X) (pcaTransform (pcaFit D (.num k) X) x) = .error .valueError := by
  have hs := (ok.svd m (X.map (· - meanVec X))).left
  have hl := hs.lenU
  rw [List.length_map] at hl
  unfold pcaInverse pcaTransform
  have h1 : (pcaFit D (.num k) X).ncomp = k := rfl
  have h2 : (pcaFit D (.num k) X).comps = (D.svd m (X.map (· - meanVec X))).1.take k := rfl
  rw [List.length_map, h1, h2, List.length_take, if_pos (by omega)]

/-- **C137 fails for constant data**: with a fraction as `n_components`, `n_components_` is one more than the number of components, and `inverse_transform(transform(x))` raises for every `x`. -/
theorem pca_constant_violated {D : Decomp K m} (ok : D.Ok) (t : K) {X : List (Fin m → K)} (hc : frob2 (X.map (· - sampleMean X)) = 0) (x : Fin m → K) :
    pcaInverse (pcaFit D (.frac t) X) (pcaTransform (pcaFit D (.frac t) X) x) = .error .valueError := by
  have hs := (ok.svd m (X.map (· - meanVec X))).left
  have hl := hs.lenU
  have h1 : (pcaFit D (.frac t) X).ncomp = pcaFracCount X.length t (D.svd m (X.map (· - meanVec X))).2.1 := rfl
  have h2 : (pcaFit D (.frac t) X).comps = (D.svd m (X.map (· - meanVec X))).1.take (pcaFracCount X.length t (D.svd m (X.map (· - meanVec X))).2.1) := rfl
  have htot : sqSum (D.svd m (X.map (· - meanVec X))).2.1 = 0 := by
    rw [← frob2_scaleCols hs.ortho.2 (by rw [hs.lenU, hs.lenS]), frob2_eq_gram]
    simp only [← hs.gram_eq]
    rw [← frob2_eq_gram]
    exact hc
  have hS := hs.lenS
  generalize D.svd m (X.map (· - meanVec X)) = u at hl h1 h2 htot hS
  have hcount : pcaFracCount X.length t u.2.1 = u.2.1.length + 1 := by
    unfold pcaFracCount
    rw [List.filter_eq_self.2]
    · rw [List.length_range]
    · intro i hi
      rw [decide_eq_true_eq]
      have e1 : ((u.2.1.take (i + 1)).map fun s => s * s).sum = 0 := by
        have h3 := sqSum_take_drop u.2.1 (i + 1)
        have h4 := sqSum_nonneg (u.2.1.take (i + 1))
        have h5 := sqSum_nonneg (u.2.1.drop (i + 1))
        rw [htot] at h3
        exact le_antisymm (by unfold sqSum at *; linarith) h4
      have e2 : (u.2.1.map fun s => s * s).sum = 0 := htot
      rw [e1, e2]
      simp
  unfold pcaInverse pcaTransform
  rw [List.length_map, h1, h2, List.length_take, hcount, if_pos (by omega)]

/-! ## Non-vacuity -/

example : ∃ (D : Decomp ℝ 2) (rec : (Fin 2 → ℝ) → Fin 2 → ℝ), (∀ x, pcaInverse (pcaFit D (.frac (1/2)) [0, unit0 2, fun _ => 3]) (pcaTransform (pcaFit D (.frac (1/2)) [0, unit0 2, fun _ => 3]) x) = .ok (rec x)) ∧ 1/2 < (pcaFit D (.frac (1/2)) [0, unit0 2, fun _ => 3]).ratio := by
  obtain ⟨D, ok⟩ := exists_decomp 2
  obtain ⟨rec, h1, -, -, h2, -⟩ := pca_roundtrip ok (nc := .frac (1/2)) (X := [0, unit0 2, fun _ => 3]) (by norm_num [NComp.valid]) (by simp) (by
    norm_num [Spec.frob2, Spec.sampleMean, unit0, dotProduct, Fin.sum_univ_two]) (by simp)
  exact ⟨D, rec, h1, h2 _ rfl⟩

example : pcaFracCount 5 (3/5 : ℚ) [4, 3, 0] = 1 := by decide +kernel
example : pcaFracCount 5 (16/25 : ℚ) [4, 3, 0] = 2 := by decide +kernel

end Heat
