import Verif.Model.Hsvd
import Verif.Props.Mpi
import Mathlib.Tactic.Linarith
import Mathlib.Tactic.Ring
import Mathlib.Tactic.FieldSimp
import Mathlib.Tactic.Positivity
import Mathlib.Data.Nat.Log
import Mathlib.Analysis.Matrix.Spectrum
import Mathlib.LinearAlgebra.Matrix.Rank
/-!
# C132, C133: hierarchical singular value decomposition
-/
namespace Heat
open Matrix
variable {K : Type} [Field K] [LinearOrder K] {m : Nat}
set_option linter.unusedSectionVars false

/-! ## Specification -/

/-- Sum over the columns `c` of the products of the components of `c` along `x` and `y` (`x^T M M^T y`). -/
def Spec.gram (M : List (Fin m → K)) (x y : Fin m → K) : K := (M.map fun c => (c ⬝ᵥ x) * (c ⬝ᵥ y)).sum

/-- Squared Frobenius norm. -/
def Spec.frob2 (M : List (Fin m → K)) : K := (M.map fun c => c ⬝ᵥ c).sum

/-- The vectors of the list are orthonormal. -/
def Spec.OrthoList (U : List (Fin m → K)) : Prop := U.Pairwise (fun u v => u ⬝ᵥ v = 0) ∧ ∀ u ∈ U, u ⬝ᵥ u = 1

/-- What a singular value decomposition of `M` without right factor is: as many orthonormal vectors and nonnegative, nonincreasing values as the smaller side of `M`, with `M M^T = U diag(σ)^2 U^T`. -/
structure Spec.IsSvd (M : List (Fin m → K)) (U : List (Fin m → K)) (σ : List K) : Prop where
  lenU : U.length = min m M.length
  lenS : σ.length = min m M.length
  ortho : OrthoList U
  nonneg : ∀ s ∈ σ, 0 ≤ s
  sorted : σ.Pairwise (fun a b => b ≤ a)
  gram_eq : ∀ x y, gram M x y = gram (scaleCols U σ) x y

/-- Squared Frobenius norm of `M - U U^T M`. -/
def Spec.projErr (U M : List (Fin m → K)) : K := frob2 (M.map fun c => c - (U.map fun u => (u ⬝ᵥ c) • u).sum)

open Spec
variable [IsStrictOrderedRing K]

theorem gram_append (M N : List (Fin m → K)) (x y : Fin m → K) : gram (M ++ N) x y = gram M x y + gram N x y := by
  unfold gram
  rw [List.map_append, List.sum_append]

theorem gram_flatMap {ι : Type} (l : List ι) (f : ι → List (Fin m → K)) (x y : Fin m → K) : gram (l.flatMap f) x y = (l.map fun i => gram (f i) x y).sum := by
  induction l with
  | nil => rfl
  | cons a l ih => rw [List.flatMap_cons, gram_append, ih, List.map_cons, List.sum_cons]

theorem frob2_append (M N : List (Fin m → K)) : frob2 (M ++ N) = frob2 M + frob2 N := by
  unfold frob2
  rw [List.map_append, List.sum_append]

theorem gram_self_nonneg (M : List (Fin m → K)) (x : Fin m → K) : 0 ≤ gram M x x := by
  unfold gram
  apply List.sum_nonneg
  intro a ha
  obtain ⟨c, -, rfl⟩ := List.mem_map.1 ha
  exact mul_self_nonneg _

theorem sqSum_nonneg (l : List K) : 0 ≤ sqSum l := by
  unfold sqSum
  apply List.sum_nonneg
  intro a ha
  obtain ⟨c, -, rfl⟩ := List.mem_map.1 ha
  exact mul_self_nonneg _

theorem sqSum_append (a b : List K) : sqSum (a ++ b) = sqSum a + sqSum b := by
  unfold sqSum
  rw [List.map_append, List.sum_append]

theorem sqSum_take_drop (l : List K) (k : Nat) : sqSum l = sqSum (l.take k) + sqSum (l.drop k) := by
  rw [← sqSum_append, List.take_append_drop]

theorem sqSum_drop_le (l : List K) (k : Nat) : sqSum (l.drop k) ≤ sqSum l := by
  have := sqSum_take_drop l k
  have := sqSum_nonneg (l.take k)
  linarith

theorem sqSum_drop_anti (l : List K) {j k : Nat} (h : j ≤ k) : sqSum (l.drop k) ≤ sqSum (l.drop j) := by
  have : l.drop k = (l.drop j).drop (k - j) := by rw [List.drop_drop]; congr 1; omega
  rw [this]
  exact sqSum_drop_le _ _

/-- The trace of the Gram matrix. -/
theorem frob2_eq_gram (M : List (Fin m → K)) : frob2 M = ∑ i, gram M (Pi.single i 1) (Pi.single i 1) := by
  induction M with
  | nil => simp [frob2, gram]
  | cons c M ih =>
    have h1 : frob2 (c :: M) = c ⬝ᵥ c + frob2 M := by simp [frob2]
    have h2 : ∀ x, gram (c :: M) x x = (c ⬝ᵥ x) * (c ⬝ᵥ x) + gram M x x := by intro x; simp [gram]
    rw [h1, ih]
    simp only [h2, Finset.sum_add_distrib, dotProduct_single, mul_one]
    rfl

theorem scaleCols_take_append (U : List (Fin m → K)) (σ : List K) (t : Nat) : scaleCols U σ = scaleCols (U.take t) (σ.take t) ++ scaleCols (U.drop t) (σ.drop t) := by
  unfold scaleCols
  rw [← List.take_zipWith, ← List.drop_zipWith, List.take_append_drop]

theorem scaleCols_length (U : List (Fin m → K)) (σ : List K) : (scaleCols U σ).length = min U.length σ.length := List.length_zipWith ..

/-- Norms of scaled unit vectors. -/
theorem frob2_scaleCols : ∀ {U : List (Fin m → K)} {σ : List K}, (∀ u ∈ U, u ⬝ᵥ u = 1) → U.length = σ.length → frob2 (scaleCols U σ) = sqSum σ := by
  intro U
  induction U with
  | nil =>
    intro σ _ h
    cases σ with
    | nil => simp [frob2, scaleCols, sqSum]
    | cons _ _ => simp at h
  | cons u U ih =>
    intro σ hU h
    cases σ with
    | nil => simp at h
    | cons s σ =>
      have := ih (σ := σ) (fun v hv => hU v (List.mem_cons_of_mem _ hv)) (by simpa using h)
      have e1 : frob2 (scaleCols (u :: U) (s :: σ)) = (s • u) ⬝ᵥ (s • u) + frob2 (scaleCols U σ) := by simp [frob2, scaleCols]
      have e2 : sqSum (s :: σ) = s * s + sqSum σ := by simp [sqSum]
      rw [e1, e2, this, smul_dotProduct, dotProduct_smul, hU u (by simp)]
      simp

theorem ortho_take {U : List (Fin m → K)} (h : OrthoList U) (t : Nat) : OrthoList (U.take t) :=
  ⟨h.1.sublist (List.take_sublist ..), fun u hu => h.2 u (List.mem_of_mem_take hu)⟩

theorem dot_list_sum (l : List (Fin m → K)) (c : Fin m → K) : l.sum ⬝ᵥ c = (l.map fun u => u ⬝ᵥ c).sum := by
  induction l with
  | nil => simp
  | cons u l ih => rw [List.sum_cons, add_dotProduct, ih, List.map_cons, List.sum_cons]

/-- Orthogonal to all vectors of an orthonormal list: the coefficient sum. -/
theorem proj_norm : ∀ {U : List (Fin m → K)}, OrthoList U → ∀ c : Fin m → K,
    (c - (U.map fun u => (u ⬝ᵥ c) • u).sum) ⬝ᵥ (c - (U.map fun u => (u ⬝ᵥ c) • u).sum) = c ⬝ᵥ c - (U.map fun u => (u ⬝ᵥ c) * (u ⬝ᵥ c)).sum := by
  intro U hU c
  set p := (U.map fun u => (u ⬝ᵥ c) • u).sum with hp
  have h1 : p ⬝ᵥ c = (U.map fun u => (u ⬝ᵥ c) * (u ⬝ᵥ c)).sum := by
    rw [hp, dot_list_sum, List.map_map]
    congr 1
    apply List.map_congr_left
    intro u _
    simp [smul_dotProduct]
  have h2 : p ⬝ᵥ p = (U.map fun u => (u ⬝ᵥ c) * (u ⬝ᵥ c)).sum := by
    rw [hp]
    clear h1 hp p
    obtain ⟨h3, h4⟩ := hU
    induction U with
    | nil => simp
    | cons u U ih =>
      rw [List.pairwise_cons] at h3
      have ih := ih h3.2 fun v hv => h4 v (List.mem_cons_of_mem _ hv)
      simp only [List.map_cons, List.sum_cons]
      set q := (U.map fun u => (u ⬝ᵥ c) • u).sum with hq
      have hz : q ⬝ᵥ u = 0 := by
        rw [hq, dot_list_sum, List.map_map]
        apply List.sum_eq_zero
        intro x hx
        obtain ⟨v, hv, rfl⟩ := List.mem_map.1 hx
        simp only [Function.comp, smul_dotProduct]
        rw [dotProduct_comm v u, h3.1 v hv, smul_zero]
      rw [add_dotProduct, dotProduct_add, dotProduct_add, ih, smul_dotProduct, dotProduct_smul, h4 u (by simp), smul_dotProduct, dotProduct_comm u q, dotProduct_smul, hz]
      simp
  rw [sub_dotProduct, dotProduct_sub, dotProduct_sub, dotProduct_comm c p, h1, h2]
  ring

theorem projErr_eq {U : List (Fin m → K)} (hU : OrthoList U) (M : List (Fin m → K)) : projErr U M = frob2 M - (U.map fun u => gram M u u).sum := by
  unfold projErr
  induction M with
  | nil => simp [frob2, gram]
  | cons c M ih =>
    have e : ∀ l : List (Fin m → K), frob2 (c :: l) = c ⬝ᵥ c + frob2 l := by intro l; simp [frob2]
    have e' : ∀ (d : Fin m → K) (l : List (Fin m → K)), frob2 (d :: l) = d ⬝ᵥ d + frob2 l := by intro d l; simp [frob2]
    have e2 : ∀ x, gram (c :: M) x x = (c ⬝ᵥ x) * (c ⬝ᵥ x) + gram M x x := by intro x; simp [gram]
    rw [List.map_cons, e', proj_norm hU c, ih, e M]
    simp only [e2]
    rw [List.sum_map_add]
    have : (U.map fun u => (u ⬝ᵥ c) * (u ⬝ᵥ c)) = U.map fun u => (c ⬝ᵥ u) * (c ⬝ᵥ u) := by
      apply List.map_congr_left
      intro u _
      rw [dotProduct_comm]
    rw [this]
    ring

/-- The Gram form of scaled orthonormal vectors, summed over these vectors. -/
theorem gram_scale_sum : ∀ {U : List (Fin m → K)} {σ : List K}, OrthoList U → U.length = σ.length → (U.map fun u => gram (scaleCols U σ) u u).sum = sqSum σ := by
  intro U
  induction U with
  | nil =>
    intro σ _ h
    cases σ with
    | nil => simp [sqSum]
    | cons _ _ => simp at h
  | cons u U ih =>
    intro σ hU h
    cases σ with
    | nil => simp at h
    | cons s σ =>
      obtain ⟨h3, h4⟩ := hU
      rw [List.pairwise_cons] at h3
      have ih := ih (σ := σ) ⟨h3.2, fun v hv => h4 v (List.mem_cons_of_mem _ hv)⟩ (by simpa using h)
      have e1 : ∀ x, gram (scaleCols (u :: U) (s :: σ)) x x = ((s • u) ⬝ᵥ x) * ((s • u) ⬝ᵥ x) + gram (scaleCols U σ) x x := by intro x; simp [gram, scaleCols]
      have e2 : sqSum (s :: σ) = s * s + sqSum σ := by simp [sqSum]
      have z : gram (scaleCols U σ) u u = 0 := by
        unfold gram
        apply List.sum_eq_zero
        intro x hx
        obtain ⟨c, hc, rfl⟩ := List.mem_map.1 hx
        unfold scaleCols at hc
        obtain ⟨i, hi, rfl⟩ := List.mem_iff_getElem.1 hc
        rw [List.getElem_zipWith, smul_dotProduct, dotProduct_comm, h3.1 _ (List.getElem_mem _)]
        simp
      have z2 : (U.map fun v => ((s • u) ⬝ᵥ v) * ((s • u) ⬝ᵥ v)).sum = 0 := by
        apply List.sum_eq_zero
        intro x hx
        obtain ⟨v, hv, rfl⟩ := List.mem_map.1 hx
        rw [smul_dotProduct, h3.1 v hv]
        simp
      rw [List.map_cons, List.sum_cons, e1, z, smul_dotProduct, h4 u (by simp), e2]
      simp only [e1]
      rw [List.sum_map_add, z2, ih]
      simp

/-- **The error of a projection is at most the weight of what was left out**: if `M M^T = U diag(σ)^2 U^T + E E^T` then `|M - U U^T M|^2 ≤ |E|^2`. -/
theorem projErr_le {U M E : List (Fin m → K)} {σ : List K} (hU : OrthoList U) (hl : U.length = σ.length) (h : ∀ x y, gram M x y = gram (scaleCols U σ) x y + gram E x y) : projErr U M ≤ frob2 E := by
  rw [projErr_eq hU, frob2_eq_gram M, frob2_eq_gram E]
  simp only [h]
  rw [Finset.sum_add_distrib, ← frob2_eq_gram (scaleCols U σ), frob2_scaleCols hU.2 hl, List.sum_map_add, gram_scale_sum hU hl]
  have : 0 ≤ (U.map fun u => gram E u u).sum := by
    apply List.sum_nonneg
    intro a ha
    obtain ⟨u, -, rfl⟩ := List.mem_map.1 ha
    exact gram_self_nonneg E u
  linarith

/-! ## One truncation -/

theorem foldl_last (l : List Nat) : l ≠ [] → ∀ c, ∃ i ∈ l, l.foldl (fun _ i => i + 1) c = i + 1 := by
  induction l with
  | nil => intro h; exact absurd rfl h
  | cons a l ih =>
    intro _ c
    rw [List.foldl_cons]
    by_cases hl : l = []
    · subst hl; exact ⟨a, by simp, rfl⟩
    · obtain ⟨i, hi, e⟩ := ih hl (a + 1)
      exact ⟨i, List.mem_cons_of_mem _ hi, e⟩

theorem foldl_last_ge {l : List Nat} (hs : l.Pairwise (· < ·)) : ∀ (c : Nat), ∀ i ∈ l, i + 1 ≤ l.foldl (fun _ i => i + 1) c := by
  induction l with
  | nil => intro _ _ h; simp at h
  | cons a l ih =>
    intro c i hi
    rw [List.foldl_cons]
    rw [List.pairwise_cons] at hs
    by_cases hl : l = []
    · subst hl
      rw [List.mem_singleton] at hi
      subst hi
      exact le_rfl
    · rcases List.mem_cons.1 hi with rfl | hi
      · obtain ⟨j, hj, e⟩ := foldl_last l hl (i + 1)
        rw [e]
        have := hs.1 j hj
        omega
      · exact ih hs.2 _ i hi

/-- Values at or after the noise rank are below the noise level; the noise rank does not exceed the length. -/
theorem noiseRank_spec (noise : K) (σ : List K) : noiseRank noise σ ≤ σ.length ∧ ∀ s ∈ σ.drop (noiseRank noise σ), s < noise := by
  unfold noiseRank
  set l := (List.range σ.length).filter fun i => noise ≤ σ.getD i 0 with hl
  have hmem : ∀ i, i ∈ l ↔ i < σ.length ∧ noise ≤ σ.getD i 0 := by intro i; rw [hl, List.mem_filter, List.mem_range]; simp
  have hsort : l.Pairwise (· < ·) := List.pairwise_lt_range.filter _
  constructor
  · by_cases h : l = []
    · rw [h]; exact Nat.zero_le _
    · obtain ⟨i, hi, e⟩ := foldl_last l h 0
      rw [e]
      exact ((hmem i).1 hi).1
  · intro s hs
    obtain ⟨i, hi, rfl⟩ := List.mem_iff_getElem.1 hs
    rw [List.length_drop] at hi
    rw [List.getElem_drop]
    by_contra hc
    rw [not_lt] at hc
    have hi' : l.foldl (fun _ i => i + 1) 0 + i < σ.length := by omega
    have := foldl_last_ge hsort 0 (l.foldl (fun _ i => i + 1) 0 + i) ((hmem _).2 ⟨hi', by rw [List.getD_eq_getElem?_getD, List.getElem?_eq_getElem hi']; exact hc⟩)
    omega

/-- With nonincreasing values, those before the noise rank are at or above the noise level. -/
theorem noiseRank_ge {noise : K} {σ : List K} (hs : σ.Pairwise (fun a b => b ≤ a)) {i : Nat} (hi : i < noiseRank noise σ) (hl : i < σ.length) : noise ≤ σ[i] := by
  unfold noiseRank at hi
  set l := (List.range σ.length).filter fun i => noise ≤ σ.getD i 0 with hl'
  have hne : l ≠ [] := by intro h; rw [h] at hi; simp at hi
  obtain ⟨j, hj, e⟩ := foldl_last l hne 0
  rw [e] at hi
  rw [hl', List.mem_filter, List.mem_range] at hj
  have hj2 : noise ≤ σ[j]'hj.1 := by
    have := hj.2
    rw [List.getD_eq_getElem?_getD, List.getElem?_eq_getElem hj.1] at this
    simpa using this
  rcases Nat.lt_or_ge i j with h | h
  · exact hj2.trans (List.pairwise_iff_getElem.1 hs i j hl hj.1 h)
  · have : i = j := by omega
    subst this
    exact hj2

theorem idealRank_spec {a : K} {σ : List K} {k : Nat} (h : idealRank a σ = some k) : k ≤ σ.length ∧ sqSum (σ.drop k) < a := by
  unfold idealRank at h
  have h1 := List.mem_of_find?_eq_some h
  have h2 := List.find?_some h
  rw [List.mem_range] at h1
  exact ⟨by omega, by simpa using h2⟩

theorem idealRank_some {a : K} (ha : 0 < a) (σ : List K) : ∃ k, idealRank a σ = some k := by
  unfold idealRank
  rw [← Option.isSome_iff_exists, List.find?_isSome]
  exact ⟨σ.length, by simp, by simpa [sqSum] using ha⟩

theorem truncRank_le (noise : K) (maxrank : Nat) (a2 : Option K) (σ : List K) : truncRank noise maxrank a2 σ ≤ maxrank ∧ truncRank noise maxrank a2 σ ≤ noiseRank noise σ := by
  unfold truncRank
  cases a2 with
  | none => exact ⟨min_le_left _ _, min_le_right _ _⟩
  | some a => exact ⟨(min_le_left _ _).trans (min_le_left _ _), min_le_right _ _⟩

theorem gram_zero_col (x y : Fin m → K) : gram (scaleCols [(0 : Fin m → K)] [(0 : K)]) x y = 0 := by
  simp [gram, scaleCols]

/-- **One truncation.** What is kept and what is dropped make up the Gram matrix; the weight of the dropped part is at most the reported squared error. -/
theorem truncSvd_spec {svd : List (Fin m → K) → List (Fin m → K) × List K} {M : List (Fin m → K)} (h : IsSvd M (svd M).1 (svd M).2) {noise : K} (hn : 0 < noise) (maxrank : Nat) (a2 : Option K) (shift : Nat) :
    ∃ E : List (Fin m → K), (∀ x y, gram M x y = gram (scaleCols (truncSvd svd noise maxrank a2 shift M).1 (truncSvd svd noise maxrank a2 shift M).2.1) x y + gram E x y) ∧
      frob2 E ≤ (truncSvd svd noise maxrank a2 shift M).2.2 ∧
      (truncSvd svd noise maxrank a2 shift M).1.length = (truncSvd svd noise maxrank a2 shift M).2.1.length ∧
      (truncSvd svd noise maxrank a2 shift M).1.length ≤ max 1 (maxrank + shift) ∧ (truncSvd svd noise maxrank a2 shift M).1.length ≤ max 1 M.length ∧
      (OrthoList (truncSvd svd noise maxrank a2 shift M).1 ∧ (shift = 0 → ∀ s ∈ (truncSvd svd noise maxrank a2 shift M).2.1, noise ≤ s) ∨ (truncSvd svd noise maxrank a2 shift M).1 = [0] ∧ (truncSvd svd noise maxrank a2 shift M).2.1 = [0]) ∧
      (∀ c, (∀ a ∈ a2, 0 < a ∧ a ≤ c) → a2 ≠ none → m * (noise * noise) ≤ c → min m M.length ≤ maxrank → frob2 E ≤ c) ∧
      ((1 ≤ shift ∨ a2 = none ∧ 1 ≤ maxrank) → 1 ≤ (truncSvd svd noise maxrank a2 shift M).1.length) := by
  unfold truncSvd
  dsimp only
  set U := (svd M).1 with hU
  set σ := (svd M).2 with hσ
  have hlen : U.length = σ.length := by rw [h.lenU, h.lenS]
  have hsmall : ∀ l : List K, l.Sublist σ → (∀ s ∈ l, s < noise) → sqSum l ≤ m * (noise * noise) := by
    intro l hl hs
    have h1 : sqSum l ≤ l.length * (noise * noise) := by
      unfold sqSum
      have := List.sum_le_card_nsmul (l.map fun x => x * x) (noise * noise) (by
        intro x hx
        obtain ⟨s, hs', rfl⟩ := List.mem_map.1 hx
        exact mul_self_le_mul_self (h.nonneg s (hl.subset hs')) (hs s hs').le)
      rwa [List.length_map, nsmul_eq_mul] at this
    have h2 : l.length ≤ m := by
      have := hl.length_le
      have := h.lenS
      omega
    have h3 : (0 : K) ≤ noise * noise := mul_self_nonneg _
    have h4 : (l.length : K) ≤ m := by exact_mod_cast h2
    nlinarith
  by_cases hz : noiseRank noise σ = 0
  · rw [if_neg (by simpa using hz)]
    refine ⟨scaleCols U σ, ?_, ?_, rfl, ?_, ?_, .inr ⟨rfl, rfl⟩, ?_, fun _ => le_rfl⟩
    · intro x y
      rw [h.gram_eq x y, gram_zero_col, zero_add]
    · rw [frob2_scaleCols h.ortho.2 hlen]
    · simp
    · simp
    · intro c _ _ hc _
      rw [frob2_scaleCols h.ortho.2 hlen]
      refine (hsmall σ (List.Sublist.refl _) ?_).trans hc
      have := (noiseRank_spec noise σ).2
      rw [hz, List.drop_zero] at this
      exact this
  · rw [if_pos hz]
    dsimp only
    set r := truncRank noise maxrank a2 σ with hr
    set t := min σ.length (r + shift) with ht
    have hrn := (truncRank_le noise maxrank a2 σ).2
    have hrm := (truncRank_le noise maxrank a2 σ).1
    rw [← hr] at hrn hrm
    have hnl := (noiseRank_spec noise σ).1
    have hE : frob2 (scaleCols (U.drop t) (σ.drop t)) = sqSum (σ.drop t) :=
      frob2_scaleCols (fun u hu => h.ortho.2 u (List.mem_of_mem_drop hu)) (by rw [List.length_drop, List.length_drop, hlen])
    have hlt : (U.take t).length = t := by rw [List.length_take]; omega
    refine ⟨scaleCols (U.drop t) (σ.drop t), ?_, ?_, ?_, ?_, ?_, .inl ⟨ortho_take h.ortho t, ?_⟩, ?_, ?_⟩
    · intro x y
      rw [h.gram_eq x y, scaleCols_take_append U σ t, gram_append]
    · rw [hE]
      by_cases hs : shift ≤ t
      · rw [if_pos hs]
        exact sqSum_drop_anti σ (Nat.sub_le _ _)
      · rw [if_neg hs]
        have : t = σ.length := by omega
        rw [this, List.drop_length]
        exact sqSum_nonneg _
    · rw [List.length_take, List.length_take, hlen]
    · rw [hlt]
      have : t ≤ maxrank + shift := by omega
      exact this.trans (le_max_right _ _)
    · rw [hlt]
      have := h.lenS
      have : t ≤ M.length := by omega
      exact this.trans (le_max_right _ _)
    · intro h0 s hs
      obtain ⟨i, hi, rfl⟩ := List.mem_iff_getElem.1 hs
      rw [List.length_take] at hi
      rw [List.getElem_take]
      exact noiseRank_ge h.sorted (by omega) (by omega)
    · intro c hc hne hm hmr
      rw [hE]
      refine (sqSum_drop_anti σ (j := min σ.length r) (by omega)).trans ?_
      obtain ⟨a, rfl⟩ := Option.ne_none_iff_exists'.1 hne
      obtain ⟨ha, hac⟩ := hc a rfl
      obtain ⟨k, hk⟩ := idealRank_some ha σ
      obtain ⟨hkl, hks⟩ := idealRank_spec hk
      have hr' : r = min (min maxrank k) (noiseRank noise σ) := by rw [hr]; unfold truncRank; dsimp only; rw [hk, Option.getD_some]
      have hls := h.lenS
      have hr2 : r = min k (noiseRank noise σ) := by omega
      rcases le_total k (noiseRank noise σ) with hk2 | hk2
      · rw [show min σ.length r = k by omega]
        exact hks.le.trans hac
      · rw [show min σ.length r = noiseRank noise σ by omega]
        exact (hsmall _ (List.drop_sublist ..) (noiseRank_spec noise σ).2).trans hm
    · intro hp
      rw [hlt]
      rcases hp with hp | ⟨hp, hp2⟩
      · omega
      · have : r = min maxrank (noiseRank noise σ) := by rw [hr, hp]; rfl
        omega

/-! ## The plan of a level -/

/-- What the planning loop guarantees after the processes `pre`. -/
structure PlanInv (mm : Nat) (pre : List Nat) (s : HPlan) : Prop where
  nodup : s.future.Nodup
  sub : ∀ i ∈ s.future, i ∈ pre
  cur : s.cur ∈ s.future
  send : ∀ k d, s.send k = some d → d ∈ s.future ∧ k ∈ pre ∧ k ∉ s.future
  head : ∃ l, s.future = 0 :: l

theorem planInv_step {dims : Nat → Nat} {mm : Nat} {nom : Option Nat} {pre : List Nat} {s : HPlan} (h : PlanInv mm pre s) {i : Nat} (hi : i ∉ pre) : PlanInv mm (pre ++ [i]) (planStep dims mm nom s i) := by
  unfold planStep
  have hif : i ∉ s.future := fun hc => hi (h.sub i hc)
  by_cases hc : mm < s.used + dims i ∨ nom = some s.counter
  · rw [if_pos hc]
    refine ⟨?_, ?_, by simp, ?_, ?_⟩
    · rw [List.nodup_append]
      exact ⟨h.nodup, by simp, fun a ha b hb e => by rw [List.mem_singleton] at hb; subst hb; exact hif (e ▸ ha)⟩
    · intro j hj
      rcases List.mem_append.1 hj with hj | hj
      · exact List.mem_append_left _ (h.sub j hj)
      · exact List.mem_append_right _ hj
    · intro k d hk
      obtain ⟨h1, h2, h3⟩ := h.send k d hk
      refine ⟨List.mem_append_left _ h1, List.mem_append_left _ h2, ?_⟩
      intro hc
      rcases List.mem_append.1 hc with hc | hc
      · exact h3 hc
      · rw [List.mem_singleton] at hc; subst hc; exact hi h2
    · obtain ⟨l, e⟩ := h.head
      exact ⟨l ++ [i], by show s.future ++ [i] = _; rw [e]; rfl⟩
  · rw [if_neg hc]
    refine ⟨h.nodup, fun j hj => List.mem_append_left _ (h.sub j hj), h.cur, ?_, h.head⟩
    intro k d hk
    dsimp only at hk ⊢
    by_cases hu : s.used ≠ 0
    · rw [if_pos hu] at hk
      by_cases hki : k = i
      · subst hki
        rw [Function.update_self] at hk
        cases hk
        exact ⟨h.cur, by simp, hif⟩
      · rw [Function.update_of_ne hki] at hk
        obtain ⟨h1, h2, h3⟩ := h.send k d hk
        exact ⟨h1, List.mem_append_left _ h2, h3⟩
    · rw [if_neg hu] at hk
      obtain ⟨h1, h2, h3⟩ := h.send k d hk
      exact ⟨h1, List.mem_append_left _ h2, h3⟩

theorem planInv_fold {dims : Nat → Nat} {mm : Nat} {nom : Option Nat} : ∀ (l : List Nat) {pre : List Nat} {s : HPlan}, PlanInv mm pre s → (pre ++ l).Nodup → PlanInv mm (pre ++ l) (l.foldl (planStep dims mm nom) s) := by
  intro l
  induction l with
  | nil => intro pre s h _; simpa using h
  | cons i l ih =>
    intro pre s h hn
    rw [List.foldl_cons, show pre ++ i :: l = (pre ++ [i]) ++ l by simp]
    apply ih
    · apply planInv_step h
      intro hc
      rw [List.nodup_append] at hn
      exact hn.2.2 i hc i (by simp) rfl
    · simpa using hn

/-- The first process stays. -/
theorem plan_first {dims : Nat → Nat} {mm : Nat} {nom : Option Nat} (h0 : dims 0 ≤ mm) (hnom : nom ≠ some 0) : planStep dims mm nom ⟨[0], fun _ => none, 0, 0, 0⟩ 0 = ⟨[0], fun _ => none, 0, dims 0, 1⟩ := by
  unfold planStep
  rw [if_neg (by rintro (h | h); · simp at h; omega
                 · exact hnom h), if_neg (by simp)]
  simp

theorem hPlan_inv {dims : Nat → Nat} {mm : Nat} {nom : Option Nat} {rest : List Nat} (h0 : dims 0 ≤ mm) (hnom : nom ≠ some 0) (hn : (0 :: rest).Nodup) : PlanInv mm (0 :: rest) (hPlan dims mm nom (0 :: rest)) := by
  unfold hPlan
  rw [List.foldl_cons, plan_first h0 hnom]
  apply planInv_fold rest (pre := [0]) _ hn
  refine ⟨by simp, by simp, by simp, by simp, ⟨[], rfl⟩⟩

/-- How many processes go on, and that every process goes on or has a receiver. -/
structure PlanCnt (pos : Prop) (dims : Nat → Nat) (D : Nat) (pre : List Nat) (s : HPlan) : Prop where
  used : pos → 1 ≤ s.used
  one : s.counter = 1 → s.used ≤ D ∧ 2 * s.future.length ≤ pre.length + 1
  more : s.counter ≠ 1 → 2 ≤ s.counter ∧ 2 * s.future.length ≤ pre.length
  all : pos → ∀ k ∈ pre, k ∈ s.future ∨ s.send k ≠ none

theorem planCnt_step {pos : Prop} {dims : Nat → Nat} {mm D : Nat} {nom : Option Nat} {pre : List Nat} {s : HPlan} (h : PlanCnt pos dims D pre s) (hD : 2 * D ≤ mm) (hnom : ∀ q ∈ nom, 2 ≤ q) {i : Nat} (hi : (pos → 1 ≤ dims i) ∧ dims i ≤ D) : PlanCnt pos dims D (pre ++ [i]) (planStep dims mm nom s i) := by
  unfold planStep
  by_cases hc : mm < s.used + dims i ∨ nom = some s.counter
  · rw [if_pos hc]
    have hne : s.counter ≠ 1 := by
      intro h1
      have := (h.one h1).1
      rcases hc with hc | hc
      · omega
      · have := hnom s.counter hc; omega
    have := h.more hne
    refine ⟨hi.1, fun _ => ⟨hi.2, by simp; omega⟩, fun h => absurd rfl h, ?_⟩
    intro ps k hk
    rcases List.mem_append.1 hk with hk | hk
    · rcases h.all ps k hk with h1 | h1
      · exact .inl (List.mem_append_left _ h1)
      · exact .inr h1
    · exact .inl (List.mem_append_right _ hk)
  · rw [if_neg hc]
    refine ⟨fun ps => by show 1 ≤ s.used + dims i; have := h.used ps; omega, ?_, ?_, ?_⟩
    · intro h1
      dsimp only at h1
      by_cases h2 : s.counter = 1
      · omega
      · have := h.more h2; omega
    · intro _
      dsimp only
      by_cases h2 : s.counter = 1
      · have := (h.one h2).2
        simp only [List.length_append, List.length_singleton]
        omega
      · have := h.more h2
        simp only [List.length_append, List.length_singleton]
        omega
    · intro ps k hk
      dsimp only
      rw [if_pos (by have := h.used ps; omega)]
      by_cases hki : k = i
      · right; subst hki; rw [Function.update_self]; simp
      · rw [Function.update_of_ne hki]
        rcases List.mem_append.1 hk with hk | hk
        · exact h.all ps k hk
        · exact absurd (List.mem_singleton.1 hk) hki

theorem planCnt_fold {pos : Prop} {dims : Nat → Nat} {mm D : Nat} {nom : Option Nat} (hD : 2 * D ≤ mm) (hnom : ∀ q ∈ nom, 2 ≤ q) : ∀ (l : List Nat) {pre : List Nat} {s : HPlan}, PlanCnt pos dims D pre s → (∀ i ∈ l, (pos → 1 ≤ dims i) ∧ dims i ≤ D) → PlanCnt pos dims D (pre ++ l) (l.foldl (planStep dims mm nom) s) := by
  intro l
  induction l with
  | nil => intro pre s h _; simpa using h
  | cons i l ih =>
    intro pre s h hd
    rw [List.foldl_cons, show pre ++ i :: l = (pre ++ [i]) ++ l by simp]
    exact ih (planCnt_step h hD hnom (hd i (by simp))) fun j hj => hd j (List.mem_cons_of_mem _ hj)

/-- At most half of the processes (rounded up) go on; every other process has a receiver. -/
theorem hPlan_cnt (pos : Prop) {dims : Nat → Nat} {mm D : Nat} {nom : Option Nat} {rest : List Nat} (hD : 2 * D ≤ mm) (hnom : ∀ q ∈ nom, 2 ≤ q) (hd : ∀ i ∈ 0 :: rest, (pos → 1 ≤ dims i) ∧ dims i ≤ D) :
    2 * (hPlan dims mm nom (0 :: rest)).future.length ≤ (0 :: rest).length + 1 ∧ (pos → ∀ k ∈ 0 :: rest, k ∈ (hPlan dims mm nom (0 :: rest)).future ∨ (hPlan dims mm nom (0 :: rest)).send k ≠ none) := by
  have h0 := hd 0 (by simp)
  have key : PlanCnt pos dims D (0 :: rest) (hPlan dims mm nom (0 :: rest)) := by
    unfold hPlan
    rw [List.foldl_cons, plan_first (by omega) (fun h => by have := hnom 0 h; omega)]
    apply planCnt_fold hD hnom rest (pre := [0]) _ fun i hi => hd i (List.mem_cons_of_mem _ hi)
    exact ⟨h0.1, fun _ => ⟨h0.2, by simp⟩, fun h => absurd rfl h, by simp⟩
  refine ⟨?_, key.all⟩
  by_cases h1 : (hPlan dims mm nom (0 :: rest)).counter = 1
  · exact (key.one h1).2
  · have := (key.more h1).2
    omega

/-- **Every process of a level is gathered exactly once**: a sum over all of them is the sum over the receivers of their own value and those received. -/
theorem plan_sum {β : Type} [AddCommMonoid β] {P : Nat} {mm : Nat} {active : List Nat} {p : HPlan} (h : PlanInv mm active p) (hn : active.Nodup) (hP : ∀ i ∈ active, i < P) (hall : ∀ k ∈ active, k ∈ p.future ∨ p.send k ≠ none) (f : Nat → β) :
    (active.map f).sum = (p.future.map fun i => f i + ((recvFrom P p i).map f).sum).sum := by
  rw [← List.sum_toFinset f hn, ← List.sum_toFinset _ h.nodup, Finset.sum_add_distrib]
  have hsub : p.future.toFinset ⊆ active.toFinset := by
    intro i hi
    rw [List.mem_toFinset] at hi ⊢
    exact h.sub i hi
  rw [← Finset.sum_sdiff hsub, add_comm]
  congr 1
  have hmaps : ∀ k ∈ active.toFinset \ p.future.toFinset, (p.send k).getD 0 ∈ p.future.toFinset := by
    intro k hk
    rw [Finset.mem_sdiff, List.mem_toFinset, List.mem_toFinset] at hk
    rcases hall k hk.1 with h1 | h1
    · exact absurd h1 hk.2
    · obtain ⟨d, hd⟩ := Option.ne_none_iff_exists'.1 h1
      rw [hd, Option.getD_some, List.mem_toFinset]
      exact (h.send k d hd).1
  rw [← Finset.sum_fiberwise_of_maps_to hmaps]
  apply Finset.sum_congr rfl
  intro i hi
  rw [List.mem_toFinset] at hi
  show _ = (((List.range P).filter fun k => p.send k = some i).map f).sum
  rw [← List.sum_toFinset f (List.nodup_range.filter _)]
  apply Finset.sum_congr _ fun _ _ => rfl
  ext k
  rw [Finset.mem_filter, Finset.mem_sdiff, List.mem_toFinset, List.mem_toFinset, List.mem_toFinset]
  rw [List.mem_filter, List.mem_range]
  simp only [decide_eq_true_eq]
  constructor
  · rintro ⟨⟨h1, h2⟩, h3⟩
    refine ⟨hP k h1, ?_⟩
    rcases hall k h1 with h4 | h4
    · exact absurd h4 h2
    · obtain ⟨d, hd⟩ := Option.ne_none_iff_exists'.1 h4
      rw [hd, Option.getD_some] at h3
      rw [hd, h3]
  · rintro ⟨h1, h2⟩
    obtain ⟨-, h3, h4⟩ := h.send k i h2
    exact ⟨⟨h3, h4⟩, by rw [h2]; rfl⟩

/-! ## The invariant of the levels -/

/-- `c` bounds what one truncation drops: tolerance and noise are at most `c`, and `maxrank` does not matter. -/
def DropBound (h : HPar K m) (S : Nat) (c : K) : Prop := (∀ a ∈ h.a2, 0 < a ∧ a ≤ c) ∧ h.a2 ≠ none ∧ m * (h.noise * h.noise) ≤ c ∧ min m S ≤ h.maxrank

/-- Columns counted with at least one per process. -/
def colCount (l : List Nat) (f : Nat → List (Fin m → K)) : Nat := (l.map fun i => max 1 (f i).length).sum

/-- What holds between levels, after `n` truncations: the columns of the active processes and a list of dropped vectors make up the Gram matrix of `A`. -/
structure HInv (P : Nat) (h : HPar K m) (A : Nat → List (Fin m → K)) (n : Nat) (nodes : Nat → HNode K m) (active : List Nat) : Prop where
  head : ∃ l, active = 0 :: l
  nodup : active.Nodup
  lt : ∀ i ∈ active, i < P
  dims : ∀ i ∈ active, (nodes i).cols.length ≤ max 1 (h.maxrank + h.shift)
  pos : (1 ≤ h.shift ∨ h.a2 = none ∧ 1 ≤ h.maxrank) → ∀ i ∈ active, 1 ≤ (nodes i).cols.length
  count : colCount active (fun i => (nodes i).cols) ≤ colCount (List.range P) A
  gram : ∃ E, (∀ x y, Spec.gram ((List.range P).flatMap A) x y = (active.map fun i => Spec.gram (nodes i).cols x y).sum + Spec.gram E x y) ∧ frob2 E ≤ (active.map fun i => (nodes i).err).sum ∧
    ∀ c, DropBound h (colCount (List.range P) A) c → frob2 E ≤ n * c

theorem list_choose {ι α : Type} (l : List ι) (Q : ι → α → Prop) (h : ∀ i ∈ l, ∃ a, Q i a) [Nonempty α] : ∃ f : ι → α, ∀ i ∈ l, Q i (f i) := by
  classical
  refine ⟨fun i => if hi : ∃ a, Q i a then hi.choose else Classical.arbitrary α, ?_⟩
  intro i hi
  dsimp only
  rw [dif_pos (h i hi)]
  exact (h i hi).choose_spec

theorem frob2_flatMap {ι : Type} (l : List ι) (f : ι → List (Fin m → K)) : frob2 (l.flatMap f) = (l.map fun i => frob2 (f i)).sum := by
  induction l with
  | nil => rfl
  | cons a l ih => rw [List.flatMap_cons, frob2_append, ih, List.map_cons, List.sum_cons]

theorem le_sum_of_mem_nat {l : List Nat} {f : Nat → Nat} {i : Nat} (h : i ∈ l) : f i ≤ (l.map f).sum := List.single_le_sum (by simp) _ (List.mem_map_of_mem h)

theorem length_flatMap_le (l : List Nat) (f : Nat → List (Fin m → K)) : (l.flatMap f).length ≤ (l.map fun i => max 1 (f i).length).sum := by
  induction l with
  | nil => simp
  | cons a l ih =>
    rw [List.flatMap_cons, List.length_append, List.map_cons, List.sum_cons]
    have := le_max_right 1 (f a).length
    omega

/-- The truncations of one level applied to any lists whose Gram matrices are known. -/
theorem level_core {P : Nat} {h : HPar K m} (hsvd : ∀ M, IsSvd M (h.svd M).1 (h.svd M).2) (hn : 0 < h.noise) {A : Nat → List (Fin m → K)} (shift : Nat) {S : Nat} (hS : S ≤ colCount (List.range P) A) {future : List Nat} (M : Nat → List (Fin m → K)) (e : Nat → K) (n : Nat) {E : List (Fin m → K)}
    (hM : ∀ i ∈ future, (M i).length ≤ S)
    (h1 : ∀ x y, Spec.gram ((List.range P).flatMap A) x y = (future.map fun i => Spec.gram (M i) x y).sum + Spec.gram E x y) (h2 : frob2 E ≤ (future.map e).sum) (h3 : ∀ c, DropBound h (colCount (List.range P) A) c → frob2 E ≤ n * c) :
    ∃ E', (∀ x y, Spec.gram ((List.range P).flatMap A) x y = (future.map fun i => Spec.gram (scaleCols (truncSvd h.svd h.noise h.maxrank h.a2 shift (M i)).1 (truncSvd h.svd h.noise h.maxrank h.a2 shift (M i)).2.1) x y).sum + Spec.gram E' x y) ∧
      frob2 E' ≤ (future.map fun i => e i + (truncSvd h.svd h.noise h.maxrank h.a2 shift (M i)).2.2).sum ∧ ∀ c, DropBound h (colCount (List.range P) A) c → frob2 E' ≤ (n + future.length : Nat) * c := by
  obtain ⟨F, hF⟩ := list_choose future _ fun i _ => truncSvd_spec (hsvd (M i)) hn h.maxrank h.a2 shift
  refine ⟨E ++ future.flatMap F, ?_, ?_, ?_⟩
  · intro x y
    rw [h1, gram_append, gram_flatMap, show ∀ a b c : K, a + (b + c) = (a + c) + b by intros; ring, ← List.sum_map_add]
    congr 2
    apply List.map_congr_left
    intro i hi
    exact (hF i hi).1 x y
  · rw [frob2_append, frob2_flatMap, List.sum_map_add]
    refine add_le_add h2 (List.sum_le_sum fun i hi => (hF i hi).2.1)
  · intro c hc
    rw [frob2_append, frob2_flatMap, Nat.cast_add, add_mul]
    refine add_le_add (h3 c hc) ?_
    have := List.sum_le_card_nsmul (future.map fun i => frob2 (F i)) c (by
      intro x hx
      obtain ⟨i, hi, rfl⟩ := List.mem_map.1 hx
      refine (hF i hi).2.2.2.2.2.2.1 c hc.1 hc.2.1 hc.2.2.1 (le_trans ?_ hc.2.2.2)
      have := hM i hi
      omega)
    rwa [List.length_map, nsmul_eq_mul] at this

/-- Level 0 establishes the invariant. -/
theorem hStart_inv {P : Nat} (hP : 0 < P) {h : HPar K m} (hsvd : ∀ M, IsSvd M (h.svd M).1 (h.svd M).2) (hn : 0 < h.noise) (A : Nat → List (Fin m → K)) : HInv P h A P (hStart h A) (List.range P) := by
  obtain ⟨Q, rfl⟩ : ∃ Q, P = Q + 1 := ⟨P - 1, by omega⟩
  have T := fun r => truncSvd_spec (hsvd (A r)) hn h.maxrank h.a2 h.shift
  have hlen : ∀ r, (hStart h A r).cols.length = (truncSvd h.svd h.noise h.maxrank h.a2 h.shift (A r)).1.length := by
    intro r
    obtain ⟨E, -, -, h3, -⟩ := T r
    show (scaleCols _ _).length = _
    rw [scaleCols_length, ← h3, min_self]
  refine ⟨⟨_, List.range_succ_eq_map⟩, List.nodup_range, fun i hi => List.mem_range.1 hi, ?_, ?_, ?_, ?_⟩
  · intro i _
    rw [hlen]
    obtain ⟨E, -, -, -, h4, -⟩ := T i
    exact h4
  · intro hp i _
    rw [hlen]
    obtain ⟨E, -, -, -, -, -, -, -, h8⟩ := T i
    exact h8 hp
  · unfold colCount
    apply List.sum_le_sum
    intro i _
    dsimp only
    rw [hlen]
    obtain ⟨E, -, -, -, -, h5, -⟩ := T i
    omega
  · obtain ⟨E', e1, e2, e3⟩ := level_core (P := Q + 1) (h := h) hsvd hn (A := A) h.shift (S := colCount (List.range (Q + 1)) A) le_rfl (future := List.range (Q + 1)) A (fun _ => 0) 0 (E := [])
      (by
        intro i hi
        have := le_sum_of_mem_nat (f := fun i => max 1 (A i).length) hi
        unfold colCount
        omega)
      (by intro x y; rw [gram_flatMap]; simp [Spec.gram]) (by simp [frob2]) (by simp [frob2])
    refine ⟨E', e1, ?_, ?_⟩
    · simpa [hStart] using e2
    · simpa using e3

/-- What an active process has after the exchange. -/
theorem gather_gram {P : Nat} (p : HPlan) (nodes : Nat → HNode K m) (i : Nat) (x y : Fin m → K) : gram (hGather P p nodes i).cols x y = gram (nodes i).cols x y + ((recvFrom P p i).map fun k => gram (nodes k).cols x y).sum := by
  show gram (_ ++ _) x y = _
  rw [gram_append, gram_flatMap]

/-- One level: the gathered columns, truncated. -/
theorem level_gathered {P : Nat} {h : HPar K m} (hsvd : ∀ M, IsSvd M (h.svd M).1 (h.svd M).2) (hn : 0 < h.noise) {A : Nat → List (Fin m → K)} {n : Nat} {nodes : Nat → HNode K m} {active : List Nat} (inv : HInv P h A n nodes active) {p : HPlan} {mm : Nat} (hp : PlanInv mm active p)
    (hall : ∀ k ∈ active, k ∈ p.future ∨ p.send k ≠ none) (shift : Nat) :
    ∃ E', (∀ x y, Spec.gram ((List.range P).flatMap A) x y = (p.future.map fun i => Spec.gram (scaleCols (truncSvd h.svd h.noise h.maxrank h.a2 shift (hGather P p nodes i).cols).1 (truncSvd h.svd h.noise h.maxrank h.a2 shift (hGather P p nodes i).cols).2.1) x y).sum + Spec.gram E' x y) ∧
      frob2 E' ≤ (p.future.map fun i => (hGather P p nodes i).err + (truncSvd h.svd h.noise h.maxrank h.a2 shift (hGather P p nodes i).cols).2.2).sum ∧ (∀ c, DropBound h (colCount (List.range P) A) c → frob2 E' ≤ (n + p.future.length : Nat) * c) ∧
      ∀ i ∈ p.future, (hGather P p nodes i).cols.length ≤ max 1 (nodes i).cols.length + ((recvFrom P p i).map fun k => max 1 (nodes k).cols.length).sum := by
  obtain ⟨E, h1, h2, h3⟩ := inv.gram
  have hlen : ∀ i, (hGather P p nodes i).cols.length ≤ max 1 (nodes i).cols.length + ((recvFrom P p i).map fun k => max 1 (nodes k).cols.length).sum := by
    intro i
    show ((nodes i).cols ++ (recvFrom P p i).flatMap fun k => (nodes k).cols).length ≤ _
    rw [List.length_append]
    have := length_flatMap_le (recvFrom P p i) fun k => (nodes k).cols
    have := le_max_right 1 (nodes i).cols.length
    omega
  obtain ⟨E', e1, e2, e3⟩ := level_core hsvd hn shift (S := colCount active fun i => (nodes i).cols) inv.count (fun i => (hGather P p nodes i).cols) (fun i => (hGather P p nodes i).err) n (future := p.future) (E := E)
    (by
      intro i hi
      refine (hlen i).trans ?_
      unfold colCount
      rw [plan_sum hp inv.nodup inv.lt hall]
      exact le_sum_of_mem_nat (f := fun i => max 1 (nodes i).cols.length + ((recvFrom P p i).map fun k => max 1 (nodes k).cols.length).sum) hi)
    (by
      intro x y
      rw [h1, plan_sum hp inv.nodup inv.lt hall]
      congr 2
      apply List.map_congr_left
      intro i _
      rw [gather_gram])
    (by
      rw [plan_sum hp inv.nodup inv.lt hall] at h2
      exact h2) h3
  exact ⟨E', e1, e2, e3, fun i _ => hlen i⟩

/-- The parameters are such that two matrices can always be merged. -/
structure HPar.Ok (h : HPar K m) : Prop where
  svd : ∀ M, IsSvd M (h.svd M).1 (h.svd M).2
  noise : 0 < h.noise
  mm : 2 * max 1 (h.maxrank + h.shift) ≤ h.mm
  nom : ∀ q ∈ h.nom, 2 ≤ q

theorem HInv.plan {P : Nat} {h : HPar K m} (ok : h.Ok) {A : Nat → List (Fin m → K)} {n : Nat} {nodes : Nat → HNode K m} {active : List Nat} (inv : HInv P h A n nodes active) : PlanInv h.mm active (hPlan (fun i => (nodes i).cols.length) h.mm h.nom active) := by
  obtain ⟨l, rfl⟩ := inv.head
  refine hPlan_inv ?_ (fun hc => by have := ok.nom 0 hc; omega) inv.nodup
  have := inv.dims 0 (by simp)
  have := ok.mm
  omega

theorem hLevel_some {P : Nat} {h : HPar K m} {nodes nodes' : Nat → HNode K m} {active future : List Nat} (e : hLevel P h nodes active = some (nodes', future)) :
    future = (hPlan (fun i => (nodes i).cols.length) h.mm h.nom active).future ∧
    (∀ k ∈ active, k ∈ (hPlan (fun i => (nodes i).cols.length) h.mm h.nom active).future ∨ (hPlan (fun i => (nodes i).cols.length) h.mm h.nom active).send k ≠ none) ∧
    ∀ i ∈ future, nodes' i = ⟨if future.length = 1 then (truncSvd h.svd h.noise h.maxrank h.a2 (if future.length = 1 then 0 else h.shift) (hGather P (hPlan (fun i => (nodes i).cols.length) h.mm h.nom active) nodes i).cols).1
      else scaleCols (truncSvd h.svd h.noise h.maxrank h.a2 (if future.length = 1 then 0 else h.shift) (hGather P (hPlan (fun i => (nodes i).cols.length) h.mm h.nom active) nodes i).cols).1 (truncSvd h.svd h.noise h.maxrank h.a2 (if future.length = 1 then 0 else h.shift) (hGather P (hPlan (fun i => (nodes i).cols.length) h.mm h.nom active) nodes i).cols).2.1,
      (hGather P (hPlan (fun i => (nodes i).cols.length) h.mm h.nom active) nodes i).err + (truncSvd h.svd h.noise h.maxrank h.a2 (if future.length = 1 then 0 else h.shift) (hGather P (hPlan (fun i => (nodes i).cols.length) h.mm h.nom active) nodes i).cols).2.2⟩ := by
  unfold hLevel at e
  dsimp only at e
  split at e
  · cases e
  · rename_i hc
    split at e
    · cases e
    · cases e
      refine ⟨rfl, ?_, ?_⟩
      · intro k hk
        by_contra hcon
        rw [not_or, not_not] at hcon
        exact hc ⟨k, hk, hcon.1, .inl hcon.2⟩
      · intro i hi
        dsimp only
        rw [if_pos hi]

/-- The invariant survives a level that is not the last. -/
theorem hLevel_inv {P : Nat} {h : HPar K m} (ok : h.Ok) {A : Nat → List (Fin m → K)} {n : Nat} {nodes nodes' : Nat → HNode K m} {active future : List Nat} (inv : HInv P h A n nodes active) (e : hLevel P h nodes active = some (nodes', future)) (hl : future.length ≠ 1) :
    HInv P h A (n + future.length) nodes' future := by
  obtain ⟨rfl, hall, hnode⟩ := hLevel_some e
  have hp := inv.plan ok
  set p := hPlan (fun i => (nodes i).cols.length) h.mm h.nom active with hpdef
  obtain ⟨E', e1, e2, e3, e4⟩ := level_gathered ok.svd ok.noise inv hp hall h.shift
  simp only [if_neg hl] at hnode
  have T := fun i => truncSvd_spec (ok.svd (hGather P p nodes i).cols) ok.noise h.maxrank h.a2 h.shift
  have hlen : ∀ i ∈ p.future, (nodes' i).cols.length = (truncSvd h.svd h.noise h.maxrank h.a2 h.shift (hGather P p nodes i).cols).1.length := by
    intro i hi
    rw [hnode i hi]
    obtain ⟨E, -, -, h3, -⟩ := T i
    show (scaleCols _ _).length = _
    rw [scaleCols_length, ← h3, min_self]
  refine ⟨hp.head, hp.nodup, fun i hi => inv.lt i (hp.sub i hi), ?_, ?_, ?_, E', ?_, ?_, e3⟩
  · intro i hi
    rw [hlen i hi]
    obtain ⟨E, -, -, -, h4, -⟩ := T i
    exact h4
  · intro hpos i hi
    rw [hlen i hi]
    obtain ⟨E, -, -, -, -, -, -, -, h8⟩ := T i
    exact h8 hpos
  · refine le_trans ?_ inv.count
    unfold colCount
    rw [plan_sum hp inv.nodup inv.lt hall]
    apply List.sum_le_sum
    intro i hi
    dsimp only
    rw [hlen i hi]
    obtain ⟨E, -, -, -, -, h5, -⟩ := T i
    have := e4 i hi
    omega
  · intro x y
    rw [e1]
    congr 2
    apply List.map_congr_left
    intro i hi
    rw [hnode i hi]
  · refine e2.trans (le_of_eq ?_)
    congr 1
    apply List.map_congr_left
    intro i hi
    rw [hnode i hi]

/-- What the last level leaves on process 0. -/
theorem hLevel_last {P : Nat} {h : HPar K m} (ok : h.Ok) {A : Nat → List (Fin m → K)} {n : Nat} {nodes nodes' : Nat → HNode K m} {active future : List Nat} (inv : HInv P h A n nodes active) (e : hLevel P h nodes active = some (nodes', future)) (hl : future.length = 1) :
    ∃ (E : List (Fin m → K)) (σ : List K), (∀ x y, Spec.gram ((List.range P).flatMap A) x y = Spec.gram (scaleCols (nodes' 0).cols σ) x y + Spec.gram E x y) ∧ frob2 E ≤ (nodes' 0).err ∧ (∀ c, DropBound h (colCount (List.range P) A) c → frob2 E ≤ (n + 1 : Nat) * c) ∧
      (nodes' 0).cols.length = σ.length ∧ (nodes' 0).cols.length ≤ max 1 h.maxrank ∧ (OrthoList (nodes' 0).cols ∧ (∀ s ∈ σ, h.noise ≤ s) ∨ (nodes' 0).cols = [0] ∧ σ = [0]) ∧ (h.a2 = none → 1 ≤ h.maxrank → 1 ≤ (nodes' 0).cols.length) := by
  obtain ⟨rfl, hall, hnode⟩ := hLevel_some e
  have hp := inv.plan ok
  set p := hPlan (fun i => (nodes i).cols.length) h.mm h.nom active with hpdef
  obtain ⟨E', e1, e2, e3, e4⟩ := level_gathered ok.svd ok.noise inv hp hall 0
  simp only [if_pos hl] at hnode
  obtain ⟨l, hf⟩ := hp.head
  rw [hf] at hl
  have : l = [] := by simpa using hl
  subst this
  rw [hf] at e1 e2 e3 hnode
  have h0 := hnode 0 (by simp)
  obtain ⟨E, -, -, h3, h4, -, h6, -, h8⟩ := truncSvd_spec (ok.svd (hGather P p nodes 0).cols) ok.noise h.maxrank h.a2 0
  refine ⟨E', (truncSvd h.svd h.noise h.maxrank h.a2 0 (hGather P p nodes 0).cols).2.1, ?_, ?_, ?_, ?_, ?_, ?_, ?_⟩
  · intro x y
    rw [e1, h0]
    simp
  · rw [h0]
    simpa using e2
  · simpa using e3
  · rw [h0]; exact h3
  · rw [h0]; exact h4
  · rw [h0]
    rcases h6 with h6 | h6
    · exact .inl ⟨h6.1, h6.2 rfl⟩
    · exact .inr h6
  · intro ha hm
    rw [h0]
    exact h8 (.inr ⟨ha, hm⟩)

/-! ## C132, C133: the whole computation -/

/-- The facts about the result of a run with at most `N` truncations. -/
def HResult (P : Nat) (h : HPar K m) (A : Nat → List (Fin m → K)) (N : Nat) (x : HNode K m) : Prop :=
  ∃ (E : List (Fin m → K)) (σ : List K), (∀ a b, Spec.gram ((List.range P).flatMap A) a b = Spec.gram (scaleCols x.cols σ) a b + Spec.gram E a b) ∧ frob2 E ≤ x.err ∧ (∀ c, DropBound h (colCount (List.range P) A) c → frob2 E ≤ (N : Nat) * c) ∧
    x.cols.length = σ.length ∧ x.cols.length ≤ max 1 h.maxrank ∧ (OrthoList x.cols ∧ (∀ s ∈ σ, h.noise ≤ s) ∨ x.cols = [0] ∧ σ = [0])

/-- The number of processes is at least halved (rounded up). -/
theorem HInv.half {P : Nat} {h : HPar K m} (ok : h.Ok) {A : Nat → List (Fin m → K)} {n : Nat} {nodes : Nat → HNode K m} {active : List Nat} (inv : HInv P h A n nodes active) : 2 * (hPlan (fun i => (nodes i).cols.length) h.mm h.nom active).future.length ≤ active.length + 1 := by
  obtain ⟨l, rfl⟩ := inv.head
  exact (hPlan_cnt False ok.mm ok.nom fun i hi => ⟨False.elim, inv.dims i hi⟩).1

/-- A run that ends: the result and the number of truncations, for any bound `B` on the number of truncations. -/
theorem hLoop_done {P : Nat} {h : HPar K m} (ok : h.Ok) {A : Nat → List (Fin m → K)} (B : Nat → Nat) (hB1 : ∀ a, 1 ≤ B a) (hB2 : ∀ a f, 2 ≤ f → 2 * f ≤ a + 1 → f + B f ≤ B a) {x : HNode K m} : ∀ (fuel n : Nat) (nodes : Nat → HNode K m) (active : List Nat), HInv P h A n nodes active → hLoop P h fuel nodes active = .done x →
    x.cols ≠ [] ∧ ∃ N, N ≤ n + B active.length ∧ HResult P h A N x := by
  intro fuel
  induction fuel with
  | zero => intro n nodes active _ e; unfold hLoop at e; cases e
  | succ fuel ih =>
    intro n nodes active inv e
    unfold hLoop at e
    cases hl : hLevel P h nodes active with
    | none => rw [hl] at e; cases e
    | some q =>
      obtain ⟨nodes', future⟩ := q
      rw [hl] at e
      dsimp only at e
      by_cases h1 : future.length = 1
      · rw [if_pos h1] at e
        by_cases h2 : (nodes' 0).cols = []
        · rw [if_pos h2] at e; cases e
        · rw [if_neg h2] at e
          cases e
          obtain ⟨E, σ, a1, a2, a3, a4, a5, a6, -⟩ := hLevel_last ok inv hl h1
          exact ⟨h2, n + 1, by have := hB1 active.length; omega, E, σ, a1, a2, a3, a4, a5, a6⟩
      · rw [if_neg h1] at e
        have inv' := hLevel_inv ok inv hl h1
        obtain ⟨hx, N, hN, hr⟩ := ih _ _ _ inv' e
        refine ⟨hx, N, ?_, hr⟩
        have hhalf := inv.half ok
        rw [← (hLevel_some hl).1] at hhalf
        obtain ⟨l, hl'⟩ := inv'.head
        have : 1 ≤ future.length := by rw [hl']; simp
        have := hB2 active.length future.length (by omega) hhalf
        omega

/-- With parameters that leave at least one column everywhere, a level succeeds. -/
theorem hLevel_total {P : Nat} {h : HPar K m} (ok : h.Ok) {A : Nat → List (Fin m → K)} {n : Nat} {nodes : Nat → HNode K m} {active : List Nat} (inv : HInv P h A n nodes active) (hpos : 1 ≤ h.shift ∨ h.a2 = none ∧ 1 ≤ h.maxrank) (ha : ∀ a ∈ h.a2, 0 < a) : ∃ q, hLevel P h nodes active = some q := by
  have hd := inv.pos hpos
  obtain ⟨l, hl⟩ := inv.head
  have hc := (hPlan_cnt True ok.mm ok.nom (rest := l) (dims := fun i => (nodes i).cols.length) fun i hi => ⟨fun _ => hd i (hl ▸ hi), inv.dims i (hl ▸ hi)⟩).2 trivial
  rw [← hl] at hc
  unfold hLevel
  dsimp only
  rw [if_neg ?_, if_neg ?_]
  · exact ⟨_, rfl⟩
  · rintro ⟨i, -, -, a, ha', hn⟩
    obtain ⟨k, hk⟩ := idealRank_some (ha a ha') (h.svd (hGather P (hPlan (fun i => (nodes i).cols.length) h.mm h.nom active) nodes i).cols).2
    rw [hk] at hn
    cases hn
  · rintro ⟨k, hk, hk2, hk3⟩
    rcases hk3 with hk3 | hk3
    · rcases hc k hk with h1 | h1
      · exact hk2 h1
      · exact h1 hk3
    · have := hd k hk
      rw [hk3] at this
      simp at this

/-- The loop ends after at most as many levels as there are processes. -/
theorem hLoop_ends {P : Nat} {h : HPar K m} (ok : h.Ok) {A : Nat → List (Fin m → K)} : ∀ (fuel n : Nat) (nodes : Nat → HNode K m) (active : List Nat), HInv P h A n nodes active → active.length ≤ fuel → hLoop P h fuel nodes active ≠ .running := by
  intro fuel
  induction fuel with
  | zero =>
    intro n nodes active inv hf
    obtain ⟨l, hl⟩ := inv.head
    rw [hl] at hf
    simp at hf
  | succ fuel ih =>
    intro n nodes active inv hf
    unfold hLoop
    cases hl : hLevel P h nodes active with
    | none => simp
    | some q =>
      obtain ⟨nodes', future⟩ := q
      dsimp only
      by_cases h1 : future.length = 1
      · rw [if_pos h1]
        split <;> simp
      · rw [if_neg h1]
        have inv' := hLevel_inv ok inv hl h1
        refine ih _ _ _ inv' ?_
        have hhalf := inv.half ok
        rw [← (hLevel_some hl).1] at hhalf
        obtain ⟨l, hl'⟩ := inv'.head
        have : 1 ≤ future.length := by rw [hl']; simp
        omega

/-- A run that fails: nothing is left at the end, so that everything has been dropped. -/
theorem hLoop_error {P : Nat} {h : HPar K m} (ok : h.Ok) {A : Nat → List (Fin m → K)} (hpos : 1 ≤ h.shift ∨ h.a2 = none ∧ 1 ≤ h.maxrank) (ha : ∀ a ∈ h.a2, 0 < a) (B : Nat → Nat) (hB1 : ∀ a, 1 ≤ B a) (hB2 : ∀ a f, 2 ≤ f → 2 * f ≤ a + 1 → f + B f ≤ B a) : ∀ (fuel n : Nat) (nodes : Nat → HNode K m) (active : List Nat), HInv P h A n nodes active → hLoop P h fuel nodes active = .error →
    ¬ (h.a2 = none ∧ 1 ≤ h.maxrank) ∧ ∃ N, N ≤ n + B active.length ∧ ∀ c, DropBound h (colCount (List.range P) A) c → frob2 ((List.range P).flatMap A) ≤ (N : Nat) * c := by
  intro fuel
  induction fuel with
  | zero => intro n nodes active _ e; unfold hLoop at e; cases e
  | succ fuel ih =>
    intro n nodes active inv e
    unfold hLoop at e
    obtain ⟨⟨nodes', future⟩, hl⟩ := hLevel_total ok inv hpos ha
    rw [hl] at e
    dsimp only at e
    by_cases h1 : future.length = 1
    · rw [if_pos h1] at e
      by_cases h2 : (nodes' 0).cols = []
      · obtain ⟨E, σ, a1, a2, a3, a4, a5, a6, a7⟩ := hLevel_last ok inv hl h1
        rw [h2] at a1 a7
        refine ⟨fun hc => by simpa using a7 hc.1 hc.2, n + 1, by have := hB1 active.length; omega, ?_⟩
        intro c hc
        rw [frob2_eq_gram]
        simp only [a1]
        refine le_trans (le_of_eq ?_) (a3 c hc)
        rw [frob2_eq_gram E]
        apply Finset.sum_congr rfl
        intro i _
        simp [Spec.gram, scaleCols]
      · rw [if_neg h2] at e; cases e
    · rw [if_neg h1] at e
      have inv' := hLevel_inv ok inv hl h1
      obtain ⟨hx, N, hN, hr⟩ := ih _ _ _ inv' e
      refine ⟨hx, N, ?_, hr⟩
      have hhalf := inv.half ok
      rw [← (hLevel_some hl).1] at hhalf
      obtain ⟨l, hl'⟩ := inv'.head
      have : 1 ≤ future.length := by rw [hl']; simp
      have := hB2 active.length future.length (by omega) hhalf
      omega

/-- The dropped weight bounds the error of the projection. -/
theorem HResult.bound {P : Nat} {h : HPar K m} {A : Nat → List (Fin m → K)} {N : Nat} {x : HNode K m} (r : HResult P h A N x) : projErr x.cols ((List.range P).flatMap A) ≤ x.err ∧ ∀ c, DropBound h (colCount (List.range P) A) c → projErr x.cols ((List.range P).flatMap A) ≤ N * c := by
  obtain ⟨E, σ, h1, h2, h3, h4, -, h6⟩ := r
  have key : projErr x.cols ((List.range P).flatMap A) ≤ frob2 E := by
    rcases h6 with h6 | ⟨h6, h7⟩
    · exact projErr_le h6.1 h4 h1
    · rw [h6]
      rw [h6, h7] at h1
      have : projErr [0] ((List.range P).flatMap A) = frob2 ((List.range P).flatMap A) := by
        unfold projErr
        congr 1
        conv_rhs => rw [← List.map_id ((List.range P).flatMap A)]
        apply List.map_congr_left
        intro c _
        simp
      rw [this, frob2_eq_gram]
      simp only [h1, gram_zero_col, zero_add]
      rw [← frob2_eq_gram]
  exact ⟨key.trans h2, fun c hc => key.trans (h3 c hc)⟩

theorem bound_clog : (∀ a, 1 ≤ max 1 (a - 1 + Nat.clog 2 a)) ∧ ∀ a f, 2 ≤ f → 2 * f ≤ a + 1 → f + max 1 (f - 1 + Nat.clog 2 f) ≤ max 1 (a - 1 + Nat.clog 2 a) := by
  refine ⟨fun a => le_max_left _ _, ?_⟩
  intro a f hf ha
  have h1 : 1 ≤ Nat.clog 2 f := Nat.clog_pos (by decide) hf
  have h2 : Nat.clog 2 a = Nat.clog 2 ((a + 1) / 2) + 1 := by
    have := Nat.clog_of_two_le (b := 2) (n := a) (by decide) (by omega)
    rw [this]
    congr 2
  have h3 : Nat.clog 2 f ≤ Nat.clog 2 ((a + 1) / 2) := Nat.clog_mono_right 2 (by omega)
  omega

theorem bound_pow : (∀ a, 1 ≤ max 1 (2 ^ Nat.clog 2 a - 1)) ∧ ∀ a f, 2 ≤ f → 2 * f ≤ a + 1 → f + max 1 (2 ^ Nat.clog 2 f - 1) ≤ max 1 (2 ^ Nat.clog 2 a - 1) := by
  refine ⟨fun a => le_max_left _ _, ?_⟩
  intro a f hf ha
  have h2 : Nat.clog 2 a = Nat.clog 2 ((a + 1) / 2) + 1 := by
    have := Nat.clog_of_two_le (b := 2) (n := a) (by decide) (by omega)
    rw [this]
    congr 2
  have h3 : Nat.clog 2 f ≤ Nat.clog 2 ((a + 1) / 2) := Nat.clog_mono_right 2 (by omega)
  have h4 : f ≤ 2 ^ Nat.clog 2 f := Nat.le_pow_clog (by decide) f
  have h5 : 2 ^ Nat.clog 2 f ≤ 2 ^ Nat.clog 2 ((a + 1) / 2) := Nat.pow_le_pow_right (by decide) h3
  rw [h2, pow_succ]
  omega

/-- **C132: the reported error estimate is an upper bound.** Whenever `hsvd` returns, `U` has orthonormal columns (or is one zero column), at most `maxrank` of them, and `|A - U U^T A|^2` is at most the reported squared error; for every number of processes and columns, every tolerance, safety shift and merging parameters that allow merging two matrices. -/
theorem hsvd_error_bound {P : Nat} (hP : 0 < P) {h : HPar K m} (ok : h.Ok) (A : Nat → List (Fin m → K)) {fuel : Nat} {x : HNode K m} (e : hsvd P h A fuel = .done x) :
    projErr x.cols ((List.range P).flatMap A) ≤ x.err ∧ (OrthoList x.cols ∨ x.cols = [0]) ∧ 1 ≤ x.cols.length ∧ x.cols.length ≤ max 1 h.maxrank := by
  unfold hsvd at e
  split at e
  · cases e
  · obtain ⟨hx, N, -, hr⟩ := hLoop_done ok _ bound_pow.1 bound_pow.2 fuel P _ _ (hStart_inv hP ok.svd ok.noise A) e
    refine ⟨hr.bound.1, ?_, ?_, ?_⟩
    · obtain ⟨E, σ, -, -, -, -, -, h6⟩ := hr
      rcases h6 with h6 | h6
      · exact .inl h6.1
      · exact .inr h6.1
    · exact List.length_pos_of_ne_nil hx
    · obtain ⟨E, σ, -, -, -, -, h5, -⟩ := hr
      exact h5

theorem hStart_noFail {h : HPar K m} (ha : ∀ a ∈ h.a2, 0 < a) {P : Nat} (A : Nat → List (Fin m → K)) : ¬ ∃ r < P, truncFails h.noise h.a2 (h.svd (A r)).2 := by
  rintro ⟨r, -, -, a, ha', hn⟩
  obtain ⟨k, hk⟩ := idealRank_some (ha a ha') (h.svd (A r)).2
  rw [hk] at hn
  cases hn

/-- **C132: `hsvd_rank` always returns**, after at most `P` levels. -/
theorem hsvd_rank_total {P : Nat} (hP : 0 < P) {h : HPar K m} (ok : h.Ok) (ha : h.a2 = none) (hm : 1 ≤ h.maxrank) (A : Nat → List (Fin m → K)) : ∃ x, hsvd P h A P = .done x := by
  have inv := hStart_inv hP ok.svd ok.noise A
  have ha' : ∀ a ∈ h.a2, 0 < a := by rw [ha]; simp
  unfold hsvd
  rw [if_neg (hStart_noFail ha' A)]
  cases e : hLoop P h P (hStart h A) (List.range P) with
  | running => exact absurd e (hLoop_ends ok P P _ _ inv (by simp))
  | error => exact absurd ⟨ha, hm⟩ (hLoop_error ok (.inr ⟨ha, hm⟩) ha' _ bound_pow.1 bound_pow.2 P P _ _ inv e).1
  | done x => exact ⟨x, rfl⟩

/-- **C133: `hsvd_rtol` keeps the tolerance if the number of processes is a power of two** (at least 2): it returns, and `|A - U U^T A| ≤ rtol |A|`, provided that `maxrank` is not smaller than the number of rows or of columns and that the noise level is below the local tolerance. -/
theorem hsvd_rtol_partial {k : Nat} (hk : 1 ≤ k) {h : HPar K m} (ok : h.Ok) (A : Nat → List (Fin m → K)) {rtol : K} (hr0 : 0 < rtol) (hr1 : rtol < 1) (hA : 0 < frob2 ((List.range (2 ^ k)).flatMap A))
    (ha : h.a2 = some (rtol * rtol * frob2 ((List.range (2 ^ k)).flatMap A) / (2 * 2 ^ k - 1))) (hs : 1 ≤ h.shift) (hm : min m (colCount (List.range (2 ^ k)) A) ≤ h.maxrank) (hno : m * (h.noise * h.noise) ≤ rtol * rtol * frob2 ((List.range (2 ^ k)).flatMap A) / (2 * 2 ^ k - 1)) :
    ∃ x, hsvd (2 ^ k) h A (2 ^ k) = .done x ∧ projErr x.cols ((List.range (2 ^ k)).flatMap A) ≤ rtol * rtol * frob2 ((List.range (2 ^ k)).flatMap A) := by
  have hP : 0 < 2 ^ k := by positivity
  have hP2 : 2 ≤ 2 ^ k := by
    calc 2 = 2 ^ 1 := rfl
      _ ≤ 2 ^ k := Nat.pow_le_pow_right (by decide) hk
  have inv := hStart_inv hP ok.svd ok.noise A
  set F := frob2 ((List.range (2 ^ k)).flatMap A) with hF
  have hq : (0 : K) < 2 * 2 ^ k - 1 := by
    have : (1 : K) ≤ 2 ^ k := one_le_pow₀ (by norm_num)
    linarith
  have hapos : 0 < rtol * rtol * F / (2 * 2 ^ k - 1) := by positivity
  have ha' : ∀ a ∈ h.a2, 0 < a := by
    rw [ha]
    intro a e
    cases e
    exact hapos
  have hdb : DropBound h (colCount (List.range (2 ^ k)) A) (rtol * rtol * F / (2 * 2 ^ k - 1)) := by
    refine ⟨?_, by rw [ha]; simp, hno, hm⟩
    rw [ha]
    intro a e
    cases e
    exact ⟨hapos, le_rfl⟩
  have hcount : ∀ N : Nat, N ≤ 2 ^ k + max 1 (2 ^ Nat.clog 2 (2 ^ k) - 1) → (N : K) * (rtol * rtol * F / (2 * 2 ^ k - 1)) ≤ rtol * rtol * F := by
    intro N hN
    rw [Nat.clog_pow 2 k (by decide)] at hN
    have : N ≤ 2 * 2 ^ k - 1 := by omega
    have h2 : (N : K) ≤ 2 * 2 ^ k - 1 := by
      have h3 : (N : K) + 1 ≤ 2 * 2 ^ k := by
        have : N + 1 ≤ 2 * 2 ^ k := by omega
        exact_mod_cast this
      linarith
    calc (N : K) * (rtol * rtol * F / (2 * 2 ^ k - 1)) ≤ (2 * 2 ^ k - 1) * (rtol * rtol * F / (2 * 2 ^ k - 1)) := mul_le_mul_of_nonneg_right h2 hapos.le
      _ = rtol * rtol * F := by field_simp
  unfold hsvd
  rw [if_neg (hStart_noFail ha' A)]
  cases e : hLoop (2 ^ k) h (2 ^ k) (hStart h A) (List.range (2 ^ k)) with
  | running => exact absurd e (hLoop_ends ok _ _ _ _ inv (by simp))
  | error =>
    obtain ⟨-, N, hN, hc⟩ := hLoop_error ok (.inl hs) ha' _ bound_pow.1 bound_pow.2 _ _ _ _ inv e
    rw [List.length_range] at hN
    have h1 := (hc _ hdb).trans (hcount N hN)
    have h2 : rtol * rtol * F < F := by
      have : rtol * rtol < 1 := by nlinarith
      nlinarith
    exact absurd h1 (not_le.2 h2)
  | done x =>
    obtain ⟨-, N, hN, hr⟩ := hLoop_done ok _ bound_pow.1 bound_pow.2 _ _ _ _ inv e
    rw [List.length_range] at hN
    exact ⟨x, rfl, (hr.bound.2 _ hdb).trans (hcount N hN)⟩

/-- **C133, all numbers of processes**: the tolerance is exceeded at most by the factor `sqrt((2 P - 1 + ⌈log2 P⌉) / (2 P - 1))`; for one process by `sqrt 2`. -/
theorem hsvd_rtol_general {P : Nat} (hP : 0 < P) {h : HPar K m} (ok : h.Ok) (A : Nat → List (Fin m → K)) {c : K} (hc : 0 < c) (ha : h.a2 = some c) (hm : min m (colCount (List.range P) A) ≤ h.maxrank) (hno : m * (h.noise * h.noise) ≤ c) {fuel : Nat} {x : HNode K m} (e : hsvd P h A fuel = .done x) :
    projErr x.cols ((List.range P).flatMap A) ≤ ((P + max 1 (P - 1 + Nat.clog 2 P) : Nat) : K) * c := by
  unfold hsvd at e
  split at e
  · cases e
  · obtain ⟨hx, N, hN, hr⟩ := hLoop_done ok _ bound_clog.1 bound_clog.2 fuel P _ _ (hStart_inv hP ok.svd ok.noise A) e
    rw [List.length_range] at hN
    refine (hr.bound.2 c ⟨?_, by rw [ha]; simp, hno, hm⟩).trans ?_
    · rw [ha]
      intro a e
      cases e
      exact ⟨hc, le_rfl⟩
    · exact mul_le_mul_of_nonneg_right (by exact_mod_cast hN) hc.le

theorem hdot_nonneg (v : Fin m → K) : 0 ≤ v ⬝ᵥ v := Finset.sum_nonneg fun i _ => mul_self_nonneg (v i)

theorem hdot_zero {v : Fin m → K} (h : v ⬝ᵥ v = 0) : v = 0 := by
  have h5 := (Finset.sum_eq_zero_iff_of_nonneg (s := Finset.univ) (f := fun i => v i * v i) fun i _ => mul_self_nonneg (v i)).1 h
  funext i
  exact mul_self_eq_zero.1 (h5 i (Finset.mem_univ i))

/-- **C132: a reported error of zero means an exact result**: then `A = U U^T A`. -/
theorem hsvd_exact {P : Nat} (hP : 0 < P) {h : HPar K m} (ok : h.Ok) (A : Nat → List (Fin m → K)) {fuel : Nat} {x : HNode K m} (e : hsvd P h A fuel = .done x) (h0 : x.err ≤ 0) : ∀ r < P, ∀ c ∈ A r, c = (x.cols.map fun u => (u ⬝ᵥ c) • u).sum := by
  have h1 := (hsvd_error_bound hP ok A e).1.trans h0
  intro r hr c hc
  unfold projErr frob2 at h1
  rw [List.map_map] at h1
  have hmem : c ∈ (List.range P).flatMap A := List.mem_flatMap.2 ⟨r, List.mem_range.2 hr, hc⟩
  set f := (fun c : Fin m → K => c ⬝ᵥ c) ∘ fun c => c - (x.cols.map fun u => (u ⬝ᵥ c) • u).sum with hf
  have hnn : ∀ y ∈ ((List.range P).flatMap A).map f, 0 ≤ y := by
    intro y hy
    obtain ⟨d, -, rfl⟩ := List.mem_map.1 hy
    exact hdot_nonneg _
  have h2 : f c ≤ (((List.range P).flatMap A).map f).sum := List.single_le_sum hnn _ (List.mem_map_of_mem (f := f) hmem)
  have h3 : f c = 0 := le_antisymm (h2.trans h1) (hnn _ (List.mem_map_of_mem hmem))
  have h4 := hdot_zero h3
  exact sub_eq_zero.1 h4

/-! ## Arguments -/

/-- `hsvd_rank` chooses a size that allows merging two matrices. -/
theorem hsvdRankArgs_ok {size maxrank shift : Nat} {mm : Option Nat} {d : Nat} (h : hsvdRankArgs size maxrank shift mm = .ok d) : 2 * (maxrank + shift) ≤ d := by
  unfold hsvdRankArgs at h
  cases mm with
  | none =>
    dsimp only at h
    cases h
    split <;> omega
  | some e =>
    dsimp only at h
    by_cases hc : e < 2 * (maxrank + shift) + 1
    · rw [if_pos hc] at h; cases h
    · rw [if_neg hc] at h; cases h; omega

/-- So does `hsvd_rtol`. -/
theorem hsvdRtolArgs_ok {size n shift : Nat} {maxrank mm nom : Option Nat} {k d : Nat} {q : Option Nat} (h : hsvdRtolArgs size n shift maxrank mm nom = .ok (k, d, q)) : 2 * (k + shift) ≤ d ∧ ∀ a ∈ q, 2 ≤ a := by
  have key : ∀ {k' d' : Nat}, (if d' < 2 * (k' + shift) + 1 then Except.error Err.valueError else if ∃ q ∈ nom, q < 2 then .error .valueError else .ok (k', d', nom)) = (Except.ok (k, d, q) : Except Err (Nat × Nat × Option Nat)) → 2 * (k + shift) ≤ d ∧ ∀ a ∈ q, 2 ≤ a := by
    intro k' d' h
    split at h
    · cases h
    · split at h
      · cases h
      · rename_i h1 h2
        cases h
        refine ⟨by omega, fun a ha => ?_⟩
        by_contra hc
        exact h2 ⟨a, ha, by omega⟩
  have key2 : (if nom.getD 2 < 2 then Except.error Err.valueError else .ok (n, 2 * (n + shift) + 1, some (nom.getD 2))) = (Except.ok (k, d, q) : Except Err (Nat × Nat × Option Nat)) → 2 * (k + shift) ≤ d ∧ ∀ a ∈ q, 2 ≤ a := by
    intro h
    split at h
    · cases h
    · cases h
      refine ⟨by omega, fun a ha => ?_⟩
      cases ha
      omega
  unfold hsvdRtolArgs at h
  cases maxrank <;> cases mm <;> dsimp only at h
  · exact key2 h
  · by_cases hs : size / 2 ≤ shift
    · rw [if_pos hs] at h; cases h
    · rw [if_neg hs] at h; exact key h
  · exact key h
  · exact key h

/-- **C133, violated by the default of `maxmergedim`**: `hsvd_rtol(A, rtol, maxrank=k)` is refused when the largest local number of columns is exactly `2 * (k + safetyshift)`, although `maxmergedim` was not given. -/
theorem hsvdRtolArgs_violated (n k shift : Nat) (nom : Option Nat) : hsvdRtolArgs (2 * (k + shift)) n shift (some k) none nom = .error .valueError := by
  unfold hsvdRtolArgs
  simp

/-! ## The messages of a level -/

theorem hRunSeq_append {S M : Type} (T T' : List (Xfer S M)) (loc : Nat → S) : runSeq (T ++ T') loc = runSeq T' (runSeq T loc) := by
  unfold runSeq
  rw [List.foldl_append]

/-- Transfers to one receiver from processes that do not receive. -/
theorem run_one {S : Type} (i : Nat) (srcs : List Nat) (hs : i ∉ srcs) (loc : Nat → List S) :
    ∀ j, runSeq (srcs.map fun k => (⟨k, i, k, id, id, fun msg s => s ++ msg⟩ : Xfer (List S) (List S))) loc j = if j = i then loc i ++ srcs.flatMap loc else loc j := by
  induction srcs generalizing loc with
  | nil =>
    intro j
    show loc j = _
    by_cases h : j = i
    · rw [if_pos h, h]; simp
    · rw [if_neg h]
  | cons k srcs ih =>
    intro j
    rw [List.mem_cons, not_or] at hs
    have e : runSeq ((k :: srcs).map fun k => (⟨k, i, k, id, id, fun msg s => s ++ msg⟩ : Xfer (List S) (List S))) loc j = runSeq (srcs.map fun k => (⟨k, i, k, id, id, fun msg s => s ++ msg⟩ : Xfer (List S) (List S))) (Xfer.apply loc ⟨k, i, k, id, id, fun msg s => s ++ msg⟩) j := rfl
    have ha : ∀ q, Xfer.apply loc (⟨k, i, k, id, id, fun msg s => s ++ msg⟩ : Xfer (List S) (List S)) q = if q = i then loc i ++ loc k else loc q := by
      intro q
      unfold Xfer.apply set1
      dsimp only [id]
      by_cases h1 : q = i
      · rw [if_pos h1, if_pos h1]
      · rw [if_neg h1, if_neg h1]
        by_cases h2 : q = k
        · rw [if_pos h2, h2]
        · rw [if_neg h2]
    rw [e, ih hs.2, ha i, if_pos rfl, ha j]
    by_cases h : j = i
    · rw [if_pos h, if_pos h, List.flatMap_cons, List.append_assoc]
      congr 2
      apply List.flatMap_congr
      intro q hq
      rw [ha q, if_neg (fun e : q = i => hs.2 (e ▸ hq))]
    · rw [if_neg h, if_neg h, if_neg h]

/-- `hsvd_messages` for a plan with the invariant. For every interleaving of the processes, and whether MPI buffers messages or not, the exchange of a level cannot get stuck, and when all processes have finished every receiver holds its own matrix and those of the processes that send to it, in the order of their ranks, and no message is left over. -/
theorem hsvd_messages_inv {P mm : Nat} {active : List Nat} {p : HPlan} (hp : PlanInv mm active p) (nodes : Nat → HNode K m) {n : Nat} {st : BState (List (HNode K m)) (List (HNode K m))} (hst : Steps BStep n (scheduleInit (hXfers P p) fun r => [nodes r]) st) :
    (∀ r, st.prog r ≠ [] → MustStep st) ∧ n ≤ 2 * (hXfers (K := K) (m := m) P p).length ∧
    ((∀ r, st.prog r = []) → (∀ i ∈ p.future, st.loc i = nodes i :: (recvFrom P p i).map nodes) ∧ ∀ s d t, st.chan s d t = []) := by
  have hsrc : ∀ i k, k ∈ recvFrom P p i → k ∉ p.future := by
    intro i k hk
    unfold recvFrom at hk
    rw [List.mem_filter] at hk
    exact (hp.send k i (by simpa using hk.2)).2.2
  have hne : ∀ x ∈ hXfers (K := K) (m := m) P p, x.src ≠ x.dst := by
    intro x hx
    unfold hXfers at hx
    obtain ⟨i, hi, hx⟩ := List.mem_flatMap.1 hx
    obtain ⟨k, hk, rfl⟩ := List.mem_map.1 hx
    intro e
    dsimp only at e
    exact hsrc i k hk (e ▸ hi)
  obtain ⟨h1, h2⟩ := ordered_transfers _ hne _ hst
  refine ⟨h1, ordered_transfers_terminate _ _ hst, fun hf => ?_⟩
  obtain ⟨h3, h4⟩ := h2 hf
  refine ⟨?_, h4⟩
  rw [h3]
  have key : ∀ (l : List Nat), (∀ i ∈ l, i ∈ p.future) → l.Nodup → ∀ loc : Nat → List (HNode K m), (∀ k, k ∉ p.future → loc k = [nodes k]) → (∀ k ∈ l, loc k = [nodes k]) →
      ∀ j, runSeq (l.flatMap fun i => (recvFrom P p i).map fun k => (⟨k, i, k, id, id, fun msg s => s ++ msg⟩ : Xfer (List (HNode K m)) (List (HNode K m)))) loc j = if j ∈ l then nodes j :: (recvFrom P p j).map nodes else loc j := by
    intro l
    induction l with
    | nil => intro _ _ loc _ _ j; rfl
    | cons i l ih =>
      intro hl hn loc ha hb j
      rw [List.nodup_cons] at hn
      rw [List.flatMap_cons, hRunSeq_append]
      have r1 := run_one i (recvFrom P p i) (fun hc => hsrc i i hc (hl i (by simp))) loc
      have e1 : (recvFrom P p i).flatMap loc = (recvFrom P p i).map nodes := by
        rw [List.map_eq_flatMap]
        apply List.flatMap_congr
        intro k hk
        exact ha k (hsrc i k hk)
      rw [ih (fun q hq => hl q (List.mem_cons_of_mem _ hq)) hn.2 _ ?_ ?_ j]
      · by_cases hj : j ∈ l
        · rw [if_pos hj, if_pos (List.mem_cons_of_mem _ hj)]
        · rw [if_neg hj, r1]
          by_cases hji : j = i
          · rw [if_pos hji, if_pos (by rw [hji]; simp), e1, hb i (by simp), hji]
            rfl
          · rw [if_neg hji, if_neg]
            rw [List.mem_cons, not_or]
            exact ⟨hji, hj⟩
      · intro k hk
        rw [r1, if_neg (fun e : k = i => hk (e ▸ hl i (by simp)))]
        exact ha k hk
      · intro k hk
        rw [r1, if_neg (fun e : k = i => hn.1 (e ▸ hk))]
        exact hb k (List.mem_cons_of_mem _ hk)
  intro i hi
  have := key p.future (fun _ h => h) hp.nodup (fun r => [nodes r]) (fun _ _ => rfl) (fun _ _ => rfl) i
  rw [if_pos hi] at this
  exact this

/-- **C132, messages of a level.** For every list of active processes starting with process 0 and all local sizes, for every interleaving of the processes, and whether MPI buffers messages or not, the exchange of a level cannot get stuck, and when all processes have finished every receiver holds its own matrix and those of the processes that send to it, in the order of their ranks, and no message is left over. -/
theorem hsvd_messages {P mm : Nat} {nom : Option Nat} (hnom : nom ≠ some 0) {rest : List Nat} (hn : (0 :: rest).Nodup) (nodes : Nat → HNode K m) (h0 : (nodes 0).cols.length ≤ mm) {n : Nat} {st : BState (List (HNode K m)) (List (HNode K m))}
    (hst : Steps BStep n (scheduleInit (hXfers P (hPlan (fun i => (nodes i).cols.length) mm nom (0 :: rest))) fun r => [nodes r]) st) :
    (∀ r, st.prog r ≠ [] → MustStep st) ∧ n ≤ 2 * (hXfers (K := K) (m := m) P (hPlan (fun i => (nodes i).cols.length) mm nom (0 :: rest))).length ∧
    ((∀ r, st.prog r = []) → (∀ i ∈ (hPlan (fun i => (nodes i).cols.length) mm nom (0 :: rest)).future, st.loc i = nodes i :: (recvFrom P (hPlan (fun i => (nodes i).cols.length) mm nom (0 :: rest)) i).map nodes) ∧ ∀ s d t, st.chan s d t = []) :=
  hsvd_messages_inv (hPlan_inv h0 hnom hn) nodes hst

/-- The list a receiver holds is what `hGather` puts side by side. -/
theorem hGather_eq (P : Nat) (p : HPlan) (nodes : Nat → HNode K m) (i : Nat) :
    hGather P p nodes i = ⟨(nodes i :: (recvFrom P p i).map nodes).flatMap HNode.cols, ((nodes i :: (recvFrom P p i).map nodes).map HNode.err).sum⟩ := by
  unfold hGather
  rw [List.flatMap_cons, List.map_cons, List.sum_cons, List.flatMap_map, List.map_map]
  rfl

/-! ## What goes wrong -/

theorem frob2_svd {M U : List (Fin m → K)} {σ : List K} (h : IsSvd M U σ) : frob2 M = sqSum σ := by
  rw [frob2_eq_gram]
  simp only [h.gram_eq]
  rw [← frob2_eq_gram, frob2_scaleCols h.ortho.2 (by rw [h.lenU, h.lenS])]

/-- **C132, the estimate can be useless**: on one process, if the matrix has at most half as many columns as `safetyshift` (5 by default) and its singular values are above the noise level, nothing is dropped at level 0, but the reported error is at least 100 %. -/
theorem hsvd_estimate_violated {h : HPar K m} (ok : h.Ok) (A : Nat → List (Fin m → K)) (hr : noiseRank h.noise (h.svd (A 0)).2 ≠ 0) (hs : 2 * (A 0).length ≤ h.shift) {fuel : Nat} {x : HNode K m} (e : hsvd 1 h A fuel = .done x) : frob2 (A 0) ≤ x.err := by
  have hpos : ∀ (shift : Nat) (M : List (Fin m → K)), 0 ≤ (truncSvd h.svd h.noise h.maxrank h.a2 shift M).2.2 := by
    intro shift M
    unfold truncSvd
    dsimp only
    split <;> exact sqSum_nonneg _
  have h0 : (hStart h A 0).err = frob2 (A 0) := by
    unfold hStart truncSvd
    dsimp only
    rw [if_pos hr]
    dsimp only
    have hl := (ok.svd (A 0)).lenS
    rw [frob2_svd (ok.svd (A 0)), if_neg, show (h.svd (A 0)).2.length - (h.shift - min (h.svd (A 0)).2.length (truncRank h.noise h.maxrank h.a2 (h.svd (A 0)).2 + h.shift)) = 0 by omega, List.drop_zero]
    have : (noiseRank h.noise (h.svd (A 0)).2) ≤ (h.svd (A 0)).2.length := (noiseRank_spec _ _).1
    omega
  have inv := hStart_inv (P := 1) (by decide) ok.svd ok.noise A
  unfold hsvd at e
  split at e
  · cases e
  · cases fuel with
    | zero => unfold hLoop at e; cases e
    | succ fuel =>
      unfold hLoop at e
      cases hl : hLevel 1 h (hStart h A) (List.range 1) with
      | none => rw [hl] at e; cases e
      | some q =>
        obtain ⟨nodes', future⟩ := q
        rw [hl] at e
        dsimp only at e
        obtain ⟨hf, -, hnode⟩ := hLevel_some hl
        have hp := inv.plan ok
        obtain ⟨l, hl'⟩ := hp.head
        have hhalf := inv.half ok
        rw [← hf] at hl' hhalf
        rw [List.length_range] at hhalf
        have h1 : future.length = 1 := by rw [hl'] at hhalf ⊢; simp at hhalf ⊢; omega
        rw [if_pos h1] at e
        split at e
        · cases e
        · cases e
          rw [hnode 0 (by rw [hl']; simp)]
          dsimp only
          have : (hGather 1 (hPlan (fun i => (hStart h A i).cols.length) h.mm h.nom (List.range 1)) (hStart h A) 0).err = (hStart h A 0).err := by
            show _ + _ = _
            have : recvFrom 1 (hPlan (fun i => (hStart h A i).cols.length) h.mm h.nom (List.range 1)) 0 = [] := by
              unfold recvFrom
              rw [List.filter_eq_nil_iff]
              intro k hk
              have hk0 : k = 0 := by simpa using hk
              subst hk0
              intro hc
              have := (hp.send 0 0 (of_decide_eq_true hc)).2.2
              rw [← hf, hl'] at this
              simp at this
            rw [this]
            simp
          rw [this, h0]
          have := hpos (if future.length = 1 then 0 else h.shift) (hGather 1 (hPlan (fun i => (hStart h A i).cols.length) h.mm h.nom (List.range 1)) (hStart h A) 0).cols
          linarith

/-- **C133, violated without safety shift**: if the part of process 0 is smaller than the local tolerance (but not noise), `hsvd_rtol(..., safetyshift=0)` fails on every number of processes from two on, whatever the other parts: the second process is neither kept nor told where to send. -/
theorem hsvd_small_block_violated {P : Nat} (hP : 2 ≤ P) {h : HPar K m} (ok : h.Ok) (A : Nat → List (Fin m → K)) {a : K} (ha : h.a2 = some a) (hs : h.shift = 0) (hsmall : frob2 (A 0) < a) (hn : noiseRank h.noise (h.svd (A 0)).2 ≠ 0) (fuel : Nat) : hsvd P h A (fuel + 1) = .error := by
  have ha0 : 0 < a := lt_of_le_of_lt (by rw [frob2_svd (ok.svd (A 0))]; exact sqSum_nonneg _) hsmall
  have inv := hStart_inv (P := P) (by omega) ok.svd ok.noise A
  unfold hsvd
  rw [if_neg (hStart_noFail (by rw [ha]; intro b e; cases e; exact ha0) A)]
  have hc0 : (hStart h A 0).cols = [] := by
    have hi : idealRank a (h.svd (A 0)).2 = some 0 := by
      unfold idealRank
      rw [List.range_succ_eq_map, List.find?_cons, List.drop_zero, ← frob2_svd (ok.svd (A 0))]
      simp [hsmall]
    unfold hStart truncSvd truncRank
    dsimp only
    rw [if_pos hn, ha]
    dsimp only
    rw [hi, hs]
    simp [scaleCols]
  unfold hLoop
  have : hLevel P h (hStart h A) (List.range P) = none := by
    unfold hLevel
    dsimp only
    rw [if_pos]
    refine ⟨1, List.mem_range.2 (by omega), ?_⟩
    obtain ⟨Q, rfl⟩ : ∃ Q, P = Q + 2 := ⟨P - 2, by omega⟩
    have hr : List.range (Q + 2) = 0 :: 1 :: (List.range Q).map (· + 2) := by
      rw [List.range_succ_eq_map, List.range_succ_eq_map, List.map_cons, List.map_map]
      rfl
    have hd1 := inv.dims 1 (by simp)
    have hmm := ok.mm
    set dims := fun i => (hStart h A i).cols.length with hdims
    have hd0 : dims 0 = 0 := by rw [hdims]; dsimp only; rw [hc0]; rfl
    have key : ∀ (l : List Nat), (∀ i ∈ l, i ≠ 1) → ∀ s : HPlan, 1 ∉ s.future → s.send 1 = none → 1 ∉ (l.foldl (planStep dims h.mm h.nom) s).future ∧ (l.foldl (planStep dims h.mm h.nom) s).send 1 = none := by
      intro l
      induction l with
      | nil => intro _ s h1 h2; exact ⟨h1, h2⟩
      | cons i l ih =>
        intro hl s h1 h2
        rw [List.foldl_cons]
        have hi := hl i (by simp)
        apply ih fun j hj => hl j (List.mem_cons_of_mem _ hj)
        · unfold planStep
          split
          · simp only [List.mem_append, List.mem_singleton, not_or]
            exact ⟨h1, fun e => hi e.symm⟩
          · exact h1
        · unfold planStep
          split
          · exact h2
          · dsimp only
            split
            · rw [Function.update_of_ne (fun e => hi e.symm)]; exact h2
            · exact h2
    have hstep : hPlan dims h.mm h.nom (List.range (Q + 2)) = ((List.range Q).map (· + 2)).foldl (planStep dims h.mm h.nom) ⟨[0], fun _ => none, 0, 0 + dims 1, 2⟩ := by
      unfold hPlan
      rw [hr, List.foldl_cons, plan_first (by omega) (fun e => by have := ok.nom 0 e; omega), List.foldl_cons, hd0]
      congr 1
      unfold planStep
      dsimp only
      rw [if_neg, if_neg (by simp)]
      rintro (h1 | h1)
      · have : dims 1 ≤ max 1 (h.maxrank + h.shift) := hd1
        omega
      · have := ok.nom 1 h1; omega
    rw [hstep]
    obtain ⟨k1, k2⟩ := key ((List.range Q).map (· + 2)) (by intro i hi; obtain ⟨j, -, rfl⟩ := List.mem_map.1 hi; omega) ⟨[0], fun _ => none, 0, 0 + dims 1, 2⟩ (by simp) rfl
    exact ⟨k1, .inl k2⟩
  rw [this]

/-! ## Singular value decompositions exist over the reals -/

section Real

theorem scaleCols_ofFn {n : Nat} (u : Fin n → Fin m → ℝ) (s : Fin n → ℝ) : scaleCols (List.ofFn u) (List.ofFn s) = List.ofFn fun k => s k • u k := by
  unfold scaleCols
  apply List.ext_getElem
  · simp
  · intro i h1 h2
    simp

theorem gram_scale_ofFn {n : Nat} (u : Fin n → Fin m → ℝ) (s : Fin n → ℝ) (x y : Fin m → ℝ) : Spec.gram (scaleCols (List.ofFn u) (List.ofFn s)) x y = ∑ k, s k * s k * (u k ⬝ᵥ x) * (u k ⬝ᵥ y) := by
  rw [scaleCols_ofFn]
  unfold Spec.gram
  rw [List.map_ofFn, List.sum_ofFn]
  apply Finset.sum_congr rfl
  intro k _
  simp only [Function.comp, smul_dotProduct, smul_eq_mul]
  ring

/-- **Non-vacuity of the assumption on the local decompositions**: every real matrix has a singular value decomposition in the sense of `IsSvd`. -/
theorem exists_svd (M : List (Fin m → ℝ)) : ∃ q : List (Fin m → ℝ) × List ℝ, IsSvd M q.1 q.2 := by
  set B : Matrix (Fin m) (Fin M.length) ℝ := fun i j => M[j] i with hB
  set G := B * Bᵀ with hG
  have hsym : G.IsHermitian := by
    show Gᴴ = G
    rw [conjTranspose_eq_transpose_of_trivial, hG, transpose_mul, transpose_transpose]
  have hgram : ∀ x y, Spec.gram M x y = ∑ a, ∑ b, x a * G a b * y b := by
    intro x y
    have e : M = List.ofFn fun j : Fin M.length => M[j] := by simp
    have e1 : Spec.gram M x y = ∑ j : Fin M.length, (M[j] ⬝ᵥ x) * (M[j] ⬝ᵥ y) := by
      conv_lhs => rw [e]
      unfold Spec.gram
      rw [List.map_ofFn, List.sum_ofFn]
      rfl
    rw [e1]
    simp only [hG, mul_apply, transpose_apply, Finset.mul_sum, Finset.sum_mul, dotProduct]
    rw [Finset.sum_comm]
    simp only [Finset.sum_comm (s := (Finset.univ : Finset (Fin M.length)))]
    rw [Finset.sum_comm]
    apply Finset.sum_congr rfl
    intro a _
    apply Finset.sum_congr rfl
    intro b _
    apply Finset.sum_congr rfl
    intro j _
    show _ = x a * (M[j] a * M[j] b) * y b
    ring
  set V : Matrix (Fin m) (Fin m) ℝ := (hsym.eigenvectorUnitary : Matrix (Fin m) (Fin m) ℝ) with hV
  have hVV : Vᵀ * V = 1 := by
    have := Matrix.mem_unitaryGroup_iff'.1 hsym.eigenvectorUnitary.2
    rwa [star_eq_conjTranspose, conjTranspose_eq_transpose_of_trivial] at this
  have hspec : G = V * diagonal hsym.eigenvalues * Vᵀ := by
    have := hsym.spectral_theorem
    rw [Unitary.conjStarAlgAut_apply] at this
    exact this
  have hent : ∀ a b, G a b = ∑ i, V a i * hsym.eigenvalues i * V b i := by
    intro a b
    conv_lhs => rw [hspec]
    rw [mul_apply]
    apply Finset.sum_congr rfl
    intro i _
    rw [mul_diagonal, transpose_apply]
  have hquad : ∀ x y : Fin m → ℝ, (∑ a, ∑ b, x a * G a b * y b) = ∑ i, hsym.eigenvalues i * ((fun a => V a i) ⬝ᵥ x) * ((fun a => V a i) ⬝ᵥ y) := by
    intro x y
    simp only [hent, dotProduct, Finset.mul_sum, Finset.sum_mul]
    rw [Finset.sum_comm]
    have : ∀ b : Fin m, (∑ a : Fin m, ∑ i : Fin m, x a * (V a i * hsym.eigenvalues i * V b i) * y b) = ∑ i, ∑ a, x a * (V a i * hsym.eigenvalues i * V b i) * y b := fun b => Finset.sum_comm
    rw [Finset.sum_congr rfl fun b _ => this b, Finset.sum_comm]
    apply Finset.sum_congr rfl
    intro i _
    apply Finset.sum_congr rfl
    intro a _
    apply Finset.sum_congr rfl
    intro b _
    ring
  -- order
  let e : Fin m ≃ Fin m := (finCongr (Fintype.card_fin m).symm).trans (Fintype.equivOfCardEq (Fintype.card_fin _))
  have he : ∀ k : Fin m, hsym.eigenvalues (e k) = hsym.eigenvalues₀ (finCongr (Fintype.card_fin m).symm k) := by
    intro k
    unfold IsHermitian.eigenvalues
    congr 1
    show (Fintype.equivOfCardEq (Fintype.card_fin _)).symm ((Fintype.equivOfCardEq (Fintype.card_fin _)) _) = _
    rw [Equiv.symm_apply_apply]
  have hnn : ∀ i, 0 ≤ hsym.eigenvalues i := by
    intro i
    have h1 := hquad (fun a => V a i) (fun a => V a i)
    rw [← hgram] at h1
    have h2 : ∀ j, ((fun a => V a j) ⬝ᵥ fun a => V a i) = if j = i then 1 else 0 := by
      intro j
      have := congrFun (congrFun hVV j) i
      rw [mul_apply, one_apply] at this
      exact this
    simp only [h2] at h1
    simp at h1
    rw [← h1]
    exact gram_self_nonneg M _
  have hanti : ∀ j k : Fin m, j ≤ k → hsym.eigenvalues (e k) ≤ hsym.eigenvalues (e j) := by
    intro j k h
    rw [he, he]
    exact hsym.eigenvalues₀_antitone h
  let u : Fin m → Fin m → ℝ := fun k a => V a (e k)
  let s : Fin m → ℝ := fun k => Real.sqrt (hsym.eigenvalues (e k))
  have hss : ∀ k, s k * s k = hsym.eigenvalues (e k) := fun k => Real.mul_self_sqrt (hnn _)
  have hfull : ∀ x y, Spec.gram M x y = Spec.gram (scaleCols (List.ofFn u) (List.ofFn s)) x y := by
    intro x y
    rw [hgram, hquad, gram_scale_ofFn, ← Equiv.sum_comp e]
    simp only [hss]
    rfl
  have hdot : ∀ j k, u j ⬝ᵥ u k = if j = k then 1 else 0 := by
    intro j k
    have := congrFun (congrFun hVV (e j)) (e k)
    rw [mul_apply, one_apply] at this
    simp only [EmbeddingLike.apply_eq_iff_eq] at this
    exact this
  have horth : OrthoList (List.ofFn u) := by
    constructor
    · rw [List.pairwise_ofFn]
      intro i j hij
      rw [hdot, if_neg hij.ne]
    · intro v hv
      obtain ⟨k, rfl⟩ := List.mem_ofFn.1 hv
      rw [hdot, if_pos rfl]
  have hzero : ∀ k : Fin m, M.length ≤ k.1 → s k = 0 := by
    intro k hk
    have hrank : G.rank ≤ M.length := by
      rw [hG]
      refine (rank_mul_le_left B Bᵀ).trans ?_
      have := B.rank_le_width
      exact this
    rw [hsym.rank_eq_card_non_zero_eigs] at hrank
    by_contra hne
    have hpos : ∀ j : Fin (k.1 + 1), hsym.eigenvalues (e ⟨j.1, by omega⟩) ≠ 0 := by
      intro j hj
      have h1 := hanti ⟨j.1, by omega⟩ k (by show j.1 ≤ k.1; omega)
      rw [hj] at h1
      have h2 : hsym.eigenvalues (e k) = 0 := le_antisymm h1 (hnn _)
      apply hne
      show Real.sqrt _ = 0
      rw [h2, Real.sqrt_zero]
    have hc := Fintype.card_le_of_injective (fun j : Fin (k.1 + 1) => (⟨e ⟨j.1, by omega⟩, hpos j⟩ : {i // hsym.eigenvalues i ≠ 0})) (by
      intro a b hab
      have h1 := congrArg Subtype.val hab
      have h2 := e.injective h1
      exact Fin.ext (by simpa using h2))
    rw [Fintype.card_fin] at hc
    omega
  refine ⟨((List.ofFn u).take (min m M.length), (List.ofFn s).take (min m M.length)), ?_, ?_, ortho_take horth _, ?_, ?_, ?_⟩
  · rw [List.length_take, List.length_ofFn]; omega
  · rw [List.length_take, List.length_ofFn]; omega
  · intro t ht
    obtain ⟨k, rfl⟩ := List.mem_ofFn.1 (List.mem_of_mem_take ht)
    exact Real.sqrt_nonneg _
  · apply List.Pairwise.sublist (List.take_sublist _ _)
    rw [List.pairwise_ofFn]
    intro i j hij
    exact Real.sqrt_le_sqrt (hanti i j hij.le)
  · intro x y
    rw [hfull, scaleCols_take_append (List.ofFn u) (List.ofFn s) (min m M.length), gram_append]
    have : Spec.gram (scaleCols ((List.ofFn u).drop (min m M.length)) ((List.ofFn s).drop (min m M.length))) x y = 0 := by
      unfold Spec.gram
      apply List.sum_eq_zero
      intro z hz
      obtain ⟨c, hc, rfl⟩ := List.mem_map.1 hz
      unfold scaleCols at hc
      obtain ⟨i, hi, rfl⟩ := List.mem_iff_getElem.1 hc
      rw [List.length_zipWith, List.length_drop, List.length_drop, List.length_ofFn, List.length_ofFn] at hi
      rw [List.getElem_zipWith, List.getElem_drop, List.getElem_drop, List.getElem_ofFn, List.getElem_ofFn]
      rw [hzero ⟨min m M.length + i, by omega⟩ (by show M.length ≤ min m M.length + i; omega)]
      simp
    rw [this, add_zero]

/-- A local decomposition routine. -/
noncomputable def someSvd (M : List (Fin m → ℝ)) : List (Fin m → ℝ) × List ℝ := (exists_svd M).choose

theorem someSvd_spec (M : List (Fin m → ℝ)) : IsSvd M (someSvd M).1 (someSvd M).2 := (exists_svd M).choose_spec

end Real

/-! ## The tolerance can be exceeded -/

section Violated

/-- Unit vectors. -/
def hUnit (k : Nat) : List (Fin 8 → ℝ) := (List.finRange 8).take k |>.map fun i => Pi.single i 1

/-- Singular values 6, 1, 1, .... -/
def hVals (k : Nat) : List ℝ := [6, 1, 1, 1, 1, 1, 1, 1].take k

/-- The matrix with columns `6 e_0, e_1, e_2, ...`. -/
noncomputable def hMat (k : Nat) : List (Fin 8 → ℝ) := scaleCols (hUnit k) (hVals k)

open Classical in
/-- A local decomposition that is the obvious one on the matrices of the example. -/
noncomputable def hOracle (M : List (Fin 8 → ℝ)) : List (Fin 8 → ℝ) × List ℝ :=
  if M = hMat 8 then (hUnit 8, hVals 8) else if M = hMat 7 then (hUnit 7, hVals 7) else someSvd M

theorem hUnit_ortho (k : Nat) : OrthoList (hUnit k) := by
  constructor
  · unfold hUnit
    rw [List.pairwise_map]
    refine List.Pairwise.imp ?_ ((List.nodup_finRange 8).sublist (List.take_sublist k _))
    intro i j hij
    rw [single_one_dotProduct, Pi.single_apply, if_neg hij]
  · intro u hu
    obtain ⟨i, -, rfl⟩ := List.mem_map.1 hu
    simp

theorem hMat_isSvd {k : Nat} (hk : k = 8 ∨ k = 7) : IsSvd (hMat k) (hUnit k) (hVals k) := by
  have h1 : (hUnit k).length = k := by rcases hk with rfl | rfl <;> simp [hUnit]
  have h2 : (hVals k).length = k := by rcases hk with rfl | rfl <;> simp [hVals]
  have h3 : (hMat k).length = k := by unfold hMat; rw [scaleCols_length, h1, h2, min_self]
  refine ⟨?_, ?_, hUnit_ortho k, ?_, ?_, fun _ _ => rfl⟩
  · rw [h1, h3]; omega
  · rw [h2, h3]; omega
  · intro s hs
    have := List.mem_of_mem_take hs
    simp at this
    rcases this with rfl | rfl <;> norm_num
  · apply List.Pairwise.sublist (List.take_sublist _ _)
    simp

theorem hOracle_spec (M : List (Fin 8 → ℝ)) : IsSvd M (hOracle M).1 (hOracle M).2 := by
  unfold hOracle
  split
  · next h => rw [h]; exact hMat_isSvd (.inl rfl)
  · split
    · next h => rw [h]; exact hMat_isSvd (.inr rfl)
    · exact someSvd_spec M

theorem hMat_ne : hMat 7 ≠ hMat 8 := by
  intro h
  have := congrArg List.length h
  simp [hMat, scaleCols, hUnit, hVals] at this

/-- The parameters of `hsvd_rtol(A, 0.4)` on one process, for the 8 x 8 matrix `hMat 8` (whose squared norm is 43): `hsvdRtolArgs` with the default `safetyshift = 5`. -/
noncomputable def hExPar : HPar ℝ 8 := ⟨hOracle, 1 / 10000000, 8, 27, some 2, some (0.4 * 0.4 * 43 / (2 * 1 - 1)), 5⟩

example : hsvdRtolArgs 8 8 5 none none none = .ok (8, 27, some 2) := by decide

theorem hExPar_ok : hExPar.Ok := ⟨hOracle_spec, by norm_num [hExPar], by simp [hExPar], by simp [hExPar]⟩

theorem hVals_noise {k : Nat} (hk : k = 8 ∨ k = 7) : noiseRank (1 / 10000000) (hVals k) = k := by
  rcases hk with rfl | rfl <;> norm_num [noiseRank, hVals, List.range, List.range.loop, List.filter]

/-- **C133, violated on one process** (and no error is raised): `hsvd_rtol(A, 0.4)` on a real 8 x 8 matrix returns one column, and the squared relative error is 7 / 43 > 0.4². -/
theorem hsvd_rtol_violated : frob2 ((List.range 1).flatMap fun _ => hMat 8) = 43 ∧ ∃ x, hsvd 1 hExPar (fun _ => hMat 8) 1 = .done x ∧ 0.4 * 0.4 * 43 < projErr x.cols ((List.range 1).flatMap fun _ => hMat 8) := by
  have e8 : hOracle (hMat 8) = (hUnit 8, hVals 8) := by unfold hOracle; rw [if_pos rfl]
  have e7 : hOracle (hMat 7) = (hUnit 7, hVals 7) := by unfold hOracle; rw [if_neg hMat_ne, if_pos rfl]
  have i8 : idealRank (0.4 * 0.4 * 43 / (2 * 1 - 1) : ℝ) (hVals 8) = some 2 := by
    norm_num [idealRank, hVals, List.range, List.range.loop, sqSum, List.find?]
  have i7 : idealRank (0.4 * 0.4 * 43 / (2 * 1 - 1) : ℝ) (hVals 7) = some 1 := by
    norm_num [idealRank, hVals, List.range, List.range.loop, sqSum, List.find?]
  have n8 := hVals_noise (k := 8) (.inl rfl)
  have n7 := hVals_noise (k := 7) (.inr rfl)
  have t8 : truncSvd hOracle (1 / 10000000) 8 (some (0.4 * 0.4 * 43 / (2 * 1 - 1) : ℝ)) 5 (hMat 8) = (hUnit 7, hVals 7, 6) := by
    unfold truncSvd truncRank
    rw [e8]
    dsimp only
    rw [i8, n8]
    norm_num [hVals, hUnit, sqSum, List.take_take]
  have t7 : truncSvd hOracle (1 / 10000000) 8 (some (0.4 * 0.4 * 43 / (2 * 1 - 1) : ℝ)) 0 (hMat 7) = (hUnit 1, hVals 1, 6) := by
    unfold truncSvd truncRank
    rw [e7]
    dsimp only
    rw [i7, n7]
    norm_num [hVals, hUnit, sqSum, List.take_take]
  have hf : frob2 (hMat 8) = 43 := by
    rw [frob2_svd (hMat_isSvd (.inl rfl))]
    norm_num [sqSum, hVals]
  have hfl : ((List.range 1).flatMap fun _ => hMat 8) = hMat 8 := by simp [List.range, List.range.loop]
  rw [hfl]
  refine ⟨hf, ⟨hUnit 1, 12⟩, ?_, ?_⟩
  · have hst : ∀ r, hStart hExPar (fun _ => hMat 8) r = ⟨hMat 7, 6⟩ := by
      intro r
      unfold hStart hExPar
      dsimp only
      rw [t8]
      rfl
    have hpl : hPlan (fun i => (hStart hExPar (fun _ => hMat 8) i).cols.length) hExPar.mm hExPar.nom (List.range 1) = ⟨[0], fun _ => none, 0, 7, 1⟩ := by
      have hl : (hMat 7).length = 7 := by simp [hMat, scaleCols, hUnit, hVals]
      simp only [hst, hl]
      simp [hPlan, planStep, hExPar, List.range, List.range.loop]
    have hg : hGather 1 ⟨[0], fun _ => none, 0, 7, 1⟩ (hStart hExPar fun _ => hMat 8) 0 = ⟨hMat 7, 6⟩ := by
      simp [hGather, recvFrom, hst]
    unfold hsvd
    rw [if_neg (hStart_noFail (fun a ha => by simp [hExPar] at ha; rw [← ha]; norm_num) _)]
    unfold hLoop
    have hlev : hLevel 1 hExPar (hStart hExPar fun _ => hMat 8) (List.range 1) = some (fun i => if i ∈ [0] then ⟨hUnit 1, 12⟩ else hStart hExPar (fun _ => hMat 8) i, [0]) := by
      unfold hLevel
      dsimp only
      rw [hpl, if_neg (by simp), if_neg]
      · congr 2
        funext i
        by_cases hi : i ∈ [0]
        · rw [if_pos hi, if_pos hi]
          have hi0 : i = 0 := by simpa using hi
          subst hi0
          rw [hg]
          have : truncSvd hExPar.svd hExPar.noise hExPar.maxrank hExPar.a2 (if ([0] : List Nat).length = 1 then 0 else hExPar.shift) (hMat 7) = (hUnit 1, hVals 1, 6) := t7
          dsimp only
          rw [this]
          norm_num
        · rw [if_neg hi, if_neg hi]
      · rintro ⟨i, -, -, a, ha, hn⟩
        obtain ⟨k, hk⟩ := idealRank_some (a := a) (by simp [hExPar] at ha; rw [← ha]; norm_num) (hExPar.svd (hGather 1 ⟨[0], fun _ => none, 0, 7, 1⟩ (hStart hExPar fun _ => hMat 8) i).cols).2
        rw [hk] at hn
        cases hn
    rw [hlev]
    dsimp only
    have hne : hUnit 1 ≠ [] := by simp [hUnit, List.finRange]
    simp [hne]
  · dsimp only
    rw [projErr_eq (hUnit_ortho 1), hf]
    have : ((hUnit 1).map fun u => Spec.gram (hMat 8) u u).sum = 36 := by
      have e1 : hUnit 1 = [Pi.single 0 1] := by simp [hUnit, List.finRange]
      rw [e1]
      simp [Spec.gram, hMat, hUnit, hVals, scaleCols, List.finRange]
      norm_num
    rw [this]
    norm_num

end Violated
/-! ## The right factor -/

/-- Squared Frobenius norm of `A - U diag(sigma) V^T` for the columns of `U` with the values and columns of `V` in `R`. -/
def Spec.recErr (U : List (Fin m → K)) (R : List (K × List K)) (A : List (Fin m → K)) : K :=
  frob2 ((List.range A.length).map fun j => A.getD j 0 - (List.zipWith (fun u r => (r.1 * r.2.getD j 0) • u) U R).sum)

theorem hRight_length (rt : K → K) (U A : List (Fin m → K)) : (hRight rt U A).length = U.length := by
  unfold hRight
  dsimp only
  split <;> simp

/-- The entries of the right factor. -/
theorem hRight_entry {rt : K → K} {U A : List (Fin m → K)} (h : (∀ u ∈ U, 0 < rt (gram A u u)) ∨ ∀ u ∈ U, rt (gram A u u) = 0) {i : Nat} (hi : i < U.length) :
    ((hRight rt U A)[i]'(by rw [hRight_length]; exact hi)).1 = rt (gram A U[i] U[i]) ∧
    ((hRight rt U A)[i]'(by rw [hRight_length]; exact hi)).2 = A.map fun c => if rt (gram A U[i] U[i]) = 0 then c ⬝ᵥ U[i] else (c ⬝ᵥ U[i]) * (1 / rt (gram A U[i] U[i])) := by
  have hsq : ∀ u, sqSum (A.map fun c => c ⬝ᵥ u) = gram A u u := by
    intro u
    unfold sqSum Spec.gram
    rw [List.map_map]
    rfl
  unfold hRight
  dsimp only
  split
  · next hx =>
    obtain ⟨s, hs, hne⟩ := hx
    rw [List.map_map] at hs
    obtain ⟨u, hu, rfl⟩ := List.mem_map.1 hs
    have hpos : ∀ u ∈ U, 0 < rt (gram A u u) := by
      rcases h with h | h
      · exact h
      · exact absurd (by simp only [Function.comp, hsq]; exact h u hu) hne
    have := (hpos _ (List.getElem_mem hi)).ne'
    simp only [List.getElem_zipWith, List.getElem_map, hsq, if_neg this]
    rw [List.map_map]
    exact ⟨trivial, rfl⟩
  · next hx =>
    have hz : rt (gram A U[i] U[i]) = 0 := by
      by_contra hne
      exact hx ⟨_, List.mem_map.2 ⟨_, List.mem_map.2 ⟨_, List.getElem_mem hi, rfl⟩, rfl⟩, by rw [hsq]; exact hne⟩
    simp only [List.getElem_zipWith, List.getElem_map, hsq, if_pos hz]
    exact ⟨trivial, trivial⟩

/-- **C132, the factors.** With `compute_sv=True`, for every result of `hsvd`: `U diag(sigma) V^T` differs from `A` by at most the reported error; unless `U` is the zero column, all values are at least the noise level (so that nothing is divided by zero) and the columns of `V` have norm one, and if the reported error is zero they are orthogonal to each other. -/
theorem hsvd_factors {P : Nat} (hP : 0 < P) {h : HPar K m} (ok : h.Ok) (A : Nat → List (Fin m → K)) {rt : K → K} (hrt : ∀ x, 0 ≤ x → 0 ≤ rt x ∧ rt x * rt x = x) {fuel : Nat} {x : HNode K m} (e : hsvd P h A fuel = .done x) :
    recErr x.cols (hRight rt x.cols ((List.range P).flatMap A)) ((List.range P).flatMap A) ≤ x.err ∧
    (x.cols = [0] ∨ (∀ r ∈ hRight rt x.cols ((List.range P).flatMap A), h.noise ≤ r.1 ∧ sqSum r.2 = 1) ∧
      (x.err = 0 → (hRight rt x.cols ((List.range P).flatMap A)).Pairwise fun r s => (List.zipWith (· * ·) r.2 s.2).sum = 0)) := by
  have hbound := (hsvd_error_bound hP ok A e).1
  have hr : ∃ N, HResult P h A N x := by
    unfold hsvd at e
    split at e
    · cases e
    · obtain ⟨-, N, -, hr⟩ := hLoop_done ok _ bound_pow.1 bound_pow.2 fuel P _ _ (hStart_inv hP ok.svd ok.noise A) e
      exact ⟨N, hr⟩
  obtain ⟨N, E, σ, h1, h2, -, h4, -, h6⟩ := hr
  set B := (List.range P).flatMap A with hB
  have hcase : (∀ u ∈ x.cols, h.noise ≤ rt (gram B u u)) ∨ x.cols = [0] := by
    rcases h6 with h6 | h6
    · left
      intro u hu
      have hg : h.noise * h.noise ≤ gram B u u := by
        rw [h1]
        have hE := gram_self_nonneg E u
        suffices h.noise * h.noise ≤ gram (scaleCols x.cols σ) u u by linarith
        obtain ⟨i, hi, rfl⟩ := List.mem_iff_getElem.1 hu
        have hi' : i < σ.length := by omega
        have hmem : (σ[i] • x.cols[i]) ∈ scaleCols x.cols σ := by
          unfold scaleCols
          refine List.mem_iff_getElem.2 ⟨i, by rw [List.length_zipWith]; omega, ?_⟩
          rw [List.getElem_zipWith]
        have hle : ((σ[i] • x.cols[i]) ⬝ᵥ x.cols[i]) * ((σ[i] • x.cols[i]) ⬝ᵥ x.cols[i]) ≤ gram (scaleCols x.cols σ) x.cols[i] x.cols[i] := by
          unfold Spec.gram
          refine List.single_le_sum (fun a ha => ?_) _ (List.mem_map.2 ⟨_, hmem, rfl⟩)
          obtain ⟨c, -, rfl⟩ := List.mem_map.1 ha
          exact mul_self_nonneg _
        rw [smul_dotProduct, h6.1.2 _ hu, smul_eq_mul, mul_one] at hle
        have hs := h6.2 σ[i] (List.getElem_mem hi')
        have := ok.noise
        nlinarith
      obtain ⟨r1, r2⟩ := hrt _ (gram_self_nonneg B u)
      have := ok.noise
      nlinarith
    · exact .inr h6.1
  have hz0 : rt 0 = 0 := by
    have := (hrt 0 le_rfl).2
    exact mul_self_eq_zero.1 this
  have hdich : (∀ u ∈ x.cols, 0 < rt (gram B u u)) ∨ ∀ u ∈ x.cols, rt (gram B u u) = 0 := by
    rcases hcase with hc | hc
    · exact .inl fun u hu => lt_of_lt_of_le ok.noise (hc u hu)
    · right
      intro u hu
      rw [hc, List.mem_singleton] at hu
      subst hu
      have : gram B 0 0 = 0 := by simp [Spec.gram]
      rw [this, hz0]
  have hen := fun i (hi : i < x.cols.length) => hRight_entry hdich hi
  have hval : ∀ (c u : Fin m → K), c ∈ B → rt (gram B u u) * (if rt (gram B u u) = 0 then c ⬝ᵥ u else (c ⬝ᵥ u) * (1 / rt (gram B u u))) = u ⬝ᵥ c := by
    intro c u hc
    by_cases hz : rt (gram B u u) = 0
    · rw [if_pos hz, hz, zero_mul]
      have hg : gram B u u = 0 := by rw [← (hrt _ (gram_self_nonneg B u)).2, hz, mul_zero]
      have hle : (c ⬝ᵥ u) * (c ⬝ᵥ u) ≤ gram B u u := by
        unfold Spec.gram
        refine List.single_le_sum (fun a ha => ?_) _ (List.mem_map.2 ⟨c, hc, rfl⟩)
        obtain ⟨c, -, rfl⟩ := List.mem_map.1 ha
        exact mul_self_nonneg _
      have := mul_self_nonneg (c ⬝ᵥ u)
      rw [dotProduct_comm, mul_self_eq_zero.1 (le_antisymm (hle.trans hg.le) this)]
    · rw [if_neg hz, dotProduct_comm u c]
      field_simp
  refine ⟨?_, ?_⟩
  · refine le_trans (le_of_eq ?_) hbound
    unfold recErr projErr
    congr 1
    apply List.ext_getElem
    · simp
    · intro j hj1 hj2
      rw [List.getElem_map, List.getElem_map, List.getElem_range]
      have hj : j < B.length := by simpa using hj2
      rw [List.getD_eq_getElem?_getD, List.getElem?_eq_getElem hj, Option.getD_some]
      congr 2
      apply List.ext_getElem
      · simp [hRight_length]
      · intro i hi1 hi2
        have hi : i < x.cols.length := by simpa using hi2
        rw [List.getElem_zipWith, List.getElem_map, (hen i hi).1, (hen i hi).2, List.getD_eq_getElem?_getD, List.getElem?_eq_getElem (by rw [List.length_map]; exact hj), Option.getD_some, List.getElem_map, hval _ _ (List.getElem_mem hj)]
  · rcases hcase with hc | hc
    · right
      have hpos : ∀ u ∈ x.cols, 0 < rt (gram B u u) := fun u hu => lt_of_lt_of_le ok.noise (hc u hu)
      refine ⟨?_, ?_⟩
      · intro r hr
        obtain ⟨i, hi, rfl⟩ := List.mem_iff_getElem.1 hr
        rw [hRight_length] at hi
        rw [(hen i hi).1, (hen i hi).2]
        refine ⟨hc _ (List.getElem_mem hi), ?_⟩
        have hp := hpos _ (List.getElem_mem hi)
        simp only [if_neg hp.ne']
        unfold sqSum
        rw [List.map_map]
        have : ((fun y => y * y) ∘ fun c : Fin m → K => (c ⬝ᵥ x.cols[i]) * (1 / rt (gram B x.cols[i] x.cols[i]))) = fun c => (c ⬝ᵥ x.cols[i]) * (c ⬝ᵥ x.cols[i]) * (1 / gram B x.cols[i] x.cols[i]) := by
          funext c
          show _ * _ * (_ * _) = _
          have h3 := (hrt _ (gram_self_nonneg B x.cols[i])).2
          conv_rhs => rw [← h3]
          field_simp
        rw [this, List.sum_map_mul_right]
        have hg : gram B x.cols[i] x.cols[i] ≠ 0 := by
          rw [← (hrt _ (gram_self_nonneg B x.cols[i])).2]
          exact (mul_pos hp hp).ne'
        show gram B x.cols[i] x.cols[i] * _ = 1
        field_simp
      · intro he
        rw [List.pairwise_iff_getElem]
        intro i j hi hj hij
        rw [hRight_length] at hi hj
        rw [(hen i hi).2, (hen j hj).2]
        have hpi := hpos _ (List.getElem_mem hi)
        have hpj := hpos _ (List.getElem_mem hj)
        simp only [if_neg hpi.ne', if_neg hpj.ne']
        rw [List.zipWith_map, List.zipWith_self]
        have : (fun c : Fin m → K => (c ⬝ᵥ x.cols[i]) * (1 / rt (gram B x.cols[i] x.cols[i])) * ((c ⬝ᵥ x.cols[j]) * (1 / rt (gram B x.cols[j] x.cols[j])))) = fun c => (c ⬝ᵥ x.cols[i]) * (c ⬝ᵥ x.cols[j]) * ((1 / rt (gram B x.cols[i] x.cols[i])) * (1 / rt (gram B x.cols[j] x.cols[j]))) := by
          funext c
          ring
        rw [this, List.sum_map_mul_right]
        have hg : (B.map fun c => (c ⬝ᵥ x.cols[i]) * (c ⬝ᵥ x.cols[j])).sum = 0 := by
          show gram B x.cols[i] x.cols[j] = 0
          rw [h1]
          have hE0 : ∀ c ∈ E, c = 0 := by
            have hf : frob2 E = 0 := le_antisymm (by rw [← he]; exact h2) (by
              unfold frob2
              apply List.sum_nonneg
              intro a ha
              obtain ⟨c, -, rfl⟩ := List.mem_map.1 ha
              exact hdot_nonneg c)
            intro c hcE
            refine hdot_zero (le_antisymm ?_ (hdot_nonneg c))
            rw [← hf]
            refine List.single_le_sum (fun a ha => ?_) _ (List.mem_map.2 ⟨c, hcE, rfl⟩)
            obtain ⟨c, -, rfl⟩ := List.mem_map.1 ha
            exact hdot_nonneg c
          have z1 : gram E x.cols[i] x.cols[j] = 0 := by
            unfold Spec.gram
            apply List.sum_eq_zero
            intro a ha
            obtain ⟨c, hcE, rfl⟩ := List.mem_map.1 ha
            rw [hE0 c hcE]
            simp
          rw [z1, add_zero]
          have ho : OrthoList x.cols := by
            rcases h6 with h6 | h6
            · exact h6.1
            · rw [h6.1] at hi hj
              simp at hi hj
              omega
          have hp := List.pairwise_iff_getElem.1 ho.1
          unfold Spec.gram
          apply List.sum_eq_zero
          intro a ha
          obtain ⟨c, hcE, rfl⟩ := List.mem_map.1 ha
          unfold scaleCols at hcE
          obtain ⟨k, hk, rfl⟩ := List.mem_iff_getElem.1 hcE
          rw [List.length_zipWith] at hk
          rw [List.getElem_zipWith, smul_dotProduct, smul_dotProduct]
          by_cases hki : k = i
          · subst hki
            rw [hp k j hi hj hij]
            simp
          · have : x.cols[k]'(by omega) ⬝ᵥ x.cols[i] = 0 := by
              rcases Nat.lt_or_ge k i with hlt | hge
              · exact hp k i (by omega) hi hlt
              · rw [dotProduct_comm]; exact hp i k hi (by omega) (by omega)
            rw [this]
            simp
        rw [hg, zero_mul]
    · exact .inl hc
/-! ## Non-vacuity -/

/-- The parameters of `hsvd_rank(A, 3)` on real matrices with 4 rows. -/
noncomputable def hExRank : HPar ℝ 4 := ⟨someSvd, 1 / 10000000, 3, 17, none, none, 5⟩

theorem hExRank_ok : hExRank.Ok := ⟨someSvd_spec, by norm_num [hExRank], by simp [hExRank], by simp [hExRank]⟩

example : hsvdRankArgs 2 3 5 none = .ok 17 := by decide

/-- `hsvd_rank(A, 3)` returns on three processes, for all matrices, with the bound of `hsvd_error_bound`. -/
example (A : Nat → List (Fin 4 → ℝ)) : ∃ x, hsvd 3 hExRank A 3 = .done x ∧ projErr x.cols ((List.range 3).flatMap A) ≤ x.err := by
  obtain ⟨x, hx⟩ := hsvd_rank_total (P := 3) (by decide) hExRank_ok rfl (by simp [hExRank]) A
  exact ⟨x, hx, (hsvd_error_bound (by decide) hExRank_ok A hx).1⟩

example (A : Nat → List (Fin 4 → ℝ)) : ∃ x, hsvd 3 hExRank A 3 = .done x ∧ recErr x.cols (hRight Real.sqrt x.cols ((List.range 3).flatMap A)) ((List.range 3).flatMap A) ≤ x.err := by
  obtain ⟨x, hx⟩ := hsvd_rank_total (P := 3) (by decide) hExRank_ok rfl (by simp [hExRank]) A
  exact ⟨x, hx, (hsvd_factors (by decide) hExRank_ok A (fun y hy => ⟨Real.sqrt_nonneg y, Real.mul_self_sqrt hy⟩) hx).1⟩

/-- `hsvd_rtol(A, 0.4)` on four processes with the matrix `hMat 8` on each of them. -/
example : ∃ x, hsvd 4 ⟨someSvd, 1 / 10000000, 32, 75, some 2, some ((0.4 : ℝ) * 0.4 * frob2 ((List.range (2 ^ 2)).flatMap fun _ => hMat 8) / (2 * 2 ^ 2 - 1)), 5⟩ (fun _ => hMat 8) 4 = .done x := by
  have hf : frob2 (hMat 8) = 43 := by
    rw [frob2_svd (hMat_isSvd (.inl rfl))]
    norm_num [sqSum, hVals]
  have hF : frob2 ((List.range (2 ^ 2)).flatMap fun _ => hMat 8) = 172 := by
    rw [frob2_flatMap]
    simp only [hf]
    norm_num [List.range, List.range.loop]
  obtain ⟨x, hx, -⟩ := hsvd_rtol_partial (k := 2) (by decide) (h := ⟨someSvd, 1 / 10000000, 32, 75, some 2, some ((0.4 : ℝ) * 0.4 * frob2 ((List.range (2 ^ 2)).flatMap fun _ => hMat 8) / (2 * 2 ^ 2 - 1)), 5⟩)
    ⟨someSvd_spec, by norm_num, by simp, by simp⟩ (fun _ => hMat 8) (rtol := 0.4) (by norm_num) (by norm_num) (by rw [hF]; norm_num) rfl (by simp) (by
      refine (min_le_left _ _).trans ?_
      simp) (by rw [hF]; norm_num)
  exact ⟨x, hx⟩

/-- The hypotheses of `hsvd_estimate_violated`: a matrix with 8 columns and `safetyshift = 16`. -/
example : ∃ x, hsvd 1 ⟨hOracle, 1 / 10000000, 8, 49, none, none, 16⟩ (fun _ => hMat 8) 1 = .done x ∧ 43 ≤ x.err := by
  have ok : HPar.Ok (⟨hOracle, 1 / 10000000, 8, 49, none, none, 16⟩ : HPar ℝ 8) := ⟨hOracle_spec, by norm_num, by simp, by simp⟩
  obtain ⟨x, hx⟩ := hsvd_rank_total (P := 1) (by decide) ok rfl (by simp) fun _ => hMat 8
  have e8 : hOracle (hMat 8) = (hUnit 8, hVals 8) := by unfold hOracle; rw [if_pos rfl]
  have := hsvd_estimate_violated ok (fun _ => hMat 8) (by dsimp only; rw [e8]; dsimp only; rw [hVals_noise (.inl rfl)]; decide) (by simp [hMat, scaleCols, hUnit, hVals]) hx
  rw [frob2_svd (hMat_isSvd (.inl rfl))] at this
  refine ⟨x, hx, le_trans (le_of_eq ?_) this⟩
  norm_num [sqSum, hVals]

/-- The hypotheses of `hsvd_small_block_violated`: the part of process 0 has squared norm 43, the local tolerance is 44. -/
example (A : Nat → List (Fin 8 → ℝ)) (hA : A 0 = hMat 8) : hsvd 2 ⟨hOracle, 1 / 10000000, 8, 17, some 2, some 44, 0⟩ A 2 = .error := by
  have ok : HPar.Ok (⟨hOracle, 1 / 10000000, 8, 17, some 2, some 44, 0⟩ : HPar ℝ 8) := ⟨hOracle_spec, by norm_num, by simp, by simp⟩
  have e8 : hOracle (hMat 8) = (hUnit 8, hVals 8) := by unfold hOracle; rw [if_pos rfl]
  refine hsvd_small_block_violated (by decide) ok A rfl rfl ?_ ?_ 1
  · rw [hA, frob2_svd (hMat_isSvd (.inl rfl))]
    norm_num [sqSum, hVals]
  · rw [hA]
    dsimp only
    rw [e8]
    dsimp only
    rw [hVals_noise (.inl rfl)]
    decide

/-- Four processes with one column each, merged in pairs: process 0 receives from 1, and 2 from 3. -/
example : let p := hPlan (fun _ => 1) 3 (some 2) [0, 1, 2, 3]; p.future = [0, 2] ∧ recvFrom 4 p 0 = [1] ∧ recvFrom 4 p 2 = [3] := by decide

end Heat
