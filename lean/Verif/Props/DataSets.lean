import Verif.Model.DataSets
import Verif.Proof.Chunk
import Verif.Spec.Dist
import Mathlib.Tactic.Linarith
import Mathlib.Tactic.FieldSimp
import Mathlib.Tactic.Ring
import Mathlib.Algebra.BigOperators.Ring.Finset
import Mathlib.Algebra.Order.BigOperators.Group.Finset
/-!
# C182: artificial data sets
-/
namespace Heat
open Spec

/-- **C182.**  On every process the clusters together have exactly the samples of the process, for all weights. -/
theorem cluster_sizes_sum (nloc K : Nat) (hK : 0 < K) (w : Nat → ℚ) : ∑ k ∈ Finset.range K, clusterSizes nloc K w k = nloc := by
  obtain ⟨K, rfl⟩ : ∃ m, K = m + 1 := ⟨K - 1, by omega⟩
  rw [Finset.sum_range_succ']
  unfold clusterSizes
  dsimp only
  rw [if_pos rfl, Finset.sum_range_succ']
  rw [Finset.sum_congr rfl fun k _ => if_neg (Nat.succ_ne_zero k)]
  ring

/-- **C182.**  The data set has exactly `n` samples. -/
theorem cluster_total_sum (n P K : Nat) (hP : 0 < P) (hK : 0 < K) (w : Nat → Nat → ℚ) : ∑ k ∈ Finset.range K, clusterTotal n P K w k = n := by
  unfold clusterTotal
  rw [Finset.sum_comm, Finset.sum_congr rfl fun r _ => cluster_sizes_sum _ K hK (w r)]
  have : ∀ p, ∑ r ∈ Finset.range p, (clusterLocal n P r : Int) = ((chunkRange n p P).1 : Int) := by
    intro p
    induction p with
    | zero => rw [chunkRange_zero]; rfl
    | succ p ih =>
      rw [Finset.sum_range_succ, ih, chunkRange_succ]
      have : (chunkRange n p P).1 ≤ (chunkRange n p P).2 := by
        rw [← chunkRange_succ]
        exact chunkRange_mono _ _ (Nat.le_succ p)
      unfold clusterLocal
      omega
  rw [this P, chunkRange_at_P _ _ hP]

theorem floor_sum_le (nloc K : Nat) (w : Nat → ℚ) (hs : ∑ k ∈ Finset.range K, w k = 1) : ∑ k ∈ Finset.range K, ⌊(nloc : ℚ) * w k⌋ ≤ (nloc : Int) := by
  have h : ((∑ k ∈ Finset.range K, ⌊(nloc : ℚ) * w k⌋ : Int) : ℚ) ≤ ((nloc : Int) : ℚ) := by
    rw [Int.cast_sum]
    calc ∑ k ∈ Finset.range K, ((⌊(nloc : ℚ) * w k⌋ : Int) : ℚ) ≤ ∑ k ∈ Finset.range K, (nloc : ℚ) * w k := Finset.sum_le_sum fun k _ => Int.floor_le _
      _ = ((nloc : Int) : ℚ) := by rw [← Finset.mul_sum, hs, mul_one]; rfl
  exact_mod_cast h

/-- **C182.**  For weights that are not negative and add up to 1 no size is negative, a cluster has at most one sample less than its share, the later ones at most their share, and the first one less than `K` samples more. -/
theorem cluster_sizes_share_partial (nloc K : Nat) (w : Nat → ℚ) (hw : ∀ k < K, 0 ≤ w k) (hs : ∑ k ∈ Finset.range K, w k = 1) {k : Nat} (hk : k < K) :
    0 ≤ clusterSizes nloc K w k ∧ (nloc : ℚ) * w k - 1 < clusterSizes nloc K w k ∧ (k ≠ 0 → (clusterSizes nloc K w k : ℚ) ≤ nloc * w k) ∧ (k = 0 → (clusterSizes nloc K w k : ℚ) ≤ nloc * w k + K) := by
  have hle := floor_sum_le nloc K w hs
  have hge : (nloc : ℚ) - K ≤ ((∑ k ∈ Finset.range K, ⌊(nloc : ℚ) * w k⌋ : Int) : ℚ) := by
    rw [Int.cast_sum]
    calc (nloc : ℚ) - K = ∑ k ∈ Finset.range K, ((nloc : ℚ) * w k - 1) := by
          rw [Finset.sum_sub_distrib, ← Finset.mul_sum, hs]
          simp
      _ ≤ _ := Finset.sum_le_sum fun k _ => (Int.sub_one_lt_floor _).le
  have h0 : 0 ≤ ⌊(nloc : ℚ) * w k⌋ := Int.floor_nonneg.mpr (mul_nonneg (Nat.cast_nonneg _) (hw k hk))
  have h1 : (nloc : ℚ) * w k - 1 < (⌊(nloc : ℚ) * w k⌋ : Int) := Int.sub_one_lt_floor _
  have h2 : ((⌊(nloc : ℚ) * w k⌋ : Int) : ℚ) ≤ nloc * w k := Int.floor_le _
  unfold clusterSizes
  dsimp only
  by_cases c : k = 0
  · subst c
    rw [if_pos rfl]
    have h3 : (0 : ℚ) ≤ ((nloc : Int) : ℚ) - ((∑ k ∈ Finset.range K, ⌊(nloc : ℚ) * w k⌋ : Int) : ℚ) := by
      have : ((∑ k ∈ Finset.range K, ⌊(nloc : ℚ) * w k⌋ : Int) : ℚ) ≤ ((nloc : Int) : ℚ) := by exact_mod_cast hle
      linarith
    have h4 : ((nloc : Int) : ℚ) = (nloc : ℚ) := rfl
    refine ⟨by omega, ?_, fun h => absurd rfl h, fun _ => ?_⟩
    · rw [Int.cast_add, Int.cast_sub]
      linarith
    · rw [Int.cast_add, Int.cast_sub, h4]
      linarith
  · rw [if_neg c]
    exact ⟨h0, h1, fun _ => h2, fun h => absurd h c⟩

/-- **C182.**  Without weights, and if the number of clusters divides the number of samples of every process, all clusters have the same size. -/
theorem cluster_even_partial (n P K : Nat) (hP : 0 < P) (hK : 0 < K) (hd : ∀ r < P, K ∣ clusterLocal n P r) {k : Nat} (hk : k < K) : (K : Int) * clusterTotal n P K (fun _ => evenWeights K) k = n := by
  have h : ∀ r < P, ∀ j, ⌊(clusterLocal n P r : ℚ) * evenWeights K j⌋ = ((clusterLocal n P r / K : Nat) : Int) := by
    intro r hr j
    obtain ⟨m, hm⟩ := hd r hr
    unfold evenWeights
    rw [hm, Nat.mul_div_cancel_left _ hK]
    have : ((K * m : Nat) : ℚ) * (1 / K) = ((m : Int) : ℚ) := by
      have : (K : ℚ) ≠ 0 := by exact_mod_cast hK.ne'
      push_cast
      field_simp
    rw [this, Int.floor_intCast]
  have hsz : ∀ r < P, ∀ j, clusterSizes (clusterLocal n P r) K (evenWeights K) j = ((clusterLocal n P r / K : Nat) : Int) := by
    intro r hr j
    unfold clusterSizes
    dsimp only
    by_cases c : j = 0
    · rw [if_pos c, h r hr, Finset.sum_congr rfl fun i _ => h r hr i, Finset.sum_const, Finset.card_range, nsmul_eq_mul]
      have : ((K : Int) * ((clusterLocal n P r / K : Nat) : Int)) = clusterLocal n P r := by exact_mod_cast Nat.mul_div_cancel' (hd r hr)
      rw [this]
      ring
    · rw [if_neg c, h r hr]
  have hall : ∀ j, clusterTotal n P K (fun _ => evenWeights K) j = clusterTotal n P K (fun _ => evenWeights K) k := by
    intro j
    unfold clusterTotal
    refine Finset.sum_congr rfl fun r hr => ?_
    rw [hsz r (Finset.mem_range.mp hr), hsz r (Finset.mem_range.mp hr)]
  rw [← cluster_total_sum n P K hP hK fun _ => evenWeights K, Finset.sum_congr rfl fun j _ => hall j, Finset.sum_const, Finset.card_range, nsmul_eq_mul]

/-- **C182, defect.**  The clusters are not evenly sized: if every process has fewer samples than there are clusters, all samples are of the first cluster. -/
theorem cluster_even_violated (n P K : Nat) (hP : 0 < P) (hsmall : ∀ r < P, clusterLocal n P r < K) {k : Nat} (hk : k < K) (h0 : k ≠ 0) : clusterTotal n P K (fun _ => evenWeights K) k = 0 ∧ clusterTotal n P K (fun _ => evenWeights K) 0 = n := by
  have hz : ∀ k < K, k ≠ 0 → clusterTotal n P K (fun _ => evenWeights K) k = 0 := by
    intro k _ h0
    unfold clusterTotal
    refine Finset.sum_eq_zero fun r hr => ?_
    unfold clusterSizes
    dsimp only
    rw [if_neg h0, Int.floor_eq_zero_iff]
    have := hsmall r (Finset.mem_range.mp hr)
    have hK : (0 : ℚ) < K := by exact_mod_cast (by omega : 0 < K)
    unfold evenWeights
    refine ⟨by positivity, ?_⟩
    rw [mul_one_div, div_lt_one hK]
    exact_mod_cast this
  refine ⟨hz k hk h0, ?_⟩
  have := cluster_total_sum n P K hP (by omega) fun _ => evenWeights K
  rw [← this, Finset.sum_eq_single 0 (fun j hj hj0 => hz j (Finset.mem_range.mp hj) hj0) fun h => absurd (Finset.mem_range.mpr (by omega)) h]

/-- **C182, defect.**  The numbers documented as standard deviations are the variances of the features. -/
theorem cluster_std_violated {d : Nat} (i : Fin d) {std : ℚ} (h0 : std ≠ 0) (h1 : std ≠ 1) : clusterCov d std i i ≠ std ^ 2 := by
  unfold clusterCov
  rw [Matrix.diagonal_apply_eq]
  intro h
  have : std * (std - 1) = 0 := by linarith
  rcases mul_eq_zero.mp this with c | c
  · exact h0 c
  · exact h1 (by linarith)

/-- **C182, defect.**  On more than one process `create_spherical_dataset(num)` has fewer than `num` samples per cluster, and a process has fewer than `num // P`. -/
theorem spherical_count_violated {num P : Nat} (hP : 2 ≤ P) (hn : 0 < num) : sphericalCount num P < num ∧ sphericalRows num P = 4 * (num / P) ∧ sphericalRows num P < 4 * num ∧ ∀ r, num / P ≠ 0 → evenSize (sphericalCount num P) P r ≤ num / P ∧ (2 ≤ num / P → evenSize (sphericalCount num P) P r < num / P) := by
  have h := Nat.div_lt_self hn (by omega : 1 < P)
  unfold sphericalRows sphericalCount
  refine ⟨h, by ring, by omega, fun r hr => ?_⟩
  unfold evenSize
  generalize num / P = q at hr ⊢
  have h2 : q / P ≤ q / 2 := Nat.div_le_div_left hP (by norm_num)
  generalize he : q / P = e at h2 ⊢
  constructor
  · split_ifs <;> omega
  · intro _
    by_cases c : q = 2
    · subst c
      by_cases c2 : P = 2
      · subst c2
        rw [← he]
        norm_num
      · have : 2 / P = 0 := Nat.div_eq_of_lt (by omega)
        rw [← he, this]
        split_ifs <;> omega
    · split_ifs <;> omega

/-- **C182.**  On one process the counts are right. -/
theorem spherical_count_partial (num : Nat) : sphericalCount num 1 = num ∧ sphericalRows num 1 = 4 * num := by
  unfold sphericalRows sphericalCount
  rw [Nat.div_one]
  exact ⟨rfl, by ring⟩

/-- **C182, defect.**  The fourth cluster is not centred where it is documented to be. -/
theorem spherical_centre_violated : sphericalCentre 0 = (1, 1, 1) ∧ sphericalCentre 1 = (2, 2, 2) ∧ sphericalCentre 2 = (-1, -1, -1) ∧ sphericalCentre 3 ≠ (2, -2, -2) := by decide

/-! ## Cases -/

/-- Six samples on three processes, three clusters: all samples are of the first one. -/
example : ∀ r < 3, clusterLocal 6 3 r < 3 := by decide

/-- 12 samples on two processes, three clusters. -/
example : ∀ r < 2, 3 ∣ clusterLocal 12 2 r := by decide

example : (∀ k < 2, (0 : ℚ) ≤ evenWeights 2 k) ∧ ∑ k ∈ Finset.range 2, evenWeights 2 k = 1 := by
  unfold evenWeights
  refine ⟨fun _ _ => by norm_num, ?_⟩
  rw [Finset.sum_const, Finset.card_range]
  norm_num

end Heat
