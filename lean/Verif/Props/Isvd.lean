import Verif.Model.Isvd
import Verif.Props.Svd
import Mathlib.LinearAlgebra.Dimension.Constructions
import Mathlib.LinearAlgebra.FiniteDimensional.Lemmas
import Mathlib.Tactic.Abel
import Mathlib.Tactic.FieldSimp
/-!
# Incremental SVD (C135) and incremental PCA (C136)
-/
namespace Heat
open Matrix
variable {K : Type} [Field K] [LinearOrder K] {m : Nat}
open Spec
variable [IsStrictOrderedRing K]
set_option linter.unusedSectionVars false

/-! ## Specification -/

/-- What a QR decomposition of `C` is: `min(m, d)` orthonormal columns and the coefficients of the columns of `C`. -/
structure Spec.IsQr (C P : List (Fin m → K)) (Rc : List (List K)) : Prop where
  lenP : P.length = min m C.length
  lenR : Rc.length = C.length
  ortho : OrthoList P
  prod : ∀ j < C.length, C.getD j 0 = ∑ i ∈ Finset.range P.length, ((Rc.getD j []).getD i 0) • P.getD i 0

/-- What a singular value decomposition with right factor is. -/
structure Spec.IsSvdR (M U : List (Fin m → K)) (σ : List K) (vt : List (List K)) : Prop where
  left : IsSvd M U σ
  lenV : vt.length = min m M.length
  vlen : ∀ r ∈ vt, r.length = M.length
  vorth : ∀ a < vt.length, ∀ b < vt.length, ∑ j ∈ Finset.range M.length, (vt.getD a []).getD j 0 * (vt.getD b []).getD j 0 = if a = b then 1 else 0
  prod : ∀ j < M.length, M.getD j 0 = ∑ a ∈ Finset.range U.length, (σ.getD a 0 * (vt.getD a []).getD j 0) • U.getD a 0

/-- The decompositions used do what they should. -/
structure Decomp.Ok (D : Decomp K m) : Prop where
  qr : ∀ C, IsQr C (D.qr C).1 (D.qr C).2
  svd : ∀ q (M : List (Fin q → K)), IsSvdR M (D.svd q M).1 (D.svd q M).2.1 (D.svd q M).2.2

/-! ## Lifting -/

theorem lift_dot (W : List (Fin m → K)) (z : Fin W.length → K) (x : Fin m → K) : isvdLift W z ⬝ᵥ x = z ⬝ᵥ fun i => W[i] ⬝ᵥ x := by
  unfold isvdLift
  rw [sum_dotProduct]
  simp only [smul_dotProduct, smul_eq_mul]
  rfl

theorem lift_smul (W : List (Fin m → K)) (c : K) (z : Fin W.length → K) : isvdLift W (c • z) = c • isvdLift W z := by
  unfold isvdLift
  rw [Finset.smul_sum]
  simp only [Pi.smul_apply, smul_smul, smul_eq_mul]

theorem lift_add (W : List (Fin m → K)) (z w : Fin W.length → K) : isvdLift W (z + w) = isvdLift W z + isvdLift W w := by
  unfold isvdLift
  simp only [Pi.add_apply, add_smul, Finset.sum_add_distrib]

theorem lift_zero (W : List (Fin m → K)) : isvdLift W 0 = 0 := by simp [isvdLift]

theorem lift_sum {ι : Type} (W : List (Fin m → K)) (s : Finset ι) (f : ι → Fin W.length → K) : isvdLift W (∑ i ∈ s, f i) = ∑ i ∈ s, isvdLift W (f i) := by
  classical
  induction s using Finset.induction with
  | empty => simp [lift_zero]
  | insert a s ha ih => rw [Finset.sum_insert ha, Finset.sum_insert ha, lift_add, ih]

theorem lift_append (U P : List (Fin m → K)) (f : Nat → K) : isvdLift (U ++ P) (fun t => f t.1) = ∑ i ∈ Finset.range U.length, f i • U.getD i 0 + ∑ i ∈ Finset.range P.length, f (U.length + i) • P.getD i 0 := by
  unfold isvdLift
  have e : ∀ i : Fin (U ++ P).length, f i.1 • (U ++ P)[i] = (fun k => f k • (U ++ P).getD k 0) i.1 := by
    intro i
    dsimp only
    rw [List.getD_eq_getElem?_getD, List.getElem?_eq_getElem i.2]
    rfl
  simp only [e]
  rw [Fin.sum_univ_eq_sum_range (fun k => f k • (U ++ P).getD k 0), List.length_append, Finset.sum_range_add]
  congr 1
  · apply Finset.sum_congr rfl
    intro i hi
    rw [List.getD_eq_getElem?_getD, List.getElem?_append_left (Finset.mem_range.1 hi), List.getD_eq_getElem?_getD]
  · apply Finset.sum_congr rfl
    intro i hi
    rw [List.getD_eq_getElem?_getD, List.getElem?_append_right (by omega), Nat.add_sub_cancel_left, List.getD_eq_getElem?_getD]

theorem list_sum_range (U : List (Fin m → K)) (g : (Fin m → K) → (Fin m → K)) : (U.map g).sum = ∑ i ∈ Finset.range U.length, g (U.getD i 0) := by
  induction U with
  | nil => simp
  | cons u U ih => rw [List.map_cons, List.sum_cons, List.length_cons, Finset.sum_range_succ', ih, add_comm]; simp

/-- The lifted inner matrix is the old matrix (without its right factor) and the new columns. -/
theorem inner_lift {U : List (Fin m → K)} {S : List K} {C P : List (Fin m → K)} {Rc : List (List K)} (hUS : U.length = S.length) (hq : IsQr (C.map (isvdResid U)) P Rc) :
    (isvdInner U S C P Rc).map (isvdLift (U ++ P)) = scaleCols U S ++ C := by
  have hR : Rc.length = C.length := by rw [hq.lenR, List.length_map]
  unfold isvdInner
  rw [List.map_append]
  congr 1
  · apply List.ext_getElem
    · rw [List.length_map, List.length_map, List.length_range, scaleCols_length]; omega
    · intro i h1 h2
      rw [List.length_map, List.length_map, List.length_range] at h1
      rw [List.getElem_map, List.getElem_map, List.getElem_range]
      have := lift_append U P (fun t => if t = i then S.getD i 0 else 0)
      rw [this]
      have z : ∑ k ∈ Finset.range P.length, (if U.length + k = i then S.getD i 0 else 0) • P.getD k 0 = 0 := by
        apply Finset.sum_eq_zero
        intro k _
        rw [if_neg (by omega), zero_smul]
      rw [z, add_zero, Finset.sum_eq_single i]
      · rw [if_pos rfl]
        have e0 : (scaleCols U S)[i] = S[i] • U[i]'(by omega) := by
          unfold scaleCols
          exact List.getElem_zipWith
        rw [e0, List.getD_eq_getElem?_getD, List.getD_eq_getElem?_getD, List.getElem?_eq_getElem h1, List.getElem?_eq_getElem (by omega)]
        rfl
      · intro k _ hk
        rw [if_neg hk, zero_smul]
      · intro hi
        rw [Finset.mem_range] at hi
        omega
  · apply List.ext_getElem
    · rw [List.length_map, List.length_zipWith]; omega
    · intro j h1 h2
      have hj : j < C.length := h2
      rw [List.getElem_map, List.getElem_zipWith]
      have := lift_append U P (fun t => if t < U.length then (U.getD t 0) ⬝ᵥ C[j] else (Rc[j]'(by omega)).getD (t - U.length) 0)
      rw [this]
      have e1 : ∑ i ∈ Finset.range U.length, (if i < U.length then (U.getD i 0) ⬝ᵥ C[j] else (Rc[j]'(by omega)).getD (i - U.length) 0) • U.getD i 0 = (U.map fun u => (u ⬝ᵥ C[j]) • u).sum := by
        rw [list_sum_range U (fun u => (u ⬝ᵥ C[j]) • u)]
        apply Finset.sum_congr rfl
        intro i hi
        rw [if_pos (Finset.mem_range.1 hi)]
      have e2 : ∑ i ∈ Finset.range P.length, (if U.length + i < U.length then (U.getD (U.length + i) 0) ⬝ᵥ C[j] else (Rc[j]'(by omega)).getD (U.length + i - U.length) 0) • P.getD i 0 = isvdResid U C[j] := by
        have := hq.prod j (by rw [List.length_map]; exact hj)
        rw [List.getD_eq_getElem?_getD, List.getElem?_eq_getElem (by rw [List.length_map]; exact hj), Option.getD_some, List.getElem_map] at this
        rw [this]
        apply Finset.sum_congr rfl
        intro i _
        rw [if_neg (by omega), Nat.add_sub_cancel_left, List.getD_eq_getElem?_getD (l := Rc), List.getElem?_eq_getElem (by omega)]
        rfl
      rw [e1, e2]
      unfold isvdResid
      abel

theorem gram_lift (W : List (Fin m → K)) (M : List (Fin W.length → K)) (x y : Fin m → K) : gram (M.map (isvdLift W)) x y = gram M (fun i => W[i] ⬝ᵥ x) fun i => W[i] ⬝ᵥ y := by
  unfold Spec.gram
  rw [List.map_map]
  congr 1
  apply List.map_congr_left
  intro c _
  simp only [Function.comp, lift_dot]

theorem scaleCols_map (W : List (Fin m → K)) (u : List (Fin W.length → K)) (s : List K) : scaleCols (u.map (isvdLift W)) s = (scaleCols u s).map (isvdLift W) := by
  unfold scaleCols
  rw [List.map_zipWith, List.zipWith_map_left]
  simp only [lift_smul]

/-- **One step, whatever the old factors are**: the new factors and what is dropped make up the old factors and the new columns. -/
theorem isvdCore_gram {D : Decomp K m} (ok : D.Ok) {U : List (Fin m → K)} {S : List K} (hUS : U.length = S.length) (C : List (Fin m → K)) (mr : Nat) :
    ∀ x y, gram (scaleCols U S) x y + gram C x y = gram (scaleCols (isvdCore D U S C mr).1 (isvdCore D U S C mr).2.1) x y +
      gram (scaleCols (((D.svd (U ++ (D.qr (C.map (isvdResid U))).1).length (isvdInner U S C (D.qr (C.map (isvdResid U))).1 (D.qr (C.map (isvdResid U))).2)).1.drop mr).map (isvdLift _))
        ((D.svd (U ++ (D.qr (C.map (isvdResid U))).1).length (isvdInner U S C (D.qr (C.map (isvdResid U))).1 (D.qr (C.map (isvdResid U))).2)).2.1.drop mr)) x y := by
  intro x y
  unfold isvdCore
  dsimp only
  have hq := ok.qr (C.map (isvdResid U))
  generalize D.qr (C.map (isvdResid U)) = q at hq ⊢
  have hs := ok.svd (U ++ q.1).length (isvdInner U S C q.1 q.2)
  generalize D.svd (U ++ q.1).length (isvdInner U S C q.1 q.2) = t at hs ⊢
  rw [← gram_append, ← inner_lift hUS hq, gram_lift, hs.left.gram_eq, scaleCols_take_append t.1 t.2.1 mr, gram_append, ← gram_lift, ← gram_lift, ← scaleCols_map, ← scaleCols_map]
/-! ## Orthogonality -/

theorem ortho_getD {U : List (Fin m → K)} (h : OrthoList U) {i j : Nat} (hi : i < U.length) (hj : j < U.length) : U.getD i 0 ⬝ᵥ U.getD j 0 = if i = j then 1 else 0 := by
  rw [List.getD_eq_getElem?_getD, List.getD_eq_getElem?_getD, List.getElem?_eq_getElem hi, List.getElem?_eq_getElem hj, Option.getD_some, Option.getD_some]
  by_cases e : i = j
  · subst e
    rw [if_pos rfl]
    exact h.2 _ (List.getElem_mem hi)
  · rw [if_neg e]
    have hp := List.pairwise_iff_getElem.1 h.1
    rcases Nat.lt_or_ge i j with hl | hl
    · exact hp i j hi hj hl
    · rw [dotProduct_comm]
      exact hp j i hj hi (by omega)

theorem ortho_of_getD {U : List (Fin m → K)} (h : ∀ i < U.length, ∀ j < U.length, U.getD i 0 ⬝ᵥ U.getD j 0 = if i = j then 1 else 0) : OrthoList U := by
  have hg : ∀ i (hi : i < U.length), U.getD i 0 = U[i] := fun i hi => by rw [List.getD_eq_getElem?_getD, List.getElem?_eq_getElem hi]; rfl
  constructor
  · rw [List.pairwise_iff_getElem]
    intro i j hi hj hij
    rw [← hg i hi, ← hg j hj, h i hi j hj, if_neg (by omega)]
  · intro u hu
    obtain ⟨i, hi, rfl⟩ := List.mem_iff_getElem.1 hu
    rw [← hg i hi, h i hi i hi, if_pos rfl]

/-- The combination of the vectors of a list with coefficients `f`. -/
def comb (U : List (Fin m → K)) (f : Nat → K) : Fin m → K := ∑ i ∈ Finset.range U.length, f i • U.getD i 0

theorem dot_comb {U : List (Fin m → K)} (h : OrthoList U) (f : Nat → K) {k : Nat} (hk : k < U.length) : U.getD k 0 ⬝ᵥ comb U f = f k := by
  unfold comb
  rw [dotProduct_sum]
  have : ∀ i ∈ Finset.range U.length, U.getD k 0 ⬝ᵥ (f i • U.getD i 0) = if k = i then f i else 0 := by
    intro i hi
    rw [dotProduct_smul, ortho_getD h hk (Finset.mem_range.1 hi)]
    split <;> simp
  rw [Finset.sum_congr rfl this, Finset.sum_ite_eq, if_pos (Finset.mem_range.2 hk)]

theorem comb_dot {U : List (Fin m → K)} (f : Nat → K) (x : Fin m → K) : comb U f ⬝ᵥ x = ∑ i ∈ Finset.range U.length, f i * (U.getD i 0 ⬝ᵥ x) := by
  unfold comb
  rw [sum_dotProduct]
  simp only [smul_dotProduct, smul_eq_mul]

/-- The component along the old left vectors is in the first coordinates. -/
def LiftGood (U P : List (Fin m → K)) (z : Fin (U ++ P).length → K) : Prop := ∀ k (h : k < U.length), U[k] ⬝ᵥ isvdLift (U ++ P) z = z ⟨k, by rw [List.length_append]; omega⟩

theorem LiftGood.smul {U P : List (Fin m → K)} {z : Fin (U ++ P).length → K} (h : LiftGood U P z) (c : K) : LiftGood U P (c • z) := by
  intro k hk
  rw [lift_smul, dotProduct_smul, h k hk]
  rfl

theorem LiftGood.zero (U P : List (Fin m → K)) : LiftGood U P 0 := by
  intro k hk
  rw [lift_zero]
  simp

theorem LiftGood.add {U P : List (Fin m → K)} {z w : Fin (U ++ P).length → K} (h : LiftGood U P z) (h' : LiftGood U P w) : LiftGood U P (z + w) := by
  intro k hk
  rw [lift_add, dotProduct_add, h k hk, h' k hk]
  rfl

theorem LiftGood.list_sum {U P : List (Fin m → K)} : ∀ l : List (Fin (U ++ P).length → K), (∀ z ∈ l, LiftGood U P z) → LiftGood U P l.sum := by
  intro l
  induction l with
  | nil => intro _; exact LiftGood.zero U P
  | cons z l ih =>
    intro h
    rw [List.sum_cons]
    exact (h z (by simp)).add (ih fun w hw => h w (List.mem_cons_of_mem _ hw))

/-- On such vectors, lifting preserves products. -/
theorem lift_isometry {U P : List (Fin m → K)} (hU : OrthoList U) (hP : OrthoList P) {z w : Fin (U ++ P).length → K} (hz : LiftGood U P z) (hw : LiftGood U P w) :
    isvdLift (U ++ P) z ⬝ᵥ isvdLift (U ++ P) w = z ⬝ᵥ w := by
  have hform : ∀ z : Fin (U ++ P).length → K, ∃ f : Nat → K, z = fun t => f t.1 := by
    intro z
    refine ⟨fun t => if h : t < (U ++ P).length then z ⟨t, h⟩ else 0, ?_⟩
    funext t
    dsimp only
    rw [dif_pos t.2]
  obtain ⟨f, rfl⟩ := hform z
  obtain ⟨g, rfl⟩ := hform w
  have hL : ∀ f : Nat → K, isvdLift (U ++ P) (fun t => f t.1) = comb U f + comb P (fun i => f (U.length + i)) := fun f => lift_append U P f
  have hgood : ∀ f : Nat → K, LiftGood U P (fun t => f t.1) → ∀ k < U.length, U.getD k 0 ⬝ᵥ comb P (fun i => f (U.length + i)) = 0 := by
    intro f hf k hk
    have h1 := hf k hk
    have e : U[k] = U.getD k 0 := by rw [List.getD_eq_getElem?_getD, List.getElem?_eq_getElem hk]; rfl
    rw [hL, dotProduct_add, e, dot_comb hU f hk] at h1
    linarith
  rw [hL, hL, add_dotProduct, dotProduct_add, dotProduct_add]
  have z1 : comb U f ⬝ᵥ comb P (fun i => g (U.length + i)) = 0 := by
    rw [comb_dot]
    apply Finset.sum_eq_zero
    intro i hi
    rw [hgood g hw i (Finset.mem_range.1 hi), mul_zero]
  have z2 : comb P (fun i => f (U.length + i)) ⬝ᵥ comb U g = 0 := by
    rw [dotProduct_comm, comb_dot]
    apply Finset.sum_eq_zero
    intro i hi
    rw [hgood f hz i (Finset.mem_range.1 hi), mul_zero]
  have e1 : comb U f ⬝ᵥ comb U g = ∑ i ∈ Finset.range U.length, f i * g i := by
    rw [comb_dot]
    exact Finset.sum_congr rfl fun i hi => by rw [dot_comb hU g (Finset.mem_range.1 hi)]
  have e2 : comb P (fun i => f (U.length + i)) ⬝ᵥ comb P (fun i => g (U.length + i)) = ∑ i ∈ Finset.range P.length, f (U.length + i) * g (U.length + i) := by
    rw [comb_dot]
    exact Finset.sum_congr rfl fun i hi => by rw [dot_comb hP _ (Finset.mem_range.1 hi)]
  rw [z1, z2, e1, e2]
  have : ((fun t : Fin (U ++ P).length => f t.1) ⬝ᵥ fun t => g t.1) = ∑ i ∈ Finset.range (U.length + P.length), f i * g i := by
    rw [← List.length_append]
    exact Fin.sum_univ_eq_sum_range (fun k => f k * g k) _
  rw [this, Finset.sum_range_add]
  ring

/-- The columns of the inner matrix are such vectors. -/
theorem inner_good {U : List (Fin m → K)} {S : List K} {C P : List (Fin m → K)} {Rc : List (List K)} (hUS : U.length = S.length) (hU : OrthoList U) (hq : IsQr (C.map (isvdResid U)) P Rc) :
    ∀ z ∈ isvdInner U S C P Rc, LiftGood U P z := by
  intro z hz
  obtain ⟨j, hj, rfl⟩ := List.mem_iff_getElem.1 hz
  intro k hk
  have hl := inner_lift (S := S) hUS hq
  have hlift : isvdLift (U ++ P) (isvdInner U S C P Rc)[j] = (scaleCols U S ++ C)[j]'(by rw [← hl, List.length_map]; exact hj) := by
    rw [← List.getElem_map (isvdLift (U ++ P)) (h := by rw [List.length_map]; exact hj)]
    simp only [hl]
  have hR : Rc.length = C.length := by rw [hq.lenR, List.length_map]
  have hlen : (isvdInner U S C P Rc).length = S.length + C.length := by
    unfold isvdInner
    rw [List.length_append, List.length_map, List.length_range, List.length_zipWith]
    omega
  have hsl : (scaleCols U S).length = S.length := by rw [scaleCols_length]; omega
  rw [hlift]
  have ek : U[k] = U.getD k 0 := by rw [List.getD_eq_getElem?_getD, List.getElem?_eq_getElem hk]; rfl
  by_cases hjS : j < S.length
  · have e1 : (isvdInner U S C P Rc)[j] = fun t => if t.1 = j then S.getD j 0 else 0 := by
      have hj' : j < ((List.range S.length).map (fun i (t : Fin (U ++ P).length) => if t.1 = i then S.getD i 0 else 0)).length := by rw [List.length_map, List.length_range]; exact hjS
      refine (List.getElem_append_left hj').trans ?_
      rw [List.getElem_map, List.getElem_range]
    have e2 : (scaleCols U S ++ C)[j]'(by rw [← hl, List.length_map]; exact hj) = S[j] • U[j]'(by omega) := by
      rw [List.getElem_append_left (by omega)]
      unfold scaleCols
      exact List.getElem_zipWith
    have e3 : U[j]'(by omega) = U.getD j 0 := by rw [List.getD_eq_getElem?_getD, List.getElem?_eq_getElem (by omega)]; rfl
    have e4 : S.getD j 0 = S[j] := by rw [List.getD_eq_getElem?_getD, List.getElem?_eq_getElem hjS]; rfl
    rw [e1, e2, ek, e3, dotProduct_smul, ortho_getD hU hk (by omega)]
    dsimp only
    rw [e4]
    by_cases e : k = j
    · rw [if_pos e, if_pos e]; simp
    · rw [if_neg e, if_neg e]; simp
  · have hjc : j - S.length < C.length := by omega
    have e1 : (isvdInner U S C P Rc)[j] = fun t => if t.1 < U.length then (U.getD t.1 0) ⬝ᵥ C[j - S.length] else (Rc[j - S.length]'(by omega)).getD (t.1 - U.length) 0 := by
      have hj' : ((List.range S.length).map (fun i (t : Fin (U ++ P).length) => if t.1 = i then S.getD i 0 else 0)).length ≤ j := by rw [List.length_map, List.length_range]; omega
      refine (List.getElem_append_right hj').trans ?_
      rw [List.getElem_zipWith]
      simp only [List.length_map, List.length_range]
    have e2 : (scaleCols U S ++ C)[j]'(by rw [← hl, List.length_map]; exact hj) = C[j - S.length] := by
      rw [List.getElem_append_right (by omega)]
      simp only [hsl]
    rw [e1, e2, ek]
    dsimp only
    rw [if_pos hk]

/-- A left singular vector to a nonzero value is a combination of the columns. -/
theorem svd_span {M U : List (Fin m → K)} {σ : List K} (h : IsSvd M U σ) {a : Nat} (ha : a < U.length) : (σ.getD a 0 * σ.getD a 0) • U.getD a 0 = (M.map fun c => (c ⬝ᵥ U.getD a 0) • c).sum := by
  have key : ∀ z : Fin m → K, ((σ.getD a 0 * σ.getD a 0) • U.getD a 0) ⬝ᵥ z = (M.map fun c => (c ⬝ᵥ U.getD a 0) • c).sum ⬝ᵥ z := by
    intro z
    have h1 := h.gram_eq (U.getD a 0) z
    rw [dot_list_sum, List.map_map]
    have e1 : (M.map ((fun u => u ⬝ᵥ z) ∘ fun c => (c ⬝ᵥ U.getD a 0) • c)).sum = gram M (U.getD a 0) z := by
      unfold Spec.gram
      congr 1
      apply List.map_congr_left
      intro c _
      simp [smul_dotProduct]
    rw [e1, h1]
    have hl : U.length = σ.length := by rw [h.lenU, h.lenS]
    have e2 : gram (scaleCols U σ) (U.getD a 0) z = ∑ b ∈ Finset.range U.length, (σ.getD b 0 * (U.getD b 0 ⬝ᵥ U.getD a 0)) * (σ.getD b 0 * (U.getD b 0 ⬝ᵥ z)) := by
      unfold Spec.gram
      rw [← Fin.sum_univ_eq_sum_range (fun b => (σ.getD b 0 * (U.getD b 0 ⬝ᵥ U.getD a 0)) * (σ.getD b 0 * (U.getD b 0 ⬝ᵥ z))), ← List.sum_ofFn]
      congr 1
      apply List.ext_getElem
      · rw [List.length_map, scaleCols_length, List.length_ofFn]; omega
      · intro b h1 h2
        rw [List.length_ofFn] at h2
        rw [List.getElem_map, List.getElem_ofFn]
        have e0 : (scaleCols U σ)[b]'(by rw [scaleCols_length]; omega) = σ[b]'(by omega) • U[b] := by
          unfold scaleCols
          exact List.getElem_zipWith
        rw [e0, smul_dotProduct, smul_dotProduct, List.getD_eq_getElem?_getD (l := σ), List.getElem?_eq_getElem (by omega), List.getD_eq_getElem?_getD (l := U) (i := b), List.getElem?_eq_getElem h2]
        rfl
    rw [e2, Finset.sum_eq_single a]
    · rw [ortho_getD h.ortho ha ha, if_pos rfl, smul_dotProduct, smul_eq_mul]
      ring
    · intro b hb hba
      rw [ortho_getD h.ortho (Finset.mem_range.1 hb) ha, if_neg hba]
      simp
    · intro hn
      exact absurd (Finset.mem_range.2 ha) hn
  funext i
  have := key (Pi.single i 1)
  rwa [dotProduct_single_one, dotProduct_single_one] at this
/-! ## Rank -/

theorem ortho_le_span {L W : List (Fin m → K)} (h : OrthoList L) (hs : ∀ v ∈ L, v ∈ Submodule.span K {x | x ∈ W}) : L.length ≤ W.length := by
  classical
  have hli : LinearIndependent K (fun i : Fin L.length => L.getD i.1 0) := by
    rw [Fintype.linearIndependent_iff]
    intro g hg i
    have h1 := congrArg (fun v => L.getD i.1 0 ⬝ᵥ v) hg
    rw [dotProduct_sum, dotProduct_zero] at h1
    have : ∀ j : Fin L.length, L.getD i.1 0 ⬝ᵥ (g j • L.getD j.1 0) = if i = j then g j else 0 := by
      intro j
      rw [dotProduct_smul, ortho_getD h i.2 j.2]
      by_cases e : i = j
      · subst e; simp
      · rw [if_neg e, if_neg (fun h => e (Fin.ext h))]; simp
    simp only [this, Finset.sum_ite_eq, Finset.mem_univ, if_true] at h1
    exact h1
  have h2 := linearIndependent_le_span' (R := K) _ hli (W.toFinset : Set (Fin m → K)) (by
    rintro _ ⟨i, rfl⟩
    have : L.getD i.1 0 ∈ L := by
      rw [List.getD_eq_getElem?_getD, List.getElem?_eq_getElem i.2]
      exact List.getElem_mem _
    have h3 := hs _ this
    rw [List.coe_toFinset]
    exact h3)
  rw [Cardinal.mk_fin, Nat.cast_le] at h2
  refine h2.trans ?_
  simp only [Fintype.card_coe, Finset.coe_sort_coe]
  exact List.toFinset_card_le W

theorem ortho_le_dim {L : List (Fin m → K)} (h : OrthoList L) : L.length ≤ m := by
  have := ortho_le_span (W := List.ofFn fun i : Fin m => (Pi.single i 1 : Fin m → K)) h ?_
  · simpa using this
  · intro v _
    have e : v = ∑ i, v i • (Pi.single i 1 : Fin m → K) := by
      funext j
      simp [Finset.sum_apply, Pi.single_apply]
    rw [e]
    refine Submodule.sum_mem _ fun i _ => Submodule.smul_mem _ _ (Submodule.subset_span ?_)
    simp

/-! ## The decomposition without truncation -/

/-- What `isvdCore` truncates. -/
def isvdFull (D : Decomp K m) (U : List (Fin m → K)) (S : List K) (C : List (Fin m → K)) : List (Fin m → K) × List K × List (List K) :=
  ((D.svd (U ++ (D.qr (C.map (isvdResid U))).1).length (isvdInner U S C (D.qr (C.map (isvdResid U))).1 (D.qr (C.map (isvdResid U))).2)).1.map (isvdLift (U ++ (D.qr (C.map (isvdResid U))).1)),
    (D.svd (U ++ (D.qr (C.map (isvdResid U))).1).length (isvdInner U S C (D.qr (C.map (isvdResid U))).1 (D.qr (C.map (isvdResid U))).2)).2.1,
    (D.svd (U ++ (D.qr (C.map (isvdResid U))).1).length (isvdInner U S C (D.qr (C.map (isvdResid U))).1 (D.qr (C.map (isvdResid U))).2)).2.2)

theorem isvdCore_full (D : Decomp K m) (U : List (Fin m → K)) (S : List K) (C : List (Fin m → K)) (mr : Nat) :
    isvdCore D U S C mr = ((isvdFull D U S C).1.take mr, (isvdFull D U S C).2.1.take mr, (isvdFull D U S C).2.2.take mr) := by
  unfold isvdCore isvdFull
  dsimp only
  rw [List.map_take]

theorem inner_length {U : List (Fin m → K)} {S : List K} {C P : List (Fin m → K)} {Rc : List (List K)} (hq : IsQr (C.map (isvdResid U)) P Rc) : (isvdInner U S C P Rc).length = S.length + C.length := by
  have hR : Rc.length = C.length := by rw [hq.lenR, List.length_map]
  unfold isvdInner
  rw [List.length_append, List.length_map, List.length_range, List.length_zipWith]
  omega

theorem lift_list_sum (W : List (Fin m → K)) : ∀ l : List (Fin W.length → K), isvdLift W l.sum = (l.map (isvdLift W)).sum := by
  intro l
  induction l with
  | nil => simp [lift_zero]
  | cons a l ih => rw [List.sum_cons, lift_add, ih, List.map_cons, List.sum_cons]

theorem getD_map_lift (W : List (Fin m → K)) (u : List (Fin W.length → K)) (a : Nat) : (u.map (isvdLift W)).getD a 0 = isvdLift W (u.getD a 0) := by
  rw [List.getD_eq_getElem?_getD, List.getD_eq_getElem?_getD, List.getElem?_map]
  cases u[a]? <;> simp [lift_zero]

/-- What holds of the untruncated factors, if the old left vectors are orthonormal. -/
structure FullOk (U : List (Fin m → K)) (S : List K) (C : List (Fin m → K)) (Uf : List (Fin m → K)) (Sf : List K) (vt : List (List K)) : Prop where
  lenU : Uf.length = S.length + min m C.length
  lenS : Sf.length = S.length + min m C.length
  lenV : vt.length = S.length + min m C.length
  vlen : ∀ r ∈ vt, r.length = S.length + C.length
  vorth : ∀ a < vt.length, ∀ b < vt.length, ∑ j ∈ Finset.range (S.length + C.length), (vt.getD a []).getD j 0 * (vt.getD b []).getD j 0 = if a = b then 1 else 0
  nonneg : ∀ s ∈ Sf, 0 ≤ s
  sorted : Sf.Pairwise (fun a b => b ≤ a)
  prod : ∀ j < S.length + C.length, (scaleCols U S ++ C).getD j 0 = ∑ a ∈ Finset.range Uf.length, (Sf.getD a 0 * (vt.getD a []).getD j 0) • Uf.getD a 0
  orth : OrthoList U → ∀ a < Uf.length, ∀ b < Uf.length, Sf.getD a 0 ≠ 0 → Sf.getD b 0 ≠ 0 → Uf.getD a 0 ⬝ᵥ Uf.getD b 0 = if a = b then 1 else 0
  span : ∀ a < Uf.length, Sf.getD a 0 ≠ 0 → Uf.getD a 0 ∈ Submodule.span K {x | x ∈ scaleCols U S ++ C}

theorem isvdFull_ok {D : Decomp K m} (ok : D.Ok) {U : List (Fin m → K)} {S : List K} (hUS : U.length = S.length) (C : List (Fin m → K)) :
    FullOk U S C (isvdFull D U S C).1 (isvdFull D U S C).2.1 (isvdFull D U S C).2.2 := by
  unfold isvdFull
  dsimp only
  have hq := ok.qr (C.map (isvdResid U))
  generalize D.qr (C.map (isvdResid U)) = q at hq ⊢
  have hs := ok.svd (U ++ q.1).length (isvdInner U S C q.1 q.2)
  have hil := inner_length (S := S) hq
  have hlift := inner_lift (S := S) hUS hq
  have hgood := fun hU => inner_good (S := S) hUS hU hq
  generalize D.svd (U ++ q.1).length (isvdInner U S C q.1 q.2) = t at hs ⊢
  have hP : q.1.length = min m C.length := by rw [hq.lenP, List.length_map]
  have hmin : min (U ++ q.1).length (isvdInner U S C q.1 q.2).length = S.length + min m C.length := by
    rw [hil, List.length_append, hP]
    omega
  have hspan : ∀ a < t.1.length, t.2.1.getD a 0 ≠ 0 → t.1.getD a 0 = ((t.2.1.getD a 0 * t.2.1.getD a 0)⁻¹) • ((isvdInner U S C q.1 q.2).map fun c => (c ⬝ᵥ t.1.getD a 0) • c).sum := by
    intro a ha hn
    rw [← svd_span hs.left ha, smul_smul, inv_mul_cancel₀ (mul_ne_zero hn hn), one_smul]
  refine ⟨?_, ?_, ?_, ?_, ?_, hs.left.nonneg, hs.left.sorted, ?_, ?_, ?_⟩
  · rw [List.length_map, hs.left.lenU, hmin]
  · rw [hs.left.lenS, hmin]
  · rw [hs.lenV, hmin]
  · intro r hr
    rw [hs.vlen r hr, hil]
  · rw [← hil]
    exact hs.vorth
  · intro j hj
    have h1 := hs.prod j (by rw [hil]; exact hj)
    rw [← hlift, getD_map_lift, h1, lift_sum, List.length_map]
    apply Finset.sum_congr rfl
    intro a _
    rw [lift_smul, getD_map_lift]
  · intro hU a ha b hb hna hnb
    rw [List.length_map] at ha hb
    have hg : ∀ a < t.1.length, t.2.1.getD a 0 ≠ 0 → LiftGood U q.1 (t.1.getD a 0) := by
      intro a ha hn
      rw [hspan a ha hn]
      apply LiftGood.smul
      apply LiftGood.list_sum
      intro z hz
      obtain ⟨c, hc, rfl⟩ := List.mem_map.1 hz
      exact (hgood hU c hc).smul _
    rw [getD_map_lift, getD_map_lift, lift_isometry hU hq.ortho (hg a ha hna) (hg b hb hnb), ortho_getD hs.left.ortho ha hb]
  · intro a ha hn
    rw [List.length_map] at ha
    rw [getD_map_lift, hspan a ha hn, lift_smul, lift_list_sum, List.map_map]
    apply Submodule.smul_mem
    apply list_sum_mem
    intro v hv
    obtain ⟨c, hc, rfl⟩ := List.mem_map.1 hv
    simp only [Function.comp]
    rw [lift_smul]
    apply Submodule.smul_mem
    apply Submodule.subset_span
    show isvdLift (U ++ q.1) c ∈ scaleCols U S ++ C
    rw [← hlift]
    exact List.mem_map_of_mem hc

theorem sorted_getD {σ : List K} (hs : σ.Pairwise (fun a b => b ≤ a)) {a b : Nat} (hab : a ≤ b) (hb : b < σ.length) : σ.getD b 0 ≤ σ.getD a 0 := by
  rw [List.getD_eq_getElem?_getD, List.getD_eq_getElem?_getD, List.getElem?_eq_getElem hb, List.getElem?_eq_getElem (by omega), Option.getD_some, Option.getD_some]
  rcases Nat.lt_or_ge a b with h | h
  · exact List.pairwise_iff_getElem.1 hs a b (by omega) hb h
  · have : a = b := by omega
    subst this
    exact le_refl _

theorem nonneg_getD {σ : List K} (hs : ∀ s ∈ σ, 0 ≤ s) (a : Nat) : 0 ≤ σ.getD a 0 := by
  rw [List.getD_eq_getElem?_getD]
  rcases h : σ[a]? with _ | s
  · exact le_refl _
  · exact hs s (List.mem_of_getElem? h)

/-- The number of values that are not zero is at most the number of rows, and at most the size of any spanning list. -/
theorem FullOk.rank {U : List (Fin m → K)} {S : List K} {C Uf : List (Fin m → K)} {Sf : List K} {vt : List (List K)} (h : FullOk U S C Uf Sf vt) (hU : OrthoList U) {a : Nat} (ha : a < Uf.length) (hn : Sf.getD a 0 ≠ 0) :
    a < m ∧ ∀ W : List (Fin m → K), (∀ x ∈ scaleCols U S ++ C, x ∈ Submodule.span K {y | y ∈ W}) → a < W.length := by
  have hne : ∀ b ≤ a, Sf.getD b 0 ≠ 0 := by
    intro b hb e
    have h1 := sorted_getD h.sorted hb (by rw [h.lenS, ← h.lenU]; exact ha)
    rw [e] at h1
    exact hn (le_antisymm h1 (nonneg_getD h.nonneg a))
  have hl : (Uf.take (a + 1)).length = a + 1 := by rw [List.length_take]; omega
  have hget : ∀ i < a + 1, (Uf.take (a + 1)).getD i 0 = Uf.getD i 0 := by
    intro i hi
    rw [List.getD_eq_getElem?_getD, List.getElem?_take, if_pos hi, ← List.getD_eq_getElem?_getD]
  have hO : OrthoList (Uf.take (a + 1)) := by
    apply ortho_of_getD
    rw [hl]
    intro i hi j hj
    rw [hget i hi, hget j hj]
    exact h.orth hU i (by omega) j (by omega) (hne i (by omega)) (hne j (by omega))
  refine ⟨?_, ?_⟩
  · have := ortho_le_dim hO
    omega
  · intro W hW
    have := ortho_le_span (W := W) hO ?_
    · omega
    · intro v hv
      obtain ⟨i, hi, rfl⟩ := List.mem_iff_getElem.1 hv
      rw [hl] at hi
      have h1 := hget i hi
      rw [List.getD_eq_getElem?_getD, List.getElem?_eq_getElem (by omega), Option.getD_some] at h1
      rw [h1]
      exact Submodule.span_le.2 (fun x hx => hW x hx) (h.span i (by omega) (hne i (by omega)))
/-! ## `isvd` -/

/-- What the result of an update without truncation has to be: a singular value decomposition of the old matrix `U diag(S) Vt` with the columns `C` appended. -/
structure Spec.IsvdOk (U : List (Fin m → K)) (S : List K) (n : Nat) (Vt : List (List K)) (C U' : List (Fin m → K)) (S' : List K) (V' : List (List K)) : Prop where
  lenU : U'.length = S'.length
  lenV : V'.length = S'.length
  nonneg : ∀ s ∈ S', 0 ≤ s
  sorted : S'.Pairwise (fun a b => b ≤ a)
  old : ∀ j < n, ∑ a ∈ Finset.range S'.length, (S'.getD a 0 * (V'.getD a []).getD j 0) • U'.getD a 0 = ∑ i ∈ Finset.range S.length, (S.getD i 0 * (Vt.getD i []).getD j 0) • U.getD i 0
  new : ∀ j < C.length, ∑ a ∈ Finset.range S'.length, (S'.getD a 0 * (V'.getD a []).getD (n + j) 0) • U'.getD a 0 = C.getD j 0
  uorth : ∀ a < S'.length, ∀ b < S'.length, S'.getD a 0 ≠ 0 → S'.getD b 0 ≠ 0 → U'.getD a 0 ⬝ᵥ U'.getD b 0 = if a = b then 1 else 0
  vorth : ∀ a < S'.length, ∀ b < S'.length, ∑ j ∈ Finset.range (n + C.length), (V'.getD a []).getD j 0 * (V'.getD b []).getD j 0 = if a = b then 1 else 0

theorem right_old (r n d : Nat) (Vt vt : List (List K)) {a j : Nat} (ha : a < vt.length) (hj : j < n) : ((isvdRight r n d Vt vt).getD a []).getD j 0 = ∑ i ∈ Finset.range r, (vt.getD a []).getD i 0 * (Vt.getD i []).getD j 0 := by
  unfold isvdRight
  rw [List.getD_eq_getElem?_getD (l := List.map _ vt), List.getElem?_map, List.getElem?_eq_getElem ha, Option.map_some, Option.getD_some, List.getD_eq_getElem?_getD, List.getElem?_append_left (by simpa using hj), List.getElem?_map, List.getElem?_range hj, Option.map_some, Option.getD_some, Finset.sum_range, ← List.sum_ofFn]
  congr 1
  apply List.ext_getElem
  · simp
  · intro i h1 h2
    have ev : vt.getD a [] = vt[a] := by rw [List.getD_eq_getElem?_getD, List.getElem?_eq_getElem ha]; rfl
    simp only [List.getElem_map, List.getElem_range, List.getElem_ofFn, ev]

theorem right_new (r n d : Nat) (Vt vt : List (List K)) {a j : Nat} (ha : a < vt.length) (hj : j < d) : ((isvdRight r n d Vt vt).getD a []).getD (n + j) 0 = (vt.getD a []).getD (r + j) 0 := by
  unfold isvdRight
  rw [List.getD_eq_getElem?_getD (l := List.map _ vt), List.getElem?_map, List.getElem?_eq_getElem ha, Option.map_some, Option.getD_some, List.getD_eq_getElem?_getD, List.getElem?_append_right (by simp), List.length_map, List.length_range, Nat.add_sub_cancel_left, List.getElem?_map, List.getElem?_range hj, Option.map_some, Option.getD_some, List.getD_eq_getElem?_getD (l := vt), List.getElem?_eq_getElem ha]
  rfl

/-- **C135**: a call of `isvd` with factors whose left vectors and right rows are orthonormal, and a rank not larger than the number of old columns, returns the leading part (at most `maxrank`, at most the number of columns, at most the number of rows) of a decomposition of the old matrix with the new columns appended, for every number of rows, rank, number of new columns and every `maxrank`. What is cut off because of the size of the matrix is zero. -/
theorem isvd_spec {D : Decomp K m} (ok : D.Ok) {U : List (Fin m → K)} {S : List K} {n : Nat} {Vt : List (List K)} (hUS : U.length = S.length) (hVS : Vt.length = S.length) (hn : S.length ≤ n) (hU : OrthoList U)
    (hV : ∀ a < S.length, ∀ b < S.length, ∑ j ∈ Finset.range n, (Vt.getD a []).getD j 0 * (Vt.getD b []).getD j 0 = if a = b then 1 else 0) (C : List (Fin m → K)) :
    ∃ U' S' V', IsvdOk U S n Vt C U' S' V' ∧ (∀ a, min (n + C.length) m ≤ a → S'.getD a 0 = 0) ∧ S'.length = S.length + min m C.length ∧
      ∀ maxrank : Option Nat, isvd D C U S n Vt maxrank = .ok (U'.take (min (maxrank.getD (n + C.length)) (min (n + C.length) m)), S'.take (min (maxrank.getD (n + C.length)) (min (n + C.length) m)), V'.take (min (maxrank.getD (n + C.length)) (min (n + C.length) m))) := by
  have hf := isvdFull_ok ok hUS C
  have hcore := isvdCore_full D U S C
  generalize isvdFull D U S C = t at hf hcore
  obtain ⟨Uf, Sf, vt⟩ := t
  dsimp only at hf hcore
  have hlU : Uf.length = Sf.length := by rw [hf.lenU, hf.lenS]
  have hlV : vt.length = Sf.length := by rw [hf.lenV, hf.lenS]
  refine ⟨Uf, Sf, isvdRight S.length n C.length Vt vt, ⟨hlU, by unfold isvdRight; rw [List.length_map]; exact hlV, hf.nonneg, hf.sorted, ?_, ?_, ?_, ?_⟩, ?_, hf.lenS, ?_⟩
  · intro j hj
    have e1 : ∀ a ∈ Finset.range Sf.length, (Sf.getD a 0 * ((isvdRight S.length n C.length Vt vt).getD a []).getD j 0) • Uf.getD a 0 = ∑ i ∈ Finset.range S.length, (Vt.getD i []).getD j 0 • ((Sf.getD a 0 * (vt.getD a []).getD i 0) • Uf.getD a 0) := by
      intro a ha
      rw [right_old _ _ _ _ _ (by rw [hlV]; exact Finset.mem_range.1 ha) hj, Finset.mul_sum, Finset.sum_smul]
      apply Finset.sum_congr rfl
      intro i _
      rw [smul_smul]
      congr 1
      ring
    rw [Finset.sum_congr rfl e1, Finset.sum_comm]
    apply Finset.sum_congr rfl
    intro i hi
    have hi := Finset.mem_range.1 hi
    rw [← Finset.smul_sum, ← hlU, ← hf.prod i (by omega), List.getD_eq_getElem?_getD (l := scaleCols U S ++ C), List.getElem?_append_left (by rw [scaleCols_length]; omega)]
    have e0 : (scaleCols U S)[i]'(by rw [scaleCols_length]; omega) = S[i] • U[i]'(by omega) := by
      unfold scaleCols
      exact List.getElem_zipWith
    rw [List.getElem?_eq_getElem (by rw [scaleCols_length]; omega), Option.getD_some, e0, List.getD_eq_getElem?_getD (l := S), List.getElem?_eq_getElem hi, List.getD_eq_getElem?_getD (l := U), List.getElem?_eq_getElem (by omega), smul_smul, mul_comm]
    rfl
  · intro j hj
    have h1 := hf.prod (S.length + j) (by omega)
    rw [List.getD_eq_getElem?_getD, List.getElem?_append_right (by rw [scaleCols_length]; omega), scaleCols_length, hUS, Nat.min_self, Nat.add_sub_cancel_left, ← List.getD_eq_getElem?_getD] at h1
    rw [h1, hlU]
    apply Finset.sum_congr rfl
    intro a ha
    rw [right_new _ _ _ _ _ (by rw [hlV]; exact Finset.mem_range.1 ha) hj]
  · rw [← hlU]
    exact hf.orth hU
  · intro a ha b hb
    rw [Finset.sum_range_add]
    have e1 : ∀ j ∈ Finset.range n, ((isvdRight S.length n C.length Vt vt).getD a []).getD j 0 * ((isvdRight S.length n C.length Vt vt).getD b []).getD j 0 =
        ∑ i ∈ Finset.range S.length, ∑ k ∈ Finset.range S.length, (vt.getD a []).getD i 0 * (vt.getD b []).getD k 0 * ((Vt.getD i []).getD j 0 * (Vt.getD k []).getD j 0) := by
      intro j hj
      rw [right_old _ _ _ _ _ (by omega) (Finset.mem_range.1 hj), right_old _ _ _ _ _ (by omega) (Finset.mem_range.1 hj), Finset.sum_mul_sum]
      exact Finset.sum_congr rfl fun i _ => Finset.sum_congr rfl fun k _ => by ring
    have e2 : ∑ j ∈ Finset.range n, ((isvdRight S.length n C.length Vt vt).getD a []).getD j 0 * ((isvdRight S.length n C.length Vt vt).getD b []).getD j 0 = ∑ i ∈ Finset.range S.length, (vt.getD a []).getD i 0 * (vt.getD b []).getD i 0 := by
      rw [Finset.sum_congr rfl e1, Finset.sum_comm]
      apply Finset.sum_congr rfl
      intro i hi
      rw [Finset.sum_comm]
      have : ∀ k ∈ Finset.range S.length, ∑ j ∈ Finset.range n, (vt.getD a []).getD i 0 * (vt.getD b []).getD k 0 * ((Vt.getD i []).getD j 0 * (Vt.getD k []).getD j 0) = if i = k then (vt.getD a []).getD i 0 * (vt.getD b []).getD k 0 else 0 := by
        intro k hk
        rw [← Finset.mul_sum, hV i (Finset.mem_range.1 hi) k (Finset.mem_range.1 hk)]
        split <;> simp
      rw [Finset.sum_congr rfl this, Finset.sum_ite_eq, if_pos hi]
    have e3 : ∑ j ∈ Finset.range C.length, ((isvdRight S.length n C.length Vt vt).getD a []).getD (n + j) 0 * ((isvdRight S.length n C.length Vt vt).getD b []).getD (n + j) 0 = ∑ j ∈ Finset.range C.length, (vt.getD a []).getD (S.length + j) 0 * (vt.getD b []).getD (S.length + j) 0 := by
      apply Finset.sum_congr rfl
      intro j hj
      rw [right_new _ _ _ _ _ (by omega) (Finset.mem_range.1 hj), right_new _ _ _ _ _ (by omega) (Finset.mem_range.1 hj)]
    rw [e2, e3, ← Finset.sum_range_add (fun j => (vt.getD a []).getD j 0 * (vt.getD b []).getD j 0)]
    exact hf.vorth a (by omega) b (by omega)
  · intro a ha
    by_contra hne
    have hal : a < Sf.length := by
      by_contra hc
      apply hne
      rw [List.getD_eq_getElem?_getD, List.getElem?_eq_none (by omega)]
      rfl
    have := (hf.rank hU (by omega) hne).1
    have := hf.lenS
    omega
  · intro maxrank
    have hk : isvdRank m n C.length maxrank = min (maxrank.getD (n + C.length)) (min (n + C.length) m) := by
      cases maxrank
      · simp only [isvdRank, Option.getD_none]
        omega
      · simp only [isvdRank, Option.getD_some]
    unfold isvd
    rw [if_neg (by omega), if_neg (by omega)]
    dsimp only
    rw [hcore, hk]
    dsimp only
    unfold isvdRight
    rw [List.map_take]

theorem take_getD {α : Type} (l : List α) (x : α) {k a : Nat} (h : a < k) : (l.take k).getD a x = l.getD a x := by
  rw [List.getD_eq_getElem?_getD, List.getElem?_take, if_pos h, ← List.getD_eq_getElem?_getD]

/-- **C135, without truncation**: if `maxrank` is not given or at least the smaller dimension of the new matrix, the factors returned are a decomposition of the old matrix with the new columns. -/
theorem isvd_exact {D : Decomp K m} (ok : D.Ok) {U : List (Fin m → K)} {S : List K} {n : Nat} {Vt : List (List K)} (hUS : U.length = S.length) (hVS : Vt.length = S.length) (hn : S.length ≤ n) (hU : OrthoList U)
    (hV : ∀ a < S.length, ∀ b < S.length, ∑ j ∈ Finset.range n, (Vt.getD a []).getD j 0 * (Vt.getD b []).getD j 0 = if a = b then 1 else 0) (C : List (Fin m → K)) (maxrank : Option Nat) (hmax : ∀ k ∈ maxrank, min (n + C.length) m ≤ k) :
    ∃ U' S' V', isvd D C U S n Vt maxrank = .ok (U', S', V') ∧ IsvdOk U S n Vt C U' S' V' ∧ S'.length = min (S.length + min m C.length) (min (n + C.length) m) := by
  obtain ⟨U', S', V', h, hz, hl, he⟩ := isvd_spec ok hUS hVS hn hU hV C
  have hk : min (maxrank.getD (n + C.length)) (min (n + C.length) m) = min (n + C.length) m := by
    cases maxrank
    · simp only [Option.getD_none]; omega
    · have := hmax _ rfl
      simp only [Option.getD_some]; omega
  have he := he maxrank
  rw [hk] at he
  generalize min (n + C.length) m = k at he hz
  have hS : (S'.take k).length = min k S'.length := List.length_take
  have hsum : ∀ f : Nat → Fin m → K, ∑ a ∈ Finset.range (S'.take k).length, ((S'.take k).getD a 0) • f a = ∑ a ∈ Finset.range S'.length, (S'.getD a 0) • f a := by
    intro f
    rw [hS]
    have hsub : Finset.range (min k S'.length) ⊆ Finset.range S'.length := Finset.range_subset_range.2 (by omega)
    rw [← Finset.sum_subset hsub]
    · apply Finset.sum_congr rfl
      intro a ha
      have := Finset.mem_range.1 ha
      rw [take_getD S' 0 (by omega)]
    · intro a ha hna
      have h1 := Finset.mem_range.1 ha
      rw [Finset.mem_range] at hna
      rw [hz a (by omega), zero_smul]
  refine ⟨_, _, _, he, ⟨?_, ?_, ?_, ?_, ?_, ?_, ?_, ?_⟩, ?_⟩
  · rw [List.length_take, List.length_take, h.lenU]
  · rw [List.length_take, List.length_take, h.lenV]
  · exact fun s hs => h.nonneg s (List.mem_of_mem_take hs)
  · exact h.sorted.sublist (List.take_sublist _ _)
  · intro j hj
    rw [← h.old j hj]
    simp only [mul_smul]
    rw [← hsum fun a => ((V'.getD a []).getD j 0) • U'.getD a 0]
    apply Finset.sum_congr rfl
    intro a ha
    have := Finset.mem_range.1 ha
    rw [take_getD V' [] (by omega), take_getD U' 0 (by omega)]
  · intro j hj
    rw [← h.new j hj]
    simp only [mul_smul]
    rw [← hsum fun a => ((V'.getD a []).getD (n + j) 0) • U'.getD a 0]
    apply Finset.sum_congr rfl
    intro a ha
    have := Finset.mem_range.1 ha
    rw [take_getD V' [] (by omega), take_getD U' 0 (by omega)]
  · intro a ha b hb
    rw [take_getD S' 0 (by omega), take_getD S' 0 (by omega), take_getD U' 0 (by omega), take_getD U' 0 (by omega)]
    exact h.uorth a (by omega) b (by omega)
  · intro a ha b hb
    rw [take_getD V' [] (by omega), take_getD V' [] (by omega)]
    exact h.vorth a (by omega) b (by omega)
  · rw [hS, hl]
    omega

/-- **C135, with truncation**: keeping the first `k` of the values of a decomposition leaves, over all columns of the new matrix, exactly the squares of the values that are dropped. -/
theorem isvd_trunc_error {U : List (Fin m → K)} {S : List K} {n : Nat} {Vt : List (List K)} {C U' : List (Fin m → K)} {S' : List K} {V' : List (List K)} (h : IsvdOk U S n Vt C U' S' V') (k : Nat) :
    frob2 ((List.range (n + C.length)).map fun j => ∑ a ∈ Finset.range S'.length, (S'.getD a 0 * (V'.getD a []).getD j 0) • U'.getD a 0 - ∑ a ∈ Finset.range (min k S'.length), (S'.getD a 0 * (V'.getD a []).getD j 0) • U'.getD a 0) = sqSum (S'.drop k) := by
  have hsq : sqSum (S'.drop k) = ∑ a ∈ Finset.Ico (min k S'.length) S'.length, S'.getD a 0 * S'.getD a 0 := by
    unfold sqSum
    rw [Finset.sum_Ico_eq_sum_range, Finset.sum_range, ← List.sum_ofFn]
    congr 1
    apply List.ext_getElem
    · simp; omega
    · intro i h1 h2
      rw [List.length_map, List.length_drop] at h1
      rw [List.getElem_map, List.getElem_drop, List.getElem_ofFn]
      have : min k S'.length + i = k + i := by omega
      dsimp only
      rw [this, List.getD_eq_getElem?_getD, List.getElem?_eq_getElem (by omega)]
      rfl
  have hcol : ∀ j, ∑ a ∈ Finset.range S'.length, (S'.getD a 0 * (V'.getD a []).getD j 0) • U'.getD a 0 - ∑ a ∈ Finset.range (min k S'.length), (S'.getD a 0 * (V'.getD a []).getD j 0) • U'.getD a 0 = ∑ a ∈ Finset.Ico (min k S'.length) S'.length, (S'.getD a 0 * (V'.getD a []).getD j 0) • U'.getD a 0 := by
    intro j
    rw [← Finset.sum_range_add_sum_Ico _ (Nat.min_le_right k S'.length)]
    abel
  unfold Spec.frob2
  rw [List.map_map]
  have e1 : (List.map ((fun c => c ⬝ᵥ c) ∘ fun j => ∑ a ∈ Finset.range S'.length, (S'.getD a 0 * (V'.getD a []).getD j 0) • U'.getD a 0 - ∑ a ∈ Finset.range (min k S'.length), (S'.getD a 0 * (V'.getD a []).getD j 0) • U'.getD a 0) (List.range (n + C.length))).sum =
      ∑ j ∈ Finset.range (n + C.length), ∑ a ∈ Finset.Ico (min k S'.length) S'.length, ∑ b ∈ Finset.Ico (min k S'.length) S'.length, S'.getD a 0 * S'.getD b 0 * (U'.getD a 0 ⬝ᵥ U'.getD b 0) * ((V'.getD a []).getD j 0 * (V'.getD b []).getD j 0) := by
    rw [Finset.sum_range (n := n + C.length), ← List.sum_ofFn]
    congr 1
    apply List.ext_getElem
    · simp
    · intro j h1 h2
      rw [List.getElem_map, List.getElem_range, List.getElem_ofFn]
      simp only [Function.comp]
      rw [hcol, sum_dotProduct]
      apply Finset.sum_congr rfl
      intro a _
      rw [dotProduct_sum]
      apply Finset.sum_congr rfl
      intro b _
      rw [smul_dotProduct, dotProduct_smul, smul_eq_mul, smul_eq_mul]
      ring
  rw [e1, hsq, Finset.sum_comm]
  apply Finset.sum_congr rfl
  intro a ha
  rw [Finset.sum_comm]
  have ha := Finset.mem_Ico.1 ha
  have e2 : ∀ b ∈ Finset.Ico (min k S'.length) S'.length, ∑ j ∈ Finset.range (n + C.length), S'.getD a 0 * S'.getD b 0 * (U'.getD a 0 ⬝ᵥ U'.getD b 0) * ((V'.getD a []).getD j 0 * (V'.getD b []).getD j 0) = if a = b then S'.getD a 0 * S'.getD b 0 * (U'.getD a 0 ⬝ᵥ U'.getD b 0) else 0 := by
    intro b hb
    rw [← Finset.mul_sum, h.vorth a ha.2 b (Finset.mem_Ico.1 hb).2]
    split <;> simp
  rw [Finset.sum_congr rfl e2, Finset.sum_ite_eq, if_pos (Finset.mem_Ico.2 ha)]
  by_cases h0 : S'.getD a 0 = 0
  · rw [h0]; ring
  · rw [h.uorth a ha.2 a ha.2 h0 h0, if_pos rfl, mul_one]
/-! ## Incremental PCA: specification -/

/-- The mean of samples. -/
def Spec.sampleMean (X : List (Fin m → K)) : Fin m → K := (1 / (X.length : K)) • X.sum

/-- The scatter matrix of samples (the covariance matrix times the number of degrees of freedom), as a bilinear form. -/
def Spec.scatter (X : List (Fin m → K)) (x y : Fin m → K) : K := gram (X.map (· - sampleMean X)) x y

theorem sum_dot_left (X : List (Fin m → K)) (x : Fin m → K) : (X.map fun c => c ⬝ᵥ x).sum = X.sum ⬝ᵥ x := (dot_list_sum X x).symm

theorem gram_shift (v x y : Fin m → K) : ∀ X : List (Fin m → K), gram (X.map (· - v)) x y = gram X x y - (X.sum ⬝ᵥ x) * (v ⬝ᵥ y) - (v ⬝ᵥ x) * (X.sum ⬝ᵥ y) + (X.length : K) * ((v ⬝ᵥ x) * (v ⬝ᵥ y)) := by
  intro X
  unfold Spec.gram
  induction X with
  | nil => simp
  | cons c X ih =>
    simp only [List.map_cons, List.sum_cons, List.length_cons, Nat.cast_succ, add_dotProduct] at ih ⊢
    rw [ih, sub_dotProduct, sub_dotProduct]
    ring

theorem scatter_eq {X : List (Fin m → K)} (h : X ≠ []) (x y : Fin m → K) : scatter X x y = gram X x y - (1 / (X.length : K)) * ((X.sum ⬝ᵥ x) * (X.sum ⬝ᵥ y)) := by
  have hn : (X.length : K) ≠ 0 := Nat.cast_ne_zero.2 (by simpa using h)
  unfold Spec.scatter
  rw [gram_shift]
  unfold Spec.sampleMean
  rw [smul_dotProduct, smul_dotProduct, smul_eq_mul, smul_eq_mul]
  field_simp
  ring

/-- The scatter matrix of the union of two sets of samples. -/
theorem scatter_append {A B : List (Fin m → K)} (hA : A ≠ []) (hB : B ≠ []) (x y : Fin m → K) :
    scatter (A ++ B) x y = scatter A x y + scatter B x y + ((B.length : K) * A.length / (B.length + A.length)) * (((sampleMean B - sampleMean A) ⬝ᵥ x) * ((sampleMean B - sampleMean A) ⬝ᵥ y)) := by
  have ha : 0 < (A.length : K) := Nat.cast_pos.2 (List.length_pos_iff.2 hA)
  have hb : 0 < (B.length : K) := Nat.cast_pos.2 (List.length_pos_iff.2 hB)
  have hab : (B.length : K) + A.length ≠ 0 := by linarith
  have hab' : (A.length : K) + B.length ≠ 0 := by linarith
  rw [scatter_eq (by simp [hA]), scatter_eq hA, scatter_eq hB, gram_append]
  simp only [List.sum_append, List.length_append, Nat.cast_add, sub_dotProduct, add_dotProduct, Spec.sampleMean, smul_dotProduct, smul_eq_mul]
  field_simp
  ring

theorem sampleMean_append {A B : List (Fin m → K)} (hA : A ≠ []) (hB : B ≠ []) : sampleMean (A ++ B) = (1 / ((A.length : K) + B.length)) • ((A.length : K) • sampleMean A + (B.length : K) • sampleMean B) := by
  have ha : (A.length : K) ≠ 0 := Nat.cast_ne_zero.2 (by simpa using hA)
  have hb : (B.length : K) ≠ 0 := Nat.cast_ne_zero.2 (by simpa using hB)
  unfold Spec.sampleMean
  rw [List.sum_append, List.length_append, Nat.cast_add, smul_smul, smul_smul, mul_one_div_cancel ha, mul_one_div_cancel hb, one_smul, one_smul]

theorem gram_append_mono (X Y : List (Fin m → K)) (x : Fin m → K) : gram X x x ≤ gram (X ++ Y) x x := by
  rw [gram_append]
  linarith [gram_self_nonneg Y x]

theorem scatter_mono {A : List (Fin m → K)} (hA : A ≠ []) (B : List (Fin m → K)) (x : Fin m → K) : scatter A x x ≤ scatter (A ++ B) x x := by
  rcases List.eq_nil_or_concat B with rfl | h
  · rw [List.append_nil]
  · have hB : B ≠ [] := by obtain ⟨_, _, rfl⟩ := h; simp
    rw [scatter_append hA hB]
    have h1 : 0 ≤ scatter B x x := gram_self_nonneg _ x
    have ha : 0 < (A.length : K) := Nat.cast_pos.2 (List.length_pos_iff.2 hA)
    have hb : 0 < (B.length : K) := Nat.cast_pos.2 (List.length_pos_iff.2 hB)
    have h2 : 0 ≤ ((B.length : K) * A.length / (B.length + A.length)) * (((sampleMean B - sampleMean A) ⬝ᵥ x) * ((sampleMean B - sampleMean A) ⬝ᵥ x)) := mul_nonneg (div_nonneg (mul_nonneg hb.le ha.le) (by linarith)) (mul_self_nonneg _)
    linarith

/-! ## Every history of batches -/

/-- The state after the samples `X`. -/
structure IHist (X : List (Fin m → K)) (s : IPca K m) : Prop where
  seen : s.seen = X.length
  mean : s.mean = sampleMean X
  len : s.comps.length = s.sv.length
  nonneg : ∀ v ∈ s.sv, 0 ≤ v
  sorted : s.sv.Pairwise (fun a b => b ≤ a)
  scatter : ∃ E, ∀ x y, scatter X x y = gram (scaleCols s.comps s.sv) x y + gram E x y

theorem ipcaFirst_hist {D : Decomp K m} (ok : D.Ok) (nc : Option Nat) (X : List (Fin m → K)) : IHist X (ipcaFirst D nc X) := by
  have hs := (ok.svd m (X.map (· - meanVec X))).left
  unfold ipcaFirst
  dsimp only
  generalize D.svd m (X.map (· - meanVec X)) = t at hs
  generalize ipcaCount X.length m nc = k
  refine ⟨rfl, rfl, ?_, fun v hv => hs.nonneg v (List.mem_of_mem_take hv), hs.sorted.sublist (List.take_sublist _ _), ?_⟩
  · rw [List.length_take, List.length_take, hs.lenU, hs.lenS]
  · refine ⟨scaleCols (t.1.drop k) (t.2.1.drop k), fun x y => ?_⟩
    have h1 := hs.gram_eq x y
    rw [scaleCols_take_append t.1 t.2.1 k, gram_append] at h1
    exact h1

theorem ipcaCols_gram {rt : K → K} (hrt : ∀ c, 0 ≤ c → rt c * rt c = c) {A B : List (Fin m → K)} (hA : A ≠ []) (hB : B ≠ []) (x y : Fin m → K) : scatter (A ++ B) x y = scatter A x y + gram (ipcaCols rt A.length (sampleMean A) B) x y := by
  rw [scatter_append hA hB]
  unfold ipcaCols
  rw [gram_append]
  have h1 : gram (B.map (· - meanVec B)) x y = scatter B x y := rfl
  have hw := hrt ((B.length : K) * A.length / (B.length + A.length)) (div_nonneg (mul_nonneg (Nat.cast_nonneg _) (Nat.cast_nonneg _)) (add_nonneg (Nat.cast_nonneg _) (Nat.cast_nonneg _)))
  have hm : meanVec B = sampleMean B := rfl
  rw [h1, hm]
  have h2 : gram [rt ((B.length : K) * A.length / (B.length + A.length)) • (sampleMean B - sampleMean A)] x y = ((B.length : K) * A.length / (B.length + A.length)) * (((sampleMean B - sampleMean A) ⬝ᵥ x) * ((sampleMean B - sampleMean A) ⬝ᵥ y)) := by
    unfold Spec.gram
    rw [List.map_cons, List.map_nil, List.sum_cons, List.sum_nil, add_zero, smul_dotProduct, smul_dotProduct, smul_eq_mul, smul_eq_mul]
    calc _ = (rt ((B.length : K) * A.length / (B.length + A.length)) * rt ((B.length : K) * A.length / (B.length + A.length))) * (((sampleMean B - sampleMean A) ⬝ᵥ x) * ((sampleMean B - sampleMean A) ⬝ᵥ y)) := by ring
      _ = _ := by rw [hw]
  rw [h2]
  ring

theorem ipcaUpdate_hist {D : Decomp K m} (ok : D.Ok) {rt : K → K} (hrt : ∀ c, 0 ≤ c → rt c * rt c = c) (nc : Option Nat) {A B : List (Fin m → K)} (hA : A ≠ []) (hB : B ≠ []) {s : IPca K m} (h : IHist A s) : IHist (A ++ B) (ipcaUpdate D rt nc s B).1 := by
  unfold ipcaUpdate
  dsimp only
  have hf := isvdFull_ok ok h.len (ipcaCols rt s.seen s.mean B)
  obtain ⟨F, hg⟩ : ∃ F, ∀ x y, gram (scaleCols s.comps s.sv) x y + gram (ipcaCols rt s.seen s.mean B) x y = gram (scaleCols (isvdCore D s.comps s.sv (ipcaCols rt s.seen s.mean B) (isvdRank m s.seen B.length nc)).1 (isvdCore D s.comps s.sv (ipcaCols rt s.seen s.mean B) (isvdRank m s.seen B.length nc)).2.1) x y + gram F x y := ⟨_, isvdCore_gram ok h.len (ipcaCols rt s.seen s.mean B) (isvdRank m s.seen B.length nc)⟩
  refine ⟨?_, ?_, ?_, ?_, ?_, ?_⟩
  · rw [h.seen, List.length_append]
  · rw [sampleMean_append hA hB, h.mean, h.seen]
    rfl
  · rw [isvdCore_full]
    dsimp only
    rw [List.length_take, List.length_take, hf.lenU, hf.lenS]
  · rw [isvdCore_full]
    exact fun v hv => hf.nonneg v (List.mem_of_mem_take hv)
  · rw [isvdCore_full]
    exact hf.sorted.sublist (List.take_sublist _ _)
  · obtain ⟨E, hE⟩ := h.scatter
    refine ⟨E ++ F, fun x y => ?_⟩
    rw [ipcaCols_gram hrt hA hB, hE, ← h.mean, ← h.seen, gram_append]
    have := hg x y
    linarith

/-- **C136, every history**: after any sequence of calls of `partial_fit` with nonempty batches, `n_samples_seen_` is the number of samples, `mean_` is their mean, `singular_values_` is nonnegative and nonincreasing, there are as many components as values, and the scatter matrix of all samples is that of the components (weighted with the squared values) plus a positive semidefinite rest, for every `n_components`. -/
theorem ipca_history {D : Decomp K m} (ok : D.Ok) {rt : K → K} (hrt : ∀ c, 0 ≤ c → rt c * rt c = c) (nc : Option Nat) (Xs : List (List (Fin m → K))) (h0 : Xs ≠ []) (hne : ∀ X ∈ Xs, X ≠ []) :
    ∃ s, ipcaRun D rt nc Xs = some s ∧ s.seen = Xs.flatten.length ∧ s.mean = sampleMean Xs.flatten ∧ s.comps.length = s.sv.length ∧ (∀ v ∈ s.sv, 0 ≤ v) ∧ s.sv.Pairwise (fun a b => b ≤ a) ∧
      ∃ E, ∀ x y, scatter Xs.flatten x y = gram (scaleCols s.comps s.sv) x y + gram E x y := by
  rcases Xs with _ | ⟨X, rest⟩
  · exact absurd rfl h0
  have key : ∀ (rest : List (List (Fin m → K))) (A : List (Fin m → K)) (s : IPca K m), A ≠ [] → (∀ X ∈ rest, X ≠ []) → IHist A s → IHist (A ++ rest.flatten) (rest.foldl (fun s X => (ipcaUpdate D rt nc s X).1) s) := by
    intro rest
    induction rest with
    | nil => intro A s _ _ h; simpa using h
    | cons B rest ih =>
      intro A s hA hr h
      rw [List.flatten_cons, ← List.append_assoc, List.foldl_cons]
      exact ih (A ++ B) _ (by simp [hA]) (fun X hX => hr X (List.mem_cons_of_mem _ hX)) (ipcaUpdate_hist ok hrt nc hA (hr B (by simp)) h)
  have h := key rest X (ipcaFirst D nc X) (hne X (by simp)) (fun Y hY => hne Y (List.mem_cons_of_mem _ hY)) (ipcaFirst_hist ok nc X)
  exact ⟨_, rfl, h.seen, h.mean, h.len, h.nonneg, h.sorted, h.scatter⟩

/-- **C136, number of components**: at most `n_components`, the number of features and the number of samples, after every sequence of batches. -/
theorem ipca_count (D : Decomp K m) (rt : K → K) (nc : Option Nat) (Xs : List (List (Fin m → K))) {s : IPca K m} (h : ipcaRun D rt nc Xs = some s) : (∀ k ∈ nc, s.comps.length ≤ k ∧ s.sv.length ≤ k) ∧ s.comps.length ≤ min Xs.flatten.length m ∧ s.sv.length ≤ min Xs.flatten.length m := by
  have key : ∀ (rest : List (List (Fin m → K))) (n : Nat) (s : IPca K m), (s.seen = n ∧ (∀ k ∈ nc, s.comps.length ≤ k ∧ s.sv.length ≤ k) ∧ s.comps.length ≤ min n m ∧ s.sv.length ≤ min n m) →
      (rest.foldl (fun s X => (ipcaUpdate D rt nc s X).1) s).seen = n + rest.flatten.length ∧ (∀ k ∈ nc, (rest.foldl (fun s X => (ipcaUpdate D rt nc s X).1) s).comps.length ≤ k ∧ (rest.foldl (fun s X => (ipcaUpdate D rt nc s X).1) s).sv.length ≤ k) ∧
      (rest.foldl (fun s X => (ipcaUpdate D rt nc s X).1) s).comps.length ≤ min (n + rest.flatten.length) m ∧ (rest.foldl (fun s X => (ipcaUpdate D rt nc s X).1) s).sv.length ≤ min (n + rest.flatten.length) m := by
    intro rest
    induction rest with
    | nil => intro n s h; simpa using h
    | cons B rest ih =>
      intro n s h
      rw [List.flatten_cons, List.length_append, ← Nat.add_assoc, List.foldl_cons]
      apply ih (n + B.length)
      unfold ipcaUpdate
      dsimp only
      rw [isvdCore_full]
      dsimp only
      rw [List.length_take, List.length_take, h.1]
      have hr : isvdRank m n B.length nc ≤ min (n + B.length) m ∧ ∀ k ∈ nc, isvdRank m n B.length nc ≤ k := by
        rcases nc with _ | k
        · simp [isvdRank]
        · simp only [isvdRank, Option.mem_some_iff, forall_eq']
          omega
      exact ⟨rfl, fun k hk => ⟨by have := hr.2 k hk; omega, by have := hr.2 k hk; omega⟩, by omega, by omega⟩
  rcases Xs with _ | ⟨X, rest⟩
  · simp [ipcaRun] at h
  · have h := Option.some.inj h
    have hr : ipcaCount X.length m nc ≤ min X.length m ∧ ∀ k ∈ nc, ipcaCount X.length m nc ≤ k := by
      rcases nc with _ | k
      · simp [ipcaCount]
      · simp only [ipcaCount, Option.mem_some_iff, forall_eq']
        omega
    have := key rest X.length (ipcaFirst D nc X) ⟨rfl, by
      unfold ipcaFirst
      dsimp only
      rw [List.length_take, List.length_take]
      exact ⟨fun k hk => ⟨by have := hr.2 k hk; omega, by have := hr.2 k hk; omega⟩, by omega, by omega⟩⟩
    rw [h] at this
    rw [List.flatten_cons, List.length_append]
    exact this.2

/-! ## Exactness -/

/-- The state is a decomposition of the scatter matrix. -/
structure IExact (X : List (Fin m → K)) (s : IPca K m) : Prop where
  hist : IHist X s
  count : s.sv.length = min X.length m
  orth : ∀ a < s.sv.length, ∀ b < s.sv.length, s.sv.getD a 0 ≠ 0 → s.sv.getD b 0 ≠ 0 → s.comps.getD a 0 ⬝ᵥ s.comps.getD b 0 = if a = b then 1 else 0
  exact : ∀ x y, scatter X x y = gram (scaleCols s.comps s.sv) x y

theorem gram_zero_scale : ∀ (U : List (Fin m → K)) (σ : List K), (∀ s ∈ σ, s = 0) → ∀ x y, gram (scaleCols U σ) x y = 0 := by
  intro U
  unfold scaleCols Spec.gram
  induction U with
  | nil => intro σ _ x y; simp
  | cons u U ih =>
    intro σ h x y
    rcases σ with _ | ⟨s, σ⟩
    · simp
    · have := ih σ (fun s hs => h s (List.mem_cons_of_mem _ hs)) x y
      rw [List.zipWith_cons_cons, List.map_cons, List.sum_cons, this, h s (by simp)]
      simp

theorem ipcaFirst_exact {D : Decomp K m} (ok : D.Ok) {X : List (Fin m → K)} : IExact X (ipcaFirst D none X) ∧ OrthoList (ipcaFirst D none X).comps := by
  have hh := ipcaFirst_hist ok none X
  have hs := (ok.svd m (X.map (· - meanVec X))).left
  have hl : (X.map (· - meanVec X)).length = X.length := List.length_map ..
  unfold ipcaFirst ipcaCount at hh ⊢
  dsimp only at hh ⊢
  generalize D.svd m (X.map (· - meanVec X)) = t at hs hh
  have hlU := hs.lenU
  have hlS := hs.lenS
  rw [hl] at hlU hlS
  rw [List.take_of_length_le (by omega), List.take_of_length_le (by omega)] at hh ⊢
  refine ⟨⟨hh, by dsimp only; omega, ?_, hs.gram_eq⟩, hs.ortho⟩
  intro a ha b hb _ _
  exact ortho_getD hs.ortho (by dsimp only at ha; omega) (by dsimp only at hb; omega)

theorem centered_span (X : List (Fin m → K)) (hX : X ≠ []) : ∃ W : List (Fin m → K), W.length + 1 = X.length ∧ ∀ c ∈ X.map (· - meanVec X), c ∈ Submodule.span K {y | y ∈ W} := by
  have hn : (X.length : K) ≠ 0 := Nat.cast_ne_zero.2 (by simpa using hX)
  have hsum : (X.map (· - meanVec X)).sum = 0 := by
    have : ∀ (v : Fin m → K) (Y : List (Fin m → K)), (Y.map (· - v)).sum = Y.sum - (Y.length : K) • v := by
      intro v Y
      induction Y with
      | nil => simp
      | cons c Y ih => rw [List.map_cons, List.sum_cons, ih, List.sum_cons, List.length_cons, Nat.cast_succ, add_smul, one_smul]; abel
    rw [this, meanVec, smul_smul, mul_one_div_cancel hn, one_smul, sub_self]
  rcases X with _ | ⟨x, X⟩
  · exact absurd rfl hX
  generalize meanVec (x :: X) = v at hsum ⊢
  refine ⟨X.map (· - v), by simp, ?_⟩
  intro c hc
  rw [List.map_cons, List.mem_cons] at hc
  rcases hc with rfl | hc
  · rw [List.map_cons, List.sum_cons] at hsum
    rw [eq_neg_of_add_eq_zero_left hsum]
    exact Submodule.neg_mem _ (list_sum_mem fun y hy => Submodule.subset_span hy)
  · exact Submodule.subset_span hc

theorem ipcaUpdate_exact {D : Decomp K m} (ok : D.Ok) {rt : K → K} (hrt : ∀ c, 0 ≤ c → rt c * rt c = c) {A B : List (Fin m → K)} (hA : A ≠ []) (hB : B ≠ []) {s : IPca K m} (h : IExact A s) (hU : OrthoList s.comps) : IExact (A ++ B) (ipcaUpdate D rt none s B).1 := by
  have hh := ipcaUpdate_hist ok hrt none hA hB h.hist
  have hcl : (ipcaCols rt s.seen s.mean B).length = B.length + 1 := by unfold ipcaCols; simp
  have hf := isvdFull_ok ok h.hist.len (ipcaCols rt s.seen s.mean B)
  have hg := isvdCore_gram ok h.hist.len (ipcaCols rt s.seen s.mean B) (isvdRank m s.seen B.length none)
  have hz : ∀ v ∈ (isvdFull D s.comps s.sv (ipcaCols rt s.seen s.mean B)).2.1.drop (isvdRank m s.seen B.length none), v = 0 := by
    intro v hv
    obtain ⟨i, hi, rfl⟩ := List.mem_iff_getElem.1 hv
    rw [List.length_drop] at hi
    rw [List.getElem_drop]
    by_contra hne
    have hne' : (isvdFull D s.comps s.sv (ipcaCols rt s.seen s.mean B)).2.1.getD (isvdRank m s.seen B.length none + i) 0 ≠ 0 := by
      rw [List.getD_eq_getElem?_getD, List.getElem?_eq_getElem (by omega)]
      exact hne
    obtain ⟨r1, r2⟩ := hf.rank hU (by have := hf.lenU; have := hf.lenS; omega) hne'
    obtain ⟨W, hW1, hW2⟩ := centered_span B hB
    have := r2 (scaleCols s.comps s.sv ++ (W ++ [rt ((B.length : K) * s.seen / (B.length + s.seen)) • (meanVec B - s.mean)])) ?_
    · rw [List.length_append, List.length_append, scaleCols_length, h.hist.len, h.count] at this
      simp only [List.length_singleton, isvdRank, h.hist.seen] at this r1
      omega
    · intro x hx
      rcases List.mem_append.1 hx with hx | hx
      · exact Submodule.subset_span (List.mem_append_left _ hx)
      · unfold ipcaCols at hx
        rcases List.mem_append.1 hx with hx | hx
        · exact Submodule.span_mono (fun y hy => List.mem_append_right _ (List.mem_append_left _ hy)) (hW2 x hx)
        · exact Submodule.subset_span (List.mem_append_right _ (List.mem_append_right _ hx))
  have hlen : ((isvdFull D s.comps s.sv (ipcaCols rt s.seen s.mean B)).2.1.take (isvdRank m s.seen B.length none)).length = min (A ++ B).length m := by
    rw [List.length_take, hf.lenS, hcl, List.length_append, h.count]
    simp only [isvdRank, h.hist.seen]
    omega
  refine ⟨hh, ?_, ?_, ?_⟩
  · unfold ipcaUpdate
    dsimp only
    rw [isvdCore_full]
    exact hlen
  · unfold ipcaUpdate
    dsimp only
    rw [isvdCore_full]
    dsimp only
    intro a ha b hb
    rw [List.length_take] at ha hb
    rw [take_getD _ 0 (by omega), take_getD _ 0 (by omega), take_getD _ 0 (by omega), take_getD _ 0 (by omega)]
    have h1 := hf.lenU
    have h2 := hf.lenS
    exact hf.orth hU a (by omega) b (by omega)
  · intro x y
    have h1 := hg x y
    have hz' : ∀ v ∈ (D.svd (s.comps ++ (D.qr ((ipcaCols rt s.seen s.mean B).map (isvdResid s.comps))).1).length (isvdInner s.comps s.sv (ipcaCols rt s.seen s.mean B) (D.qr ((ipcaCols rt s.seen s.mean B).map (isvdResid s.comps))).1 (D.qr ((ipcaCols rt s.seen s.mean B).map (isvdResid s.comps))).2)).2.1.drop (isvdRank m s.seen B.length none), v = 0 := hz
    rw [gram_zero_scale _ _ hz', add_zero] at h1
    rw [ipcaCols_gram hrt hA hB, h.exact, ← h.hist.mean, ← h.hist.seen, h1]
    rfl

/-- If the scatter matrix is positive definite, no value is zero. -/
theorem exact_pos {X : List (Fin m → K)} {s : IPca K m} (h : IExact X s) (hp : ∀ x, x ≠ 0 → 0 < scatter X x x) : OrthoList s.comps := by
  have hne : ∀ a < s.sv.length, s.sv.getD a 0 ≠ 0 := by
    intro a ha h0
    have hc := h.count
    -- a vector orthogonal to the first `a` components
    let f : (Fin m → K) →ₗ[K] (Fin a → K) := { toFun := fun x i => s.comps.getD i.1 0 ⬝ᵥ x, map_add' := fun x y => by funext i; exact dotProduct_add _ _ _, map_smul' := fun c x => by funext i; exact dotProduct_smul _ _ _ }
    have hk := LinearMap.ker_ne_bot_of_finrank_lt (f := f) (by rw [Module.finrank_fin_fun, Module.finrank_fin_fun]; omega)
    obtain ⟨x, hx, hx0⟩ := (Submodule.ne_bot_iff _).1 hk
    have hxi : ∀ i < a, s.comps.getD i 0 ⬝ᵥ x = 0 := fun i hi => congrFun (LinearMap.mem_ker.1 hx) ⟨i, hi⟩
    have h1 := hp x hx0
    rw [h.exact] at h1
    have : gram (scaleCols s.comps s.sv) x x = 0 := by
      unfold Spec.gram
      apply List.sum_eq_zero
      intro v hv
      obtain ⟨c, hc, rfl⟩ := List.mem_map.1 hv
      obtain ⟨i, hi, rfl⟩ := List.mem_iff_getElem.1 hc
      rw [scaleCols_length, h.hist.len, Nat.min_self] at hi
      have hl := h.hist.len
      have e0 : (scaleCols s.comps s.sv)[i]'(by rw [scaleCols_length]; omega) = s.sv[i] • s.comps[i]'(by omega) := by
        unfold scaleCols
        exact List.getElem_zipWith
      rw [e0, smul_dotProduct, smul_eq_mul]
      rcases Nat.lt_or_ge i a with hia | hia
      · have := hxi i hia
        rw [List.getD_eq_getElem?_getD, List.getElem?_eq_getElem (by omega)] at this
        rw [show s.comps[i]'(by omega) ⬝ᵥ x = 0 from this]
        ring
      · have h2 := sorted_getD h.hist.sorted hia hi
        rw [h0, List.getD_eq_getElem?_getD, List.getElem?_eq_getElem hi, Option.getD_some] at h2
        have h3 := h.hist.nonneg _ (List.getElem_mem hi)
        rw [le_antisymm h2 h3]
        ring
    rw [this] at h1
    exact lt_irrefl _ h1
  apply ortho_of_getD
  rw [h.hist.len]
  exact fun a ha b hb => h.orth a ha b hb (hne a ha) (hne b hb)

/-- **C136, exactness** (partial: for more than two batches the samples of the first two have to span all directions, see `ipca_ortho_violated`). Without `n_components`, after any sequence of nonempty batches, the components and values decompose the scatter matrix of all samples, there are `min(n_samples, n_features)` of them, and the components to values that are not zero are orthonormal. -/
theorem ipca_exact_partial {D : Decomp K m} (ok : D.Ok) {rt : K → K} (hrt : ∀ c, 0 ≤ c → rt c * rt c = c) (X Y : List (Fin m → K)) (rest : List (List (Fin m → K))) (hX : X ≠ []) (hY : Y ≠ []) (hne : ∀ Z ∈ rest, Z ≠ [])
    (hp : rest ≠ [] → ∀ x, x ≠ 0 → 0 < scatter (X ++ Y) x x) :
    ∃ s, ipcaRun D rt none (X :: Y :: rest) = some s ∧ s.comps.length = min (X ++ Y ++ rest.flatten).length m ∧ s.sv.length = s.comps.length ∧
      (∀ a < s.sv.length, ∀ b < s.sv.length, s.sv.getD a 0 ≠ 0 → s.sv.getD b 0 ≠ 0 → s.comps.getD a 0 ⬝ᵥ s.comps.getD b 0 = if a = b then 1 else 0) ∧
      (rest ≠ [] → OrthoList s.comps) ∧ ∀ x y, scatter (X ++ Y ++ rest.flatten) x y = gram (scaleCols s.comps s.sv) x y := by
  have key : ∀ (rest : List (List (Fin m → K))) (A : List (Fin m → K)) (s : IPca K m), A ≠ [] → (∀ X ∈ rest, X ≠ []) → (rest ≠ [] → ∀ x, x ≠ 0 → 0 < scatter A x x) → IExact A s →
      IExact (A ++ rest.flatten) (rest.foldl (fun s X => (ipcaUpdate D rt none s X).1) s) := by
    intro rest
    induction rest with
    | nil => intro A s _ _ _ h; simpa using h
    | cons B rest ih =>
      intro A s hA hr hp h
      rw [List.flatten_cons, ← List.append_assoc, List.foldl_cons]
      have hp := hp (by simp)
      exact ih (A ++ B) _ (by simp [hA]) (fun X hX => hr X (List.mem_cons_of_mem _ hX)) (fun _ x hx => lt_of_lt_of_le (hp x hx) (scatter_mono hA B x)) (ipcaUpdate_exact ok hrt hA (hr B (by simp)) h (exact_pos h hp))
  obtain ⟨f1, f2⟩ := ipcaFirst_exact ok (X := X)
  have h2 := ipcaUpdate_exact ok hrt hX hY f1 f2
  have h := key rest (X ++ Y) _ (by simp [hX]) hne hp h2
  refine ⟨_, rfl, by rw [← h.count]; exact h.hist.len, h.hist.len.symm, h.orth, ?_, h.exact⟩
  intro hr
  exact exact_pos h fun x hx => lt_of_lt_of_le (hp hr x hx) (scatter_mono (by simp [hX]) _ x)
/-! ## Over the reals -/

section Real
open Matrix

theorem ofFn_getD {α : Type} {n : Nat} (f : Fin n → α) (x : α) {k : Nat} (h : k < n) : (List.ofFn f).getD k x = f ⟨k, h⟩ := by
  rw [List.getD_eq_getElem?_getD, List.getElem?_eq_getElem (by simpa using h), Option.getD_some, List.getElem_ofFn]

/-- Every list of real columns has a decomposition with right factor. -/
theorem exists_svdR {p : Nat} (M : List (Fin p → ℝ)) : ∃ t : List (Fin p → ℝ) × List ℝ × List (List ℝ), IsSvdR M t.1 t.2.1 t.2.2 := by
  obtain ⟨U, s, V, h1, h2, h3, h4, h5⟩ := exists_svd_full (Matrix.of fun i (j : Fin M.length) => M[j] i)
  have hu : ∀ a b, (fun i => U i a) ⬝ᵥ (fun i => U i b) = if a = b then 1 else 0 := by
    intro a b
    have := congrFun (congrFun h1 a) b
    rw [Matrix.mul_apply, Matrix.one_apply] at this
    exact this
  have hv : ∀ a b, ∑ j, V a j * V b j = if a = b then 1 else 0 := by
    intro a b
    have := congrFun (congrFun h2 a) b
    rw [Matrix.mul_apply, Matrix.one_apply] at this
    exact this
  have hcol : ∀ j : Fin M.length, M[j] = ∑ a, (s a * V a j) • fun i => U i a := by
    intro j
    funext i
    have := congrFun (congrFun h5 i) j
    rw [Matrix.of_apply] at this
    rw [this, Matrix.mul_apply, Finset.sum_apply]
    apply Finset.sum_congr rfl
    intro a _
    rw [Matrix.mul_diagonal, Pi.smul_apply, smul_eq_mul]
    ring
  refine ⟨(List.ofFn fun a i => U i a, List.ofFn s, List.ofFn fun a => List.ofFn fun j => V a j), ⟨by simp, by simp, ?_, ?_, ?_, ?_⟩, by simp, by simp [List.mem_ofFn], ?_, ?_⟩
  · apply ortho_of_getD
    intro i hi j hj
    rw [List.length_ofFn] at hi hj
    rw [ofFn_getD _ _ hi, ofFn_getD _ _ hj, hu]
    simp
  · intro v hv
    obtain ⟨k, rfl⟩ := (List.mem_ofFn' _ _).1 hv
    exact h3 k
  · rw [List.pairwise_ofFn]
    exact fun i j h => h4 i j h.le
  · intro x y
    rw [gram_scale_ofFn]
    have e1 : gram M x y = ∑ j : Fin M.length, (M[j] ⬝ᵥ x) * (M[j] ⬝ᵥ y) := by
      unfold Spec.gram
      rw [← List.sum_ofFn]
      congr 1
      apply List.ext_getElem
      · simp
      · intro i h1 h2; simp
    rw [e1]
    have e2 : ∀ j : Fin M.length, (M[j] ⬝ᵥ x) * (M[j] ⬝ᵥ y) = ∑ a, ∑ b, s a * s b * ((fun i => U i a) ⬝ᵥ x) * ((fun i => U i b) ⬝ᵥ y) * (V a j * V b j) := by
      intro j
      rw [hcol j, sum_dotProduct, sum_dotProduct, Finset.sum_mul_sum]
      refine Finset.sum_congr rfl fun a _ => Finset.sum_congr rfl fun b _ => ?_
      rw [smul_dotProduct, smul_dotProduct, smul_eq_mul, smul_eq_mul]
      ring
    simp only [e2]
    rw [Finset.sum_comm]
    apply Finset.sum_congr rfl
    intro a _
    rw [Finset.sum_comm]
    have e3 : ∀ b, ∑ j, s a * s b * ((fun i => U i a) ⬝ᵥ x) * ((fun i => U i b) ⬝ᵥ y) * (V a j * V b j) = if a = b then s a * s b * ((fun i => U i a) ⬝ᵥ x) * ((fun i => U i b) ⬝ᵥ y) else 0 := by
      intro b
      rw [← Finset.mul_sum, hv]
      split <;> simp
    simp only [e3, Finset.sum_ite_eq, Finset.mem_univ, if_true]
  · dsimp only
    intro a ha b hb
    rw [List.length_ofFn] at ha hb
    rw [ofFn_getD _ _ ha, ofFn_getD _ _ hb, Finset.sum_range]
    have : ∀ j : Fin M.length, (List.ofFn fun j => V ⟨a, ha⟩ j).getD j.1 0 * (List.ofFn fun j => V ⟨b, hb⟩ j).getD j.1 0 = V ⟨a, ha⟩ j * V ⟨b, hb⟩ j := by
      intro j
      rw [ofFn_getD _ _ j.2, ofFn_getD _ _ j.2]
    rw [Finset.sum_congr rfl fun j _ => this j, hv]
    simp
  · dsimp only
    intro j hj
    have e : M.getD j 0 = M[j] := by rw [List.getD_eq_getElem?_getD, List.getElem?_eq_getElem hj]; rfl
    rw [e]
    refine (hcol ⟨j, hj⟩).trans ?_
    rw [List.length_ofFn, Finset.sum_range]
    apply Finset.sum_congr rfl
    intro a _
    rw [ofFn_getD _ _ a.2, ofFn_getD _ _ a.2, ofFn_getD _ _ a.2, ofFn_getD _ _ hj]

/-- A decomposition with right factor gives one into orthonormal columns and coefficients. -/
theorem IsSvdR.toQr {p : Nat} {M U : List (Fin p → ℝ)} {σ : List ℝ} {vt : List (List ℝ)} (h : IsSvdR M U σ vt) : IsQr M U ((List.range M.length).map fun j => (List.range U.length).map fun a => σ.getD a 0 * (vt.getD a []).getD j 0) := by
  refine ⟨h.left.lenU, by simp, h.left.ortho, ?_⟩
  intro j hj
  rw [h.prod j hj]
  apply Finset.sum_congr rfl
  intro a ha
  have ha := Finset.mem_range.1 ha
  congr 1
  rw [List.getD_eq_getElem?_getD (l := List.map _ (List.range M.length)), List.getElem?_map, List.getElem?_range hj, Option.map_some, Option.getD_some, List.getD_eq_getElem?_getD (l := List.map _ (List.range U.length)), List.getElem?_map, List.getElem?_range ha, Option.map_some, Option.getD_some]

open Classical in
/-- Decompositions with prescribed results for some matrices. -/
noncomputable def patchDecomp {m : Nat} (qr : List (Fin m → ℝ) → Option (List (Fin m → ℝ) × List (List ℝ))) (svd : (q : Nat) → List (Fin q → ℝ) → Option (List (Fin q → ℝ) × List ℝ × List (List ℝ))) : Decomp ℝ m where
  qr C := (qr C).getD ((exists_svdR C).choose.1, (List.range C.length).map fun j => (List.range (exists_svdR C).choose.1.length).map fun a => (exists_svdR C).choose.2.1.getD a 0 * ((exists_svdR C).choose.2.2.getD a []).getD j 0)
  svd q M := (svd q M).getD (exists_svdR M).choose

theorem patchDecomp_ok {m : Nat} {qr : List (Fin m → ℝ) → Option (List (Fin m → ℝ) × List (List ℝ))} {svd : (q : Nat) → List (Fin q → ℝ) → Option (List (Fin q → ℝ) × List ℝ × List (List ℝ))} (h1 : ∀ C, ∀ r ∈ qr C, IsQr C r.1 r.2) (h2 : ∀ q M, ∀ r ∈ svd q M, IsSvdR M r.1 r.2.1 r.2.2) : (patchDecomp qr svd).Ok := by
  constructor
  · intro C
    unfold patchDecomp
    dsimp only
    rcases h : qr C with _ | r
    · exact IsSvdR.toQr (exists_svdR C).choose_spec
    · exact h1 C r h
  · intro q M
    unfold patchDecomp
    dsimp only
    rcases h : svd q M with _ | r
    · exact (exists_svdR M).choose_spec
    · exact h2 q M r h

/-- Decompositions over the reals exist. -/
theorem exists_decomp (m : Nat) : ∃ D : Decomp ℝ m, D.Ok := ⟨patchDecomp (fun _ => none) (fun _ _ => none), patchDecomp_ok (by simp) (by simp)⟩
/-! ## Where the left vectors are not orthonormal -/

/-- The first unit vector, with any number of rows. -/
noncomputable def unit0 (q : Nat) : Fin q → ℝ := fun t => if t.1 = 0 then 1 else 0

theorem lift_unit {m : Nat} (W : List (Fin m → ℝ)) (a : Nat) (h : a < W.length) : isvdLift W (fun t => if t.1 = a then 1 else 0) = W[a] := by
  unfold isvdLift
  rw [Finset.sum_eq_single ⟨a, h⟩]
  · simp
  · intro b _ hb
    show (if b.1 = a then (1 : ℝ) else 0) • _ = 0
    rw [if_neg (fun e => hb (Fin.ext e)), zero_smul]
  · simp

/-- A decomposition of a matrix with one nonzero row. -/
theorem svd_row2 : IsSvdR (K := ℝ) (m := 2) [fun t => if t.1 = 0 then 3 else 0, fun t => if t.1 = 0 then 4 else 0] [fun t => if t.1 = 0 then 1 else 0, fun t => if t.1 = 1 then 1 else 0] [5, 0] [[3/5, 4/5], [4/5, -3/5]] := by
  refine ⟨⟨rfl, rfl, ?_, by simp, by simp, ?_⟩, rfl, by simp, ?_, ?_⟩
  · constructor
    · simp [dotProduct, Fin.sum_univ_two]
    · simp [dotProduct, Fin.sum_univ_two]
  · intro x y
    simp [Spec.gram, scaleCols, dotProduct, Fin.sum_univ_two]
    ring
  · intro a ha b hb
    simp only [List.length_cons, List.length_nil] at ha hb
    interval_cases a <;> interval_cases b <;> norm_num [Finset.sum_range_succ]
  · intro j hj
    simp only [List.length_cons, List.length_nil] at hj
    interval_cases j <;> (funext t; fin_cases t <;> norm_num [Finset.sum_range_succ])

theorem qr_zero (d : Nat) (hd : d = 1 ∨ d = 2) : IsQr (K := ℝ) (m := 2) (List.replicate d 0) ([fun t => if t.1 = 0 then 1 else 0, fun t => if t.1 = 1 then 1 else 0].take d) (List.replicate d [0, 0]) := by
  rcases hd with rfl | rfl
  · refine ⟨rfl, rfl, ?_, ?_⟩
    · simp [Spec.OrthoList, dotProduct, Fin.sum_univ_two]
    · intro j hj
      have : j = 0 := by simpa using hj
      subst this
      simp
  · refine ⟨rfl, rfl, ?_, ?_⟩
    · simp [Spec.OrthoList, dotProduct, Fin.sum_univ_two]
    · intro j hj
      simp only [List.length_replicate] at hj
      interval_cases j <;> simp [Finset.sum_range_succ]

open Classical in
/-- **C135, orthonormality of `U` is not guaranteed**: a new column in the span of the old left vectors has the residual zero, whose QR decomposition may be any orthonormal vector; then two columns of the new `U` can be the same. Here the old matrix is `[3 e₁]` and the new column `4 e₁`. -/
theorem isvd_ortho_violated : ∃ D : Decomp ℝ 2, D.Ok ∧ ∃ U' S' V', isvd D [(4 : ℝ) • unit0 2] [unit0 2] [3] 1 [[1]] none = .ok (U', S', V') ∧ U' = [unit0 2, unit0 2] ∧ S' = [5, 0] := by
  let qr : List (Fin 2 → ℝ) → Option (List (Fin 2 → ℝ) × List (List ℝ)) := fun C => if C = [0] then some ([fun t => if t.1 = 0 then 1 else 0], [[0, 0]]) else none
  let svd : (q : Nat) → List (Fin q → ℝ) → Option (List (Fin q → ℝ) × List ℝ × List (List ℝ)) := fun q M => if q = 2 ∧ M = [fun t => if t.1 = 0 then 3 else 0, fun t => if t.1 = 0 then 4 else 0] then some ([fun t => if t.1 = 0 then 1 else 0, fun t => if t.1 = 1 then 1 else 0], [5, 0], [[3/5, 4/5], [4/5, -3/5]]) else none
  have hres : isvdResid [unit0 2] ((4 : ℝ) • unit0 2) = 0 := by
    unfold isvdResid
    funext t
    fin_cases t <;> simp [unit0, dotProduct, Fin.sum_univ_two]
  have hqr : (patchDecomp qr svd).qr ([(4 : ℝ) • unit0 2].map (isvdResid [unit0 2])) = ([fun t => if t.1 = 0 then 1 else 0], [[0, 0]]) := by
    rw [List.map_cons, List.map_nil, hres]
    simp [patchDecomp, qr]
  have hin : isvdInner [unit0 2] [3] [(4 : ℝ) • unit0 2] [fun t => if t.1 = 0 then 1 else 0] [[0, 0]] = [fun t => if t.1 = 0 then 3 else 0, fun t => if t.1 = 0 then 4 else 0] := by
    unfold isvdInner
    have h2 : ([unit0 2] ++ [fun t : Fin 2 => if t.1 = 0 then (1 : ℝ) else 0]).length = 2 := rfl
    simp only [List.length_singleton, List.range_one, List.map_cons, List.map_nil, List.zipWith_cons_cons, List.zipWith_nil_left, List.cons_append, List.nil_append]
    congr 1
    congr 1
    funext t
    by_cases ht : t.1 = 0
    · rw [if_pos (by omega), if_pos ht, ht]
      simp [unit0, dotProduct, Fin.sum_univ_two]
    · have : t.1 = 1 := by have h3 : t.1 < 2 := t.2; omega
      rw [if_neg (by omega), if_neg ht, this]
      simp
  refine ⟨patchDecomp qr svd, patchDecomp_ok ?_ ?_, [unit0 2, unit0 2], [5, 0], isvdRight 1 1 1 [[1]] [[3/5, 4/5], [4/5, -3/5]], ?_, rfl, rfl⟩
  · intro C r hr
    simp only [qr] at hr
    split at hr
    · next h =>
      subst h
      rw [← Option.mem_some_iff.1 hr]
      exact qr_zero 1 (Or.inl rfl)
    · simp at hr
  · intro q M r hr
    simp only [svd] at hr
    split at hr
    · next h =>
      obtain ⟨rfl, rfl⟩ := h
      rw [← Option.mem_some_iff.1 hr]
      exact svd_row2
    · simp at hr
  · unfold isvd isvdCore
    rw [if_neg (by simp), if_neg (by simp)]
    dsimp only
    rw [hqr]
    dsimp only
    rw [hin]
    have hsv : (patchDecomp qr svd).svd ([unit0 2] ++ [fun t : Fin 2 => if t.1 = 0 then (1 : ℝ) else 0]).length [fun t => if t.1 = 0 then 3 else 0, fun t => if t.1 = 0 then 4 else 0] = ([fun t => if t.1 = 0 then 1 else 0, fun t => if t.1 = 1 then 1 else 0], [5, 0], [[3/5, 4/5], [4/5, -3/5]]) := by
      unfold patchDecomp
      dsimp only
      simp only [svd]
      rw [if_pos ⟨rfl, trivial⟩]
      rfl
    rw [hsv]
    dsimp only [isvdRank, List.length_singleton]
    simp only [List.take, List.map_cons, List.map_nil, Nat.reduceAdd, Nat.min_self]
    rw [lift_unit _ 0 (by simp), lift_unit _ 1 (by simp)]
    rfl

/-- The decomposition of a matrix with one entry that is not zero. -/
theorem svd_one3 {s : ℝ} (hs : 0 < s) : IsSvdR (K := ℝ) (m := 3) [0, 0, fun t => if t.1 = 0 then s else 0] [fun t => if t.1 = 0 then 1 else 0, fun t => if t.1 = 1 then 1 else 0, fun t => if t.1 = 2 then 1 else 0] [s, 0, 0] [[0, 0, 1], [1, 0, 0], [0, 1, 0]] := by
  refine ⟨⟨rfl, rfl, ?_, by simp [hs.le], by simp [hs.le], ?_⟩, rfl, by simp, ?_, ?_⟩
  · constructor
    · simp [dotProduct, Fin.sum_univ_three]
    · simp [dotProduct, Fin.sum_univ_three]
  · intro x y
    simp [Spec.gram, scaleCols, dotProduct, Fin.sum_univ_three]
  · intro a ha b hb
    simp only [List.length_cons, List.length_nil] at ha hb
    interval_cases a <;> interval_cases b <;> norm_num [Finset.sum_range_succ]
  · intro j hj
    simp only [List.length_cons, List.length_nil] at hj
    interval_cases j <;> (funext t; fin_cases t <;> norm_num [Finset.sum_range_succ])

theorem svd_zero2 : IsSvdR (K := ℝ) (m := 2) [0] [fun t => if t.1 = 0 then 1 else 0] [0] [[1]] := by
  refine ⟨⟨rfl, rfl, ?_, by simp, by simp, ?_⟩, rfl, by simp, ?_, ?_⟩
  · simp [Spec.OrthoList, dotProduct, Fin.sum_univ_two]
  · intro x y
    simp [Spec.gram, scaleCols]
  · intro a ha b hb
    have ha : a = 0 := by simpa using ha
    have hb : b = 0 := by simpa using hb
    subst ha; subst hb
    simp
  · intro j hj
    have hj : j = 0 := by simpa using hj
    subst hj
    simp

open Classical in
/-- **C136, orthonormality is not guaranteed**: two batches of one sample each, the origin and `(2, 0)`; the decompositions return unit vectors where they are free to choose. Both components are then the first unit vector, the variance along the second direction is not represented, and a third batch starts from these. -/
theorem ipca_ortho_violated : ∃ D : Decomp ℝ 2, D.Ok ∧ ∃ s, ipcaRun D Real.sqrt none [[0], [(2 : ℝ) • unit0 2]] = some s ∧ s.comps = [unit0 2, unit0 2] := by
  let w : ℝ := Real.sqrt (((1 : Nat) : ℝ) * ((1 : Nat) : ℝ) / (((1 : Nat) : ℝ) + ((1 : Nat) : ℝ)))
  have hw : 0 < w := Real.sqrt_pos.2 (by norm_num)
  let s : ℝ := w * 2
  have hs : 0 < s := by positivity
  let qr : List (Fin 2 → ℝ) → Option (List (Fin 2 → ℝ) × List (List ℝ)) := fun C => if C = [0, 0] then some ([fun t => if t.1 = 0 then 1 else 0, fun t => if t.1 = 1 then 1 else 0], [[0, 0], [0, 0]]) else none
  let svd : (q : Nat) → List (Fin q → ℝ) → Option (List (Fin q → ℝ) × List ℝ × List (List ℝ)) := fun q M =>
    if q = 3 ∧ M = [0, 0, fun t => if t.1 = 0 then s else 0] then some ([fun t => if t.1 = 0 then 1 else 0, fun t => if t.1 = 1 then 1 else 0, fun t => if t.1 = 2 then 1 else 0], [s, 0, 0], [[0, 0, 1], [1, 0, 0], [0, 1, 0]])
    else if q = 2 ∧ M = [0] then some ([fun t => if t.1 = 0 then 1 else 0], [0], [[1]])
    else none
  have ok : (patchDecomp qr svd).Ok := by
    apply patchDecomp_ok
    · intro C r hr
      simp only [qr] at hr
      split at hr
      · next h =>
        subst h
        rw [← Option.mem_some_iff.1 hr]
        exact qr_zero 2 (Or.inr rfl)
      · simp at hr
    · intro q M r hr
      simp only [svd] at hr
      split at hr
      · next h =>
        obtain ⟨rfl, rfl⟩ := h
        rw [← Option.mem_some_iff.1 hr]
        exact svd_one3 hs
      · split at hr
        · next h =>
          obtain ⟨rfl, rfl⟩ := h
          rw [← Option.mem_some_iff.1 hr]
          exact svd_zero2
        · simp at hr
  have hmean : ∀ v : Fin 2 → ℝ, meanVec [v] = v := fun v => by simp [meanVec]
  have hfirst : ipcaFirst (patchDecomp qr svd) none [0] = ⟨[unit0 2], [0], 0, 1⟩ := by
    unfold ipcaFirst
    have h0 : ([0] : List (Fin 2 → ℝ)).map (· - meanVec [0]) = [0] := by simp [hmean]
    rw [h0, hmean]
    have h1 : (patchDecomp qr svd).svd 2 [0] = ([fun t => if t.1 = 0 then 1 else 0], [0], [[1]]) := by
      unfold patchDecomp
      simp only [svd]
      rw [if_neg (by simp), if_pos (by simp)]
      rfl
    rw [h1]
    rfl
  have hcols : ipcaCols Real.sqrt 1 0 [(2 : ℝ) • unit0 2] = [0, s • unit0 2] := by
    unfold ipcaCols
    rw [hmean]
    simp only [List.map_cons, List.map_nil, sub_self, List.cons_append, List.nil_append, sub_zero, smul_smul, List.length_singleton]
    rfl
  have hres : [0, s • unit0 2].map (isvdResid [unit0 2]) = [0, 0] := by
    have h1 : isvdResid [unit0 2] 0 = 0 := by simp [isvdResid]
    have h2 : isvdResid [unit0 2] (s • unit0 2) = 0 := by
      unfold isvdResid
      funext t
      fin_cases t <;> simp [unit0, dotProduct, Fin.sum_univ_two]
    rw [List.map_cons, List.map_cons, List.map_nil, h1, h2]
  have hqr : (patchDecomp qr svd).qr ([0, s • unit0 2].map (isvdResid [unit0 2])) = ([fun t => if t.1 = 0 then 1 else 0, fun t => if t.1 = 1 then 1 else 0], [[0, 0], [0, 0]]) := by
    rw [hres]
    simp [patchDecomp, qr]
  have hin : isvdInner [unit0 2] [0] [0, s • unit0 2] [fun t => if t.1 = 0 then 1 else 0, fun t => if t.1 = 1 then 1 else 0] [[0, 0], [0, 0]] = [0, 0, fun t => if t.1 = 0 then s else 0] := by
    unfold isvdInner
    simp only [List.length_singleton, List.range_one, List.map_cons, List.map_nil, List.zipWith_cons_cons, List.zipWith_nil_left, List.cons_append, List.nil_append]
    have hg : ∀ k, ([0, 0] : List ℝ).getD k 0 = 0 := by
      intro k
      rcases k with _ | _ | k <;> simp
    congr 1
    · funext t; simp
    congr 1
    · funext t
      show (if t.1 < 1 then _ else ([0, 0] : List ℝ).getD (t.1 - 1) 0) = 0
      rw [hg, dotProduct_zero, ite_self]
    congr 1
    funext t
    by_cases ht : t.1 = 0
    · rw [if_pos (by omega), if_pos ht, ht]
      simp [unit0, dotProduct, Fin.sum_univ_two]
    · rw [if_neg (by omega), if_neg ht, hg]
  refine ⟨patchDecomp qr svd, ok, _, rfl, ?_⟩
  rw [List.foldl_cons, List.foldl_nil, hfirst]
  unfold ipcaUpdate isvdCore
  dsimp only
  rw [hcols, hqr]
  dsimp only
  rw [hin]
  have hsv : (patchDecomp qr svd).svd ([unit0 2] ++ [fun t : Fin 2 => if t.1 = 0 then (1 : ℝ) else 0, fun t : Fin 2 => if t.1 = 1 then (1 : ℝ) else 0]).length [0, 0, fun t => if t.1 = 0 then s else 0] = ([fun t => if t.1 = 0 then 1 else 0, fun t => if t.1 = 1 then 1 else 0, fun t => if t.1 = 2 then 1 else 0], [s, 0, 0], [[0, 0, 1], [1, 0, 0], [0, 1, 0]]) := by
    unfold patchDecomp
    simp only [svd]
    rw [if_pos ⟨rfl, trivial⟩]
    rfl
  rw [hsv]
  dsimp only [isvdRank, List.length_singleton]
  simp only [List.take, List.map_cons, List.map_nil, Nat.reduceAdd, Nat.min_self]
  rw [lift_unit _ 0 (by simp), lift_unit _ 1 (by simp)]
  rfl

/-- **C136, the batch is changed**: from the second batch on `partial_fit` centers the data of the caller in place. -/
theorem ipca_batch_violated {K : Type} [Field K] [LinearOrder K] [IsStrictOrderedRing K] {m : Nat} (D : Decomp K m) (rt : K → K) (nc : Option Nat) (s : IPca K m) (X : List (Fin m → K)) (h : X ≠ []) (h0 : sampleMean X ≠ 0) : (ipcaUpdate D rt nc s X).2 ≠ X := by
  intro e
  rcases X with _ | ⟨x, X⟩
  · exact h rfl
  · have : x - sampleMean (x :: X) = x := (List.cons.inj e).1
    exact h0 (by simpa using this)

/-! ## Non-vacuity -/

theorem unit0_ortho : OrthoList [unit0 2] := by simp [Spec.OrthoList, unit0, dotProduct, Fin.sum_univ_two]

/-- An update of a 2 by 3 matrix of rank one with two columns. -/
example : ∃ (D : Decomp ℝ 2) (U' : List (Fin 2 → ℝ)) (S' : List ℝ) (V' : List (List ℝ)), isvd D [fun _ => 1, fun i => i.1] [unit0 2] [3] 3 [[3/5, 0, 4/5]] none = .ok (U', S', V') ∧ IsvdOk [unit0 2] [3] 3 [[3/5, 0, 4/5]] [fun _ => 1, fun i => i.1] U' S' V' := by
  obtain ⟨D, ok⟩ := exists_decomp 2
  obtain ⟨U', S', V', h1, h2, -⟩ := isvd_exact ok (U := [unit0 2]) (S := [3]) (n := 3) (Vt := [[3/5, 0, 4/5]]) rfl rfl (by decide) unit0_ortho (by
    intro a ha b hb
    have ha : a = 0 := by simpa using ha
    have hb : b = 0 := by simpa using hb
    subst ha; subst hb
    norm_num [Finset.sum_range_succ]) [fun _ => 1, fun i => i.1] none (by simp)
  exact ⟨D, U', S', V', h1, h2⟩

/-- Three batches, of which the first two span both directions. -/
example : ∃ (D : Decomp ℝ 2) (s : IPca ℝ 2), ipcaRun D Real.sqrt none [[0, fun i => i.1], [unit0 2], [fun _ => 7, fun _ => 1]] = some s ∧ OrthoList s.comps ∧ s.seen = 5 := by
  obtain ⟨D, ok⟩ := exists_decomp 2
  have hrt : ∀ c : ℝ, 0 ≤ c → Real.sqrt c * Real.sqrt c = c := fun c hc => Real.mul_self_sqrt hc
  obtain ⟨s, h1, -, -, -, h2, -⟩ := ipca_exact_partial ok hrt [0, fun i => i.1] [unit0 2] [[fun _ => 7, fun _ => 1]] (by simp) (by simp) (by simp) (by
    intro _ x hx
    rw [scatter_eq (by simp)]
    simp only [Spec.gram, unit0, List.cons_append, List.nil_append, List.map_cons, List.map_nil, List.sum_cons, List.sum_nil, dotProduct, Fin.sum_univ_two, List.length_cons, List.length_nil, Pi.add_apply, Pi.zero_apply]
    norm_num
    have hne : x 0 ≠ 0 ∨ x 1 ≠ 0 := by
      by_contra hc
      push Not at hc
      apply hx
      funext i
      fin_cases i
      · exact hc.1
      · exact hc.2
    rcases hne with h | h
    · nlinarith [sq_nonneg (x 0 - 2 * x 1), sq_nonneg (x 0 + x 1), sq_nonneg (x 1), sq_nonneg (2 * x 0 - x 1), mul_self_pos.2 h]
    · nlinarith [sq_nonneg (x 0 - 2 * x 1), sq_nonneg (x 0 + x 1), sq_nonneg (x 0), sq_nonneg (2 * x 0 - x 1), mul_self_pos.2 h])
  obtain ⟨s', h3, h4, -⟩ := ipca_history ok hrt none [[0, fun i => i.1], [unit0 2], [fun _ => 7, fun _ => 1]] (by simp) (by simp)
  rw [h1] at h3
  obtain rfl := Option.some.inj h3
  exact ⟨D, s, h1, h2 (by simp), by rw [h4]; rfl⟩

end Real

end Heat
