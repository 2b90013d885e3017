import Verif.Model.SvdGeneral
import Verif.Props.Polar
/-!
# C134 the general branch of `svd`
-/
namespace Heat
open Matrix

/-- A (reduced) singular value decomposition: orthonormal factors, values that are not negative and descend, and the product is the matrix. -/
def IsSvd {m n k : ℕ} (A : Matrix (Fin m) (Fin n) ℝ) (x : SvdRes m n k) : Prop :=
  x.Uᵀ * x.U = 1 ∧ x.Vt * x.Vtᵀ = 1 ∧ (∀ i, 0 ≤ x.S i) ∧ (∀ i j, i ≤ j → x.S j ≤ x.S i) ∧ A = x.U * Matrix.diagonal x.S * x.Vt

theorem symm_of_psd {n : ℕ} {H : RMat n} (h : H.PosSemidef) : H.IsSymm := by
  have := h.isHermitian
  unfold Matrix.IsHermitian at this
  rw [ct_eq] at this
  exact this

theorem fro2_orth_left {m n k : ℕ} (U : Matrix (Fin m) (Fin n) ℝ) (h : Uᵀ * U = 1) (M : Matrix (Fin n) (Fin k) ℝ) : fro2 (U * M) = fro2 M := by
  rw [fro2_trace, fro2_trace, transpose_mul, Matrix.mul_assoc, ← Matrix.mul_assoc Uᵀ, h, Matrix.one_mul]

section
variable {m n : ℕ} (r : ℕ) (hr : 0 < r) (cs : List ((ℕ → ℝ) × (ℕ → ℝ))) (hb : ∀ c ∈ cs, ∀ j < r, 0 < c.1 j) (hd : ∀ c ∈ cs, ∀ j < r, 0 < c.2 j)
  (hinj : ∀ c ∈ cs, ∀ i < r, ∀ j < r, c.2 i = c.2 j → i = j) (W : Matrix (Fin m) (Fin n) ℝ) (Z : RMat n) (hW : Wᵀ * W = 1) (hZ : Zᵀ * Z = 1)
  (s : Fin n → ℝ) (alpha : ℝ) (ha : 0 < alpha) (U : Matrix (Fin m) (Fin n) ℝ) (h : ZoloRun r cs ((1 / alpha) • (W * Matrix.diagonal s * Zᵀ)) U)
include hr hb hd hinj hW hZ ha h

/-- **C134, general branch, residual.**  For every matrix with at least as many rows as columns and full rank, whatever the divisions of `eigh`: if the iterations of `polar` have carried the
singular values to 1 then both factors are orthonormal, and the squared Frobenius residual of the decomposition is exactly the sum of the blocks that `eigh` neglected; if the tests of all subspace
iterations succeeded it is at most `2 (P - 1) tol² ‖A‖²`. -/
theorem svdGeneral_residual_partial (o : EighOps) (ho : EighOk o) (P lmin : ℕ) (hs : ∀ i, 0 < s i) (h1 : ∀ i, zoloAll r cs (s i / alpha) = 1)
    (x : SvdRes m n n × List EighNode) (hx : svdGeneral o P lmin U (W * Matrix.diagonal s * Zᵀ) = some x) :
    x.1.Uᵀ * x.1.U = 1 ∧ x.1.Vt * x.1.Vtᵀ = 1 ∧ fro2 (W * Matrix.diagonal s * Zᵀ - x.1.U * Matrix.diagonal x.1.S * x.1.Vt) = neglected x.2 ∧
      ((∀ nd ∈ x.2, nd.converged = true) →
        fro2 (W * Matrix.diagonal s * Zᵀ - x.1.U * Matrix.diagonal x.1.S * x.1.Vt) ≤ 2 * o.tol ^ 2 * ((P - 1 : ℕ) : ℝ) * fro2 (W * Matrix.diagonal s * Zᵀ)) := by
  obtain ⟨_, psd, _, g⟩ := polar_partial r hr cs hb hd hinj W Z hW hZ s hs alpha ha U h
  obtain ⟨oU, eA⟩ := g h1
  set A := W * Matrix.diagonal s * Zᵀ with hA
  unfold svdGeneral at hx
  rw [Option.map_eq_some_iff] at hx
  obtain ⟨q, hq, rfl⟩ := hx
  have hsym := symm_of_psd psd
  obtain ⟨oV, eR⟩ := eigh_residual o ho P 0 lmin 0 n _ hsym q hq
  have hres : fro2 (A - U * q.V * Matrix.diagonal q.lam * q.Vᵀ) = neglected q.nodes := by
    rw [← eR]
    unfold eigRes
    rw [← fro2_orth_left U oU (polarH U A - _), Matrix.mul_sub, ← eA]
    simp only [Matrix.mul_assoc]
  have hfro : fro2 A = fro2 (polarH U A) := by
    conv_lhs => rw [eA]
    exact fro2_orth_left U oU _
  refine ⟨?_, ?_, hres, fun hc => ?_⟩
  · dsimp only
    rw [transpose_mul, Matrix.mul_assoc, ← Matrix.mul_assoc Uᵀ, oU, Matrix.one_mul, oV]
  · dsimp only
    rw [transpose_transpose, oV]
  · dsimp only at hc ⊢
    rw [hres, ← eR, hfro]
    exact (eigh_bound o ho P 0 lmin 0 n _ hsym q hq hc).2

/-- **C134, general branch.**  If moreover the divisions of `eigh` had exact ingredients, the result is a singular value decomposition. -/
theorem svdGeneral_partial (o : EighOps) (ho : EighOk o) (P lmin : ℕ) (hs : ∀ i, 0 < s i) (h1 : ∀ i, zoloAll r cs (s i / alpha) = 1)
    (x : SvdRes m n n × List EighNode) (hx : svdGeneral o P lmin U (W * Matrix.diagonal s * Zᵀ) = some x) (hn : ∀ nd ∈ x.2, NodeExact nd) :
    IsSvd (W * Matrix.diagonal s * Zᵀ) x.1 := by
  obtain ⟨a1, a2, _, _⟩ := svdGeneral_residual_partial r hr cs hb hd hinj W Z hW hZ s alpha ha U h o ho P lmin hs h1 x hx
  obtain ⟨_, psd, _, g⟩ := polar_partial r hr cs hb hd hinj W Z hW hZ s hs alpha ha U h
  obtain ⟨oU, eA⟩ := g h1
  set A := W * Matrix.diagonal s * Zᵀ with hA
  unfold svdGeneral at hx
  rw [Option.map_eq_some_iff] at hx
  obtain ⟨q, hq, rfl⟩ := hx
  obtain ⟨oV, eH, ord⟩ := eigh_exact_partial o ho P 0 lmin 0 n _ (symm_of_psd psd) q hq hn
  refine ⟨a1, a2, fun i => ?_, ord, ?_⟩
  · exact lam_ge oV eH (by rw [zero_smul, sub_zero]; exact psd) i
  · dsimp only
    conv_lhs => rw [eA, eH]
    simp only [Matrix.mul_assoc]

omit hb ha in
/-- **C134 violated, general branch, rank deficient matrices:** whatever the iterations and `eigh`, the left factor is not orthonormal. -/
theorem svdGeneral_singular_violated (o : EighOps) (ho : EighOk o) (P lmin : ℕ) (i : Fin n) (hi : s i = 0)
    (x : SvdRes m n n × List EighNode) (hx : svdGeneral o P lmin U (W * Matrix.diagonal s * Zᵀ) = some x) : x.1.Uᵀ * x.1.U ≠ 1 := by
  have e0 : (1 / alpha) • (W * Matrix.diagonal s * Zᵀ) = W * Matrix.diagonal (fun i => s i / alpha) * Zᵀ := by
    rw [← Matrix.smul_mul, ← Matrix.mul_smul, ← diagonal_smul]
    congr 3
    funext i; simp only [Pi.smul_apply, smul_eq_mul]; ring
  rw [e0] at h
  have hU := zolo_run r hr cs hd hinj W Z hW hZ _ U h
  have hz : zoloAll r cs (s i / alpha) = 0 := by
    rw [hi, zero_div]
    clear hd hinj h hx hU
    induction cs with
    | nil => rfl
    | cons c cs ih =>
      unfold zoloAll
      rw [List.foldl_cons]
      have : zoloEll r c.1 c.2 0 = 0 := by simp [zoloEll]
      rw [this]
      exact ih
  have hsym : (polarH U (W * Matrix.diagonal s * Zᵀ)).IsSymm := by
    unfold polarH Matrix.IsSymm
    rw [transpose_smul, transpose_add, transpose_transpose, add_comm]
  unfold svdGeneral at hx
  rw [Option.map_eq_some_iff] at hx
  obtain ⟨q, hq, rfl⟩ := hx
  have oV := (eigh_residual o ho P 0 lmin 0 n _ hsym q hq).1
  intro hc
  have oV' : q.V * q.Vᵀ = 1 := mul_eq_one_comm.mp oV
  have oU : Uᵀ * U = 1 := by
    have := congrArg (fun M => q.V * M * q.Vᵀ) hc
    dsimp only at this
    rw [transpose_mul, Matrix.mul_one, oV'] at this
    calc Uᵀ * U = (q.V * q.Vᵀ) * (Uᵀ * U) * (q.V * q.Vᵀ) := by rw [oV', Matrix.one_mul, Matrix.mul_one]
      _ = q.V * (q.Vᵀ * Uᵀ * (U * q.V)) * q.Vᵀ := by simp only [Matrix.mul_assoc]
      _ = 1 := this
  have hd2 : Matrix.diagonal (fun i => zoloAll r cs (s i / alpha) * zoloAll r cs (s i / alpha)) = (1 : RMat n) := by
    rw [← diagonal_mul_diagonal]
    rw [hU, transpose_mul, transpose_mul, transpose_transpose, diagonal_transpose] at oU
    have := congrArg (fun M => Zᵀ * M * Z) oU
    rw [Matrix.mul_one, hZ] at this
    rw [← this]
    set D := Matrix.diagonal (fun i => zoloAll r cs (s i / alpha))
    calc D * D = (Zᵀ * Z) * D * (Wᵀ * W) * D * (Zᵀ * Z) := by rw [hZ, hW]; simp
      _ = _ := by simp only [Matrix.mul_assoc]
  have := congrFun (congrFun hd2 i) i
  rw [diagonal_apply_eq, hz, one_apply_eq] at this
  norm_num at this

end

/-- **C134 violated, general branch, orthogonal matrices:** for a positive multiple of a matrix with orthonormal columns the converged `polar` returns a multiple of the identity as `H`; on several
processes `eigh` shifts it to zero, and the `polar` it calls divides zero by zero. -/
theorem svdGeneral_orthogonal_violated {m n : ℕ} (hn : 0 < n) (r : ℕ) (hr : 0 < r) (cs : List ((ℕ → ℝ) × (ℕ → ℝ))) (hb : ∀ c ∈ cs, ∀ j < r, 0 < c.1 j) (hd : ∀ c ∈ cs, ∀ j < r, 0 < c.2 j)
    (hinj : ∀ c ∈ cs, ∀ i < r, ∀ j < r, c.2 i = c.2 j → i = j) (W : Matrix (Fin m) (Fin n) ℝ) (hW : Wᵀ * W = 1) (c : ℝ) (hc : 0 < c) (alpha : ℝ) (ha : 0 < alpha)
    (U : Matrix (Fin m) (Fin n) ℝ) (h : ZoloRun r cs ((1 / alpha) • (c • W)) U) (h1 : zoloAll r cs (c / alpha) = 1) :
    polarH U (c • W) = c • (1 : RMat n) ∧ polarStart (polarH U (c • W) - medianDiag (polarH U (c • W)) • (1 : RMat n)) = none := by
  have hA : c • W = W * Matrix.diagonal (fun _ => c) * (1 : RMat n)ᵀ := by
    have : Matrix.diagonal (fun _ : Fin n => c) = c • (1 : RMat n) := by ext i j; by_cases h : i = j <;> simp [h, one_apply]
    rw [this, transpose_one, Matrix.mul_one, Matrix.mul_smul, Matrix.mul_one]
  rw [hA] at h
  obtain ⟨hU, _, hH, g⟩ := polar_partial r hr cs hb hd hinj W 1 hW (by simp) (fun _ => c) (fun _ => hc) alpha ha U h
  have e : polarH U (c • W) = c • (1 : RMat n) := by
    have hU1 : U = W := by
      rw [hU]
      simp [h1]
    rw [hA, hH, ← hA, hU1, Matrix.mul_smul, hW]
  exact ⟨e, by rw [e]; exact eigh_scalar_violated n c hn⟩

/-- **C134, wide matrices:** the decomposition of the transposed matrix, exchanged and transposed, is one of the matrix. -/
theorem svdWide_partial {m n : ℕ} (o : EighOps) (P lmin : ℕ) (U : Matrix (Fin n) (Fin m) ℝ) (A : Matrix (Fin m) (Fin n) ℝ)
    (hg : ∀ x, svdGeneral o P lmin U Aᵀ = some x → IsSvd Aᵀ x.1) (x : SvdRes m n m × List EighNode) (hx : svdWide o P lmin U A = some x) : IsSvd A x.1 := by
  unfold svdWide at hx
  rw [Option.map_eq_some_iff] at hx
  obtain ⟨y, hy, rfl⟩ := hx
  obtain ⟨a, b, c, d, e⟩ := hg y hy
  refine ⟨?_, ?_, c, d, ?_⟩
  · dsimp only; rw [transpose_transpose]; exact b
  · dsimp only; rw [transpose_transpose]; exact a
  · dsimp only
    have := congrArg Matrix.transpose e
    rw [transpose_transpose, transpose_mul, transpose_mul, diagonal_transpose] at this
    rw [this, Matrix.mul_assoc]

/-- The hypotheses are met by a run with an iteration of `polar` that changes the singular values and with a division in `eigh`: the matrix `diag(3, 1)` on two processes. -/
theorem svdGeneral_example : ∃ (cs : List ((ℕ → ℝ) × (ℕ → ℝ))) (U : RMat 2) (o : EighOps) (x : SvdRes 2 2 2 × List EighNode), cs.length = 1 ∧
    ZoloRun 1 cs ((1 / 3 : ℝ) • ((1 : RMat 2) * Matrix.diagonal ![3, 1] * (1 : RMat 2)ᵀ)) U ∧ (∀ c ∈ cs, ∀ j < 1, 0 < c.1 j ∧ 0 < c.2 j) ∧ (∀ i, zoloAll 1 cs ((![3, 1] : Fin 2 → ℝ) i / 3) = 1) ∧
    EighOk o ∧ svdGeneral o 2 1 U ((1 : RMat 2) * Matrix.diagonal ![3, 1] * (1 : RMat 2)ᵀ) = some x ∧ x.2.length = 1 ∧ ∀ nd ∈ x.2, NodeExact nd ∧ nd.converged = true := by
  have hs : Real.sqrt (1 / 9) = 1 / 3 := by
    rw [show (1 / 9 : ℝ) = (1 / 3) ^ 2 by norm_num]; exact Real.sqrt_sq (by norm_num)
  have p10 : Real.sqrt 10 * Real.sqrt 10 = 10 := Real.mul_self_sqrt (by norm_num)
  have p2 : Real.sqrt 2 * Real.sqrt 2 = 2 := Real.mul_self_sqrt (by norm_num)
  have n10 : Real.sqrt 10 ≠ 0 := by intro h; rw [h] at p10; norm_num at p10
  have n2 : Real.sqrt 2 ≠ 0 := by intro h; rw [h] at p2; norm_num at p2
  have eX : (1 / 3 : ℝ) • ((1 : RMat 2) * Matrix.diagonal ![3, 1] * (1 : RMat 2)ᵀ) = Matrix.diagonal ![1, 1 / 3] := by
    ext i j; fin_cases i <;> fin_cases j <;> simp
  have hrun := ZoloRun.step (r := 1) (fun _ => 11 / 9) (fun _ => 1 / 9) [] ((1 / 3 : ℝ) • ((1 : RMat 2) * Matrix.diagonal ![3, 1] * (1 : RMat 2)ᵀ)) _
    (fun _ => Matrix.diagonal ![3 / Real.sqrt 10, 1 / Real.sqrt 2]) (fun _ => Matrix.diagonal ![1 / Real.sqrt 10, 1 / Real.sqrt 2]) (fun _ => Matrix.diagonal ![Real.sqrt 10 / 3, Real.sqrt 2 / 3])
    (by
      intro j _
      rw [eX, diagonal_mul_diagonal]
      congr 1; funext i; fin_cases i <;> simp <;> field_simp)
    (by
      intro j _
      rw [hs, diagonal_mul_diagonal]
      ext i j; fin_cases i <;> fin_cases j <;> simp <;> field_simp)
    (by
      intro j _
      rw [diagonal_transpose, diagonal_transpose, diagonal_mul_diagonal, diagonal_mul_diagonal, diagonal_add]
      ext i j; fin_cases i <;> fin_cases j <;> simp <;> field_simp <;> nlinarith)
    (ZoloRun.done _)
  have h1 : ∀ i, zoloAll 1 [(fun _ => 11 / 9, fun _ => 1 / 9)] ((![3, 1] : Fin 2 → ℝ) i / 3) = 1 := by
    intro i; fin_cases i <;> simp [zoloAll, zoloEll, zoloM] <;> norm_num
  have hpos : ∀ c ∈ [((fun _ => 11 / 9, fun _ => 1 / 9) : (ℕ → ℝ) × (ℕ → ℝ))], ∀ j < 1, 0 < c.1 j ∧ 0 < c.2 j := by
    intro c hc j _; rw [List.mem_singleton] at hc; subst hc; constructor <;> norm_num
  obtain ⟨hU, _, hH, _⟩ := polar_partial 1 (by norm_num) _ (fun c hc j hj => (hpos c hc j hj).1) (fun c hc j hj => (hpos c hc j hj).2) (fun c _ i hi j hj _ => by omega) (1 : RMat 2) 1 (by simp) (by simp)
    ![3, 1] (by intro i; fin_cases i <;> simp) 3 (by norm_num) _ hrun
  obtain ⟨o, A, r, ho, hA, _, hr, hl, hn⟩ := eigh_example
  have hU1 : (1 : RMat 2) * Matrix.diagonal (fun i => zoloAll 1 [(fun _ => 11 / 9, fun _ => 1 / 9)] ((![3, 1] : Fin 2 → ℝ) i / 3)) * (1 : RMat 2)ᵀ = 1 := by
    simp only [h1]; simp
  rw [hU1] at hU
  rw [hU] at hrun hH
  refine ⟨_, 1, o, (⟨1 * r.V, r.lam, r.Vᵀ⟩, r.nodes), rfl, hrun, hpos, h1, ho, ?_, hl, fun nd hnd => ⟨(hn nd hnd).1, (hn nd hnd).2.1⟩⟩
  unfold svdGeneral
  rw [hH]
  simp only [transpose_one, Matrix.one_mul, Matrix.mul_one]
  rw [← hA, hr]
  rfl

end Heat
