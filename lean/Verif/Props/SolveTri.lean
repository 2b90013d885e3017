import Verif.Model.SolveTri
import Verif.Props.QrCols
import Mathlib.LinearAlgebra.Matrix.Block
import Mathlib.Tactic.NormNum
import Mathlib.Tactic.IntervalCases
/-!
# `solve_triangular` (C125)
-/
namespace Heat
open Spec Finset
variable {K : Type} [CommRing K]

/-- What the local solver does: it solves upper triangular systems whose diagonal has no zero. -/
def TriOk (solve : TriSolver K) : Prop :=
  ∀ (c : Nat) (U y : Nat → Nat → K), (∀ a < c, ∀ j < a, U a j = 0) → (∀ a < c, U a a ≠ 0) → ∀ a < c, ∀ k, ∑ j ∈ range c, U a j * solve c U y j k = y a k

/-- Over a field there is such a solver. -/
theorem triOk_exists (F : Type) [Field F] : ∃ solve : TriSolver F, TriOk solve := by
  have h : ∀ (c : Nat) (U y : Nat → Nat → F), ∃ x : Nat → Nat → F, (∀ a < c, ∀ j < a, U a j = 0) → (∀ a < c, U a a ≠ 0) → ∀ a < c, ∀ k, ∑ j ∈ range c, U a j * x j k = y a k := by
    intro c U y
    by_cases ht : (∀ a < c, ∀ j < a, U a j = 0) ∧ (∀ a < c, U a a ≠ 0)
    · obtain ⟨h1, h2⟩ := ht
      let M : Matrix (Fin c) (Fin c) F := fun i j => U i j
      have hM : M.BlockTriangular id := by
        intro i j hij
        exact h1 i i.2 j hij
      have hd : IsUnit M.det := by
        rw [Matrix.det_of_upperTriangular hM, isUnit_iff_ne_zero, prod_ne_zero_iff]
        intro i _
        exact h2 i i.2
      refine ⟨fun j k => if h : j < c then (M⁻¹.mulVec (fun i => y i k)) ⟨j, h⟩ else 0, fun _ _ a ha k => ?_⟩
      have e : M.mulVec (M⁻¹.mulVec (fun i : Fin c => y i k)) = fun i : Fin c => y i k := by
        rw [Matrix.mulVec_mulVec, Matrix.mul_nonsing_inv _ hd, Matrix.one_mulVec]
      have := congrFun e ⟨a, ha⟩
      rw [Matrix.mulVec, dotProduct] at this
      rw [sum_range]
      rw [← this]
      refine sum_congr rfl fun j _ => ?_
      simp [M]
    · refine ⟨fun _ _ => 0, fun h1 h2 => absurd ⟨h1, h2⟩ ht⟩
  choose f hf using h
  exact ⟨fun c U y => f c U y, hf⟩

/-- A pass, with the entries of the matrix by blocks. -/
def absPass (solve : TriSolver K) (c : Nat → Nat) (G : Nat → Nat → Nat → Nat → K) (st : TriState K) (i : Nat) : TriState K :=
  let xi := solve (c i) (fun a j => G i a i j) (st.bt i)
  ⟨fun r a k => if r < i then st.bt r a k - ∑ j ∈ range (c i), G r a i j * xi j k else st.bt r a k, fun r => if r = i then xi else st.x r⟩

/-- The state after the passes down to `m + 1`. -/
structure TriInv (P : Nat) (c : Nat → Nat) (G : Nat → Nat → Nat → Nat → K) (b : Nat → Nat → Nat → K) (m : Nat) (st : TriState K) : Prop where
  rest : ∀ r ≤ m, ∀ a k, st.bt r a k = b r a k - ∑ q ∈ Ico (m + 1) P, ∑ j ∈ range (c q), G r a q j * st.x q j k
  done : ∀ r, m < r → r < P → ∀ a < c r, ∀ k, ∑ q ∈ Ico r P, ∑ j ∈ range (c q), G r a q j * st.x q j k = b r a k

theorem absPass_inv (solve : TriSolver K) (hs : TriOk solve) {P m : Nat} {c : Nat → Nat} {G : Nat → Nat → Nat → Nat → K} {b : Nat → Nat → Nat → K} (hm : m + 1 < P)
    (ht : ∀ a < c (m + 1), ∀ j < a, G (m + 1) a (m + 1) j = 0) (hd : ∀ a < c (m + 1), G (m + 1) a (m + 1) a ≠ 0) (st : TriState K) (inv : TriInv P c G b (m + 1) st) :
    TriInv P c G b m (absPass solve c G st (m + 1)) := by
  have sol := hs (c (m + 1)) (fun a j => G (m + 1) a (m + 1) j) (st.bt (m + 1)) ht hd
  have old : ∀ r a s k, m + 1 < s → ∑ q ∈ Ico s P, ∑ j ∈ range (c q), G r a q j * (absPass solve c G st (m + 1)).x q j k = ∑ q ∈ Ico s P, ∑ j ∈ range (c q), G r a q j * st.x q j k := by
    intro r a s k hsm
    refine sum_congr rfl fun q hq => ?_
    rw [mem_Ico] at hq
    refine sum_congr rfl fun j _ => ?_
    unfold absPass
    dsimp only
    rw [if_neg (by omega)]
  have new : ∀ j k, (absPass solve c G st (m + 1)).x (m + 1) j k = solve (c (m + 1)) (fun a j => G (m + 1) a (m + 1) j) (st.bt (m + 1)) j k := by
    intro j k
    unfold absPass
    dsimp only
    rw [if_pos rfl]
  constructor
  · intro r hr a k
    rw [sum_eq_sum_Ico_succ_bot hm, old r a (m + 1 + 1) k (by omega)]
    have h1 := inv.rest r (by omega) a k
    have h2 : (absPass solve c G st (m + 1)).bt r a k = st.bt r a k - ∑ j ∈ range (c (m + 1)), G r a (m + 1) j * solve (c (m + 1)) (fun a j => G (m + 1) a (m + 1) j) (st.bt (m + 1)) j k := by
      unfold absPass
      dsimp only
      rw [if_pos (by omega)]
    rw [h2, h1]
    simp only [new]
    ring
  · intro r hr hrP a ha k
    rcases Nat.lt_or_ge (m + 1) r with h | h
    · rw [old r a r k h]
      exact inv.done r h hrP a ha k
    · have : r = m + 1 := by omega
      subst this
      rw [sum_eq_sum_Ico_succ_bot hm, old _ a (m + 1 + 1) k (by omega)]
      simp only [new]
      rw [sol a ha k, inv.rest (m + 1) (Nat.le_refl _) a k]
      ring

theorem triLoop_inv (solve : TriSolver K) (hs : TriOk solve) {P : Nat} {c : Nat → Nat} {G : Nat → Nat → Nat → Nat → K} {b : Nat → Nat → Nat → K} (pass : TriState K → Nat → Option (TriState K))
    (hp : ∀ st i, 0 < i → i < P → pass st i = some (absPass solve c G st i)) (ht : ∀ i < P, ∀ a < c i, ∀ j < a, G i a i j = 0) (hd : ∀ i < P, ∀ a < c i, G i a i a ≠ 0) :
    ∀ m, m < P → ∀ st, TriInv P c G b m st → ∃ st', triLoop pass m st = some st' ∧ TriInv P c G b 0 st' := by
  intro m
  induction m with
  | zero => exact fun _ st inv => ⟨st, rfl, inv⟩
  | succ m ih =>
    intro hm st inv
    rw [triLoop, hp st (m + 1) (by omega) hm, Option.bind_some]
    exact ih (by omega) _ (absPass_inv solve hs hm (ht _ hm) (hd _ hm) st inv)

/-- The result of the loop and of the last block solves the system. -/
theorem tri_main (solve : TriSolver K) (hs : TriOk solve) {P : Nat} (hP : 0 < P) {c : Nat → Nat} {G : Nat → Nat → Nat → Nat → K} {b : Nat → Nat → Nat → K} (pass : TriState K → Nat → Option (TriState K))
    (hp : ∀ st i, 0 < i → i < P → pass st i = some (absPass solve c G st i)) (htri : ∀ r < P, ∀ q < P, ∀ a < c r, ∀ j < c q, colOff c q + j < colOff c r + a → G r a q j = 0)
    (hd : ∀ i < P, ∀ a < c i, G i a i a ≠ 0) :
    ∃ x, (triLoop pass (P - 1) ⟨b, fun _ _ _ => 0⟩).map (fun st r => if r = 0 then solve (c 0) (fun a j => G 0 a 0 j) (st.bt 0) else st.x r) = some x ∧
      ∀ r < P, ∀ a < c r, ∀ k, ∑ q ∈ range P, ∑ j ∈ range (c q), G r a q j * x q j k = b r a k := by
  have ht : ∀ i < P, ∀ a < c i, ∀ j < a, G i a i j = 0 := fun i hi a ha j hj => htri i hi i hi a ha j (by omega) (by omega)
  obtain ⟨st, e, inv⟩ := triLoop_inv solve hs (b := b) pass hp ht hd (P - 1) (by omega) ⟨b, fun _ _ _ => 0⟩ (by
    constructor
    · intro r hr a k
      rw [show P - 1 + 1 = P by omega]
      simp
    · intro r h1 h2
      omega)
  rw [e, Option.map_some]
  refine ⟨_, rfl, ?_⟩
  intro r hr a ha k
  have hz : ∑ q ∈ range r, ∑ j ∈ range (c q), G r a q j * (if q = 0 then solve (c 0) (fun a j => G 0 a 0 j) (st.bt 0) else st.x q) j k = 0 := by
    refine sum_eq_zero fun q hq => sum_eq_zero fun j hj => ?_
    rw [mem_range] at hq hj
    have h0 := colOff_mono c (show q + 1 ≤ r by omega)
    rw [colOff_succ] at h0
    rw [htri r hr q (by omega) a ha j hj (by omega), zero_mul]
  rw [range_eq_Ico, ← sum_Ico_consecutive _ (Nat.zero_le r) (Nat.le_of_lt hr), ← range_eq_Ico, hz, zero_add]
  have old : ∀ s, 0 < s → ∑ q ∈ Ico s P, ∑ j ∈ range (c q), G r a q j * (if q = 0 then solve (c 0) (fun a j => G 0 a 0 j) (st.bt 0) else st.x q) j k = ∑ q ∈ Ico s P, ∑ j ∈ range (c q), G r a q j * st.x q j k := by
    intro s h0
    refine sum_congr rfl fun q hq => ?_
    rw [mem_Ico] at hq
    rw [if_neg (by omega)]
  rcases Nat.eq_zero_or_pos r with h0 | h0
  · subst h0
    rw [sum_eq_sum_Ico_succ_bot hP, old 1 (by omega), if_pos rfl, hs (c 0) (fun a j => G 0 a 0 j) (st.bt 0) (ht 0 hP) (hd 0 hP) a ha k, inv.rest 0 (Nat.le_refl _) a k]
    ring
  · rw [old r h0]
    exact inv.done r h0 hr a ha k

/-- **C125** (`_partial`: the layout of `A` and `b` is the one of a new array, that is balanced): `solve_triangular` of a matrix split along the columns. -/
theorem triCols_partial (solve : TriSolver K) (hs : TriOk solve) {n P : Nat} (hP : 0 < P) {c cx : Nat → Nat} (hc : ∀ r < P, cx r = c r) (hn : colOff c P = n) (A b : Nat → Nat → Nat → K)
    (htri : ∀ q < P, ∀ j < c q, ∀ g < n, colOff c q + j < g → A q g j = 0) (hd : ∀ q < P, ∀ j < c q, A q (colOff c q + j) j ≠ 0) :
    ∃ x, triCols solve n P c cx A b = some x ∧
      ∀ r < P, ∀ a < c r, ∀ k, ∑ q ∈ range P, ∑ j ∈ range (c q), A q (colOff c r + a) j * x q j k = b r a k := by
  have hle : ∀ r < P, colOff c r + c r ≤ n := by
    intro r hr
    have := colOff_mono c (show r + 1 ≤ P by omega)
    rw [colOff_succ] at this
    omega
  have := tri_main solve hs hP (c := c) (G := fun r a q j => A q (colOff c r + a) j) (b := b) (triPassCols solve n c cx A) (by
    intro st i h0 hi
    unfold triPassCols absPass
    dsimp only
    rw [if_pos]
    · congr 2
      funext r a k
      by_cases h : r < i
      · rw [if_pos h, if_pos h, if_pos (hc r (by omega))]
      · rw [if_neg h, if_neg h]
    · intro r hr
      have := hle r (by omega)
      exact ⟨Or.inl (hc r (by omega)), by rw [hc r (by omega)]; exact this⟩)
    (fun r hr q hq a ha j hj h => htri q hq j hj _ (by have := hle r hr; omega) h) (fun i hi a ha => hd i hi a ha)
  obtain ⟨x, e, h⟩ := this
  refine ⟨x, ?_, h⟩
  rw [← e]
  unfold triCols
  congr 1
  funext st r
  simp [colOff]

/-- **C125** (`_partial`: balanced layout): `solve_triangular` of a matrix split along the rows. -/
theorem triRows_partial (solve : TriSolver K) (hs : TriOk solve) {P : Nat} (hP : 0 < P) {c cx : Nat → Nat} (hc : ∀ r < P, cx r = c r) (A b : Nat → Nat → Nat → K)
    (htri : ∀ r < P, ∀ a < c r, ∀ g < colOff c r + a, A r a g = 0) (hd : ∀ r < P, ∀ a < c r, A r a (colOff c r + a) ≠ 0) :
    ∃ x, triRows solve P c cx A b = some x ∧
      ∀ r < P, ∀ a < c r, ∀ k, ∑ q ∈ range P, ∑ j ∈ range (c q), A r a (colOff c q + j) * x q j k = b r a k := by
  have := tri_main solve hs hP (c := c) (G := fun r a q j => A r a (colOff c q + j)) (b := b) (triPassRows solve c cx A) (by
    intro st i h0 hi
    unfold triPassRows absPass
    dsimp only
    rw [if_pos (hc i hi)])
    (fun r hr q hq a ha j hj h => htri r hr a ha _ h) (fun i hi a ha => hd i hi a ha)
  obtain ⟨x, e, h⟩ := this
  refine ⟨x, ?_, h⟩
  rw [← e]
  unfold triRows
  congr 1
  funext st r
  simp [colOff]

/-- **C125** (`_partial`: balanced layout, data of torch's default type): a matrix that is not split. -/
theorem triWhole_partial (solve : TriSolver K) (hs : TriOk solve) {n k P : Nat} (hP : 0 < P) {c cx : Nat → Nat} (hc : ∀ r < P, cx r = c r) (hn : colOff c P = n) (A : Nat → Nat → K) (b : Nat → Nat → Nat → K)
    (htri : ∀ g < n, ∀ h < g, A g h = 0) (hd : ∀ g < n, A g g ≠ 0) :
    ∃ x, triWhole solve true n k P c cx A b = some x ∧
      ∀ r < P, ∀ a < c r, ∀ k, ∑ q ∈ range P, ∑ j ∈ range (c q), A (colOff c r + a) (colOff c q + j) * x q j k = b r a k := by
  have hle : ∀ r < P, colOff c r + c r ≤ n := by
    intro r hr
    have := colOff_mono c (show r + 1 ≤ P by omega)
    rw [colOff_succ] at this
    omega
  unfold triWhole
  rw [if_pos (Or.inl rfl)]
  exact triCols_partial solve hs hP hc hn (fun r g j => A g (colOff c r + j)) b (fun q hq j hj g hg h => htri g hg _ h) (fun q hq j hj => hd _ (by have := hle q hq; omega))

/-- **C125** is violated for a matrix that is not split when the data is not of torch's default type (for example double precision): the receive buffers are too small. -/
theorem triWhole_double_violated (solve : TriSolver K) {n k P : Nat} (hk : 0 < k) (hP : 2 ≤ P) (hn : 0 < n) (c : Nat → Nat) (A : Nat → Nat → K) (b : Nat → Nat → Nat → K) :
    triWhole solve false n k P c (evenSize n P) A b = none := by
  unfold triWhole
  rw [if_neg]
  rintro (h | h | h | h)
  · cases h
  · omega
  · omega
  · have := h 0 (by omega)
    have hev : evenSize n P 0 = n / P + if 0 < n % P then 1 else 0 := rfl
    rw [hev] at this
    have h3 := Nat.div_add_mod n P
    generalize n / P = q at this h3
    generalize n % P = m at this h3
    have hq : q = 0 := by
      rcases Nat.eq_zero_or_pos q with h | h
      · exact h
      · omega
    subst hq
    rw [Nat.mul_zero, Nat.zero_add] at h3
    rw [h3, if_pos hn] at this
    omega

/-- **C125** is violated for arrays that are equally, but not evenly distributed: rows (2, 0, 1) on three processes. `A` has ones on the diagonal and at (0, 2), the right-hand side is (0, 0, 1): no error, and the result is (-1, -1, 1), not (-1, 0, 1), for every local solver. -/
theorem triCols_unbalanced_violated (solve : TriSolver ℚ) (hs : TriOk solve) :
    ∃ (c : Nat → Nat) (A b : Nat → Nat → Nat → ℚ) (x : Nat → Nat → Nat → ℚ), colOff c 3 = 3 ∧
      (∀ q < 3, ∀ j < c q, ∀ g < 3, colOff c q + j < g → A q g j = 0) ∧ (∀ q < 3, ∀ j < c q, A q (colOff c q + j) j ≠ 0) ∧
      triCols solve 3 3 c (evenSize 3 3) A b = some x ∧ ∑ q ∈ range 3, ∑ j ∈ range (c q), A q 1 j * x q j 0 = -1 ∧ b 0 1 0 = 0 := by
  let c : Nat → Nat := fun r => if r = 0 then 2 else if r = 1 then 0 else 1
  let A : Nat → Nat → Nat → ℚ := fun q g j => if q = 0 then (if g = j then 1 else 0) else if q = 2 then (if g = 0 ∨ g = 2 then 1 else 0) else 0
  let b : Nat → Nat → Nat → ℚ := fun r a k => if r = 2 then 1 else 0
  have hc0 : colOff c 0 = 0 := by decide
  have hc1 : colOff c 1 = 2 := by decide
  have hc2 : colOff c 2 = 2 := by decide
  have hc3 : colOff c 3 = 3 := by decide
  have hex0 : evenSize 3 3 0 = 1 := by decide
  have hex1 : evenSize 3 3 1 = 1 := by decide
  -- the passes
  obtain ⟨s2, e2⟩ : ∃ s2, s2 = solve 1 (fun a j => A 2 (2 + a) j) (b 2) := ⟨_, rfl⟩
  have v2 : ∀ k, s2 0 k = 1 := by
    intro k
    have := hs 1 (fun a j => A 2 (2 + a) j) (b 2) (fun a ha j hj => by omega) (fun a ha => by interval_cases a; simp [A]) 0 (by omega) k
    rw [← e2] at this
    simpa [A, b] using this
  obtain ⟨st1, p2⟩ : ∃ st1, triPassCols solve 3 c (evenSize 3 3) A ⟨b, fun _ _ _ => 0⟩ 2 = some st1 ∧ (∀ a k, st1.bt 0 a k = -1) ∧ st1.x 2 = s2 := by
    unfold triPassCols
    dsimp only
    rw [if_pos (by
      intro r hr
      interval_cases r
      · rw [hex0, hc0]
        exact ⟨Or.inr rfl, by omega⟩
      · rw [hex1, hc1]
        exact ⟨Or.inr rfl, by omega⟩)]
    refine ⟨_, rfl, ?_, ?_⟩
    · intro a k
      dsimp only
      rw [if_pos (by omega), hc0, hex0, if_neg (by decide), hc2, show c 2 = 1 by decide, ← e2]
      simp [v2 k, A, b]
    · dsimp only
      rw [if_pos rfl, hc2, show c 2 = 1 by decide, ← e2]
  obtain ⟨p2, bt1, x1⟩ := p2
  obtain ⟨st2, p1⟩ : ∃ st2, triPassCols solve 3 c (evenSize 3 3) A st1 1 = some st2 ∧ (∀ a k, st2.bt 0 a k = -1) ∧ st2.x 2 = s2 := by
    unfold triPassCols
    dsimp only
    rw [if_pos (by
      intro r hr
      interval_cases r
      rw [hex0, hc0]
      exact ⟨Or.inr rfl, by omega⟩)]
    refine ⟨_, rfl, ?_, ?_⟩
    · intro a k
      dsimp only
      rw [if_pos (by omega), show c 1 = 0 by decide, bt1 a k]
      simp
    · dsimp only
      rw [if_neg (by omega), x1]
  obtain ⟨p1, bt2, x2⟩ := p1
  have h0 : ∀ a < 2, ∀ k, ∑ j ∈ range 2, A 0 a j * solve 2 (fun a j => A 0 a j) (st2.bt 0) j k = -1 := by
    intro a ha k
    rw [hs 2 (fun a j => A 0 a j) (st2.bt 0) (fun a _ j hj => by simp [A]; omega) (fun a _ => by simp [A]) a ha k, bt2]
  refine ⟨c, A, b, fun r => if r = 0 then solve (c 0) (fun a j => A 0 a j) (st2.bt 0) else st2.x r, hc3, ?_, ?_, ?_, ?_, by simp [b]⟩
  · intro q hq j hj g hg h
    interval_cases q
    · rw [hc0] at h
      simp [A]
      omega
    · simp [A]
    · rw [hc2] at h
      omega
  · intro q hq j hj
    interval_cases q
    · simp [A, hc0]
    · simp [c] at hj
    · have : j = 0 := by simpa [c] using hj
      subst this
      simp [A, hc2]
  · unfold triCols
    rw [show (3 : Nat) - 1 = 1 + 1 by rfl, triLoop, p2, Option.bind_some, triLoop, p1, Option.bind_some, triLoop, Option.map_some]
  · rw [sum_range_succ, sum_range_succ, sum_range_succ, range_zero, sum_empty, zero_add]
    dsimp only
    rw [show c 0 = 2 by decide, show c 1 = 0 by decide, show c 2 = 1 by decide, if_pos rfl, h0 1 (by omega) 0]
    simp [A]

/-- **C125**: what `solve_triangular` accepts. -/
theorem triCheck_spec (shA shB : List Nat) (spA spB : Option Nat) (same : Bool) (br : TriBranch) (h : triCheck shA shB spA spB same = .ok br) :
    2 ≤ shA.length ∧ shB.length = shA.length ∧ shA.take (shA.length - 2) = shB.take (shA.length - 2) ∧ shA.getD (shA.length - 2) 0 = shA.getD (shA.length - 1) 0 ∧
      shB.getD (shA.length - 2) 0 = shA.getD (shA.length - 1) 0 ∧ spB ≠ some (shA.length - 1) ∧
      ((∃ s ∈ spA, s < shA.length - 2) ∨ (∃ s ∈ spB, s < shA.length - 2) → spA = spB ∧ br = .batch) ∧
      (br = .batch → spA = spB ∧ ∃ s ∈ spA, s < shA.length - 2) ∧
      (br = .cols → ∃ s, spA = some s ∧ s = shA.length - 1) ∧ (br = .whole → spA = none ∧ spB.isSome) ∧ (br = .loc → spA = none ∧ spB = none) ∧
      (br = .cols ∨ br = .rows → spB.isSome → same = true) := by
  unfold triCheck at h
  dsimp only at h
  by_cases h1 : shA.length < 2
  · rw [if_pos h1] at h; cases h
  rw [if_neg h1] at h
  by_cases h2 : shB.length ≠ shA.length
  · rw [if_pos h2] at h; cases h
  rw [if_neg h2] at h
  by_cases h3 : shA.getD (shA.length - 2) 0 ≠ shA.getD (shA.length - 2 + 1) 0
  · rw [if_pos h3] at h; cases h
  rw [if_neg h3] at h
  by_cases h4 : shA.take (shA.length - 2) ≠ shB.take (shA.length - 2)
  · rw [if_pos h4] at h; cases h
  rw [if_neg h4] at h
  by_cases h5 : spB = some (shA.length - 2 + 1)
  · rw [if_pos h5] at h; cases h
  rw [if_neg h5] at h
  by_cases h6 : shB.getD (shA.length - 2) 0 ≠ shA.getD (shA.length - 2 + 1) 0
  · rw [if_pos h6] at h; cases h
  rw [if_neg h6] at h
  have hd : shA.length - 2 + 1 = shA.length - 1 := by omega
  rw [hd] at h3 h5 h6
  refine ⟨by omega, not_not.1 h2, not_not.1 h4, not_not.1 h3, not_not.1 h6, h5, ?_⟩
  by_cases h7 : (∃ s ∈ spA, s < shA.length - 2) ∨ (∃ s ∈ spB, s < shA.length - 2)
  · rw [if_pos h7] at h
    by_cases h8 : spA ≠ spB
    · rw [if_pos h8] at h; cases h
    rw [if_neg h8] at h
    simp only [Except.ok.injEq] at h
    subst h
    have h9 := not_not.1 h8
    subst h9
    exact ⟨fun _ => ⟨rfl, rfl⟩, fun _ => ⟨rfl, by rcases h7 with h | h <;> exact h⟩, by simp, by simp, by simp, by simp⟩
  · rw [if_neg h7] at h
    by_cases h8 : spA.isSome ∧ spB.isSome ∧ same = false
    · rw [if_pos h8] at h; cases h
    rw [if_neg h8] at h
    refine ⟨fun h => absurd h h7, ?_⟩
    cases spA with
    | none =>
      simp only [Except.ok.injEq] at h
      subst h
      cases spB <;> simp
    | some s =>
      simp only [Except.ok.injEq] at h
      subst h
      by_cases h9 : s = shA.length - 2 + 1
      · rw [if_pos h9]
        refine ⟨by simp, fun _ => ⟨s, rfl, by omega⟩, by simp, by simp, fun _ hb => ?_⟩
        cases same <;> simp_all
      · rw [if_neg h9]
        refine ⟨by simp, by simp, by simp, by simp, fun _ hb => ?_⟩
        cases same <;> simp_all

/-- A right-hand side split along the rows, the matrix along the columns, is accepted. -/
example : triCheck [5, 5] [5, 2] (some 1) (some 0) true = .ok .cols := by decide

/-- The hypotheses of `triCols_partial` are met by a 3 by 3 matrix on two processes. -/
example : ∃ x, triCols (Classical.choose (triOk_exists ℚ)) 3 2 (fun r => if r = 0 then 2 else 1) (fun r => if r = 0 then 2 else 1)
    (fun q g j => if g ≤ colOff (fun r => if r = 0 then 2 else 1) q + j then 2 else 0) (fun _ _ _ => 1) = some x := by
  obtain ⟨x, e, -⟩ := triCols_partial (Classical.choose (triOk_exists ℚ)) (Classical.choose_spec (triOk_exists ℚ)) (n := 3) (P := 2) (by omega) (c := fun r => if r = 0 then 2 else 1) (cx := fun r => if r = 0 then 2 else 1)
    (fun _ _ => rfl) (by decide) (fun q g j => if g ≤ colOff (fun r => if r = 0 then 2 else 1) q + j then 2 else 0) (fun _ _ _ => 1)
    (fun q _ j _ g _ h => by rw [if_neg (by omega)]) (fun q _ j _ => by simp)
  exact ⟨x, e⟩

end Heat
