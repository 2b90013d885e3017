import Verif.Model.NaivePredict
import Verif.Props.Naive
/-!
# C100: `GaussianNB.predict` and `predict_proba`
-/
namespace Heat
open Spec Real

theorem foldl_max_mem (l : List ℝ) (a : ℝ) : l.foldl max a = a ∨ l.foldl max a ∈ l := by
  induction l generalizing a with
  | nil => simp
  | cons b t ih =>
    rw [List.foldl_cons]
    rcases ih (max a b) with h | h
    · rw [h]
      rcases max_choice a b with h' | h' <;> simp [h']
    · exact Or.inr (List.mem_cons_of_mem _ h)

theorem foldl_max_ge (l : List ℝ) (a : ℝ) : a ≤ l.foldl max a ∧ ∀ x ∈ l, x ≤ l.foldl max a := by
  induction l generalizing a with
  | nil => simp
  | cons b t ih =>
    rw [List.foldl_cons]
    obtain ⟨h1, h2⟩ := ih (max a b)
    refine ⟨le_trans (le_max_left _ _) h1, ?_⟩
    intro x hx
    rcases List.mem_cons.1 hx with rfl | hx
    · exact le_trans (le_max_right _ _) h1
    · exact h2 x hx

theorem rowMax_spec (a : List ℝ) (h : a ≠ []) : rowMax a ∈ a ∧ ∀ x ∈ a, x ≤ rowMax a := by
  cases a with
  | nil => exact absurd rfl h
  | cons b t =>
    obtain ⟨h1, h2⟩ := foldl_max_ge t b
    refine ⟨?_, ?_⟩
    · rcases foldl_max_mem t b with h | h
      · simp [rowMax, h]
      · exact List.mem_cons_of_mem _ h
    · intro x hx
      rcases List.mem_cons.1 hx with rfl | hx
      · exact h1
      · exact h2 x hx

/-- Shifting by the maximum does not change the result: it is the logarithm of the sum of the exponentials. -/
theorem logsumexp_spec (a : List ℝ) (h : a ≠ []) : nbLogSumExp a = Real.log ((a.map Real.exp).sum) := by
  unfold nbLogSumExp
  have hsum : (a.map Real.exp).sum = (a.map fun v => Real.exp (v - rowMax a)).sum * Real.exp (rowMax a) := by
    rw [← List.sum_map_mul_right]
    congr 1
    refine List.map_congr_left fun v _ => ?_
    rw [← Real.exp_add]; congr 1; ring
  have hpos : 0 < (a.map fun v => Real.exp (v - rowMax a)).sum := by
    refine List.sum_pos _ ?_ (by simpa using h)
    intro x hx
    obtain ⟨v, _, rfl⟩ := List.mem_map.1 hx
    exact Real.exp_pos _
  rw [hsum, Real.log_mul hpos.ne' (Real.exp_pos _).ne', Real.log_exp]

theorem normalDensity_pos (mu v x : ℝ) (hv : 0 < v) : 0 < normalDensity mu v x := by
  unfold normalDensity
  have := Real.pi_pos
  exact div_pos (Real.exp_pos _) (Real.sqrt_pos.2 (by positivity))

theorem log_normalDensity (mu v x : ℝ) (hv : 0 < v) : Real.log (normalDensity mu v x) = -(1 / 2) * Real.log (2 * Real.pi * v) - 1 / 2 * ((x - mu) ^ 2 / v) := by
  unfold normalDensity
  have hp := Real.pi_pos
  have h : 0 < 2 * Real.pi * v := by positivity
  rw [Real.log_div (Real.exp_pos _).ne' (Real.sqrt_pos.2 h).ne', Real.log_exp, Real.log_sqrt h.le]
  field_simp
  ring

/-- The score computed for a class is the logarithm of the joint density. -/
theorem jll_spec (st : NbState ℝ) (F : Nat) (x : Nat → ℝ) (c : Int) (hp : 0 < nbPrior st c) (hs : ∀ f < F, 0 < st.sigma c f) :
    Real.exp (nbJll st F x c) = jointDensity (nbPrior st c) (st.theta c) (st.sigma c) F x := by
  unfold nbJll jointDensity
  dsimp only
  rw [Real.exp_add, Real.exp_log hp]
  congr 1
  induction F with
  | zero => simp
  | succ n ih =>
    rw [List.range_succ]
    simp only [List.map_append, List.map_cons, List.map_nil, List.sum_append, List.prod_append, List.sum_cons, List.sum_nil, List.prod_cons, List.prod_nil, add_zero, mul_one]
    rw [← ih fun f hf => hs f (by omega)]
    have hn := log_normalDensity (st.theta c n) (st.sigma c n) (x n) (hs n (by omega))
    have hpos := normalDensity_pos (st.theta c n) (st.sigma c n) (x n) (hs n (by omega))
    rw [← Real.exp_log hpos, hn, ← Real.exp_add]
    congr 1
    ring

theorem jointDensity_pos (prior : ℝ) (mu v : Nat → ℝ) (F : Nat) (x : Nat → ℝ) (hp : 0 < prior) (hv : ∀ f < F, 0 < v f) : 0 < jointDensity prior mu v F x := by
  unfold jointDensity
  refine mul_pos hp (List.prod_pos ?_)
  intro y hy
  obtain ⟨f, hf, rfl⟩ := List.mem_map.1 hy
  exact normalDensity_pos _ _ _ (hv f (List.mem_range.1 hf))

/-- `predict_proba` is Bayes' rule: the joint density of the class divided by the sum over all classes. -/
theorem predict_proba_spec (st : NbState ℝ) (F : Nat) (x : Nat → ℝ) (c : Int) (hc : c ∈ st.classes)
    (hp : ∀ c ∈ st.classes, 0 < nbPrior st c) (hs : ∀ c ∈ st.classes, ∀ f < F, 0 < st.sigma c f) :
    nbProba st F x c = jointDensity (nbPrior st c) (st.theta c) (st.sigma c) F x
      / (st.classes.map fun c => jointDensity (nbPrior st c) (st.theta c) (st.sigma c) F x).sum := by
  unfold nbProba nbLogProba
  have hne : st.classes.map (nbJll st F x) ≠ [] := by
    intro h
    rw [List.map_eq_nil_iff] at h
    rw [h] at hc
    simp at hc
  have hsum : ((st.classes.map (nbJll st F x)).map Real.exp) = st.classes.map fun c => jointDensity (nbPrior st c) (st.theta c) (st.sigma c) F x := by
    rw [List.map_map]
    exact List.map_congr_left fun c hc => jll_spec st F x c (hp c hc) (hs c hc)
  have hpos : 0 < (st.classes.map fun c => jointDensity (nbPrior st c) (st.theta c) (st.sigma c) F x).sum := by
    refine List.sum_pos _ ?_ (by intro h; rw [List.map_eq_nil_iff] at h; rw [h] at hc; simp at hc)
    intro y hy
    obtain ⟨c, hc, rfl⟩ := List.mem_map.1 hy
    exact jointDensity_pos _ _ _ _ _ (hp c hc) (hs c hc)
  rw [logsumexp_spec _ hne, hsum, Real.exp_sub, Real.exp_log hpos, jll_spec st F x c (hp c hc) (hs c hc)]

/-- The probabilities of one sample are positive and sum to one. -/
theorem predict_proba_sum (st : NbState ℝ) (F : Nat) (x : Nat → ℝ) (hne : st.classes ≠ [])
    (hp : ∀ c ∈ st.classes, 0 < nbPrior st c) (hs : ∀ c ∈ st.classes, ∀ f < F, 0 < st.sigma c f) :
    (st.classes.map (nbProba st F x)).sum = 1 ∧ ∀ c ∈ st.classes, 0 < nbProba st F x c := by
  refine ⟨?_, fun c _ => Real.exp_pos _⟩
  have hpos : 0 < (st.classes.map fun c => jointDensity (nbPrior st c) (st.theta c) (st.sigma c) F x).sum := by
    refine List.sum_pos _ ?_ (by simpa using hne)
    intro y hy
    obtain ⟨c, hc, rfl⟩ := List.mem_map.1 hy
    exact jointDensity_pos _ _ _ _ _ (hp c hc) (hs c hc)
  have : st.classes.map (nbProba st F x) = (st.classes.map fun c => jointDensity (nbPrior st c) (st.theta c) (st.sigma c) F x
      * ((st.classes.map fun c => jointDensity (nbPrior st c) (st.theta c) (st.sigma c) F x).sum)⁻¹) := by
    refine List.map_congr_left fun c hc => ?_
    rw [predict_proba_spec st F x c hc hp hs, div_eq_mul_inv]
  rw [this, List.sum_map_mul_right, mul_inv_cancel₀ hpos.ne']

/-- `predict` returns a class of largest posterior probability, namely the first one in `classes_`. -/
theorem predict_spec (st : NbState ℝ) (F : Nat) (x : Nat → ℝ) (hne : st.classes ≠ [])
    (hp : ∀ c ∈ st.classes, 0 < nbPrior st c) (hs : ∀ c ∈ st.classes, ∀ f < F, 0 < st.sigma c f) :
    ∃ (k : Nat) (c : Int), nbPredict st F x = some c ∧ st.classes[k]? = some c ∧ (∀ d ∈ st.classes, nbProba st F x d ≤ nbProba st F x c) ∧
      ∀ (j : Nat) (d : Int), j < k → st.classes[j]? = some d → nbProba st F x d < nbProba st F x c := by
  have hne' : st.classes.map (nbJll st F x) ≠ [] := by simpa using hne
  obtain ⟨hm, hge⟩ := rowMax_spec _ hne'
  have hk : rowArgmax (st.classes.map (nbJll st F x)) < (st.classes.map (nbJll st F x)).length := by
    unfold rowArgmax
    exact List.findIdx_lt_length_of_exists ⟨_, hm, by simp⟩
  have hval : (st.classes.map (nbJll st F x))[rowArgmax (st.classes.map (nbJll st F x))] = rowMax (st.classes.map (nbJll st F x)) := by
    have := List.findIdx_getElem (w := hk) (p := fun v => decide (v = rowMax (st.classes.map (nbJll st F x))))
    exact of_decide_eq_true this
  have hk' : rowArgmax (st.classes.map (nbJll st F x)) < st.classes.length := by simpa using hk
  rw [List.getElem_map] at hval
  have hcmp : ∀ d e, nbJll st F x d ≤ nbJll st F x e → nbProba st F x d ≤ nbProba st F x e := by
    intro d e h
    unfold nbProba nbLogProba
    exact Real.exp_le_exp.2 (by linarith)
  have hcmp' : ∀ d e, nbJll st F x d < nbJll st F x e → nbProba st F x d < nbProba st F x e := by
    intro d e h
    unfold nbProba nbLogProba
    exact Real.exp_lt_exp.2 (by linarith)
  refine ⟨rowArgmax (st.classes.map (nbJll st F x)), st.classes[rowArgmax (st.classes.map (nbJll st F x))], ?_, ?_, ?_, ?_⟩
  · unfold nbPredict
    rw [List.getElem?_eq_getElem hk']
  · rw [List.getElem?_eq_getElem hk']
  · intro d hd
    refine hcmp _ _ ?_
    rw [hval]
    exact hge _ (List.mem_map.2 ⟨d, hd, rfl⟩)
  · intro j d hj hd
    refine hcmp' _ _ ?_
    rw [hval]
    obtain ⟨hj', rfl⟩ := List.getElem?_eq_some_iff.1 hd
    have hlt : ¬ (nbJll st F x st.classes[j] = rowMax (st.classes.map (nbJll st F x))) := by
      have := List.not_of_lt_findIdx (p := fun v => decide (v = rowMax (st.classes.map (nbJll st F x)))) (xs := st.classes.map (nbJll st F x)) (i := j) hj
      simpa using this
    exact lt_of_le_of_ne (hge _ (List.mem_map.2 ⟨_, List.getElem_mem hj', rfl⟩)) hlt

theorem wVar_nonneg (l : List (ℝ × ℝ)) (hw : ∀ p ∈ l, 0 ≤ p.2) : 0 ≤ wVar l := by
  unfold wVar wSum
  refine div_nonneg (List.sum_nonneg ?_) (List.sum_nonneg ?_)
  · intro y hy
    obtain ⟨p, hp, rfl⟩ := List.mem_map.1 hy
    exact mul_nonneg (hw p hp) (sq_nonneg _)
  · intro y hy
    obtain ⟨p, hp, rfl⟩ := List.mem_map.1 hy
    exact hw p hp

/-- With positive smoothing and at least one feature that is not constant over the data set, every fitted variance is positive, whatever the data: prediction never divides by zero. -/
theorem fit_sigma_pos (smoothing : ℝ) (F : Nat) (b : List (NbSample ℝ)) (hsm : 0 < smoothing) (hw : ∀ s ∈ b, 0 < s.w)
    (hv : ∃ f < F, 0 < wVar (b.map fun s => (s.x f, (1 : ℝ)))) :
    ∃ st, nbFit smoothing F none b = (some st, none) ∧ ∀ c ∈ st.classes, ∀ f, 0 < st.sigma c f := by
  obtain ⟨st, h1, h2, _, h3⟩ := fit_spec smoothing F none b hw (by simp)
  refine ⟨st, h1, ?_⟩
  intro c hc f
  rw [h2] at hc
  rw [((h3 c hc).2 f).2]
  refine add_pos_of_nonneg_of_pos (wVar_nonneg _ ?_) ?_
  · intro p hp
    obtain ⟨s, hs, rfl⟩ := List.mem_map.1 hp
    exact (hw s (List.mem_filter.1 hs).1).le
  · unfold nbEps
    refine mul_pos hsm ?_
    obtain ⟨g, hg, hpos⟩ := hv
    exact lt_of_lt_of_le hpos ((foldl_max_ge _ 0).2 _ (List.mem_map.2 ⟨g, List.mem_range.2 hg, rfl⟩))

/-- C100, end to end: after `fit` with positive smoothing on a data set with a non-constant feature, `predict_proba` sums to one and `predict` returns a class of largest posterior. -/
theorem fit_predict_partial (smoothing : ℝ) (F : Nat) (b : List (NbSample ℝ)) (hb : b ≠ []) (hsm : 0 < smoothing) (hw : ∀ s ∈ b, 0 < s.w)
    (hv : ∃ f < F, 0 < wVar (b.map fun s => (s.x f, (1 : ℝ)))) (x : Nat → ℝ) :
    ∃ st c, nbFit smoothing F none b = (some st, none) ∧ nbPredict st F x = some c ∧ (∃ s ∈ b, s.y = c) ∧
      (∀ d ∈ st.classes, jointDensity (nbPrior st d) (st.theta d) (st.sigma d) F x ≤ jointDensity (nbPrior st c) (st.theta c) (st.sigma c) F x) ∧
      (st.classes.map (nbProba st F x)).sum = 1 := by
  obtain ⟨st, h1, h2⟩ := fit_sigma_pos smoothing F b hsm hw hv
  obtain ⟨st1, h1', _, hpr⟩ := prior_spec smoothing F none b hb hw (by simp)
  obtain ⟨st2, h1'', hcl, _, _⟩ := fit_spec smoothing F none b hw (by simp)
  rw [h1] at h1' h1''
  have e1 : st = st1 := by simpa using h1'
  have e2 : st = st2 := by simpa using h1''
  subst e1 e2
  have hne : st.classes ≠ [] := by
    rw [hcl]
    obtain ⟨s, t, rfl⟩ := List.exists_cons_of_ne_nil hb
    exact List.ne_nil_of_mem ((mem_nbLabels _ s.y).2 ⟨s, by simp, rfl⟩)
  obtain ⟨k, c, h3, h4, h5, _⟩ := predict_spec st F x hne hpr (fun c hc f _ => h2 c hc f)
  have hc : c ∈ st.classes := List.mem_of_getElem? h4
  refine ⟨st, c, h1, h3, ?_, ?_, (predict_proba_sum st F x hne hpr (fun c hc f _ => h2 c hc f)).1⟩
  · rw [hcl] at hc
    exact (mem_nbLabels b c).1 hc
  · intro d hd
    have h := h5 d hd
    rw [predict_proba_spec st F x d hd hpr (fun c hc f _ => h2 c hc f), predict_proba_spec st F x c hc hpr (fun c hc f _ => h2 c hc f)] at h
    have hpos : 0 < (st.classes.map fun c => jointDensity (nbPrior st c) (st.theta c) (st.sigma c) F x).sum := by
      refine List.sum_pos _ ?_ (by simpa using hne)
      intro y hy
      obtain ⟨c, hc, rfl⟩ := List.mem_map.1 hy
      exact jointDensity_pos _ _ _ _ _ (hpr c hc) (fun f _ => h2 c hc f)
    exact (div_le_div_iff_of_pos_right hpos).1 h

/-- The hypotheses of `fit_predict_partial` are met by two samples of different classes. -/
example : ∃ (b : List (NbSample ℝ)), b ≠ [] ∧ (∀ s ∈ b, 0 < s.w) ∧ ∃ f < 1, 0 < wVar (b.map fun s => (s.x f, (1 : ℝ))) := by
  refine ⟨[⟨fun _ => 0, 1, 1⟩, ⟨fun _ => 2, 2, 1⟩], by simp, by simp, 0, by omega, ?_⟩
  simp [wVar, wMean, wSum]
  norm_num

end Heat
