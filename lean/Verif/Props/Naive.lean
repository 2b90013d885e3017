import Verif.Model.Naive
import Mathlib.Tactic.FieldSimp
import Mathlib.Tactic.Ring
import Mathlib.Tactic.Linarith
import Mathlib.Algebra.Order.BigOperators.Group.List
import Mathlib.Algebra.BigOperators.Ring.List
import Mathlib.Data.List.Sort
import Mathlib.Data.List.Induction
import Mathlib.Data.Rat.Defs
import Mathlib.Algebra.Order.Ring.Rat
import Mathlib.Algebra.Field.Rat
/-!
# C99: `GaussianNB.fit` and `partial_fit`
-/
namespace Heat
open Spec

section algebra
variable {K : Type} [Field K]

theorem wSum_append (a b : List (K × K)) : wSum (a ++ b) = wSum a + wSum b := by simp [wSum]

/-- Weighted second moment. -/
private def wSq (l : List (K × K)) : K := (l.map fun p => p.2 * p.1 ^ 2).sum
private def wFst (l : List (K × K)) : K := (l.map fun p => p.2 * p.1).sum

private theorem sum_dev (l : List (K × K)) (m : K) : (l.map fun p => p.2 * (p.1 - m) ^ 2).sum = wSq l - 2 * m * wFst l + m ^ 2 * wSum l := by
  induction l with
  | nil => simp [wSq, wFst, wSum]
  | cons a t ih =>
    simp only [List.map_cons, List.sum_cons, ih, wSq, wFst, wSum]
    ring

private theorem wVar_eq (l : List (K × K)) (h : wSum l ≠ 0) : wVar l = wSq l / wSum l - (wFst l / wSum l) ^ 2 := by
  have hm : wMean l = wFst l / wSum l := rfl
  unfold wVar
  rw [sum_dev, hm]
  field_simp
  ring

private theorem wFst_append (a b : List (K × K)) : wFst (a ++ b) = wFst a + wFst b := by simp [wFst]
private theorem wSq_append (a b : List (K × K)) : wSq (a ++ b) = wSq a + wSq b := by simp [wSq]

/-- Chan, Golub and LeVeque: combining the moments of two parts of the data gives the moments of the whole; an error `d` in the old variance is damped by the share of the old weight. -/
theorem combine_moments [LinearOrder K] (a b : List (K × K)) (d : K) (ha : wSum a ≠ 0) (hb : wSum b ≠ 0) (hab : wSum a + wSum b ≠ 0) :
    updateMeanVar (wSum a) (wMean a) (wVar a + d) b = (wMean (a ++ b), wVar (a ++ b) + wSum a / wSum (a ++ b) * d) := by
  have hne : b ≠ [] := by rintro rfl; exact hb (by simp [wSum])
  unfold updateMeanVar
  rw [if_neg hne]
  dsimp only
  rw [if_neg ha]
  have hs := wSum_append a b
  have hm (l : List (K × K)) : wMean l = wFst l / wSum l := rfl
  have hab' : wSum (a ++ b) ≠ 0 := by rw [hs]; exact hab
  rw [wVar_eq a ha, wVar_eq b hb, wVar_eq _ hab', hm a, hm b, hm (a ++ b), wFst_append, wSq_append, hs]
  refine Prod.ext ?_ ?_
  · dsimp only
    field_simp
    ring
  · dsimp only
    field_simp
    ring

end algebra

variable {K : Type} [Field K] [LinearOrder K] [IsStrictOrderedRing K]

theorem nbColumn_append (a b : List (NbSample K)) (c : Int) (f : Nat) : nbColumn (a ++ b) c f = nbColumn a c f ++ nbColumn b c f := by simp [nbColumn]

theorem wSum_column (b : List (NbSample K)) (c : Int) (f : Nat) : wSum (nbColumn b c f) = wSum (nbColumn b c 0) := by
  unfold wSum nbColumn; simp [List.map_map, Function.comp_def]

theorem wSum_column_pos (b : List (NbSample K)) (c : Int) (f : Nat) (hw : ∀ s ∈ b, 0 < s.w) (hc : ∃ s ∈ b, s.y = c) : 0 < wSum (nbColumn b c f) := by
  unfold wSum nbColumn
  rw [List.map_map]
  obtain ⟨s, hs, hy⟩ := hc
  have hpos : ∀ z ∈ ((b.filter fun s => decide (s.y = c)).map (Prod.snd ∘ fun s => (s.x f, s.w))), (0 : K) < z := by
    intro z hz
    obtain ⟨t, ht, rfl⟩ := List.mem_map.1 hz
    exact hw t (List.mem_filter.1 ht).1
  refine List.sum_pos _ hpos ?_
  intro h
  have : s ∈ b.filter fun s => decide (s.y = c) := List.mem_filter.2 ⟨hs, by simp [hy]⟩
  rw [List.map_eq_nil_iff] at h
  rw [h] at this
  simp at this

theorem mem_nbLabels (b : List (NbSample K)) (c : Int) : c ∈ nbLabels b ↔ ∃ s ∈ b, s.y = c := by
  unfold nbLabels
  rw [List.mem_insertionSort, List.mem_dedup, List.mem_map]

theorem nbLabels_nodup (b : List (NbSample K)) : (nbLabels b).Nodup := by
  unfold nbLabels
  exact (List.perm_insertionSort _ _).nodup_iff.2 (List.nodup_dedup _)

/-- The label check accepts exactly the batches whose labels, sorted, are the list of classes. -/
theorem nbKnown_iff (u c : List Int) (hu : u.Nodup) (hc : c.Nodup) (hne : u ≠ []) (hcn : c ≠ []) : nbKnown u c = .ok true ↔ u = c := by
  unfold nbKnown
  constructor
  · intro h
    by_cases h1 : u.length = c.length
    · rw [if_pos h1] at h
      have hall := Except.ok.inj h
      rw [List.all_eq_true] at hall
      apply List.ext_getElem h1
      intro i hi hi'
      have := hall (u[i], c[i]) (by
        rw [List.mem_iff_getElem]
        exact ⟨i, by simp; omega, by simp⟩)
      simpa using this
    · rw [if_neg h1] at h
      by_cases h2 : u.length = 1
      · rw [if_pos h2] at h
        obtain ⟨a, rfl⟩ := List.length_eq_one_iff.1 h2
        have hall := Except.ok.inj h
        rw [List.all_eq_true] at hall
        have hall' : ∀ x ∈ c, x = a := fun x hx => by simpa [eq_comm] using hall x hx
        match c, hc, h1, hcn, hall' with
        | [], _, _, hcn, _ => exact absurd rfl hcn
        | [x], _, h1, _, _ => simp at h1
        | x :: y :: t, hc, _, _, hall' =>
          have := hall' x (by simp); have := hall' y (by simp)
          simp_all
      · rw [if_neg h2] at h
        by_cases h3 : c.length = 1
        · rw [if_pos h3] at h
          obtain ⟨a, rfl⟩ := List.length_eq_one_iff.1 h3
          have hall := Except.ok.inj h
          rw [List.all_eq_true] at hall
          have hall' : ∀ x ∈ u, x = a := fun x hx => by simpa [eq_comm] using hall x hx
          match u, hu, h2, hne, hall' with
          | [], _, _, hne, _ => exact absurd rfl hne
          | [x], _, h2, _, _ => simp at h2
          | x :: y :: t, hu, _, _, hall' =>
            have := hall' x (by simp); have := hall' y (by simp)
            simp_all
        · rw [if_neg h3] at h; simp at h
  · rintro rfl
    rw [if_pos rfl]
    congr 1
    rw [List.all_eq_true]
    intro p hp
    rw [List.mem_iff_getElem] at hp
    obtain ⟨i, hi, rfl⟩ := hp
    simp

/-- A non-empty batch is accepted by the label check exactly if its set of labels is the *whole* list of classes, in increasing order. -/
theorem partial_fit_accepts (smoothing : K) (F : Nat) (st : NbState K) (b : List (NbSample K)) (hb : b ≠ []) (hc : st.classes.Nodup) (hcn : st.classes ≠ []) :
    (partialFitRun smoothing F (some st) none false b).2 = none ↔ nbLabels b = st.classes := by
  have hu : nbLabels b ≠ [] := by
    obtain ⟨s, t, rfl⟩ := List.exists_cons_of_ne_nil hb
    exact List.ne_nil_of_mem ((mem_nbLabels _ s.y).2 ⟨s, by simp, rfl⟩)
  rw [← nbKnown_iff _ _ (nbLabels_nodup b) hc hu hcn]
  unfold partialFitRun nbStart
  dsimp only
  cases h : nbKnown (nbLabels b) st.classes with
  | error e => simp
  | ok v => cases v <;> simp

/-- What the model should hold after seeing the batches `bs`. -/
def NbGood (smoothing : K) (F : Nat) (classes : List Int) (bs : List (List (NbSample K))) (st : NbState K) : Prop :=
  st.classes = classes ∧
  ∀ c ∈ classes, st.count c = wSum (nbColumn bs.flatten c 0) ∧
    ∀ f, st.theta c f = wMean (nbColumn bs.flatten c f) ∧
      st.sigma c f = wVar (nbColumn bs.flatten c f) + wMean (bs.map fun b => (nbEps smoothing F b, wSum (nbColumn b c f)))

theorem wSum_flatten (bs : List (List (NbSample K))) (g : List (NbSample K) → K) (c : Int) (f : Nat) :
    wSum (bs.map fun b => (g b, wSum (nbColumn b c f))) = wSum (nbColumn bs.flatten c f) := by
  induction bs with
  | nil => simp [wSum, nbColumn]
  | cons b t ih =>
    rw [List.flatten_cons, nbColumn_append, wSum_append, ← ih]
    simp [wSum]

theorem partialFits_append (smoothing : K) (F : Nat) (classes : List Int) (prev st : Option (NbState K)) (bs : List (List (NbSample K))) (b : List (NbSample K))
    (h : partialFits smoothing F classes prev bs = (st, none)) : partialFits smoothing F classes prev (bs ++ [b]) = partialFitStep smoothing F classes st b := by
  induction bs generalizing prev with
  | nil =>
    simp only [partialFits] at h
    injection h with h1
    subst h1
    simp only [List.nil_append, partialFits]
    rcases hh : partialFitStep smoothing F classes prev b with ⟨a, _ | e⟩ <;> simp
  | cons x t ih =>
    simp only [partialFits, List.cons_append] at h ⊢
    rcases hh : partialFitStep smoothing F classes prev x with ⟨a, _ | e⟩
    · rw [hh] at h
      dsimp only at h ⊢
      exact ih _ h
    · rw [hh] at h
      dsimp only at h
      simp at h

theorem nbKnown_self (u : List Int) : nbKnown u u = .ok true := by
  unfold nbKnown
  rw [if_pos rfl]
  congr 1
  rw [List.all_eq_true]
  intro p hp
  rw [List.mem_iff_getElem] at hp
  obtain ⟨i, hi, rfl⟩ := hp
  simp

/-- C99: after any number of accepted batches the counts, means and variances of every class are those of all samples seen; the smoothing that was added to the variance is the average of the batches' `epsilon_`, weighted by the weight of the class in each batch. -/
theorem partial_fit_moments_partial (smoothing : K) (F : Nat) (classes : List Int) (bs : List (List (NbSample K))) (hne : bs ≠ [])
    (hw : ∀ b ∈ bs, ∀ s ∈ b, 0 < s.w) (hl : ∀ b ∈ bs, nbLabels b = classes) :
    ∃ st, partialFits smoothing F classes none bs = (some st, none) ∧ NbGood smoothing F classes bs st := by
  induction bs using List.reverseRecOn with
  | nil => exact absurd rfl hne
  | append_singleton t b ih =>
    have hwb := hw b (by simp)
    have hlb := hl b (by simp)
    have hposb : ∀ c ∈ classes, ∀ f, 0 < wSum (nbColumn b c f) := by
      intro c hc f
      refine wSum_column_pos b c f hwb ?_
      rw [← hlb, mem_nbLabels] at hc
      exact hc
    by_cases ht : t = []
    · subst ht
      refine ⟨nbUpdate { classes := classes, count := fun _ => 0, theta := fun _ _ => 0, sigma := fun _ _ => 0, eps := nbEps smoothing F b } (nbLabels b) b, ?_, ?_⟩
      · simp only [List.nil_append, partialFits, partialFitStep, partialFitRun, nbStart, hlb]
        simp only [Option.isSome_none, Bool.false_eq_true, ↓reduceIte, nbKnown_self]
      · refine ⟨rfl, ?_⟩
        intro c hc
        have hflat : ([] ++ [b]).flatten = b := by simp
        rw [hflat]
        have hmem : c ∈ nbLabels b := by rw [hlb]; exact hc
        have hcol : ∀ f, nbColumn b c f ≠ [] := by
          intro f h
          have := hposb c hc f
          rw [h] at this
          simp [wSum] at this
        refine ⟨by simp [nbUpdate, hmem], fun f => ⟨?_, ?_⟩⟩
        · simp [nbUpdate, hmem, updateMeanVar, hcol]
        · have := (hposb c hc f).ne'
          simp only [nbUpdate, hmem, updateMeanVar, hcol, ↓reduceIte, List.nil_append, List.map_cons, List.map_nil]
          simp [wMean, wSum] at this ⊢
          field_simp
    · obtain ⟨st, hrun, hcl, hgood⟩ := ih ht (fun x hx => hw x (by simp [hx])) (fun x hx => hl x (by simp [hx]))
      refine ⟨nbUpdate { st with sigma := fun c f => st.sigma c f - nbEps smoothing F b, eps := nbEps smoothing F b } (nbLabels b) b, ?_, hcl, ?_⟩
      · rw [partialFits_append _ _ _ _ _ _ _ hrun]
        simp only [partialFitStep, partialFitRun, nbStart, Option.isSome_some, ↓reduceIte, hlb, hcl, nbKnown_self]
      · intro c hc
        obtain ⟨h1, h2⟩ := hgood c hc
        have hmem : c ∈ nbLabels b := by rw [hlb]; exact hc
        have hflat : (t ++ [b]).flatten = t.flatten ++ b := by simp
        have hpost : ∀ f, 0 < wSum (nbColumn t.flatten c f) := by
          intro f
          obtain ⟨x, r, rfl⟩ := List.exists_cons_of_ne_nil ht
          refine wSum_column_pos _ c f ?_ ?_
          · intro s hs
            obtain ⟨y, hy, hs⟩ := List.mem_flatten.1 hs
            exact hw y (List.mem_append_left _ hy) s hs
          · have hx := hl x (by simp)
            rw [← hx, mem_nbLabels] at hc
            obtain ⟨s, hs, hy⟩ := hc
            exact ⟨s, by simp [hs], hy⟩
        refine ⟨?_, fun f => ?_⟩
        · simp only [nbUpdate, hmem, ↓reduceIte, h1, hflat, nbColumn_append, wSum_append]
        · obtain ⟨h3, h4⟩ := h2 f
          have hA := (hpost f).ne'
          have hB := (hposb c hc f).ne'
          have hAB : wSum (nbColumn t.flatten c f) + wSum (nbColumn b c f) ≠ 0 := (add_pos (hpost f) (hposb c hc f)).ne'
          have key := combine_moments (nbColumn t.flatten c f) (nbColumn b c f) (wMean (t.map fun b => (nbEps smoothing F b, wSum (nbColumn b c f))) - nbEps smoothing F b) hA hB hAB
          have harg : st.sigma c f - nbEps smoothing F b = wVar (nbColumn t.flatten c f) + (wMean (t.map fun b => (nbEps smoothing F b, wSum (nbColumn b c f))) - nbEps smoothing F b) := by
            rw [h4]; ring
          have hcount : st.count c = wSum (nbColumn t.flatten c f) := by rw [h1, wSum_column _ c f]
          rw [hflat, nbColumn_append]
          constructor
          · simp only [nbUpdate, hmem, ↓reduceIte, hcount, h3, harg, key]
          · simp only [nbUpdate, hmem, ↓reduceIte, hcount, h3, harg, key]
            have hsplit : wMean ((t ++ [b]).map fun b => (nbEps smoothing F b, wSum (nbColumn b c f)))
                = (wSum (nbColumn t.flatten c f) * wMean (t.map fun b => (nbEps smoothing F b, wSum (nbColumn b c f))) + wSum (nbColumn b c f) * nbEps smoothing F b) / (wSum (nbColumn t.flatten c f) + wSum (nbColumn b c f)) := by
              unfold wMean
              rw [wSum_flatten (t ++ [b]), wSum_flatten t, hflat, nbColumn_append, wSum_append]
              simp only [List.map_append, List.map_cons, List.map_nil, List.sum_append, List.sum_cons, List.sum_nil]
              field_simp
              ring
            rw [hsplit, wSum_append]
            field_simp
            ring

/-- Without smoothing, training in batches gives exactly what one `fit` on all samples gives. -/
theorem batches_eq_fit_partial (F : Nat) (classes : List Int) (bs : List (List (NbSample K))) (hne : bs ≠ [])
    (hw : ∀ b ∈ bs, ∀ s ∈ b, 0 < s.w) (hl : ∀ b ∈ bs, nbLabels b = classes) (hall : nbLabels bs.flatten = classes) :
    ∃ st st', partialFits 0 F classes none bs = (some st, none) ∧ nbFit 0 F none bs.flatten = (some st', none) ∧
      ∀ c ∈ classes, st.count c = st'.count c ∧ ∀ f, st.theta c f = st'.theta c f ∧ st.sigma c f = st'.sigma c f := by
  obtain ⟨st, h1, _, h2⟩ := partial_fit_moments_partial 0 F classes bs hne hw hl
  obtain ⟨st', h3, _, h4⟩ := partial_fit_moments_partial 0 F classes [bs.flatten] (by simp)
    (by
      intro b hb s hs
      rw [List.mem_singleton] at hb
      subst hb
      obtain ⟨y, hy, hs⟩ := List.mem_flatten.1 hs
      exact hw y hy s hs)
    (by intro b hb; rw [List.mem_singleton] at hb; subst hb; exact hall)
  have e0 : ∀ (l : List (List (NbSample K))) (c : Int) (f : Nat), wMean (l.map fun b => (nbEps 0 F b, wSum (nbColumn b c f))) = 0 := by
    intro l c f
    unfold wMean nbEps
    simp [List.map_map, Function.comp_def]
  refine ⟨st, st', h1, ?_, ?_⟩
  · rw [← h3]
    simp only [partialFits, partialFitStep, nbFit, hall, Option.isSome_none, Bool.false_eq_true, ↓reduceIte, partialFitRun, nbStart, nbKnown_self]
  · intro c hc
    obtain ⟨a1, a2⟩ := h2 c hc
    obtain ⟨b1, b2⟩ := h4 c hc
    have hf : ([bs.flatten]).flatten = bs.flatten := by simp
    rw [hf] at b1 b2
    refine ⟨by rw [a1, b1], fun f => ⟨by rw [(a2 f).1, (b2 f).1], ?_⟩⟩
    rw [(a2 f).2, (b2 f).2, e0, e0]

/-- `fit` on one data set: counts, means, variances plus the smoothing term; the previous state of the object is forgotten. -/
theorem fit_spec (smoothing : K) (F : Nat) (prev : Option (NbState K)) (b : List (NbSample K)) (hw : ∀ s ∈ b, 0 < s.w)
    (hp : ∀ st, prev = some st → st.classes = nbLabels b) :
    ∃ st, nbFit smoothing F prev b = (some st, none) ∧ st.classes = nbLabels b ∧ st.eps = nbEps smoothing F b ∧
      ∀ c ∈ nbLabels b, st.count c = wSum (nbColumn b c 0) ∧
        ∀ f, st.theta c f = wMean (nbColumn b c f) ∧ st.sigma c f = wVar (nbColumn b c f) + nbEps smoothing F b := by
  refine ⟨nbUpdate { classes := nbLabels b, count := fun _ => 0, theta := fun _ _ => 0, sigma := fun _ _ => 0, eps := nbEps smoothing F b } (nbLabels b) b, ?_, rfl, rfl, ?_⟩
  · unfold nbFit partialFitRun
    cases prev with
    | none => simp only [nbStart, nbKnown_self]
    | some st =>
      have := hp st rfl
      simp only [nbStart, this, ne_eq, not_true_eq_false, ↓reduceIte, nbKnown_self]
  · intro c hc
    have hpos : ∀ f, 0 < wSum (nbColumn b c f) := fun f => wSum_column_pos b c f hw ((mem_nbLabels b c).1 hc)
    have hcol : ∀ f, nbColumn b c f ≠ [] := by
      intro f h
      have := hpos f
      rw [h] at this
      simp [wSum] at this
    refine ⟨by simp [nbUpdate, hc], fun f => ⟨?_, ?_⟩⟩
    · simp [nbUpdate, hc, updateMeanVar, hcol]
    · simp [nbUpdate, hc, updateMeanVar, hcol]

/-- The class priors of a fitted object are the shares of the total weight; they are positive and sum to one. -/
theorem prior_spec (smoothing : K) (F : Nat) (prev : Option (NbState K)) (b : List (NbSample K)) (hb : b ≠ []) (hw : ∀ s ∈ b, 0 < s.w)
    (hp : ∀ st, prev = some st → st.classes = nbLabels b) :
    ∃ st, nbFit smoothing F prev b = (some st, none) ∧ (st.classes.map (nbPrior st)).sum = 1 ∧ ∀ c ∈ st.classes, 0 < nbPrior st c := by
  obtain ⟨st, h1, h2, _, h3⟩ := fit_spec smoothing F prev b hw hp
  have hpos : ∀ c ∈ st.classes, 0 < st.count c := by
    intro c hc
    rw [h2] at hc
    rw [(h3 c hc).1]
    exact wSum_column_pos b c 0 hw ((mem_nbLabels b c).1 hc)
  have hne : st.classes ≠ [] := by
    rw [h2]
    obtain ⟨s, t, rfl⟩ := List.exists_cons_of_ne_nil hb
    exact List.ne_nil_of_mem ((mem_nbLabels _ s.y).2 ⟨s, by simp, rfl⟩)
  have htot : 0 < (st.classes.map st.count).sum := by
    refine List.sum_pos _ ?_ (by simpa using hne)
    intro x hx
    obtain ⟨c, hc, rfl⟩ := List.mem_map.1 hx
    exact hpos c hc
  refine ⟨st, h1, ?_, fun c hc => div_pos (hpos c hc) htot⟩
  have : (st.classes.map (nbPrior st)) = (st.classes.map st.count).map (· / (st.classes.map st.count).sum) := by
    rw [List.map_map]; rfl
  rw [this]
  have hdiv : ∀ (l : List K) (d : K), (l.map (· / d)).sum = l.sum / d := by
    intro l d
    induction l with
    | nil => simp
    | cons a t ih => simp [ih, add_div]
  rw [hdiv, div_self htot.ne']

/-- A batch without some class, or with classes given in another order, is refused although all its labels are known; and the refused call has already changed the fitted variances (they lost the batch's `epsilon_`). -/
theorem refused_batch_changes_state_violated (smoothing : K) (F : Nat) (st : NbState K) (b : List (NbSample K)) (hb : b ≠ []) (hc : st.classes.Nodup) (hcn : st.classes ≠ [])
    (h : nbLabels b ≠ st.classes) :
    ∃ st', (partialFitRun smoothing F (some st) none false b).1 = some st' ∧ (partialFitRun smoothing F (some st) none false b).2 ≠ none ∧
      ∀ c f, st'.sigma c f = st.sigma c f - nbEps smoothing F b := by
  have hn := fun hh => h ((partial_fit_accepts smoothing F st b hb hc hcn).1 hh)
  refine ⟨{ st with sigma := fun c f => st.sigma c f - nbEps smoothing F b, eps := nbEps smoothing F b }, ?_, hn, fun _ _ => rfl⟩
  unfold partialFitRun nbStart at hn ⊢
  dsimp only at hn ⊢
  cases hk : nbKnown (nbLabels b) st.classes with
  | error e => rfl
  | ok v =>
    cases v with
    | false => rfl
    | true => rw [hk] at hn; simp at hn

/-- `fit` on an object that was fitted on other labels raises instead of starting over. -/
theorem refit_other_classes_violated (smoothing : K) (F : Nat) (st : NbState K) (b : List (NbSample K)) (h : st.classes ≠ nbLabels b) :
    (nbFit smoothing F (some st) b).2 = some .valueError := by
  unfold nbFit partialFitRun nbStart
  simp [h]

private def nbS (a : Rat) (y : Int) : NbSample Rat := ⟨fun _ => a, y, 1⟩
private def nbB1 : List (NbSample Rat) := [nbS 0 1, nbS 2 1, nbS 10 2, nbS 12 2]
private def nbB2 : List (NbSample Rat) := [nbS 4 1, nbS 10 2]
private theorem nbLabels_B1 : nbLabels nbB1 = [1, 2] := by decide +kernel
private theorem nbLabels_B2 : nbLabels nbB2 = [1, 2] := by decide +kernel

/-- The hypotheses of the theorems above are met by two batches of two classes; the means and the smoothing-free variances come out as computed by hand. -/
example : ∃ st, partialFits (0 : Rat) 1 [1, 2] none [nbB1, nbB2] = (some st, none) ∧ st.theta 1 0 = 2 ∧ st.sigma 1 0 = 8 / 3 ∧ st.count 2 = 3 := by
  obtain ⟨st, h, _, g⟩ := partial_fit_moments_partial (0 : Rat) 1 [1, 2] [nbB1, nbB2] (by simp) (by decide +kernel) (by
    intro b hb
    simp only [List.mem_cons, List.not_mem_nil, or_false] at hb
    rcases hb with rfl | rfl
    · exact nbLabels_B1
    · exact nbLabels_B2)
  refine ⟨st, h, ?_, ?_, ?_⟩
  · rw [((g 1 (by simp)).2 0).1]; decide +kernel
  · rw [((g 1 (by simp)).2 0).2]; decide +kernel
  · rw [(g 2 (by simp)).1]; decide +kernel

/-- With smoothing, two batches and one `fit` on the same samples give different variances: the two batches have different `epsilon_`, and neither equals that of the whole. -/
theorem batches_smoothing_violated : ∃ st st', partialFits (1 / 10 : Rat) 1 [1, 2] none [nbB1, nbB2] = (some st, none) ∧
    nbFit (1 / 10 : Rat) 1 none (nbB1 ++ nbB2) = (some st', none) ∧ st.theta 1 0 = st'.theta 1 0 ∧ st.sigma 1 0 ≠ st'.sigma 1 0 := by
  obtain ⟨st, h, _, g⟩ := partial_fit_moments_partial (1 / 10 : Rat) 1 [1, 2] [nbB1, nbB2] (by simp) (by decide +kernel) (by
    intro b hb
    simp only [List.mem_cons, List.not_mem_nil, or_false] at hb
    rcases hb with rfl | rfl
    · exact nbLabels_B1
    · exact nbLabels_B2)
  have hl : nbLabels (nbB1 ++ nbB2) = [1, 2] := by decide +kernel
  obtain ⟨st', h', _, _, g'⟩ := fit_spec (1 / 10 : Rat) 1 none (nbB1 ++ nbB2) (by decide +kernel) (by simp)
  rw [hl] at g'
  refine ⟨st, st', h, h', ?_, ?_⟩
  · rw [((g 1 (by simp)).2 0).1, ((g' 1 (by simp)).2 0).1]; decide +kernel
  · rw [((g 1 (by simp)).2 0).2, ((g' 1 (by simp)).2 0).2]; decide +kernel

/-- A batch that only contains class 1 is refused by an object with the classes 1 and 2. -/
example : nbLabels [nbS 3 1] ≠ [1, 2] := by decide +kernel

end Heat
