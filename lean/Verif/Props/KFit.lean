import Verif.Model.KFit
import Verif.Props.KCluster
/-!
# C195 `KMedians.fit` and `KMedoids.fit`
-/
namespace Heat
open Spec
variable {𝕜 : Type} [Field 𝕜] [LinearOrder 𝕜] [IsStrictOrderedRing 𝕜] {m : Nat}

/-- Every label is the index of a centre at the smallest Manhattan distance. -/
def LabelsClosest (d : Nat → List (Fin m → 𝕜)) (lab : Nat → List Nat) (cs : List (Fin m → 𝕜)) : Prop :=
  ∀ r, (lab r).length = (d r).length ∧ ∀ j (h : j < (d r).length) (h' : j < (lab r).length), (lab r)[j] < cs.length ∧
    ∀ i < cs.length, l1Dist ((d r)[j]) (cs.getD ((lab r)[j]) 0) ≤ l1Dist ((d r)[j]) (cs.getD i 0)

/-- The samples with label `i`. -/
def withLabel (P : Nat) (d : Nat → List (Fin m → 𝕜)) (lab : Nat → List Nat) (i : Nat) : List (Fin m → 𝕜) :=
  content P fun r => (((d r).zip (lab r)).filter fun p => p.2 = i).map (·.1)

theorem labelsClosest_nearest (d : Nat → List (Fin m → 𝕜)) (cs : List (Fin m → 𝕜)) (h : cs ≠ []) : LabelsClosest d (fun r => (d r).map (nearestL1 cs)) cs := by
  intro r
  refine ⟨by simp, fun j hj h' => ?_⟩
  rw [List.getElem_map]
  exact nearestL1_spec cs h _

theorem withLabel_nearest (P : Nat) (d : Nat → List (Fin m → 𝕜)) (cs : List (Fin m → 𝕜)) (i : Nat) :
    withLabel P d (fun r => (d r).map (nearestL1 cs)) i = (content P d).filter fun x => nearestL1 cs x = i := by
  unfold withLabel content
  rw [List.filter_flatMap]
  refine List.flatMap_congr fun r _ => ?_
  dsimp only
  induction d r with
  | nil => rfl
  | cons x t ih =>
    rw [List.map_cons, List.zip_cons_cons, List.filter_cons, List.filter_cons]
    by_cases hx : nearestL1 cs x = i
    · simp [hx, ← ih]
    · simp [hx, ← ih]

/-! ## KMedians -/

omit [IsStrictOrderedRing 𝕜] in
theorem kmediansStep_length (median : List (Fin m → 𝕜) → Fin m → 𝕜) (smp : Nat → Nat → Fin m → 𝕜) (P : Nat) (d : Nat → List (Fin m → 𝕜)) (it : Nat) (cs : List (Fin m → 𝕜)) :
    (kmediansStep median smp P d it cs).length = cs.length := by
  unfold kmediansStep; rw [List.length_map, List.length_range]

omit [IsStrictOrderedRing 𝕜] in
theorem kmediansLoop_spec (median : List (Fin m → 𝕜) → Fin m → 𝕜) (smp : Nat → Nat → Fin m → 𝕜) (P : Nat) (d : Nat → List (Fin m → 𝕜)) (tol : Option 𝕜) : ∀ (n : Nat) (st : KFit 𝕜 m),
    (kmediansLoop median smp P d tol n st).centers.length = st.centers.length ∧
    (kmediansLoop median smp P d tol n st).nIter ≤ st.nIter + n ∧
    ((kmediansLoop median smp P d tol n st).nIter < st.nIter + n → ∃ t, tol = some t ∧ (kmediansLoop median smp P d tol n st).inertia ≤ t) ∧
    (0 < n → st.nIter < (kmediansLoop median smp P d tol n st).nIter ∧ ∃ c it, c.length = st.centers.length ∧ (kmediansLoop median smp P d tol n st).centers = kmediansStep median smp P d it c ∧
      (kmediansLoop median smp P d tol n st).labels = (fun r => (d r).map (nearestL1 c)) ∧
      (kmediansLoop median smp P d tol n st).inertia = centerMovement c (kmediansLoop median smp P d tol n st).centers)
  | 0, st => ⟨rfl, Nat.le_refl _, fun h => absurd h (Nat.lt_irrefl _), fun h => absurd h (Nat.lt_irrefl _)⟩
  | n + 1, st => by
    have hl := kmediansStep_length median smp P d st.nIter st.centers
    obtain ⟨h1, h3, h4, h5⟩ := kmediansLoop_spec median smp P d tol n
      ⟨kmediansStep median smp P d st.nIter st.centers, fun r => (d r).map (nearestL1 st.centers), centerMovement st.centers (kmediansStep median smp P d st.nIter st.centers), st.nIter + 1⟩
    by_cases hs : ∃ t, tol = some t ∧ centerMovement st.centers (kmediansStep median smp P d st.nIter st.centers) ≤ t
    · obtain ⟨t, rfl, hle⟩ := hs
      have e : kmediansLoop median smp P d (some t) (n + 1) st =
          ⟨kmediansStep median smp P d st.nIter st.centers, fun r => (d r).map (nearestL1 st.centers), centerMovement st.centers (kmediansStep median smp P d st.nIter st.centers), st.nIter + 1⟩ := by
        show (if centerMovement st.centers (kmediansStep median smp P d st.nIter st.centers) ≤ t then _ else _) = _
        rw [if_pos hle]
      rw [e]
      exact ⟨hl, by dsimp only; omega, fun _ => ⟨t, rfl, hle⟩, fun _ => ⟨by dsimp only; omega, st.centers, st.nIter, rfl, rfl, rfl, rfl⟩⟩
    · have e : kmediansLoop median smp P d tol (n + 1) st = kmediansLoop median smp P d tol n
          ⟨kmediansStep median smp P d st.nIter st.centers, fun r => (d r).map (nearestL1 st.centers), centerMovement st.centers (kmediansStep median smp P d st.nIter st.centers), st.nIter + 1⟩ := by
        match tol, hs with
        | none, _ => rfl
        | some t, hs =>
          show (if centerMovement st.centers (kmediansStep median smp P d st.nIter st.centers) ≤ t then _ else _) = _
          rw [if_neg fun hle => hs ⟨t, rfl, hle⟩]
      rw [e]
      dsimp only at h1 h3 h4 h5
      refine ⟨h1.trans hl, by omega, fun h => h4 (by omega), fun _ => ?_⟩
      rcases Nat.eq_zero_or_pos n with h0 | hp
      · subst h0
        exact ⟨Nat.lt_succ_self _, st.centers, st.nIter, rfl, rfl, rfl, rfl⟩
      · obtain ⟨g1, c, it, g2, g3⟩ := h5 hp
        exact ⟨by omega, c, it, g2.trans hl, g3⟩

/-- **C195, KMedians, partial:** with at least one iteration allowed `fit` stops after at most `max_iter` iterations, earlier only if the centres moved by no more than the tolerance, and keeps the
number of clusters.  If the centres did not move in the last iteration, the labels are closest centres, and every centre with samples, none of them at the origin, is the median of its samples.
Missing: a last iteration that moves the centres (`kmedians_labels_violated`) and samples at the origin (C108). -/
theorem kmedians_fit_partial (median : List (Fin m → 𝕜) → Fin m → 𝕜) (smp : Nat → Nat → Fin m → 𝕜) (P : Nat) (d : Nat → List (Fin m → 𝕜)) (tol : Option 𝕜) (maxIter : Nat) (hmax : 0 < maxIter)
    (init : List (Fin m → 𝕜)) (hinit : init ≠ []) :
    ∃ out, kmediansFit median smp P d tol maxIter init = some out ∧ out.centers.length = init.length ∧ 0 < out.nIter ∧ out.nIter ≤ maxIter ∧
      (out.nIter < maxIter → ∃ t, tol = some t ∧ out.inertia ≤ t) ∧
      (out.inertia = 0 → LabelsClosest d out.labels out.centers ∧ ∀ i (hi : i < out.centers.length), withLabel P d out.labels i ≠ [] → (0 : Fin m → 𝕜) ∉ withLabel P d out.labels i →
        out.centers[i] = median (withLabel P d out.labels i)) := by
  obtain ⟨h1, h3, h4, h5⟩ := kmediansLoop_spec median smp P d tol maxIter ⟨init, fun _ => [], 0, 0⟩
  obtain ⟨g0, c, it, gc, g1, g2, g3⟩ := h5 hmax
  dsimp only at h1 h3 h4 g0 gc
  rw [Nat.zero_add] at h3 h4
  refine ⟨_, by unfold kmediansFit; rw [if_neg (by omega)], h1, g0, h3, h4, fun h0 => ?_⟩
  have e := centerMovement_zero c _ (by rw [g1, kmediansStep_length]) (g3.symm.trans h0)
  have hc : c ≠ [] := by
    intro hh; rw [hh] at gc; exact hinit (List.length_eq_zero_iff.1 gc.symm)
  rw [g2]
  refine ⟨by rw [e]; exact labelsClosest_nearest d c hc, fun i hi hne hz => ?_⟩
  rw [withLabel_nearest] at hne hz ⊢
  have hi' : i < c.length := by rw [e] at hi; exact hi
  have : ∀ (l : List (Fin m → 𝕜)) (hl : l = kmediansStep median smp P d it c) (h : i < l.length), l[i] = kmediansCenter median (smp it i) P d c i := by
    intro l hl h; subst hl; simp [kmediansStep]
  rw [this _ g1 hi]
  refine kmedians_median_partial median (smp it i) P d c i (fun x hx hn h0 => hz ?_) hne
  rw [← h0]
  exact List.mem_filter.2 ⟨hx, by simpa using hn⟩

/-- **C195 violated, KMedians:** stopped by `max_iter`, the labels belong to the previous centres: 2 has label 1, centre 9, although it is closer to centre 1.  (Any median of one and three numbers.) -/
theorem kmedians_labels_violated (median : List (Fin 1 → ℚ) → Fin 1 → ℚ) (h1 : median [fun _ => 1] = fun _ => 1) (h2 : median [fun _ => 2, fun _ => 9, fun _ => 10] = fun _ => 9) (smp : Nat → Nat → Fin 1 → ℚ) :
    ∃ out, kmediansFit median smp 1 (fun _ => [fun _ => 1, fun _ => 2, fun _ => 9, fun _ => 10]) (some 0) 1 [fun _ => 1, fun _ => 2] = some out ∧
      out.centers = [fun _ => 1, fun _ => 9] ∧ out.labels 0 = [0, 1, 1, 1] ∧ ¬ LabelsClosest (𝕜 := ℚ) (m := 1) (fun _ => [fun _ => 1, fun _ => 2, fun _ => 9, fun _ => 10]) out.labels out.centers := by
  have c0 : content 1 (fun _ : Nat => cleanLocal [(fun _ => 1 : Fin 1 → ℚ), fun _ => 2] 0 [fun _ => 1, fun _ => 2, fun _ => 9, fun _ => 10]) = [fun _ => 1] := by decide +kernel
  have c1 : content 1 (fun _ : Nat => cleanLocal [(fun _ => 1 : Fin 1 → ℚ), fun _ => 2] 1 [fun _ => 1, fun _ => 2, fun _ => 9, fun _ => 10]) = [fun _ => 2, fun _ => 9, fun _ => 10] := by decide +kernel
  have hstep : kmediansStep median smp 1 (fun _ => [fun _ => 1, fun _ => 2, fun _ => 9, fun _ => 10]) 0 [fun _ => 1, fun _ => 2] = [fun _ => 1, fun _ => 9] := by
    unfold kmediansStep kmediansCenter
    simp only [List.length_cons, List.length_nil, List.range_succ, List.range_zero, List.nil_append, List.map_cons, List.map_nil, List.cons_append]
    rw [c0, c1, h1, h2]
    rfl
  have hlab : ([fun _ => 1, fun _ => 2, fun _ => 9, fun _ => 10] : List (Fin 1 → ℚ)).map (nearestL1 [fun _ => 1, fun _ => 2]) = [0, 1, 1, 1] := by decide +kernel
  have hrun : ∃ q, kmediansFit median smp 1 (fun _ => [fun _ => 1, fun _ => 2, fun _ => 9, fun _ => 10]) (some 0) 1 [fun _ => 1, fun _ => 2] =
      some ⟨[fun _ => 1, fun _ => 9], fun _ => [0, 1, 1, 1], q, 1⟩ := by
    unfold kmediansFit
    rw [if_neg (by omega)]
    unfold kmediansLoop
    dsimp only
    rw [hstep, hlab]
    refine ⟨centerMovement [(fun _ => 1 : Fin 1 → ℚ), fun _ => 2] [fun _ => 1, fun _ => 9], ?_⟩
    split
    · rfl
    · rfl
  obtain ⟨q, hq⟩ := hrun
  refine ⟨_, hq, rfl, rfl, fun hc => ?_⟩
  have h : l1Dist (fun _ => 2 : Fin 1 → ℚ) (fun _ => 9) ≤ l1Dist (fun _ => 2 : Fin 1 → ℚ) (fun _ => 1) := ((hc 0).2 1 (show 1 < 4 by decide) (show 1 < 4 by decide)).2 0 (show 0 < 2 by decide)
  revert h
  decide +kernel

/-! ## KMedoids -/

omit [IsStrictOrderedRing 𝕜] in
theorem mapM_option_get {α β : Type} (f : α → Option β) : ∀ (l : List α) (out : List β), l.mapM f = some out → out.length = l.length ∧ ∀ i (h : i < l.length) (h' : i < out.length), f l[i] = some out[i]
  | [], out, h => by
    simp at h; subst h
    exact ⟨rfl, fun i h => absurd h (by simp)⟩
  | x :: l, out, h => by
    rw [List.mapM_cons] at h
    cases hx : f x with
    | none => rw [hx] at h; simp at h
    | some y =>
      cases hl : l.mapM f with
      | none => rw [hx, hl] at h; simp at h
      | some ys =>
        rw [hx, hl] at h
        simp at h
        subst h
        obtain ⟨i1, i2⟩ := mapM_option_get f l ys hl
        refine ⟨by simp [i1], fun i h h' => ?_⟩
        cases i with
        | zero => simpa using hx
        | succ i => simpa using i2 i (by simpa using h) (by simpa using h')

theorem mapM_range_some {α β : Type} (f : α → Option β) : ∀ l : List α, (∀ x ∈ l, ∃ y, f x = some y) → ∃ out, l.mapM f = some out
  | [], _ => ⟨[], rfl⟩
  | x :: l, h => by
    obtain ⟨y, hy⟩ := h x (by simp)
    obtain ⟨ys, hys⟩ := mapM_range_some f l fun z hz => h z (by simp [hz])
    exact ⟨y :: ys, by rw [List.mapM_cons, hy, hys]; rfl⟩

/-- What a medoid update guarantees for the centre of cluster `i` with respect to the labels. -/
def MedoidOf (median : List (Fin m → 𝕜) → Fin m → 𝕜) (P : Nat) (d : Nat → List (Fin m → 𝕜)) (lab : Nat → List Nat) (i : Nat) (c : Fin m → 𝕜) : Prop :=
  (0 : Fin m → 𝕜) ∉ withLabel P d lab i → withLabel P d lab i ≠ [] → ∀ x ∈ content P d, l1Dist c (median (withLabel P d lab i)) ≤ l1Dist x (median (withLabel P d lab i))

theorem kmedoidsStep_spec (median : List (Fin m → 𝕜) → Fin m → 𝕜) (drawn : Nat → Nat → Nat) (P : Nat) (hP : 0 < P) (d : Nat → List (Fin m → 𝕜)) (hb : Balanced P d) (hne : content P d ≠ [])
    (hd : ∀ it i, drawn it i < (content P d).length) (it : Nat) (cs : List (Fin m → 𝕜)) :
    ∃ new, kmedoidsStep median drawn P (content P d) d it cs = some new ∧ new.length = cs.length ∧ (∀ c ∈ new, c ∈ content P d) ∧
      ∀ i (h : i < new.length), MedoidOf median P d (fun r => (d r).map (nearestL1 cs)) i new[i] := by
  have key := fun i => kmedoids_medoid_partial median P hP d hb hne (drawn it i) (hd it i) cs i
  obtain ⟨new, hnew⟩ := mapM_range_some (fun i => kmedoidsCenter median (drawn it i) P (content P d) d cs i) (List.range cs.length) fun i _ => by
    obtain ⟨c, _, h, _⟩ := key i; exact ⟨c, h⟩
  obtain ⟨l1, l2⟩ := mapM_option_get _ _ _ hnew
  rw [List.length_range] at l1
  have hget : ∀ i (h : i < new.length), kmedoidsCenter median (drawn it i) P (content P d) d cs i = some new[i] := by
    intro i h
    have := l2 i (by rw [List.length_range]; omega) h
    rwa [List.getElem_range] at this
  refine ⟨new, hnew, l1, fun c hc => ?_, fun i h => ?_⟩
  · obtain ⟨i, hi, rfl⟩ := List.getElem_of_mem hc
    obtain ⟨c, hc, e, _⟩ := key i
    rw [hget i hi] at e
    rw [Option.some.injEq] at e
    rw [e]; exact hc
  · obtain ⟨c, hc, e, g⟩ := key i
    rw [hget i h, Option.some.injEq] at e
    rw [e]
    intro hz hn
    rw [withLabel_nearest] at hz hn ⊢
    have ef : (content P d).filter (fun x => nearestL1 cs x = i ∧ x ≠ 0) = (content P d).filter fun x => nearestL1 cs x = i := by
      refine List.filter_congr fun x hx => ?_
      by_cases h1 : nearestL1 cs x = i
      · have : x ≠ 0 := by
          rintro rfl
          exact hz (List.mem_filter.2 ⟨hx, by simpa using h1⟩)
        simp [h1, this]
      · simp [h1]
    rw [ef] at g
    exact g hn

/-- **C195, KMedoids, partial:** on evenly distributed samples `fit` finishes after at most `max_iter` iterations with as many centres as it was given, each of them a sample.  If it stopped because
the centres did not change, which is the only reason to stop early, then the labels are closest centres, and every centre whose samples do not include the origin is a sample closest to the median of its samples.
Missing: stops at `max_iter` (`kmedoids_labels_violated`), samples at the origin and other distributions (C108). -/
theorem kmedoids_fit_partial (median : List (Fin m → 𝕜) → Fin m → 𝕜) (drawn : Nat → Nat → Nat) (P : Nat) (hP : 0 < P) (d : Nat → List (Fin m → 𝕜)) (hb : Balanced P d) (hne : content P d ≠ [])
    (hd : ∀ it i, drawn it i < (content P d).length) : ∀ (n : Nat) (cs : List (Fin m → 𝕜)) (lab0 : Nat → List Nat) (it : Nat), 0 < n → cs ≠ [] →
    ∃ cs' lab it' stopped, kmedoidsLoop median drawn P (content P d) d n cs lab0 it = some (cs', lab, it', stopped) ∧ cs'.length = cs.length ∧ (∀ c ∈ cs', c ∈ content P d) ∧
      it < it' ∧ it' ≤ it + n ∧ (it' < it + n → stopped = true) ∧
      (stopped = true → LabelsClosest d lab cs' ∧ ∀ i (h : i < cs'.length), MedoidOf median P d lab i cs'[i])
  | 0, _, _, _, h, _ => absurd h (Nat.lt_irrefl _)
  | n + 1, cs, lab0, it, _, hcs => by
    obtain ⟨new, e, hl, hmem, hmed⟩ := kmedoidsStep_spec median drawn P hP d hb hne hd it cs
    unfold kmedoidsLoop
    dsimp only
    rw [e, Option.bind_some]
    by_cases heq : cs = new
    · rw [if_pos heq]
      refine ⟨_, _, _, _, rfl, rfl, fun c hc => hmem c (heq ▸ hc), Nat.lt_succ_self _, by omega, fun _ => rfl, fun _ => ⟨labelsClosest_nearest d cs hcs, fun i h => ?_⟩⟩
      have := hmed i (heq ▸ h)
      have hgi : new[i]'(heq ▸ h) = cs[i] := by subst heq; rfl
      rw [hgi] at this
      exact this
    · rw [if_neg heq]
      rcases Nat.eq_zero_or_pos n with h0 | hp
      · subst h0
        exact ⟨_, _, _, _, rfl, hl, hmem, Nat.lt_succ_self _, by omega, fun h => absurd h (by omega), fun h => by simp at h⟩
      · obtain ⟨cs', lab, it', st, g1, g2, g3, g4, g5, g6, g7⟩ := kmedoids_fit_partial median drawn P hP d hb hne hd n new (fun r => (d r).map (nearestL1 cs)) (it + 1) hp (by
          intro h; rw [h] at hl; exact hcs (List.length_eq_zero_iff.1 hl.symm))
        exact ⟨cs', lab, it', st, g1, g2.trans hl, g3, by omega, by omega, fun h => g6 (by omega), g7⟩

/-- **C195 violated, KMedoids:** stopped by `max_iter`, the labels belong to the previous centres. -/
theorem kmedoids_labels_violated (median : List (Fin 1 → ℚ) → Fin 1 → ℚ) (h1 : median [fun _ => 1] = fun _ => 1) (h2 : median [fun _ => 2, fun _ => 9, fun _ => 10] = fun _ => 9) (drawn : Nat → Nat → Nat) :
    ∃ lab, kmedoidsLoop median drawn 1 [fun _ => 1, fun _ => 2, fun _ => 9, fun _ => 10] (fun _ => [fun _ => 1, fun _ => 2, fun _ => 9, fun _ => 10]) 1 [fun _ => 1, fun _ => 2] (fun _ => []) 0 =
      some ([fun _ => 1, fun _ => 9], lab, 1, false) ∧ ¬ LabelsClosest (𝕜 := ℚ) (m := 1) (fun _ => [fun _ => 1, fun _ => 2, fun _ => 9, fun _ => 10]) lab [fun _ => 1, fun _ => 9] := by
  have c0 : cleanLocal [(fun _ => 1 : Fin 1 → ℚ), fun _ => 2] 0 [fun _ => 1, fun _ => 2, fun _ => 9, fun _ => 10] = [fun _ => 1] := by decide +kernel
  have c1 : cleanLocal [(fun _ => 1 : Fin 1 → ℚ), fun _ => 2] 1 [fun _ => 1, fun _ => 2, fun _ => 9, fun _ => 10] = [fun _ => 2, fun _ => 9, fun _ => 10] := by decide +kernel
  have q0 : closestSample [(fun _ => 1 : Fin 1 → ℚ), fun _ => 2, fun _ => 9, fun _ => 10] (fun _ => 1) = 0 := by decide +kernel
  have q1 : closestSample [(fun _ => 1 : Fin 1 → ℚ), fun _ => 2, fun _ => 9, fun _ => 10] (fun _ => 9) = 2 := by decide +kernel
  have p0 : pickRow 4 1 (fun _ => [(fun _ => 1 : Fin 1 → ℚ), fun _ => 2, fun _ => 9, fun _ => 10]) 0 = some fun _ => 1 := by decide +kernel
  have p1 : pickRow 4 1 (fun _ => [(fun _ => 1 : Fin 1 → ℚ), fun _ => 2, fun _ => 9, fun _ => 10]) 2 = some fun _ => 9 := by decide +kernel
  have s0 : kmedoidsCenter median (drawn 0 0) 1 [fun _ => 1, fun _ => 2, fun _ => 9, fun _ => 10] (fun _ => [fun _ => 1, fun _ => 2, fun _ => 9, fun _ => 10]) [fun _ => 1, fun _ => 2] 0 = some fun _ => 1 := by
    unfold kmedoidsCenter
    dsimp only
    rw [c0, if_neg (by simp), h1, q0]
    exact p0
  have s1 : kmedoidsCenter median (drawn 0 1) 1 [fun _ => 1, fun _ => 2, fun _ => 9, fun _ => 10] (fun _ => [fun _ => 1, fun _ => 2, fun _ => 9, fun _ => 10]) [fun _ => 1, fun _ => 2] 1 = some fun _ => 9 := by
    unfold kmedoidsCenter
    dsimp only
    rw [c1, if_neg (by simp), h2, q1]
    exact p1
  have hstep : kmedoidsStep median drawn 1 [fun _ => 1, fun _ => 2, fun _ => 9, fun _ => 10] (fun _ => [fun _ => 1, fun _ => 2, fun _ => 9, fun _ => 10]) 0 [fun _ => 1, fun _ => 2] = some [fun _ => 1, fun _ => 9] := by
    unfold kmedoidsStep
    show List.mapM _ [0, 1] = _
    rw [List.mapM_cons, s0, List.mapM_cons, s1]
    rfl
  have hlab : ([fun _ => 1, fun _ => 2, fun _ => 9, fun _ => 10] : List (Fin 1 → ℚ)).map (nearestL1 [fun _ => 1, fun _ => 2]) = [0, 1, 1, 1] := by decide +kernel
  refine ⟨fun _ => [0, 1, 1, 1], ?_, fun hc => ?_⟩
  · unfold kmedoidsLoop
    dsimp only
    rw [hstep, hlab, Option.bind_some, if_neg (by decide +kernel)]
    rfl
  · have h : l1Dist (fun _ => 2 : Fin 1 → ℚ) (fun _ => 9) ≤ l1Dist (fun _ => 2 : Fin 1 → ℚ) (fun _ => 1) := ((hc 0).2 1 (show 1 < 4 by decide) (show 1 < 4 by decide)).2 0 (show 0 < 2 by decide)
    revert h
    decide +kernel

/-- A run on two processes that converges. -/
example : (kmedoidsLoop (𝕜 := ℚ) (m := 1) (fun l => l.getD (l.length / 2) 0) (fun _ _ => 0) 2 [fun _ => 1, fun _ => 2, fun _ => 9, fun _ => 10] (fun r => if r = 0 then [fun _ => 1, fun _ => 2] else [fun _ => 9, fun _ => 10]) 5
    [fun _ => 1, fun _ => 2] (fun _ => []) 0).map (fun o => (o.1.map (fun c => c 0), o.2.1 0 ++ o.2.1 1, o.2.2)) = some ([2, 10], [0, 0, 1, 1], 3, true) := by decide +kernel

example : (kmediansFit (𝕜 := ℚ) (m := 1) (fun l => l.getD (l.length / 2) 0) (fun _ _ _ => 0) 2 (fun r => if r = 0 then [fun _ => 1, fun _ => 2] else [fun _ => 9, fun _ => 10]) (some 0) 5
    [fun _ => 1, fun _ => 2]).map (fun o => (o.centers.map (fun c => c 0), o.labels 0 ++ o.labels 1, o.inertia, o.nIter)) = some ([2, 10], [0, 0, 1, 1], 0, 3) := by decide +kernel

end Heat
