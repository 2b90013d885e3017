import Verif.Model.Hdf5
import Verif.Spec.Hdf5
import Verif.Props.ND
import Verif.Props.Csv
import Verif.Props.Unique
import Verif.Proof.Select
/-!
# C87-C89: HDF5 files
-/
namespace Heat

open Spec
variable {α : Type}

/-! ## C87: load_hdf5 -/

theorem pySlice_window (l : List α) (a b : Option Int) :
    pySlice l a b 1 = (l.take (clampBound l.length (b.getD l.length))).drop (clampBound l.length (a.getD 0)) := by
  unfold pySlice
  generalize hhi : clampBound l.length (b.getD l.length) = hi
  generalize hlo : clampBound l.length (a.getD 0) = lo
  have hp : ∀ g, inSlice l.length a b 1 g = decide (lo ≤ g ∧ g < hi) := by
    intro g
    unfold inSlice
    rw [hhi, hlo]
    simp [Nat.mod_one]
  by_cases h : lo ≤ hi
  · have e : l = l.take lo ++ ((l.take hi).drop lo ++ l.drop hi) := by
      rw [← List.append_assoc, show l.take lo = (l.take hi).take lo by rw [List.take_take, Nat.min_eq_left h], List.take_append_drop, List.take_append_drop]
    conv => lhs; arg 3; rw [e]
    rw [pick_append, pick_append, pick_none, pick_all, pick_none]
    · simp
    · intro j hj
      rw [hp]
      simp only [List.length_take, List.length_drop, decide_eq_false_iff_not, not_and] at hj ⊢
      omega
    · intro j hj
      rw [hp]
      simp only [List.length_take, List.length_drop, decide_eq_true_eq] at hj ⊢
      omega
    · intro j hj
      rw [hp]
      simp only [List.length_take, decide_eq_false_iff_not] at hj ⊢
      omega
  · rw [pick_none]
    · rw [List.drop_eq_nil_of_le]
      simp only [List.length_take]
      omega
    · intro j _
      rw [hp]
      simp only [decide_eq_false_iff_not]
      omega

/-- The bounds of a slice; an axis without one is read completely. -/
def bounds1 : Option PySlice → Option Int × Option Int
  | none => (none, none)
  | some s => (s.start, s.stop)

/-- The bounds given for axis `k`. -/
def boundsOf (slices : Option (List (Option PySlice))) (k : Nat) : Option Int × Option Int := bounds1 (slices.bind fun l => sliceOf l k)

theorem clampBound_le (n : Nat) (b : Int) (hb : b ≤ n) : clampBound n b ≤ n := by
  unfold clampBound
  split <;> omega

theorem axisWindow_spec {size : Nat} {s : Option PySlice} {w : Nat × Nat} (h : axisWindow size s = .ok w) :
    let b := bounds1 s
    (pySlice (List.range size) b.1 b.2 1).length = w.1 ∧ w.1 + w.2 ≤ size ∧ ∀ i < w.1, (pySlice (List.range size) b.1 b.2 1).getD i 0 = i + w.2 := by
  intro b
  have key : ∀ (a c : Option Int), let lo := clampBound size (a.getD 0); let hi := clampBound size (c.getD size)
      (pySlice (List.range size) a c 1).length = min hi size - lo ∧ ∀ i < min hi size - lo, (pySlice (List.range size) a c 1).getD i 0 = i + lo := by
    intro a c lo hi
    rw [pySlice_window, List.length_range]
    refine ⟨by simp [lo, hi], fun i hi' => ?_⟩
    change i < min (clampBound size (c.getD size)) size - clampBound size (a.getD 0) at hi'
    rw [List.getD_eq_getElem?_getD, List.getElem?_drop, List.getElem?_take_of_lt (by omega), List.getElem?_range (by omega)]
    simp [lo]; omega
  cases s with
  | none =>
    cases h
    obtain ⟨h1, h2⟩ := key none none
    have c0 : clampBound size 0 = 0 := by simp [clampBound]
    have c1 : clampBound size (size : Int) = size := by unfold clampBound; rw [if_neg (by omega)]; simp
    simp only [Option.getD_none, c0, c1, Nat.min_self, Nat.sub_zero] at h1 h2
    exact ⟨h1, by simp, h2⟩
  | some s =>
    unfold axisWindow at h
    dsimp only at h
    by_cases hs : s.step ≠ none ∧ s.step ≠ some 1
    · rw [if_pos hs] at h; exact absurd h (by simp)
    · rw [if_neg hs] at h
      cases h
      obtain ⟨h1, h2⟩ := key s.start s.stop
      have hb : ∀ x, rangeBound size x = clampBound size x := fun x => rfl
      have hhi : clampBound size (s.stop.getD size) ≤ size ∨ True := Or.inr trivial
      have hle : min (clampBound size (s.stop.getD size)) size = clampBound size (s.stop.getD size) := by
        unfold clampBound
        split <;> rename_i hneg
        · have : (s.stop.getD size + size).toNat ≤ size := by omega
          omega
        · omega
      simp only [hle] at h1 h2
      simp only [sizeFromSlice, hb]
      refine ⟨h1, ?_, ?_⟩
      · split <;> omega
      · intro i hi
        rw [if_pos (by omega)]
        exact h2 i hi

theorem mapM_range_ok {β : Type} (f : Nat → Except Err β) : ∀ (n : Nat) (l : List β), (List.range n).mapM f = .ok l →
    l.length = n ∧ ∀ k < n, ∀ d, f k = .ok (l.getD k d) := by
  intro n
  induction n with
  | zero => intro l h; simp at h; cases h; simp
  | succ n ih =>
    intro l h
    rw [List.range_succ, List.mapM_append] at h
    cases h1 : (List.range n).mapM f with
    | error e => rw [h1] at h; simp [bind, Except.bind] at h
    | ok l1 =>
      rw [h1] at h
      cases h2 : f n with
      | error e => simp [bind, Except.bind, h2] at h
      | ok b =>
        simp [bind, Except.bind, h2, pure, Except.pure] at h
        subst h
        obtain ⟨hl, hg⟩ := ih l1 h1
        refine ⟨by simp [hl], fun k hk d => ?_⟩
        rcases Nat.lt_or_ge k n with hkn | hkn
        · rw [hg k hkn d, List.getD_eq_getElem?_getD, List.getD_eq_getElem?_getD, List.getElem?_append_left (by omega)]
        · have : k = n := by omega
          subst this
          rw [h2, List.getD_eq_getElem?_getD, List.getElem?_append_right (by omega)]
          simp [hl]

theorem windows_spec {shape : List Nat} {slices : Option (List (Option PySlice))} {w : List (Nat × Nat)} (h : windows shape slices = .ok w) :
    w.length = shape.length ∧ ∀ k < shape.length, ∀ d, let sel := pySlice (List.range (shape.getD k 0)) (boundsOf slices k).1 (boundsOf slices k).2 1
      sel.length = (w.getD k d).1 ∧ (w.getD k d).1 + (w.getD k d).2 ≤ shape.getD k 0 ∧ ∀ i < (w.getD k d).1, sel.getD i 0 = i + (w.getD k d).2 := by
  cases slices with
  | none =>
    cases h
    refine ⟨by simp, fun k hk d => ?_⟩
    have e : (shape.map fun e => (e, 0)).getD k d = (shape.getD k 0, 0) := by
      rw [List.getD_eq_getElem?_getD, List.getElem?_map, List.getD_eq_getElem?_getD, List.getElem?_eq_getElem hk]
      rfl
    rw [e]
    exact axisWindow_spec (s := none) (w := (shape.getD k 0, 0)) rfl
  | some sl =>
    obtain ⟨hl, hg⟩ := mapM_range_ok _ _ _ h
    refine ⟨hl, fun k hk d => ?_⟩
    have := axisWindow_spec (hg k hk d)
    exact this

theorem split_lt {ndim : Nat} {split : Option Int} {s : Nat} (h : sanitizeAxis ndim split = .ok (some s)) : s < ndim := by
  cases split with
  | none => simp [sanitizeAxis] at h
  | some a =>
    by_cases h0 : ndim = 0
    · simp [sanitizeAxis, h0] at h
    · rw [sanitizeAxis_some _ _ (by omega)] at h
      by_cases hc : -(ndim : Int) ≤ a ∧ a < ndim
      · rw [if_pos hc] at h
        injection h with h; injection h with h
        split at h <;> omega
      · rw [if_neg hc] at h
        cases h

theorem hdf5Read_ndim (F : NArr α) (gd : Nat → Nat) (sp : Option Nat) (lo hi : Nat → Nat) : (hdf5Read F gd sp lo hi).ndim = F.ndim := by
  cases sp with
  | none => rfl
  | some s =>
    unfold hdf5Read
    dsimp only
    by_cases h : hi s > lo s
    · rw [if_pos h]; rfl
    · rw [if_neg h]; rfl

theorem hdf5Local_dim (P : Nat) (hP : 0 < P) (F : NArr α) (w : Nat → Nat × Nat) (s r : Nat) (hr : r < P) (hb : (w s).1 + (w s).2 ≤ F.dim s) :
    (hdf5Local P F w (some s) r).dim s = evenSize (w s).1 P r := by
  have hsz := chunkRange_size (w s).1 r P
  have hmx : (chunkRange (w s).1 r P).2 ≤ (w s).1 := by
    have := chunkRange_mono (w s).1 P (r := r + 1) (s := P) (by omega)
    rw [chunkRange_succ, chunkRange_at_P _ _ hP] at this
    exact this
  have hc : chunkAxis P (fun k => (w k).1) (some s) r s = chunkRange (w s).1 r P := if_pos rfl
  unfold hdf5Local hdf5Read
  dsimp only
  by_cases h : (chunkAxis P (fun k => (w k).1) (some s) r s).2 + (w s).2 > (chunkAxis P (fun k => (w k).1) (some s) r s).1 + (w s).2
  · rw [if_pos h]
    simp only [NArr.block, hc]
    omega
  · rw [if_neg h]
    rw [hc] at h
    simp [NArr.block]
    omega

theorem hdf5Local_other (P : Nat) (F : NArr α) (w : Nat → Nat × Nat) (s r k : Nat) (hks : k ≠ s) (hb : (w k).1 + (w k).2 ≤ F.dim k) :
    (hdf5Local P F w (some s) r).dim k = (w k).1 := by
  have hne : ¬ (some s = some k) := by intro h; injection h with h; exact hks h.symm
  have hc : chunkAxis P (fun k => (w k).1) (some s) r k = (0, (w k).1) := if_neg hne
  unfold hdf5Local hdf5Read
  dsimp only
  split
  · simp only [NArr.block, hc]; omega
  · simp only [NArr.block, if_pos hks]; omega

/-- C87.  What `load_hdf5` returns is the part of the data set that the given slices select, on every number of processes and for every split axis;
the local shapes are the canonical ones. -/
theorem load_hdf5_spec (P : Nat) (hP : 0 < P) (F : NArr α) (hF : Local F) (slices : Option (List (Option PySlice))) (split : Option Int) (x : DND α)
    (h : loadHdf5 P F slices split = .ok x) :
    ∃ G, IsSliced F (boundsOf slices) G ∧ Rep P x G ∧ sanitizeAxis F.ndim split = .ok x.split ∧ x.balanced = some true ∧
      ∀ s, x.split = some s → ∀ r < P, (x.loc r).dim s = evenSize (G.dim s) P r := by
  unfold loadHdf5 at h
  cases hw : windows F.shape slices with
  | error e => rw [hw] at h; cases h
  | ok w =>
    rw [hw] at h
    dsimp only at h
    obtain ⟨hlen, hwin⟩ := windows_spec hw
    have hsl : F.shape.length = F.ndim := by simp [NArr.shape]
    have hsh : ∀ k < F.ndim, F.shape.getD k 0 = F.dim k := by
      intro k hk
      simp [NArr.shape, List.getD_eq_getElem?_getD, List.getElem?_map, List.getElem?_range hk]
    rw [List.length_map, hlen, hsl] at h
    rw [hsl] at hlen hwin
    cases hs : sanitizeAxis F.ndim split with
    | error e => rw [hs] at h; cases h
    | ok sp =>
      rw [hs] at h
      dsimp only at h
      cases h
      have hgd : ∀ k, (w.map Prod.fst).getD k 0 = (w.getD k (0, 0)).1 := by
        intro k
        simp only [List.getD_eq_getElem?_getD, List.getElem?_map]
        cases w[k]? <;> rfl
      have hlen' : (w.map Prod.fst).length = F.ndim := by simp [hlen]
      have hW := fun k (hk : k < F.ndim) => hwin k hk (0, 0)
      dsimp only at hW
      generalize hwf : (fun k => w.getD k (0, 0)) = wf
      have hwf' : ∀ k, w.getD k (0, 0) = wf k := fun k => by rw [← hwf]
      simp only [hwf'] at hgd hW
      have hb : ∀ k < F.ndim, (wf k).1 + (wf k).2 ≤ F.dim k := by
        intro k hk
        have := (hW k hk).2.1
        rw [hsh k hk] at this
        exact this
      refine ⟨⟨F.ndim, fun k => (wf k).1, fun idx => F.get fun k => idx k + (wf k).2⟩, ⟨rfl, ?_, ?_⟩, ?_, rfl, rfl, ?_⟩
      · intro k hk
        dsimp only
        rw [← hsh k hk]
        exact (hW k hk).1.symm
      · intro idx hin
        apply hF
        intro k hk
        have := (hW k hk).2.2 (idx k) (hin k hk)
        rw [hsh k hk] at this
        exact this.symm
      · refine ⟨?_, hlen', fun k hk => hgd k, fun r _ => hdf5Read_ndim _ _ _ _ _, ?_⟩
        · intro i j hij
          apply hF
          intro k hk
          dsimp only at hij ⊢
          rw [hij k hk]
        · cases sp with
          | none =>
            dsimp only
            intro r _
            refine ⟨fun k hk => ?_, fun idx _ => ?_⟩
            · have := hb k hk
              simp only [hdf5Local, hdf5Read, NArr.block, chunkAxis]
              simp
              omega
            · simp [hdf5Local, hdf5Read, NArr.block, chunkAxis]
          | some s =>
            have hsn : s < F.ndim := split_lt hs
            have hdim := fun r (hr : r < P) => hdf5Local_dim P hP F wf s r hr (hb s hsn)
            dsimp only
            refine ⟨hsn, ?_, fun r hr => ⟨fun k hk hks => hdf5Local_other P F wf s r k hks (hb k hk), fun idx hin => ?_⟩⟩
            · rw [axisStart_even _ s _ P hdim P (Nat.le_refl _), chunkRange_at_P _ _ hP]
            · rw [axisStart_even _ s _ P hdim r (by omega)]
              have hpos := hin s (by rw [hdf5Local, hdf5Read_ndim]; exact hsn)
              rw [hdim r hr, ← chunkRange_size] at hpos
              have hc : chunkAxis P (fun k => (wf k).1) (some s) r s = chunkRange (wf s).1 r P := if_pos rfl
              unfold hdf5Local hdf5Read
              dsimp only
              rw [if_pos (by rw [hc]; omega)]
              simp only [NArr.block]
              apply hF
              intro k hk
              by_cases hks : k = s
              · subst hks
                simp only [hc, shift, if_pos]
                omega
              · have hne : ¬ (some s = some k) := by intro h; injection h with h; exact hks h.symm
                simp [shift, hks, chunkAxis, hne]
      · intro s hsp r hr
        dsimp only at hsp
        subst hsp
        exact hdf5Local_dim P hP F wf s r hr (hb s (split_lt hs))

/-- C87.  Loading succeeds whenever every given slice has step 1 (or None) and the split axis exists. -/
theorem load_hdf5_completes (P : Nat) (F : NArr α) (slices : Option (List (Option PySlice))) (split : Option Int)
    (hst : ∀ l, slices = some l → ∀ s ∈ l, ∀ v, s = some v → v.step = none ∨ v.step = some 1)
    (hsp : ∀ a, split = some a → -(F.ndim : Int) ≤ a ∧ a < F.ndim) : ∃ x, loadHdf5 P F slices split = .ok x := by
  have hw : ∃ w, windows F.shape slices = .ok w ∧ w.length = F.ndim := by
    cases slices with
    | none => exact ⟨_, rfl, by simp [NArr.shape]⟩
    | some sl =>
      have hone : ∀ i, ∃ v, axisWindow (F.shape.getD i 0) (sliceOf sl i) = .ok v := by
        intro i
        cases hsl : sliceOf sl i with
        | none => exact ⟨_, rfl⟩
        | some v =>
          have hm : some v ∈ sl := by
            unfold sliceOf at hsl
            rw [List.getD_eq_getElem?_getD] at hsl
            cases hi : sl[i]? with
            | none => rw [hi] at hsl; cases hsl
            | some u => rw [hi] at hsl; simp at hsl; subst hsl; exact List.mem_of_getElem? hi
          refine ⟨sizeFromSlice (F.shape.getD i 0) v, ?_⟩
          unfold axisWindow
          dsimp only
          rw [if_neg]
          rcases hst sl rfl _ hm v rfl with h | h <;> simp [h]
      have : ∀ n, ∃ w, (List.range n).mapM (fun i => axisWindow (F.shape.getD i 0) (sliceOf sl i)) = Except.ok w := by
        intro n
        induction n with
        | zero => exact ⟨[], rfl⟩
        | succ n ih =>
          obtain ⟨w, hw⟩ := ih
          obtain ⟨v, hv⟩ := hone n
          refine ⟨w ++ [v], ?_⟩
          rw [List.range_succ, List.mapM_append, hw]
          simp only [bind, Except.bind, List.mapM_cons, List.mapM_nil, hv, pure, Except.pure]
      obtain ⟨w, hw⟩ := this F.shape.length
      refine ⟨w, hw, ?_⟩
      rw [(mapM_range_ok _ _ _ hw).1]
      simp [NArr.shape]
  obtain ⟨w, hw, hl⟩ := hw
  have hs : ∃ sp, sanitizeAxis F.ndim split = .ok sp := by
    cases split with
    | none => exact ⟨none, by simp [sanitizeAxis]⟩
    | some a =>
      have := hsp a rfl
      rw [sanitizeAxis_some _ _ (by omega), if_pos (by omega)]
      exact ⟨_, rfl⟩
  obtain ⟨sp, hs⟩ := hs
  unfold loadHdf5
  rw [hw]
  dsimp only
  rw [List.length_map, hl, hs]
  exact ⟨_, rfl⟩

/-- A 4 x 3 data set. -/
def h5ex : NArr Nat := ⟨2, fun k => if k = 0 then 4 else 3, fun i => 10 * i 0 + i 1⟩

/-- Rows 1 to the last but one, columns from 1, split along the rows on three ranks: the third rank holds nothing. -/
example : ∃ x, loadHdf5 3 h5ex (some [some ⟨some 1, some (-1), none⟩, some ⟨some 1, none, some 1⟩]) (some 0) = .ok x ∧ x.gshape = [2, 2] ∧
    (x.loc 0).flat = [11, 12] ∧ (x.loc 1).flat = [21, 22] ∧ (x.loc 2).flat = [] := ⟨_, rfl, by decide +kernel⟩

/-! ## C88: load_multiple_hdf5 -/

/-- Rows of the files before file `i`. -/
def rowsBefore (files : List (List α)) (i : Nat) : Nat := ((files.map List.length).take i).sum

theorem rowsBefore_zero (files : List (List α)) : rowsBefore files 0 = 0 := by simp [rowsBefore]

theorem rowsBefore_succ (files : List (List α)) (i : Nat) : rowsBefore files (i + 1) = rowsBefore files i + (files.getD i []).length := by
  unfold rowsBefore
  rw [List.take_add_one, List.sum_append, List.getElem?_map, List.getD_eq_getElem?_getD]
  cases files[i]? <;> simp

theorem rowsBefore_mono (files : List (List α)) {i j : Nat} (h : i ≤ j) : rowsBefore files i ≤ rowsBefore files j := by
  induction j with
  | zero => have : i = 0 := by omega
            subst this; exact Nat.le_refl _
  | succ j ih =>
    rcases Nat.eq_or_lt_of_le h with he | hl
    · subst he; exact Nat.le_refl _
    · have := ih (by omega)
      rw [rowsBefore_succ]; omega

theorem rowsBefore_all (files : List (List α)) : rowsBefore files files.length = files.flatten.length := by
  unfold rowsBefore
  rw [List.take_of_length_le (by simp), List.length_flatten]

theorem rowsBefore_flatten (files : List (List α)) (i : Nat) : (files.take i).flatten.length = rowsBefore files i := by
  unfold rowsBefore
  rw [List.length_flatten, List.map_take]

theorem fileRanges_length (n : Nat) (l : List Nat) : (fileRanges n l).length = l.length := by
  induction l generalizing n with
  | nil => rfl
  | cons x t ih => simp [fileRanges, ih]

theorem fileRanges_get (n : Nat) (l : List Nat) (i : Nat) (h : i < l.length) :
    (fileRanges n l).getD i (0, 0) = (n + (l.take i).sum, n + (l.take (i + 1)).sum) := by
  induction l generalizing n i with
  | nil => simp at h
  | cons x t ih =>
    cases i with
    | zero => simp [fileRanges]
    | succ i =>
      simp only [fileRanges, List.getD_cons_succ, List.take_succ_cons, List.sum_cons]
      rw [ih _ _ (by simpa using h)]
      simp [Nat.add_assoc]

theorem flatten_piece (files : List (List α)) (i : Nat) :
    (files.flatten.take (rowsBefore files (i + 1))).drop (rowsBefore files i) = files.getD i [] := by
  have h1 : files.flatten.take (rowsBefore files (i + 1)) = (files.take (i + 1)).flatten := by
    conv => lhs; arg 2; rw [← List.take_append_drop (i + 1) files, List.flatten_append]
    rw [← rowsBefore_flatten, List.take_left]
  rw [h1, List.take_add_one, List.flatten_append, ← rowsBefore_flatten, List.drop_left, List.getD_eq_getElem?_getD]
  cases files[i]? <;> simp

/-- Files that `find_file_ids_for_range` does not return contribute nothing. -/
theorem rangeHit_false {lo hi s e : Nat} (hle : lo ≤ hi) (hse : s ≤ e) (h : rangeHit lo hi (s, e) = false) : e ≤ lo ∨ hi ≤ s := by
  unfold rangeHit at h
  dsimp only at h
  split at h
  · cases h
  · split at h
    · cases h
    · simp only [decide_eq_false_iff_not] at h
      omega

theorem rangeHit_true {lo hi s e : Nat} (hle : lo ≤ hi) (hse : s ≤ e) (h : rangeHit lo hi (s, e) = true) : lo ≤ e := by
  unfold rangeHit at h
  dsimp only at h
  split at h
  · omega
  · split at h
    · omega
    · simp only [decide_eq_true_eq] at h
      omega

/-- Rows of this rank found in the files before file `i`. -/
def filledBy (files : List (List α)) (lo hi i : Nat) : Nat := min hi (max lo (rowsBefore files i)) - lo

theorem readOne_step (files : List (List α)) (lo hi i : Nat) (hle : lo ≤ hi) (hN : hi ≤ files.flatten.length) (st : MultiState α)
    (h2 : st.2 = filledBy files lo hi i)
    (h1 : st.1 = ((files.flatten.take (lo + st.2)).drop lo).map some ++ List.replicate (hi - lo - st.2) none) :
    (readOne (files.getD i []) (lo - rowsBefore files i) (hi - lo) st).2 = filledBy files lo hi (i + 1) ∧
    (readOne (files.getD i []) (lo - rowsBefore files i) (hi - lo) st).1 =
      ((files.flatten.take (lo + filledBy files lo hi (i + 1))).drop lo).map some ++ List.replicate (hi - lo - filledBy files lo hi (i + 1)) none := by
  obtain ⟨buf, n⟩ := st
  dsimp only at h1 h2
  have hS := rowsBefore_succ files i
  have hpc := flatten_piece files i
  unfold readOne
  dsimp only
  generalize hG : files.flatten = G at *
  generalize hf : files.getD i [] = f at *
  unfold filledBy at *
  rw [hS] at hpc ⊢
  generalize rowsBefore files i = S at *
  have hn' : n + (f.length - (lo - S)) - (n + (f.length - (lo - S)) - min (n + (f.length - (lo - S))) (hi - lo)) = min hi (max lo (S + f.length)) - lo := by omega
  refine ⟨hn', ?_⟩
  generalize hn2 : min hi (max lo (S + f.length)) - lo = n' at *
  have hlen : lo - S + (f.length - (lo - S)) - (n + (f.length - (lo - S)) - min (n + (f.length - (lo - S))) (hi - lo)) = (lo - S) + (n' - n) := by omega
  rw [hlen]
  have hnn : n ≤ n' := by omega
  have hpiece : (f.take (lo - S + (n' - n))).drop (lo - S) = (G.take (lo + n')).drop (lo + n) := by
    rcases Nat.eq_or_lt_of_le hnn with he | hl
    · subst he
      rw [Nat.sub_self, Nat.add_zero, List.drop_take, Nat.sub_self, List.drop_take, Nat.sub_self]
      simp
    · rw [List.drop_take, List.drop_take]
      conv => lhs; arg 2; rw [← hpc, List.drop_take, List.drop_take, List.drop_drop]
      rw [List.take_take]
      congr 1
      · omega
      · congr 1; omega
  rw [hpiece]
  have hln : ((G.take (lo + n')).drop (lo + n)).length = n' - n := by
    rw [List.length_drop, List.length_take]; omega
  have hl1 : (((G.take (lo + n)).drop lo).map some).length = n := by
    rw [List.length_map, List.length_drop, List.length_take]; omega
  unfold bufWrite
  have hd : (((G.take (lo + n)).drop lo).map some).drop (n + (n' - n)) = [] := List.drop_eq_nil_of_le (by omega)
  rw [h1, hln, List.take_append_of_le_length (by omega), List.take_of_length_le (Nat.le_of_eq hl1), List.drop_append, hl1,
    hd, List.nil_append, List.drop_replicate, ← List.map_append]
  congr 1
  · congr 1
    have : (G.take (lo + n)).drop lo ++ (G.take (lo + n')).drop (lo + n) = (G.take (lo + n')).drop lo := by
      have e1 : (G.take (lo + n)).drop lo = ((G.take (lo + n')).drop lo).take n := by
        rw [List.drop_take, List.drop_take, List.take_take, Nat.min_eq_left (by omega)]
        congr 1; omega
      have e2 : (G.take (lo + n')).drop (lo + n) = ((G.take (lo + n')).drop lo).drop n := by rw [List.drop_drop]
      rw [e1, e2, List.take_append_drop]
    exact this
  · congr 1; omega

/-- The loop with the start index `lo - rows before the file` for every file returned by `find_file_ids_for_range`. -/
def readAll (files : List (List α)) (lo hi : Nat) (k : Nat) : MultiState α :=
  (List.range k).foldl (fun st i => if rangeHit lo hi (rowsBefore files i, rowsBefore files (i + 1)) then
    readOne (files.getD i []) (lo - rowsBefore files i) (hi - lo) st else st) (List.replicate (hi - lo) none, 0)

theorem readAll_inv (files : List (List α)) (lo hi : Nat) (hle : lo ≤ hi) (hN : hi ≤ files.flatten.length) (k : Nat) :
    (readAll files lo hi k).2 = filledBy files lo hi k ∧
    (readAll files lo hi k).1 = ((files.flatten.take (lo + (readAll files lo hi k).2)).drop lo).map some ++ List.replicate (hi - lo - (readAll files lo hi k).2) none := by
  induction k with
  | zero =>
    have h0 : filledBy files lo hi 0 = 0 := by unfold filledBy; rw [rowsBefore_zero]; omega
    rw [h0]
    refine ⟨rfl, ?_⟩
    simp only [readAll, List.range_zero, List.foldl_nil, Nat.add_zero, Nat.sub_zero]
    rw [List.drop_take]
    simp
  | succ k ih =>
    have hstep : readAll files lo hi (k + 1) = if rangeHit lo hi (rowsBefore files k, rowsBefore files (k + 1)) then
        readOne (files.getD k []) (lo - rowsBefore files k) (hi - lo) (readAll files lo hi k) else readAll files lo hi k := by
      unfold readAll
      rw [List.range_succ, List.foldl_append]
      rfl
    rw [hstep]
    by_cases hh : rangeHit lo hi (rowsBefore files k, rowsBefore files (k + 1)) = true
    · rw [if_pos hh]
      have := readOne_step files lo hi k hle hN _ ih.1 ih.2
      refine ⟨this.1, ?_⟩
      rw [this.1]
      exact this.2
    · rw [if_neg hh]
      have hz := rangeHit_false hle (rowsBefore_mono files (Nat.le_succ k)) (by simpa using hh)
      have hm := rowsBefore_mono files (Nat.le_succ k)
      have he : filledBy files lo hi (k + 1) = filledBy files lo hi k := by
        unfold filledBy
        simp only [Nat.succ_eq_add_one] at hm
        generalize rowsBefore files (k + 1) = e at *
        generalize rowsBefore files k = s at *
        rcases hz with hz | hz
        · rw [Nat.max_eq_left hz, Nat.max_eq_left (Nat.le_trans hm hz)]
        · rw [Nat.min_eq_left (Nat.le_trans hz (Nat.le_max_right _ _)), Nat.min_eq_left (Nat.le_trans (Nat.le_trans hz hm) (Nat.le_max_right _ _))]
      rw [he]
      exact ih

theorem fileIds_eq (files : List (List α)) (lo hi : Nat) : fileIds (fileRanges 0 (files.map List.length)) lo hi =
    (List.range files.length).filter fun i => rangeHit lo hi (rowsBefore files i, rowsBefore files (i + 1)) := by
  unfold fileIds
  rw [fileRanges_length, List.length_map]
  apply List.filter_congr
  intro i hi
  rw [fileRanges_get _ _ _ (by simpa using hi)]
  simp [rowsBefore]

/-- The file that holds row `g`. -/
theorem file_of_row (files : List (List α)) (g : Nat) (h : g < files.flatten.length) : ∃ i < files.length, rowsBefore files i ≤ g ∧ g < rowsBefore files (i + 1) := by
  rw [← rowsBefore_all] at h
  generalize files.length = k at h
  induction k with
  | zero => rw [rowsBefore_zero] at h; omega
  | succ k ih =>
    by_cases hk : g < rowsBefore files k
    · obtain ⟨i, hi, h1⟩ := ih hk
      exact ⟨i, by omega, h1⟩
    · exact ⟨k, by omega, by omega, h⟩

theorem empty_chunk {n r P : Nat} (hr : r < P) (h : (chunkRange n r P).1 = (chunkRange n r P).2) : (chunkRange n r P).1 = n := by
  have h1 := chunkRange_size n r P
  rw [h] at h1
  unfold evenSize at h1
  rw [Nat.sub_self] at h1
  have h2 : n / P = 0 := (Nat.add_eq_zero_iff.mp h1.symm).1
  have h3 : ¬ r < n % P := by intro hc; rw [if_pos hc] at h1; omega
  have h4 : n < P := by
    rcases Nat.div_eq_zero_iff.mp h2 with h | h
    · omega
    · exact h
  rw [Nat.mod_eq_of_lt h4] at h3
  rw [chunkRange_fst, h2, Nat.mod_eq_of_lt h4]
  omega

/-- C88.  The local buffers of `load_multiple_hdf5` are completely filled, and together they are the rows of all files one after the other, distributed as
evenly as possible: for every list of files (empty ones included) and every number of processes. -/
theorem load_multiple_hdf5_spec (P : Nat) (files : List (List α)) (hne : files ≠ []) (r : Nat) (hr : r < P) :
    loadMultiple P files r = .ok (((files.flatten.take (chunkRange files.flatten.length r P).2).drop (chunkRange files.flatten.length r P).1).map some) := by
  have hP : 0 < P := by omega
  have hlen : 0 < files.length := List.length_pos_iff.mpr hne
  unfold loadMultiple
  have htot : (files.map List.length).sum = files.flatten.length := by rw [List.length_flatten]
  rw [htot]
  dsimp only
  rw [fileIds_eq]
  have hle : (chunkRange files.flatten.length r P).1 ≤ (chunkRange files.flatten.length r P).2 := by
    have := chunkRange_mono files.flatten.length P (r := r) (s := r + 1) (by omega)
    rw [chunkRange_succ] at this
    exact this
  have hN : (chunkRange files.flatten.length r P).2 ≤ files.flatten.length := by
    have := chunkRange_mono files.flatten.length P (r := r + 1) (s := P) (by omega)
    rw [chunkRange_succ, chunkRange_at_P _ _ hP] at this
    exact this
  have hempty := empty_chunk (n := files.flatten.length) hr
  generalize (chunkRange files.flatten.length r P).1 = lo at *
  generalize (chunkRange files.flatten.length r P).2 = hi at *
  -- some file is found, and the first one begins no later than the own rows
  have hex : ∃ j < files.length, rangeHit lo hi (rowsBefore files j, rowsBefore files (j + 1)) = true ∧ (rowsBefore files j ≤ lo) := by
    by_cases h1 : lo < files.flatten.length
    · obtain ⟨j, hj, h2, h3⟩ := file_of_row files lo h1
      exact ⟨j, hj, by unfold rangeHit; rw [if_pos ⟨h2, h3⟩], h2⟩
    · by_cases h0 : files.flatten.length = 0
      · refine ⟨0, hlen, ?_, by rw [rowsBefore_zero]; omega⟩
        have := rowsBefore_mono files (i := 1) (j := files.length) (by omega)
        rw [rowsBefore_all] at this
        unfold rangeHit
        dsimp only
        split
        · rfl
        · split
          · rfl
          · rw [rowsBefore_zero]; simp only [decide_eq_true_eq]; simp only [Nat.zero_add]; omega
      · obtain ⟨j, hj, h2, h3⟩ := file_of_row files (files.flatten.length - 1) (by omega)
        refine ⟨j, hj, ?_, by omega⟩
        unfold rangeHit
        dsimp only
        split
        · rfl
        · rw [if_pos]
          omega
  have hpw : ((List.range files.length).filter fun i => rangeHit lo hi (rowsBefore files i, rowsBefore files (i + 1))).Pairwise (· < ·) :=
    List.Pairwise.filter _ List.pairwise_lt_range
  have hfold : readAll files lo hi files.length = ((List.range files.length).filter fun i => rangeHit lo hi (rowsBefore files i, rowsBefore files (i + 1))).foldl
      (fun st i => readOne (files.getD i []) (lo - rowsBefore files i) (hi - lo) st) (List.replicate (hi - lo) none, 0) := by
    rw [List.foldl_filter]; rfl
  have hmemf : ∀ i, i ∈ ((List.range files.length).filter fun i => rangeHit lo hi (rowsBefore files i, rowsBefore files (i + 1))) ↔
      i < files.length ∧ rangeHit lo hi (rowsBefore files i, rowsBefore files (i + 1)) = true := by
    intro i; rw [List.mem_filter, List.mem_range]
  generalize ((List.range files.length).filter fun i => rangeHit lo hi (rowsBefore files i, rowsBefore files (i + 1))) = ids at *
  obtain ⟨j, hj, hjh, hjl⟩ := hex
  have hjm : j ∈ ids := (hmemf j).mpr ⟨hj, hjh⟩
  cases ids with
  | nil => simp at hjm
  | cons i0 ids =>
    dsimp only
    have hi0 : rowsBefore files i0 ≤ lo := by
      rcases List.mem_cons.mp hjm with he | hm
      · rw [← he]; exact hjl
      · have := rowsBefore_mono files (Nat.le_of_lt (List.rel_of_pairwise_cons hpw hm))
        omega
    have hrb : ((files.map List.length).take i0).sum = rowsBefore files i0 := rfl
    rw [hrb, if_neg (by omega)]
    congr 1
    have hinv := readAll_inv files lo hi hle hN files.length
    have hf : filledBy files lo hi files.length = hi - lo := by
      unfold filledBy; rw [rowsBefore_all]; omega
    rw [hinv.1, hf] at hinv
    have hres := hinv.2
    rw [Nat.sub_self, show lo + (hi - lo) = hi by omega, List.replicate_zero, List.append_nil] at hres
    rw [← hres, hfold, List.foldl_cons]
    unfold readRest
    congr 1
    refine (foldl_congr_mem _ _ ?_).symm
    intro st i him
    have hlt := List.rel_of_pairwise_cons hpw him
    have hge : lo ≤ rowsBefore files (i0 + 1) := rangeHit_true hle (rowsBefore_mono files (Nat.le_succ i0)) ((hmemf i0).mp (by simp)).2
    have := rowsBefore_mono files (i := i0 + 1) (j := i) (by omega)
    rw [show lo - rowsBefore files i = 0 by omega]

theorem content_chunkParts (G : List α) (P : Nat) (hP : 0 < P) : ∀ k ≤ P, content k (fun r => (G.take (chunkRange G.length r P).2).drop (chunkRange G.length r P).1) = G.take (chunkRange G.length k P).1 := by
  intro k
  induction k with
  | zero => intro _; simp [content_zero, chunkRange_zero]
  | succ k ih =>
    intro hk
    have hm := chunkRange_mono G.length P (r := k) (s := k + 1) (by omega)
    rw [chunkRange_succ] at hm
    rw [content_succ, ih (by omega), chunkRange_succ]
    generalize (chunkRange G.length k P).1 = a at *
    generalize (chunkRange G.length k P).2 = b at *
    rw [show G.take a = (G.take b).take a by rw [List.take_take, Nat.min_eq_left hm], List.take_append_drop]

/-- C88.  The global array: all rows of all files, in the order of the files. -/
theorem load_multiple_hdf5_content (P : Nat) (hP : 0 < P) (files : List (List α)) (hne : files ≠ []) : ∃ parts : Nat → List (Option α),
    (∀ r < P, loadMultiple P files r = .ok (parts r)) ∧ content P parts = files.flatten.map some ∧ Balanced P parts := by
  have hc : content P (fun r => ((files.flatten.take (chunkRange files.flatten.length r P).2).drop (chunkRange files.flatten.length r P).1).map some) = files.flatten.map some := by
    have := content_chunkParts files.flatten P hP P (Nat.le_refl _)
    rw [chunkRange_at_P _ _ hP, List.take_length] at this
    conv => rhs; rw [← this]
    unfold content
    rw [List.map_flatMap]
  refine ⟨_, fun r hr => load_multiple_hdf5_spec P files hne r hr, hc, ?_⟩
  intro r hr
  rw [hc, List.length_map, ← chunkRange_size, List.length_map, List.length_drop, List.length_take]
  have hN : (chunkRange files.flatten.length r P).2 ≤ files.flatten.length := by
    have := chunkRange_mono files.flatten.length P (r := r + 1) (s := P) (by omega)
    rw [chunkRange_succ, chunkRange_at_P _ _ hP] at this
    exact this
  omega

/-- Files of 2, 0, 1 and 3 rows on three ranks. -/
example : (List.range 3).map (loadMultiple 3 [[1, 2], [], [3], [4, 5, 6]]) = [.ok [some 1, some 2], .ok [some 3, some 4], .ok [some 5, some 6]] := by decide +kernel

end Heat
