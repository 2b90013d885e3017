import Verif.Model.SplitTiles
import Mathlib.Algebra.Order.BigOperators.Group.Finset
import Mathlib.Data.List.GetD
/-!
# C176: reading and writing tiles
-/
namespace Heat
namespace Spec

/-- Where tile number `p` begins along an axis: the sizes of the tiles before it. -/
def tileOff (T : STiles) (ax p : Nat) : Nat := ∑ q ∈ Finset.range p, T.dims ax q

/-- The entry of a key selects tile number `p`, in the sense of Python. -/
def selects (P : Nat) : TKey → Nat → Prop
  | .int i, p => (p : Int) = i ∨ (p : Int) = i + P
  | .slice a b, p => (∀ x, a = some x → (if x < 0 then x + P else x) ≤ p) ∧ ∀ y, b = some y → (p : Int) < if y < 0 then y + P else y

/-- The region of the local array of process `me` is the part of the selected tiles that is at this process: along the split axis everything, along the other axes the positions in the selected tiles. -/
structure IsTiles (T : STiles) (me : Nat) (key : Nat → TKey) (reg : Nat → Nat × Nat) : Prop where
  others : ∀ ax < T.ndim, T.split ≠ some ax → ∀ x, ((reg ax).1 ≤ x ∧ x < (reg ax).2) ↔ ∃ p < T.P, selects T.P (key ax) p ∧ tileOff T ax p ≤ x ∧ x < tileOff T ax (p + 1)
  own : ∀ ax, T.split = some ax → ∀ x, ((reg ax).1 ≤ x ∧ x < (reg ax).2) ↔ x < T.dims ax me

end Spec
open Spec

theorem tileOff_mono (T : STiles) (ax : Nat) {p q : Nat} (h : p ≤ q) : tileOff T ax p ≤ tileOff T ax q :=
  Finset.sum_le_sum_of_subset (fun a ha => by rw [Finset.mem_range] at *; omega)

/-- A run of tiles is a run of positions. -/
theorem tiles_union (T : STiles) (ax : Nat) {lo hi : Nat} (x : Nat) (h : lo ≤ hi) : (tileOff T ax lo ≤ x ∧ x < tileOff T ax hi) ↔ ∃ p, lo ≤ p ∧ p < hi ∧ tileOff T ax p ≤ x ∧ x < tileOff T ax (p + 1) := by
  constructor
  · rintro ⟨h1, h2⟩
    induction hi, h using Nat.le_induction with
    | base => omega
    | succ n hn ih =>
      by_cases c : x < tileOff T ax n
      · obtain ⟨p, a, b, d⟩ := ih c
        exact ⟨p, a, by omega, d⟩
      · exact ⟨n, hn, by omega, by omega, h2⟩
  · rintro ⟨p, h1, h2, h3, h4⟩
    exact ⟨le_trans (tileOff_mono T ax h1) h3, lt_of_lt_of_le h4 (tileOff_mono T ax h2)⟩

/-- An entry of a key and the run of tiles it selects. -/
theorem stRange_iff {P : Nat} {k : TKey} (hk : ∀ i, k = .int i → -(P : Int) ≤ i ∧ i < P) {p : Nat} (hp : p < P) : ((stRange P k).1 ≤ p ∧ p < (stRange P k).2) ↔ selects P k p := by
  cases k with
  | int i =>
    obtain ⟨h1, h2⟩ := hk i rfl
    show ((stIndex P i).getD 0 ≤ p ∧ p < (stIndex P i).getD 0 + 1) ↔ ((p : Int) = i ∨ (p : Int) = i + P)
    unfold stIndex
    split_ifs <;> simp only [Option.getD_some] <;> omega
  | slice a b =>
    show ((a.map (stBound P)).getD 0 ≤ p ∧ p < (b.map (stBound P)).getD P) ↔ _
    unfold selects
    have ha : (a.map (stBound P)).getD 0 ≤ p ↔ ∀ x, a = some x → (if x < 0 then x + P else x) ≤ (p : Int) := by
      cases a with
      | none => simp
      | some x =>
        simp only [Option.map_some, Option.getD_some, Option.some.injEq, forall_eq']
        unfold stBound
        split_ifs <;> omega
    have hb : p < (b.map (stBound P)).getD P ↔ ∀ y, b = some y → (p : Int) < if y < 0 then y + P else y := by
      cases b with
      | none => simp [hp]
      | some x =>
        simp only [Option.map_some, Option.getD_some, Option.some.injEq, forall_eq']
        unfold stBound
        split_ifs <;> omega
    rw [ha, hb]

theorem stRange_le {P : Nat} {k : TKey} (hP : 0 < P) (hk : ∀ i, k = .int i → -(P : Int) ≤ i ∧ i < P) : (stRange P k).2 ≤ P := by
  cases k with
  | int i =>
    obtain ⟨h1, h2⟩ := hk i rfl
    show (stIndex P i).getD 0 + 1 ≤ P
    unfold stIndex
    split_ifs <;> simp only [Option.getD_some] <;> omega
  | slice a b =>
    show (b.map (stBound P)).getD P ≤ P
    cases b with
    | none => simp
    | some x =>
      simp only [Option.map_some, Option.getD_some]
      unfold stBound
      split_ifs <;> omega

theorem stKey_ok {T : STiles} {ks : List TKey} (hi : ∀ i, TKey.int i ∈ ks → -(T.P : Int) ≤ i ∧ i < T.P) (ax : Nat) : ∀ i, stKey ks ax = .int i → -(T.P : Int) ≤ i ∧ i < T.P := by
  intro i h
  apply hi
  unfold stKey at h
  by_cases c : ax < ks.length
  · rw [List.getD_eq_getElem _ _ c] at h
    rw [← h]
    exact List.getElem_mem c
  · rw [List.getD_eq_default _ _ (by omega)] at h
    cases h

theorem stKeyOk_iff {T : STiles} {ks : List TKey} : stKeyOk T ks = true ↔ ks.length ≤ T.ndim ∧ ∀ i, TKey.int i ∈ ks → -(T.P : Int) ≤ i ∧ i < T.P := by
  unfold stKeyOk
  simp only [Bool.and_eq_true, decide_eq_true_eq, List.all_eq_true]
  refine and_congr_right fun _ => ⟨fun h i hi => ?_, fun h k hk => ?_⟩
  · have := h _ hi
    simp only at this
    unfold stIndex at this
    split_ifs at this <;> first | omega | simp at this
  · cases k with
    | int i =>
      have := h i hk
      simp only
      unfold stIndex
      split_ifs <;> first | omega | rfl
    | slice a b => rfl

theorem tiles_foldl_max {f : Nat → Nat} : ∀ (l : List Nat) (b : Nat), b ≤ l.foldl (fun acc ax => max acc (f ax)) b ∧ ∀ a ∈ l, f a ≤ l.foldl (fun acc ax => max acc (f ax)) b
  | [], b => ⟨le_refl _, by simp⟩
  | x :: l, b => by
    obtain ⟨h1, h2⟩ := tiles_foldl_max l (max b (f x))
    refine ⟨le_trans (le_max_left _ _) h1, fun a ha => ?_⟩
    rcases List.mem_cons.mp ha with rfl | ha
    · exact le_trans (le_max_right _ _) h1
    · exact h2 a ha

/-- **C176.**  Processes that hold none of the selected tiles get `None`. -/
theorem tiles_none_iff {T : STiles} {me : Nat} {ks : List TKey} (hP : 0 < T.P) (hme : me < T.P) (hlen : ks.length ≤ T.ndim) (hi : ∀ i, TKey.int i ∈ ks → -(T.P : Int) ≤ i ∧ i < T.P) (hsp : ∀ s, T.split = some s → s < T.ndim) :
    stGet T me ks = .ok none ↔ (∃ ax < T.ndim, ∀ p < T.P, ¬ selects T.P (stKey ks ax) p) ∨ ∃ s, T.split = some s ∧ ¬ selects T.P (stKey ks s) me := by
  have hok := stKeyOk_iff.mpr ⟨hlen, hi⟩
  have hk := stKey_ok (T := T) hi
  have e : stGet T me ks = .ok none ↔ stHere T me ks = false := by
    unfold stGet
    rw [hok]
    simp only [Bool.true_eq_false, if_false]
    split_ifs with h1 h2 <;> simp [h1]
  rw [e]
  have hne : ∀ ax, (stRange T.P (stKey ks ax)).1 < (stRange T.P (stKey ks ax)).2 ↔ ∃ p < T.P, selects T.P (stKey ks ax) p := by
    intro ax
    constructor
    · intro h
      have := stRange_le hP (hk ax)
      exact ⟨_, by omega, (stRange_iff (hk ax) (p := (stRange T.P (stKey ks ax)).1) (by omega)).mp ⟨le_refl _, h⟩⟩
    · rintro ⟨p, hp, h⟩
      have := (stRange_iff (hk ax) hp).mpr h
      omega
  have hall : ((List.range T.ndim).all fun ax => decide ((stRange T.P (stKey ks ax)).1 < (stRange T.P (stKey ks ax)).2)) = true ↔ ¬ ∃ ax < T.ndim, ∀ p < T.P, ¬ selects T.P (stKey ks ax) p := by
    simp only [List.all_eq_true, List.mem_range, decide_eq_true_eq, hne]
    push Not
    rfl
  rw [← Bool.not_eq_true]
  unfold stHere
  rw [Bool.and_eq_true, hall]
  cases hs : T.split with
  | none => simp
  | some s =>
    have := stRange_iff (hk s) hme
    simp only [Bool.and_eq_true, decide_eq_true_eq, this, Option.some.injEq, exists_eq_left']
    rw [not_and_or, not_not]

/-- **C176.**  `tiles[key]` gives the part of the selected tiles that is at this process, if no integer for an axis that is not split is negative, no slice begins at `-P` or before, and, along the split axis, the last selected
process holds at least as much as this one; and if one tile is selected along the split axis, either the key has only integers or the split axis is the first one. -/
theorem tiles_get_partial {T : STiles} {me : Nat} {ks : List TKey} (hP : 0 < T.P) (hme : me < T.P) (hlen : ks.length ≤ T.ndim) (hi : ∀ i, TKey.int i ∈ ks → -(T.P : Int) ≤ i ∧ i < T.P)
    (hne : ∀ ax < T.ndim, ∃ p < T.P, selects T.P (stKey ks ax) p) (hh : ∀ s, T.split = some s → selects T.P (stKey ks s) me)
    (h1 : ∀ ax < T.ndim, T.split ≠ some ax → ∀ i, stKey ks ax = .int i → 0 ≤ i) (h2 : ∀ ax < T.ndim, T.split ≠ some ax → ∀ a b, stKey ks ax = .slice (some a) b → -(T.P : Int) < a)
    (h3 : ∀ s, T.split = some s → s < T.ndim ∧ (∀ p < T.P, selects T.P (stKey ks s) p → (∀ q < T.P, selects T.P (stKey ks s) q → q ≤ p) → T.dims s me ≤ T.dims s p) ∧
      ((∀ ax < T.ndim, ∃ i, stKey ks ax = .int i) ∨ (∃ p < T.P, ∃ q < T.P, p < q ∧ selects T.P (stKey ks s) p ∧ selects T.P (stKey ks s) q) ∨ s = 0)) :
    ∃ reg, stGet T me ks = .ok (some reg) ∧ IsTiles T me (stKey ks) reg := by
  have hok := stKeyOk_iff.mpr ⟨hlen, hi⟩
  have hk := stKey_ok (T := T) hi
  have hlt : ∀ ax < T.ndim, (stRange T.P (stKey ks ax)).1 < (stRange T.P (stKey ks ax)).2 := by
    intro ax hax
    obtain ⟨p, hp, h⟩ := hne ax hax
    have := (stRange_iff (hk ax) hp).mpr h
    omega
  have hle : ∀ ax, (stRange T.P (stKey ks ax)).2 ≤ T.P := fun ax => stRange_le hP (hk ax)
  have hhere : stHere T me ks = true := by
    unfold stHere
    rw [Bool.and_eq_true]
    refine ⟨by simpa using hlt, ?_⟩
    cases hs : T.split with
    | none => rfl
    | some s =>
      have := (stRange_iff (hk s) hme).mpr (hh s hs)
      simpa using this
  -- starts
  have hstart : ∀ ax < T.ndim, T.split ≠ some ax → stStart T ks ax = some (tileOff T ax (stRange T.P (stKey ks ax)).1) := by
    intro ax hax hs
    have hl := hlt ax hax
    have hl2 := hle ax
    have e1 := h1 ax hax hs
    have e2 := h2 ax hax hs
    have hv := hk ax
    unfold stStart
    cases hkk : stKey ks ax with
    | int i =>
      rw [hkk] at hl hl2 hv
      have i0 := e1 i hkk
      have i1 := hv i rfl
      have er : (stRange T.P (.int i)).1 = i.toNat := by
        show (stIndex T.P i).getD 0 = _
        unfold stIndex
        rw [if_pos i0, if_pos i1.2]; rfl
      rw [er]
      dsimp only
      split_ifs with c
      · unfold stIndex
        rw [if_pos (by omega), if_pos (by omega)]
        simp only [Option.map_some]
        unfold stEnds tileOff
        rw [show (i - 1).toNat + 1 = i.toNat by omega]
      · have : i.toNat = 0 := by
          have : ¬ i > 0 := fun c' => c ⟨c', hs⟩
          omega
        rw [this]
        rfl
    | slice a b =>
      rw [hkk] at hl hl2
      cases a with
      | none => rfl
      | some a =>
        have a0 := e2 a b hkk
        have er : (stRange T.P (.slice (some a) b)).1 = stBound T.P a := rfl
        rw [er] at hl ⊢
        dsimp only
        unfold stBound at hl ⊢
        split_ifs with c d
        · -- a < 0
          unfold stIndex
          rw [if_neg (by omega), if_pos (by omega)]
          simp only [Option.map_some]
          unfold stEnds tileOff
          rw [show (a - 1 + T.P).toNat + 1 = (a + T.P).toNat by omega]
        · rw [if_neg d] at hl
          unfold stIndex
          rw [if_pos (by omega), if_pos (by omega)]
          simp only [Option.map_some]
          unfold stEnds tileOff
          rw [show (a - 1).toNat + 1 = min a.toNat T.P by omega]
        · exact absurd ⟨hs, by omega⟩ c
        · have : a = 0 := by
            by_contra c'
            exact c ⟨hs, c'⟩
          subst this
          simp [tileOff]
  have hstart' : ∀ s, T.split = some s → stStart T ks s = some 0 := by
    intro s hs
    unfold stStart
    split <;> simp [hs]
  have hstop : ∀ ax < T.ndim, T.split ≠ some ax → stStop T ks ax = some (tileOff T ax (stRange T.P (stKey ks ax)).2) := by
    intro ax hax hs
    have := hlt ax hax
    unfold stStop
    rw [if_neg hs]
    unfold stEnds tileOff
    rw [Nat.sub_add_cancel (by omega)]
  have hstop' : ∀ s, T.split = some s → ∃ l, stStop T ks s = some l ∧ T.dims s me ≤ l := by
    intro s hs
    obtain ⟨hsn, g1, g2⟩ := h3 s hs
    have hr := hlt s hsn
    have hm := (stRange_iff (hk s) hme).mpr (hh s hs)
    have hrl := hle s
    have hls : ∀ p, stLshape T p s = T.dims s p := fun p => by unfold stLshape; rw [if_pos hs]
    unfold stStop
    rw [if_pos hs]
    unfold stSplitStop
    dsimp only
    split_ifs with c
    · refine ⟨_, rfl, ?_⟩
      rw [hls]
      refine g1 _ (by omega) ((stRange_iff (hk s) (by omega)).mp ⟨by omega, by omega⟩) fun q hq hsel => ?_
      have := (stRange_iff (hk s) hq).mpr hsel
      omega
    · have hme' : (stRange T.P (stKey ks s)).1 = me := by omega
      cases hl : stLocShape T ks with
      | nil => exact ⟨_, rfl, by rw [hls, hme']⟩
      | cons l rest =>
        have hmem : l ∈ stLocShape T ks := by rw [hl]; exact List.mem_cons_self
        have hsl : s < l := by
          rcases g2 with g2 | ⟨p, hp, q, hq, hpq, s1, s2⟩ | rfl
          · unfold stLocShape at hmem
            obtain ⟨ax, hax, h⟩ := List.mem_filterMap.mp hmem
            obtain ⟨i, hi'⟩ := g2 ax (List.mem_range.mp hax)
            rw [hi'] at h
            cases h
          · have := (stRange_iff (hk s) hp).mpr s1
            have := (stRange_iff (hk s) hq).mpr s2
            omega
          · unfold stLocShape at hmem
            obtain ⟨ax, hax, h⟩ := List.mem_filterMap.mp hmem
            have hx := hlt ax (List.mem_range.mp hax)
            cases hkk : stKey ks ax with
            | int i => rw [hkk] at h; cases h
            | slice a b =>
              rw [hkk] at h hx
              simp only [Option.some.injEq] at h
              omega
        simp only [hsl, if_true]
        refine ⟨_, rfl, ?_⟩
        rw [hme', ← hls me]
        exact (tiles_foldl_max (f := fun ax => stLshape T me ax) _ 0).2 s (List.mem_range.mpr hsn)
  have hall : (List.range T.ndim).all (fun ax => (stStop T ks ax).isSome && (stStart T ks ax).isSome) = true := by
    simp only [List.all_eq_true, List.mem_range, Bool.and_eq_true]
    intro ax hax
    by_cases hs : T.split = some ax
    · obtain ⟨l, hl, _⟩ := hstop' ax hs
      rw [hl, hstart' ax hs]
      exact ⟨rfl, rfl⟩
    · rw [hstop ax hax hs, hstart ax hax hs]
      exact ⟨rfl, rfl⟩
  refine ⟨_, by unfold stGet; rw [hok, hhere, hall]; rfl, ⟨?_, ?_⟩⟩
  · intro ax hax hs x
    rw [hstop ax hax hs, hstart ax hax hs]
    simp only [Option.getD_some]
    have hlx : stLshape T me ax = tileOff T ax T.P := by unfold stLshape; rw [if_neg hs]; rfl
    rw [hlx, min_eq_left (tileOff_mono T ax (hle ax)), tiles_union T ax x (le_of_lt (hlt ax hax))]
    constructor
    · rintro ⟨p, a, b, c⟩
      have := hle ax
      exact ⟨p, by omega, (stRange_iff (hk ax) (by omega)).mp ⟨a, b⟩, c⟩
    · rintro ⟨p, hp, a, c⟩
      have := (stRange_iff (hk ax) hp).mpr a
      exact ⟨p, this.1, this.2, c⟩
  · intro s hs x
    obtain ⟨l, hl, hl2⟩ := hstop' s hs
    rw [hl, hstart' s hs]
    simp only [Option.getD_some]
    have : stLshape T me s = T.dims s me := by unfold stLshape; rw [if_pos hs]
    omega

/-- **C176.**  `tiles[key] = v` changes exactly the positions that `tiles[key]` reads, and only on the processes that hold selected tiles. -/
theorem tiles_set_spec {α : Type} {T : STiles} {me : Nat} {ks : List TKey} {reg : Nat → Nat × Nat} (h : stGet T me ks = .ok (some reg)) (hT : IsTiles T me (stKey ks) reg) (loc : (Nat → Nat) → α) (v : α) :
    ∃ loc', stSet T me ks loc v = .ok loc' ∧ ∀ ix,
      ((∀ ax < T.ndim, T.split = some ax → ix ax < T.dims ax me) → (∀ ax < T.ndim, T.split ≠ some ax → ∃ p < T.P, selects T.P (stKey ks ax) p ∧ tileOff T ax p ≤ ix ax ∧ ix ax < tileOff T ax (p + 1)) → loc' ix = v) ∧
      ((∃ ax < T.ndim, T.split ≠ some ax ∧ ¬ ∃ p < T.P, selects T.P (stKey ks ax) p ∧ tileOff T ax p ≤ ix ax ∧ ix ax < tileOff T ax (p + 1)) → loc' ix = loc ix) := by
  refine ⟨fun ix => if (List.range T.ndim).all fun ax => decide ((reg ax).1 ≤ ix ax) && decide (ix ax < (reg ax).2) then v else loc ix, by unfold stSet; rw [h], fun ix => ⟨fun a b => ?_, ?_⟩⟩
  · dsimp only
    rw [if_pos]
    simp only [List.all_eq_true, List.mem_range, Bool.and_eq_true, decide_eq_true_eq]
    intro ax hax
    by_cases hs : T.split = some ax
    · exact (hT.own ax hs _).mpr (a ax hax hs)
    · exact (hT.others ax hax hs _).mpr (b ax hax hs)
  · rintro ⟨ax, hax, hs, hn⟩
    dsimp only
    rw [if_neg]
    simp only [List.all_eq_true, List.mem_range, Bool.and_eq_true, decide_eq_true_eq]
    intro c
    exact hn ((hT.others ax hax hs _).mp (c ax hax))

/-- **C176.**  On processes without selected tiles nothing is written. -/
theorem tiles_set_none {α : Type} {T : STiles} {me : Nat} {ks : List TKey} (h : stGet T me ks = .ok none) (loc : (Nat → Nat) → α) (v : α) : stSet T me ks loc v = .ok loc := by
  unfold stSet
  rw [h]

/-- **C176.**  `get_tile_size` of one tile given by integers that are not negative is its size, on every process. -/
theorem tiles_size_spec {T : STiles} {ix : List Nat} (hlen : ix.length = T.ndim) (hi : ∀ i ∈ ix, i < T.P) {ax : Nat} (hax : ax < T.ndim) : stSize T (ix.map fun i : Nat => TKey.int (i : Int)) ax = T.dims ax (ix.getD ax 0) := by
  have hax' : ax < ix.length := by omega
  have hkey : ∀ b (hb : b < ix.length), stKey (ix.map fun i : Nat => TKey.int (i : Int)) b = .int (ix.getD b 0 : Nat) := by
    intro b hb
    unfold stKey
    rw [List.getD_eq_getElem _ _ (by simpa using hb), List.getElem_map, List.getD_eq_getElem _ _ hb]
  have hlt : ix.getD ax 0 < T.P := by
    rw [List.getD_eq_getElem _ _ hax']
    exact hi _ (List.getElem_mem hax')
  have hidx : ∀ j : Nat, j < T.P → stIndex T.P (j : Int) = some j := by
    intro j hj
    unfold stIndex
    rw [if_pos (by omega), if_pos (by omega)]
    rfl
  have hr : stRange T.P (.int (ix.getD ax 0 : Nat)) = (ix.getD ax 0, ix.getD ax 0 + 1) := by
    show ((stIndex T.P _).getD 0, (stIndex T.P _).getD 0 + 1) = _
    rw [hidx _ hlt]
    rfl
  have hsh : stLocShape T (ix.map fun i : Nat => TKey.int (i : Int)) = [] := by
    unfold stLocShape
    rw [List.filterMap_eq_nil_iff]
    intro b hb
    rw [hkey b (by rw [List.mem_range] at hb; omega)]
  unfold stSize stStop stStart
  rw [hkey ax hax']
  dsimp only
  by_cases hs : T.split = some ax
  · rw [if_pos hs, if_neg (by simp [hs])]
    unfold stSplitStop
    rw [hkey ax hax', hr, hsh]
    dsimp only
    rw [if_neg (by omega)]
    simp only [Option.getD_some]
    unfold stLshape
    rw [if_pos hs]
    omega
  · rw [if_neg hs, hr]
    dsimp only
    rw [Nat.add_sub_cancel]
    simp only [Option.getD_some]
    generalize ix.getD ax 0 = j at *
    have e : stEnds T ax j = tileOff T ax j + T.dims ax j := by
      unfold stEnds tileOff
      rw [Finset.sum_range_succ]
    rw [e]
    split_ifs with c
    · rw [show (j : Int) - 1 = ((j - 1 : Nat) : Int) by omega, hidx _ (by omega)]
      simp only [Option.map_some, Option.getD_some]
      unfold stEnds
      rw [Nat.sub_add_cancel (by omega)]
      unfold tileOff
      omega
    · have : j = 0 := by
        have : ¬ (j : Int) > 0 := fun c' => c ⟨c', hs⟩
        omega
      subst this
      simp [tileOff]

/-- **C176, defect.**  The example of the documentation: an array of shape (6, 7), split along axis 1 over three processes: `tiles[1]` gives two of the three columns of process 0. -/
theorem tiles_last_rank_violated : ∃ T : STiles, T = mkSTiles 3 2 (some 1) (fun ax => if ax = 0 then 6 else 7) (fun p => if p = 0 then 3 else 2) ∧ ∃ reg, stGet T 0 [.int 1] = .ok (some reg) ∧ reg 1 = (0, 2) ∧ ¬ IsTiles T 0 (stKey [.int 1]) reg := by
  refine ⟨_, rfl, _, rfl, rfl, fun h => ?_⟩
  have := (h.own 1 rfl 2).mpr (by decide)
  exact absurd this.2 (by decide)

/-- **C176, defect.**  A negative integer for an axis that is not split gives all tiles up to the selected one. -/
theorem tiles_negative_violated (P : Nat) (hP : 1 < P) (n : Nat) (hn : P ≤ n) (lens : Nat → Nat) : ∃ reg, stGet (mkSTiles P 2 (some 0) (fun _ => n) lens) 0 [.int 0, .int (-1)] = .ok (some reg) ∧ reg 1 = (0, tileOff (mkSTiles P 2 (some 0) (fun _ => n) lens) 1 P) ∧ 0 < tileOff (mkSTiles P 2 (some 0) (fun _ => n) lens) 1 (P - 1) := by
  have i0 : stIndex P 0 = some 0 := by unfold stIndex; rw [if_pos (by omega), if_pos (by omega)]; rfl
  have i1 : stIndex P (-1) = some (P - 1) := by
    unfold stIndex
    rw [if_neg (by omega), if_pos (by omega)]
    congr 1
    omega
  have r0 : stRange P (.int 0) = (0, 1) := by show ((stIndex P 0).getD 0, (stIndex P 0).getD 0 + 1) = _; rw [i0]; rfl
  have r1 : stRange P (.int (-1)) = (P - 1, P) := by
    show ((stIndex P (-1)).getD 0, (stIndex P (-1)).getD 0 + 1) = _
    rw [i1]
    simp only [Option.getD_some]
    rw [Nat.sub_add_cancel (by omega)]
  have k0 : stKey [.int 0, .int (-1)] 0 = .int 0 := rfl
  have k1 : stKey [.int 0, .int (-1)] 1 = .int (-1) := rfl
  have hP' : (mkSTiles P 2 (some 0) (fun _ => n) lens).P = P := rfl
  have hs' : (mkSTiles P 2 (some 0) (fun _ => n) lens).split = some 0 := rfl
  have hn' : (mkSTiles P 2 (some 0) (fun _ => n) lens).ndim = 2 := rfl
  have e1 : stKeyOk (mkSTiles P 2 (some 0) (fun _ => n) lens) [.int 0, .int (-1)] = true := by
    rw [stKeyOk_iff]
    refine ⟨le_refl 2, fun i hi => ?_⟩
    simp at hi
    rw [hP']
    omega
  have e2 : stHere (mkSTiles P 2 (some 0) (fun _ => n) lens) 0 [.int 0, .int (-1)] = true := by
    unfold stHere
    rw [hP', hs', hn']
    simp [List.range_succ, k0, k1, r0, r1]
    omega
  have s0 : stStop (mkSTiles P 2 (some 0) (fun _ => n) lens) [.int 0, .int (-1)] 0 = some (lens 0) := by
    unfold stStop stSplitStop stLocShape
    rw [hs', hP', hn', k0, r0]
    simp [List.range_succ, k0, k1, stLshape, hs']
    rfl
  have s1 : stStop (mkSTiles P 2 (some 0) (fun _ => n) lens) [.int 0, .int (-1)] 1 = some (tileOff (mkSTiles P 2 (some 0) (fun _ => n) lens) 1 P) := by
    unfold stStop
    rw [hs', hP', k1, r1]
    simp only [Option.some.injEq, Nat.zero_ne_one, if_false]
    unfold stEnds tileOff
    rw [Nat.sub_add_cancel (by omega)]
  refine ⟨_, by unfold stGet; rw [e1, e2, hn']; simp [List.range_succ, s0, s1, stStart, k0, k1]; rfl, ?_, ?_⟩
  swap
  · have h1 : 0 < n / P := Nat.div_pos hn (by omega)
    have h2 : tileOff (mkSTiles P 2 (some 0) (fun _ => n) lens) 1 1 ≤ tileOff (mkSTiles P 2 (some 0) (fun _ => n) lens) 1 (P - 1) := tileOff_mono _ _ (by omega)
    have h3 : 0 < tileOff (mkSTiles P 2 (some 0) (fun _ => n) lens) 1 1 := by
      simp [tileOff, mkSTiles]
      split_ifs <;> omega
    omega
  rw [s1]
  simp only [Option.getD_some]
  have : stLshape (mkSTiles P 2 (some 0) (fun _ => n) lens) 0 1 = tileOff (mkSTiles P 2 (some 0) (fun _ => n) lens) 1 P := rfl
  rw [this, min_self]
  rfl

/-- **C176, defect.**  On one process `tiles[0]` of an array split along axis 1 raises. -/
theorem tiles_one_process_violated (n m : Nat) : stGet (mkSTiles 1 2 (some 1) (fun ax => if ax = 0 then n else m) (fun _ => m)) 0 [.int 0] = .error .indexError := by
  rfl

/-! ## Cases -/

/-- The other example of the documentation: shape (6, 7), split along axis 0, `tiles[:2, 2]` on process 1. -/
example : ∃ reg, stGet (mkSTiles 3 2 (some 0) (fun ax => if ax = 0 then 6 else 7) (fun _ => 2)) 1 [.slice none (some 2), .int 2] = .ok (some reg) ∧ reg 0 = (0, 2) ∧ reg 1 = (5, 7) := ⟨_, rfl, rfl, rfl⟩

example : stGet (mkSTiles 3 2 (some 0) (fun ax => if ax = 0 then 6 else 7) (fun _ => 2)) 2 [.slice none (some 2), .int 2] = .ok none := rfl

example : (selects 3 (.slice none (some 2)) 1 ∧ ¬ selects 3 (.slice none (some 2)) 2) ∧ selects 3 (.int 2) 2 := by
  refine ⟨⟨⟨by simp, by simp⟩, fun h => ?_⟩, Or.inl rfl⟩
  have := h.2 2 rfl
  simp at this

example : stSize (mkSTiles 3 2 (some 0) (fun ax => if ax = 0 then 6 else 7) (fun _ => 2)) [.int 1, .int 0] 1 = 3 := rfl

end Heat
