import Verif.Model.Indexing
import Verif.Proof.Select
namespace Heat
open Heat.Spec
variable {α : Type}

theorem inSlice_nat (len ks ke s j : Nat) (hj : j < len) :
    inSlice len (some (ks : Int)) (some (ke : Int)) s j = decide (ks ≤ j ∧ j < ke ∧ (j - ks) % s = 0) := by
  unfold inSlice clampBound
  simp only [Option.getD_some]
  rw [if_neg (by omega), if_neg (by omega)]
  simp only [Int.toNat_natCast]
  rw [decide_eq_decide]
  by_cases h : ks ≤ len
  · rw [Nat.min_eq_left h]
    constructor
    · rintro ⟨h1, h2, h3⟩; exact ⟨h1, by omega, h3⟩
    · rintro ⟨h1, h2, h3⟩; exact ⟨h1, by omega, h3⟩
  · rw [Nat.min_eq_right (by omega)]
    constructor
    · rintro ⟨h1, h2, h3⟩; omega
    · rintro ⟨h1, h2, h3⟩; omega

/-- The local start of the slice on a rank with offset `o`. -/
def lks (first : Bool) (lo o s : Nat) : Nat :=
  if first then lo - o else if (o - lo) % s = 0 then 0 else s - (o - lo) % s

theorem xitemStart_eq (r st lo o s : Nat) (hs : 0 < s) (hst : st ≤ r)
    (h1 : r = st → o ≤ lo) (h2 : st < r → lo ≤ o) :
    xitemStart r st (if r ≠ st then 0 else (lo : Int) - (o : Int)) (some s) (o : Int) (lo : Int) =
      ((lks (r == st) lo o s : Nat) : Int) := by
  unfold xitemStart lks
  by_cases h : r = st
  · subst h
    have := h1 rfl
    simp; omega
  · have hlt : st < r := by omega
    have hle := h2 hlt
    have hmod : ((o : Int) - (lo : Int)) % (s : Int) = (((o - lo) % s : Nat) : Int) := by
      rw [Int.natCast_emod, Int.natCast_sub hle]
    have hb : (r == st) = false := by simp [h]
    simp only [hb, hmod, hlt, if_true, ne_eq, h, not_false_eq_true, Bool.false_eq_true, if_false]
    have hml := Nat.mod_lt (o - lo) hs
    by_cases hz : (o - lo) % s = 0
    · simp [hz]
    · rw [if_neg hz]
      have hs1 : s ≠ 1 := by intro e; subst e; exact hz (Nat.mod_one _)
      by_cases hs2 : s = 2
      · subst hs2
        simp; omega
      · rw [if_pos ⟨by omega, by omega⟩]
        omega

theorem lks_pred (first : Bool) (lo o s j : Nat) (hs : 0 < s) (h1 : first = true → o ≤ lo)
    (h2 : first = false → lo ≤ o) :
    (lks first lo o s ≤ j ∧ (j - lks first lo o s) % s = 0) ↔ (lo ≤ o + j ∧ (o + j - lo) % s = 0) := by
  unfold lks
  cases first with
  | true =>
    have := h1 rfl
    simp only [if_true]
    constructor
    · rintro ⟨h3, h4⟩; exact ⟨by omega, by rw [show o + j - lo = j - (lo - o) by omega]; exact h4⟩
    · rintro ⟨h3, h4⟩; exact ⟨by omega, by rw [show j - (lo - o) = o + j - lo by omega]; exact h4⟩
  | false =>
    have hle := h2 rfl
    simp only [Bool.false_eq_true, if_false]
    have hml := Nat.mod_lt (o - lo) hs
    have e : (o + j - lo) % s = ((o - lo) % s + j) % s := by
      rw [show o + j - lo = (o - lo) + j by omega, Nat.mod_add_mod]
    rw [e]
    by_cases hz : (o - lo) % s = 0
    · rw [if_pos hz, hz]
      simp; intro _; omega
    · rw [if_neg hz]
      generalize (o - lo) % s = m at *
      constructor
      · rintro ⟨h3, h4⟩
        refine ⟨by omega, ?_⟩
        rw [show m + j = (j - (s - m)) + s by omega, Nat.add_mod_right]; exact h4
      · rintro ⟨_, h4⟩
        have h5 : s - m ≤ j := by
          apply Nat.le_of_not_lt
          intro hlt
          rw [Nat.mod_eq_of_lt (by omega)] at h4
          omega
        refine ⟨h5, ?_⟩
        rw [show m + j = (j - (s - m)) + s by omega, Nat.add_mod_right] at h4; exact h4

/-- The predicate of the global slice. -/
def gpred (lo hi s g : Nat) : Bool := decide (lo ≤ g ∧ g < hi ∧ (g - lo) % s = 0)

/-- Local positions `[ks, ke)` with stride on an active rank are the global slice. -/
theorem local_pred (len first_r last_r lo hi o s j : Nat) (hs : 0 < s) (first last : Bool)
    (h1 : first = true → o ≤ lo) (h2 : first = false → lo ≤ o)
    (h3 : last = false → o + len ≤ hi) (h4 : last = true → o ≤ hi) (hj : j < len)
    (ke : Nat) (hke : ke = if last then hi - o else len) (_ : first_r ≤ last_r ∨ last_r ≤ first_r) :
    inSlice len (some ((lks first lo o s : Nat) : Int)) (some (ke : Int)) s j = gpred lo hi s (o + j) := by
  rw [inSlice_nat _ _ _ _ _ hj]
  unfold gpred
  rw [decide_eq_decide]
  have hp := lks_pred first lo o s j hs h1 h2
  have hlt : j < ke ↔ o + j < hi := by
    rw [hke]
    cases last with
    | true => have := h4 rfl; simp; omega
    | false => have := h3 rfl; simp; omega
  constructor
  · rintro ⟨a, b, c⟩
    obtain ⟨d, e⟩ := hp.1 ⟨a, c⟩
    exact ⟨d, hlt.1 b, e⟩
  · rintro ⟨a, b, c⟩
    obtain ⟨d, e⟩ := hp.2 ⟨a, c⟩
    exact ⟨d, hlt.2 b, e⟩

theorem clampBound_valid (n : Nat) (b : Int) (h1 : -(n : Int) ≤ b) (h2 : b ≤ n) :
    ((clampBound n b : Nat) : Int) = if b < 0 then b + n else b := by
  unfold clampBound; split <;> omega

/-- st_pr for a start inside `[0, n]` -/
theorem stPr_spec (P : Nat) (e : Nat → Int) (lo : Int) (st : Nat)
    (h : (firstFrom P 0 fun r => lo < e r).getD P = st) :
    st ≤ P ∧ (∀ r < st, e r ≤ lo) ∧ (st < P → lo < e st) := by
  cases hf : firstFrom P 0 fun r => lo < e r with
  | none =>
    have := firstFrom_none hf
    rw [hf] at h; simp at h; subst h
    refine ⟨Nat.le_refl _, ?_, fun h => by omega⟩
    intro r hr; have := this r (by omega) hr; simp at this; omega
  | some i =>
    obtain ⟨_, h2, h3, h4⟩ := firstFrom_some hf
    rw [hf] at h; simp at h; subst h
    refine ⟨by omega, ?_, fun _ => by simpa using h3⟩
    intro r hr; have := h4 r (by omega) hr; simp at this; omega

/-- sp_pr for a stop `≥ 0` -/
theorem spPr_spec (P : Nat) (s : Nat → Int) (hi : Int) (sp : Nat) (h0 : 0 < P) (hs0 : s 0 ≤ hi)
    (h : (lastWhere P fun r => hi ≥ s r).getD 0 = sp) :
    sp < P ∧ s sp ≤ hi ∧ (∀ r, sp < r → r < P → hi < s r) := by
  unfold lastWhere at h
  cases hf : (List.range P).reverse.find? fun r => decide (hi ≥ s r) with
  | none =>
    have := lastWhere_none hf 0 h0
    simp at this; omega
  | some i =>
    obtain ⟨h2, h3, h4⟩ := lastWhere_some hf
    rw [hf] at h; simp at h; subst h
    refine ⟨h2, by simpa using h3, ?_⟩
    intro r hr1 hr2; have := h4 r hr1 hr2; simp at this; omega

theorem ceilDivInt_nat (a b s : Nat) (hs : 0 < s) (h : a < b + s) :
    ceilDivInt ((b : Int) - (a : Int)) s = (((b - a + s - 1) / s : Nat) : Int) := by
  unfold ceilDivInt
  have hs' : (0 : Int) < (s : Int) := by omega
  by_cases hab : a ≤ b
  · -- b - a = q * s + r
    have hd := Nat.div_add_mod (b - a + s - 1) s
    have hm := Nat.mod_lt (b - a + s - 1) hs
    generalize hq : (b - a + s - 1) / s = q at *
    have hq1 : s * q ≤ b - a + s - 1 := by omega
    have hq2 : b - a + s - 1 < s * q + s := by omega
    have : (-((b : Int) - (a : Int))) / (s : Int) = -(q : Int) := by
      rw [Int.ediv_eq_iff_of_pos hs']
      constructor
      · have : ((s * q : Nat) : Int) = (s : Int) * (q : Int) := by simp
        rw [Int.neg_mul, Int.mul_comm]
        omega
      · have : ((s * q : Nat) : Int) = (s : Int) * (q : Int) := by simp
        rw [Int.neg_mul, Int.mul_comm]
        omega
    rw [this]; simp
  · have e1 : b - a + s - 1 = s - 1 := by omega
    rw [e1, Nat.div_eq_of_lt (by omega)]
    have : (-((b : Int) - (a : Int))) / (s : Int) = 0 := Int.ediv_eq_zero_of_lt (by omega) (by omega)
    rw [this]; rfl

theorem content_congr_ok {P : Nat} {f g : Nat → List α} (h : ∀ r < P, f r = g r) : content P f = content P g :=
  content_congr h

/-- Core of C14: bounds already normalised. -/
theorem getitemSlice_core (P : Nat) (hP : 0 < P) (d : Nat → List α) (lo hi s : Nat) (hs : 0 < s)
    (hlohi : lo ≤ hi) (hhi : hi ≤ (content P d).length) (start stop : Option Int)
    (hsan : sanitizeSlice ⟨start, stop, some (s : Int)⟩ (content P d).length = ((lo : Int), (hi : Int), (s : Int)))
    (r : Nat) (hr : r < P) :
    getitemSlice (content P d).length P (fun r => (startOf d r : Int)) (fun r => ((d r).length : Int)) d
      start stop s r = .ok (pick (gpred lo hi s) (startOf d r) (d r)) := by
  unfold getitemSlice
  rw [hsan]
  simp only
  generalize hst : (firstFrom P 0 fun r => decide ((lo : Int) < (startOf d r : Int) + ((d r).length : Int))).getD P = st
  generalize hsp : (lastWhere P fun r => decide ((hi : Int) ≥ (startOf d r : Int))).getD 0 = sp
  obtain ⟨hst1, hst2, hst3⟩ := stPr_spec P (fun r => (startOf d r : Int) + ((d r).length : Int)) lo st hst
  obtain ⟨hsp1, hsp2, hsp3⟩ := spPr_spec P (fun r => (startOf d r : Int)) hi sp hP (by simp [startOf_zero]) hsp
  have hend : ∀ r, startOf d (r + 1) = startOf d r + (d r).length := startOf_succ d
  by_cases hact : st ≤ r ∧ r ≤ sp
  · rw [if_pos hact]
    have hprev : st < r → (((startOf d (r - 1) : Nat) : Int) + (((d (r - 1)).length : Nat) : Int)) = (startOf d r : Int) := by
      intro h
      have := hend (r - 1)
      rw [show r - 1 + 1 = r by omega] at this
      omega
    have hf1 : r = st → startOf d r ≤ lo := by
      intro h
      subst h
      cases r with
      | zero => simp [startOf_zero]
      | succ k => have := hst2 k (by omega); have := hend k; omega
    have hf2 : st < r → lo ≤ startOf d r := by
      intro h
      have h1 := hst3 (by omega)
      have h2 := startOf_mono d (show st + 1 ≤ r by omega)
      have := hend st
      omega
    have hx : xitemStart r st (if r ≠ st then 0 else (lo : Int) - (startOf d r : Int)) (some s)
        (((startOf d (r - 1) : Nat) : Int) + (((d (r - 1)).length : Nat) : Int)) lo =
        ((lks (r == st) lo (startOf d r) s : Nat) : Int) := by
      by_cases h : st < r
      · rw [hprev h]; exact xitemStart_eq r st lo _ s hs hact.1 hf1 hf2
      · have hrs : r = st := by omega
        rw [← xitemStart_eq r st lo _ s hs hact.1 hf1 hf2]
        unfold xitemStart; simp [hrs]
    rw [hx]
    have hke : (if r ≠ sp then ((d r).length : Int) else (hi : Int) - (startOf d r : Int)) =
        (((if (r == sp) then hi - startOf d r else (d r).length : Nat)) : Int) := by
      by_cases h : r = sp
      · subst h; simp; omega
      · simp [h]
    rw [hke]
    generalize hkee : (if (r == sp) then hi - startOf d r else (d r).length : Nat) = ke
    have hl1 : (r == sp) = false → startOf d r + (d r).length ≤ hi := by
      intro h
      have hne : r ≠ sp := by simpa using h
      have h2 := startOf_mono d (show r + 1 ≤ sp by omega)
      have := hend r
      omega
    have hl2 : (r == sp) = true → startOf d r ≤ hi := by
      intro h
      have he : r = sp := by simpa using h
      subst he; omega
    have hkele : ke ≤ (d r).length := by
      rw [← hkee]
      by_cases h : r = sp
      · subst h
        simp
        have : hi ≤ startOf d (r + 1) := by
          by_cases hlast : r + 1 < P
          · have := hsp3 (r + 1) (by omega) hlast; omega
          · have : r + 1 = P := by omega
            rw [this]; exact hhi
        have := hend r
        omega
      · simp [h]
    have hpick : pySlice (d r) (some ((lks (r == st) lo (startOf d r) s : Nat) : Int)) (some (ke : Int)) s =
        pick (gpred lo hi s) (startOf d r) (d r) := by
      unfold pySlice
      apply pick_congr
      intro j hj
      rw [Nat.zero_add]
      exact local_pred (d r).length 0 0 lo hi (startOf d r) s j hs (r == st) (r == sp)
        (fun h => hf1 (by simpa using h)) (fun h => hf2 (by have : r ≠ st := by simpa using h
                                                            omega))
        hl1 hl2 hj ke hkee.symm (Or.inl (Nat.le_refl _))
    rw [hpick]
    unfold reshapeExtent
    rw [if_pos]
    left
    rw [← hpick]
    unfold pySlice
    rw [pick_length]
    have hcount : ((List.range (d r).length).filter fun j =>
        inSlice (d r).length (some ((lks (r == st) lo (startOf d r) s : Nat) : Int)) (some (ke : Int)) s (0 + j)).length =
        ((List.range (d r).length).filter fun j => decide (lks (r == st) lo (startOf d r) s ≤ j ∧ j < ke ∧
          (j - lks (r == st) lo (startOf d r) s) % s = 0)).length := by
      congr 1
      apply List.filter_congr
      intro j hj
      rw [Nat.zero_add, inSlice_nat _ _ _ _ _ (List.mem_range.1 hj)]
    rw [hcount, count_slice _ _ _ _ hs hkele]
    apply ceilDivInt_nat _ _ _ hs
    -- local start is less than local stop + step
    unfold lks
    by_cases h : r = st
    · have hb : (r == st) = true := by simp [h]
      rw [hb]
      simp only [if_true]
      have hlo := hf1 h
      by_cases h2 : r = sp
      · have : ke = hi - startOf d r := by rw [← hkee]; simp [h2]
        omega
      · have : ke = (d r).length := by rw [← hkee]; simp [h2]
        have h3 := hst3 (by omega)
        subst h
        omega
    · have hb : (r == st) = false := by simp [h]
      rw [hb]
      simp only [Bool.false_eq_true, if_false]
      split
      · omega
      · omega
  · rw [if_neg hact]
    congr 1
    symm
    apply pick_none
    intro j hj
    unfold gpred
    simp only [decide_eq_false_iff_not, not_and]
    intro h1 h2
    exfalso
    apply hact
    constructor
    · apply Nat.le_of_not_lt
      intro hlt
      have := hst2 r hlt
      omega
    · apply Nat.le_of_not_lt
      intro hlt
      have := hsp3 r hlt hr
      omega

end Heat
