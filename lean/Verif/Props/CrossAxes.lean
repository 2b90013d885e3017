import Verif.Props.MeshCross
/-!
# C166 `cross` with different vector axes
-/
namespace Heat
open Heat.Spec
variable {α : Type}

namespace Spec

/-- Position of axis `k` after axis `a` was moved to position `c`, the other axes keeping their order. -/
def spot (a c k : Nat) : Nat := if k = a then c else let m := if k < a then k else k - 1; if m < c then m else m + 1

/-- `T` holds the cross products (numpy.cross) of the vectors along axis `a` of `G` and along axis `b` of `H`, along its axis `c`. -/
def IsCrossAxes [Mul α] [Sub α] [Zero α] (G H : NArr α) (a b c : Nat) (T : NArr α) : Prop :=
  T.ndim = G.ndim ∧ T.dim c = 3 ∧ (∀ k < G.ndim, k ≠ a → T.dim (spot a c k) = G.dim k) ∧ ∀ idx, InB T idx →
    (idx c = 0 → T.get idx = comp G a (fun k => idx (spot a c k)) 1 * comp H b (fun k => idx (spot b c k)) 2 - comp G a (fun k => idx (spot a c k)) 2 * comp H b (fun k => idx (spot b c k)) 1) ∧
    (idx c = 1 → T.get idx = comp G a (fun k => idx (spot a c k)) 2 * comp H b (fun k => idx (spot b c k)) 0 - comp G a (fun k => idx (spot a c k)) 0 * comp H b (fun k => idx (spot b c k)) 2) ∧
    (idx c = 2 → T.get idx = comp G a (fun k => idx (spot a c k)) 0 * comp H b (fun k => idx (spot b c k)) 1 - comp G a (fun k => idx (spot a c k)) 1 * comp H b (fun k => idx (spot b c k)) 0)

/-- `T` holds the third entries of the cross products of the two-dimensional vectors along axis `a` of `G` and axis `b` of `H` (numpy.cross): the vector axes disappear. -/
def IsCrossZAxes [Mul α] [Sub α] [Zero α] (G H : NArr α) (a b : Nat) (T : NArr α) : Prop :=
  T.ndim + 1 = G.ndim ∧ (∀ k < T.ndim, T.dim k = G.dim (if k < a then k else k + 1)) ∧ ∀ idx, InB T idx →
    T.get idx = comp G a (fun k => idx (if k < a then k else k - 1)) 0 * comp H b (fun k => idx (if k < b then k else k - 1)) 1 -
      comp G a (fun k => idx (if k < a then k else k - 1)) 1 * comp H b (fun k => idx (if k < b then k else k - 1)) 0

end Spec

/-- The axis that is at position `k` afterwards. -/
def backSpot (a c k : Nat) : Nat := if k = c then a else let m := if k < c then k else k - 1; if m < a then m else m + 1

theorem back_spot (a c k : Nat) : backSpot a c (spot a c k) = k := by
  unfold backSpot spot
  simp only
  split_ifs <;> omega

theorem spot_back (a c k : Nat) : spot a c (backSpot a c k) = k := by
  unfold backSpot spot
  simp only
  split_ifs <;> omega

theorem back_same (a k : Nat) : backSpot a a k = k := by
  unfold backSpot
  simp only
  split_ifs <;> omega

theorem spot_same (a k : Nat) : spot a a k = k := by
  unfold spot
  simp only
  split_ifs <;> omega

theorem back_lt {n a c k : Nat} (ha : a < n) (hc : c < n) (hk : k < n) : backSpot a c k < n := by
  unfold backSpot
  simp only
  split_ifs <;> omega

theorem spot_lt {n a c k : Nat} (ha : a < n) (hc : c < n) (hk : k < n) : spot a c k < n := by
  unfold spot
  simp only
  split_ifs <;> omega

theorem filter_other (a : Nat) : ∀ n, ((List.range n).filter fun k => k ∉ [a]) = (List.range (if a < n then n - 1 else n)).map fun m => if m < a then m else m + 1
  | 0 => by simp
  | n + 1 => by
    rw [List.range_succ, List.filter_append, filter_other a n]
    by_cases h1 : a < n
    · rw [if_pos h1, if_pos (show a < n + 1 by omega)]
      obtain ⟨m, rfl⟩ : ∃ m, n = m + 1 := ⟨n - 1, by omega⟩
      rw [Nat.add_sub_cancel, Nat.add_sub_cancel, List.range_succ (n := m), List.map_append]
      congr 1
      have : m + 1 ≠ a := by omega
      have h2 : ¬ m < a := by omega
      simp [this, h2]
    · by_cases h2 : a = n
      · rw [if_neg h1, if_pos (show a < n + 1 by omega)]
        simp [h2]
      · rw [if_neg h1, if_neg (show ¬ a < n + 1 by omega), List.range_succ (n := n), List.map_append]
        congr 1
        have h3 : n < a := by omega
        have h4 : n ≠ a := by omega
        simp [h3, h4]

theorem moveOrder_one {n a c : Nat} (ha : a < n) (hc : c < n) : moveOrder n [a] [c] = (List.range n).map (backSpot a c) := by
  have e : moveOrder n [a] [c] = pyInsert ((List.range n).filter fun k => k ∉ [a]) c a := rfl
  rw [e, filter_other, if_pos ha]
  unfold pyInsert
  apply List.ext_getElem?
  intro k
  have hlen : (List.take c ((List.range (n - 1)).map fun m => if m < a then m else m + 1)).length = c := by
    rw [List.length_take, List.length_map, List.length_range]; omega
  rcases Nat.lt_trichotomy k c with h | h | h
  · rw [List.getElem?_append_left (by omega), List.getElem?_take_of_lt h, List.getElem?_map, List.getElem?_map, List.getElem?_range (by omega), List.getElem?_range (by omega)]
    show some _ = some _
    unfold backSpot
    simp only
    rw [if_neg (show ¬ k = c by omega), if_pos h]
  · rw [List.getElem?_append_right (by omega), hlen, h, Nat.sub_self, List.getElem?_map, List.getElem?_range (by omega)]
    show some _ = some _
    unfold backSpot
    rw [if_pos rfl]
  · rw [List.getElem?_append_right (by omega), hlen]
    obtain ⟨m, rfl⟩ : ∃ m, k = m + 1 := ⟨k - 1, by omega⟩
    rw [show m + 1 - c = (m - c) + 1 by omega, List.getElem?_cons_succ, List.getElem?_drop, show c + (m - c) = m by omega, List.getElem?_map, List.getElem?_map]
    by_cases hm : m + 1 < n
    · rw [List.getElem?_range (by omega), List.getElem?_range hm]
      show some _ = some _
      unfold backSpot
      simp only
      rw [if_neg (show ¬ m + 1 = c by omega), if_neg (show ¬ m + 1 < c by omega), Nat.add_sub_cancel]
    · rw [List.getElem?_eq_none (by simp; omega), List.getElem?_eq_none (by simp; omega)]
      rfl

/-- Moving one axis: the array, its split axis and its parts. -/
theorem moveVec_spec {P : Nat} {x : DND α} {G : NArr α} (h : Rep P x G) {a c : Nat} (ha : a < G.ndim) (hc : c < G.ndim) :
    ∃ x2 T, moveVec x a c = .ok x2 ∧ Rep P x2 T ∧ T.ndim = G.ndim ∧ (∀ k < G.ndim, T.dim k = G.dim (backSpot a c k)) ∧ (∀ idx, T.get idx = G.get fun k => idx (spot a c k)) ∧
      x2.split = x.split.map (spot a c) ∧ ∀ r, ∀ k < G.ndim, (x2.loc r).dim k = (x.loc r).dim (backSpot a c k) := by
  unfold moveVec
  by_cases hca : c = a
  · subst hca
    rw [if_pos rfl]
    refine ⟨x, G, rfl, h, rfl, fun k _ => by rw [back_same], fun idx => ?_, ?_, fun r k _ => by rw [back_same]⟩
    · congr 1
      funext k
      rw [spot_same]
    · cases x.split with
      | none => rfl
      | some s => rw [Option.map_some, spot_same]
  · rw [if_neg hca]
    have hn : x.gshape.length = G.ndim := h.2.1
    have es : sanitizeAxes x.gshape.length [(a : Int)] = .ok (some [a]) := by
      rw [hn, sanitizeAxes_complete (by omega) (by simp; omega)]
      have := natMod_map (n := G.ndim) [a] (by simpa using ha)
      simp only [List.map_cons, List.map_nil] at this ⊢
      rw [this]
    have ed : sanitizeAxes x.gshape.length [(c : Int)] = .ok (some [c]) := by
      rw [hn, sanitizeAxes_complete (by omega) (by simp; omega)]
      have := natMod_map (n := G.ndim) [c] (by simpa using hc)
      simp only [List.map_cons, List.map_nil] at this ⊢
      rw [this]
    have em : moveaxis x [(a : Int)] [(c : Int)] = transpose x (some (((List.range G.ndim).map (backSpot a c)).map fun (k : Nat) => (k : Int))) := by
      unfold moveaxis
      rw [es, ed]
      simp only
      rw [if_neg (by simp), hn, moveOrder_one ha hc]
    have hnd : ((List.range G.ndim).map (backSpot a c)).Nodup := by
      apply List.Nodup.map_on _ List.nodup_range
      intro i _ j _ e
      rw [← spot_back a c i, e, spot_back]
    have hlt : ∀ v ∈ (List.range G.ndim).map (backSpot a c), v < G.ndim := by
      intro v hv
      obtain ⟨k, hk, rfl⟩ := List.mem_map.1 hv
      exact back_lt ha hc (List.mem_range.1 hk)
    have hperm : ((List.range G.ndim).map (backSpot a c)).Perm (List.range G.ndim) := by
      refine (List.perm_ext_iff_of_nodup hnd List.nodup_range).2 fun v => ⟨fun hv => List.mem_range.2 (hlt v hv), fun hv => ?_⟩
      refine List.mem_map.2 ⟨spot a c v, List.mem_range.2 (spot_lt ha hc (List.mem_range.1 hv)), back_spot a c v⟩
    obtain ⟨x2, T, t1, t2, t3⟩ := transpose_nat P x G h _ hperm
    rw [em]
    have hgd : ∀ k < G.ndim, ((List.range G.ndim).map (backSpot a c)).getD k 0 = backSpot a c k := fun k hk => getD_map_rangeN _ hk
    refine ⟨x2, T, t1, t3, t2.1, ?_, ?_, ?_⟩
    · intro k hk
      rw [t2.2.1 k hk]
      exact congrArg G.dim (hgd k hk)
    · intro idx
      have := t2.2.2 fun k => idx (spot a c k)
      rw [← this]
      apply t3.1
      intro k hk
      rw [t2.1] at hk
      show idx k = idx (spot a c (((List.range G.ndim).map (backSpot a c)).getD k 0))
      rw [hgd k hk, spot_back]
    · -- the definition of transpose
      unfold transpose at t1
      simp only at t1
      rw [if_neg (by simp [hn])] at t1
      have esh : shiftAxes x.gshape.length (((List.range G.ndim).map (backSpot a c)).map fun (k : Nat) => (k : Int)) = ((List.range G.ndim).map (backSpot a c)).map fun (k : Nat) => (k : Int) := by
        unfold shiftAxes
        conv => rhs; rw [← List.map_id (((List.range G.ndim).map (backSpot a c)).map fun (k : Nat) => (k : Int))]
        apply List.map_congr_left
        intro v hv
        obtain ⟨k, _, rfl⟩ := List.mem_map.1 hv
        rw [if_neg (by omega)]; rfl
      rw [esh] at t1
      have hidx : ∀ s < G.ndim, (((List.range G.ndim).map (backSpot a c)).map fun (k : Nat) => (k : Int)).idxOf (s : Int) = spot a c s := by
        intro s hs
        have hnd2 : (((List.range G.ndim).map (backSpot a c)).map fun (k : Nat) => (k : Int)).Nodup := by
          apply List.Nodup.map_on _ hnd
          intro i _ j _ e
          omega
        have hsl : spot a c s < (((List.range G.ndim).map (backSpot a c)).map fun (k : Nat) => (k : Int)).length := by
          rw [List.length_map, List.length_map, List.length_range]; exact spot_lt ha hc hs
        have := hnd2.idxOf_getElem (spot a c s) hsl
        simp only [List.getElem_map, List.getElem_range, back_spot] at this
        exact this
      have hpa : permuteAxes x.gshape.length (((List.range G.ndim).map (backSpot a c)).map fun (k : Nat) => (k : Int)) = some ((List.range G.ndim).map (backSpot a c)) := by
        rw [hn]
        unfold permuteAxes
        rw [if_pos, natMod_map _ hlt, if_pos hnd]
        rw [List.all_eq_true]
        intro v hv
        obtain ⟨k, hk, rfl⟩ := List.mem_map.1 hv
        have := hlt k hk
        simp
        omega
      rw [hpa] at t1
      cases hsp : x.split with
      | none =>
        rw [hsp] at t1
        simp only at t1
        injection t1 with t1
        subst t1
        refine ⟨rfl, fun r k hk => ?_⟩
        show (x.loc r).dim _ = _
        rw [hgd k hk]
      | some s =>
        have hs : s < G.ndim := by
          have := h.2.2.2.2
          rw [hsp] at this
          exact this.1
        rw [hsp] at t1
        simp only at t1
        rw [if_pos (by
          refine List.mem_map.2 ⟨s, hperm.mem_iff.2 (List.mem_range.2 hs), rfl⟩)] at t1
        simp only at t1
        injection t1 with t1
        subst t1
        refine ⟨?_, fun r k hk => ?_⟩
        · show some _ = some _
          rw [hidx s hs]
        · show (x.loc r).dim _ = _
          rw [hgd k hk]

theorem shape_erase_get (G : NArr α) (a m : Nat) (hm : m + 1 < G.ndim) : (G.shape.eraseIdx a)[m]? = some (G.dim (if m < a then m else m + 1)) := by
  rw [List.getElem?_eraseIdx]
  unfold NArr.shape
  split
  · rw [List.getElem?_map, List.getElem?_range (by omega)]; rfl
  · rw [List.getElem?_map, List.getElem?_range hm]; rfl

theorem back_eq_iff {a c k : Nat} : backSpot a c k = a ↔ k = c := by
  constructor
  · intro h
    have := spot_back a c k
    rw [h] at this
    unfold spot at this
    rw [if_pos rfl] at this
    omega
  · rintro rfl
    unfold backSpot
    rw [if_pos rfl]

theorem spot_eq_iff {a c k : Nat} : spot a c k = c ↔ k = a := by
  constructor
  · intro h
    have := back_spot a c k
    rw [h] at this
    unfold backSpot at this
    rw [if_pos rfl] at this
    omega
  · rintro rfl
    unfold spot
    rw [if_pos rfl]

variable [Mul α] [Sub α] [Zero α]

/-- What both theorems share. -/
theorem cross_axes_core {P : Nat} {x y : DND α} {G H : NArr α} {a b c : Nat} (hx : Rep P x G) (hy : Rep P y H) (hn : G.ndim = H.ndim) (ha : a < G.ndim) (hb : b < G.ndim) (hc : c < G.ndim)
    (hd : G.shape.eraseIdx a = H.shape.eraseIdx b) (hsx : x.split ≠ some a) (hsy : y.split ≠ some b) (hsp : x.split.map (spot a c) = y.split.map (spot b c))
    (hparts : ∀ s t, x.split = some s → y.split = some t → ∀ r < P, (x.loc r).dim s = (y.loc r).dim t) (vx : VecOk P x G a) (vy : VecOk P y H b)
    {axisa axisb axisc : Int} (hall : ¬ (axisa = -1 ∧ axisb = -1 ∧ axisc = -1)) (haa : axisa = a ∨ axisa = (a : Int) - G.ndim) (hbb : axisb = b ∨ axisb = (b : Int) - G.ndim) (hcc : axisc = c ∨ axisc = (c : Int) - G.ndim) :
    ∃ (zl : Nat → NArr α) (x2 y2 : DND α) (A B : NArr α), (∀ r < P, torchCross (x2.loc r) (y2.loc r) c = .ok (zl r)) ∧ Rep P ⟨A.shape, x.split.map (spot a c), zl, none⟩ (crossArr A B c) ∧
      A.ndim = G.ndim ∧ A.dim c = 3 ∧ (∀ k < G.ndim, k ≠ c → A.dim k = G.dim (backSpot a c k)) ∧ (∀ idx j, j < 3 → A.get (setAx idx c j) = comp G a (fun k => idx (spot a c k)) j) ∧
      (∀ idx j, j < 3 → B.get (setAx idx c j) = comp H b (fun k => idx (spot b c k)) j) ∧
      cross P x y axisa axisb axisc (-1) = if G.dim a = 2 ∧ H.dim b = 2 then
          .ok ⟨G.shape.eraseIdx a, x.split.map (spot a c), fun r => match torchCross (x2.loc r) (y2.loc r) c with
            | .error e => .error e
            | .ok t => .ok (t.lastAlong c), some true⟩
        else .ok ⟨A.shape, x.split.map (spot a c), fun r => torchCross (x2.loc r) (y2.loc r) c, some true⟩ := by
  have dx := vecOk_dim vx
  have dy := vecOk_dim vy
  obtain ⟨x1, ex, rx, sx, lx⟩ := padVec_spec hx ha hsx vx
  obtain ⟨y1, ey, ry, sy, ly⟩ := padVec_spec hy (by omega) hsy vy
  have n1 : (vec3 G a).ndim = G.ndim := vec3_ndim G a
  have n2 : (vec3 H b).ndim = H.ndim := vec3_ndim H b
  obtain ⟨x2, A, mx, ra, na, da, ga, spa, la⟩ := moveVec_spec rx (a := a) (c := c) (by omega) (by omega)
  obtain ⟨y2, B, my, rb, nb, db, gb, spb, lb⟩ := moveVec_spec ry (a := b) (c := c) (by omega) (by omega)
  rw [n1] at na da la
  rw [n2] at nb db lb
  have hA3 : A.dim c = 3 := by
    rw [da c hc, back_eq_iff.2 rfl, vec3_dim dx, if_pos rfl]
  have hAk : ∀ k < G.ndim, k ≠ c → A.dim k = G.dim (backSpot a c k) := by
    intro k hk hkc
    rw [da k hk, vec3_dim dx, if_neg (fun e => hkc (back_eq_iff.1 e))]
  have hBk : ∀ k < G.ndim, k ≠ c → B.dim k = H.dim (backSpot b c k) := by
    intro k hk hkc
    rw [db k (by omega), vec3_dim dy, if_neg (fun e => hkc (back_eq_iff.1 e))]
  have hGH : ∀ k < G.ndim, k ≠ c → G.dim (backSpot a c k) = H.dim (backSpot b c k) := by
    intro k hk hkc
    have hm : (if k < c then k else k - 1) + 1 < G.ndim := by split_ifs <;> omega
    have e1 := shape_erase_get G a _ hm
    have e2 := shape_erase_get H b (if k < c then k else k - 1) (by omega)
    rw [hd, e2] at e1
    unfold backSpot
    rw [if_neg hkc, if_neg hkc]
    exact (Option.some.inj e1).symm
  have hsc : x2.split ≠ some c := by
    rw [spa, sx]
    cases e : x.split with
    | none => simp
    | some s =>
      rw [Option.map_some]
      intro e2
      exact hsx (by rw [e, spot_eq_iff.1 (Option.some.inj e2)])
  have hp2 : SameParts P x2 y2 := by
    refine ⟨by rw [spa, spb, sx, sy, hsp], fun s' hs' r hr => ?_⟩
    rw [spa, sx] at hs'
    obtain ⟨s, hs, rfl⟩ := Option.map_eq_some_iff.1 hs'
    rw [hsp] at hs'
    obtain ⟨t, ht, e⟩ := Option.map_eq_some_iff.1 hs'
    have hsn : s < G.ndim := by
      have := hx.2.2.2.2
      rw [hs] at this
      exact this.1
    have htn : t < H.ndim := by
      have := hy.2.2.2.2
      rw [ht] at this
      exact this.1
    have hsa : s ≠ a := fun e => hsx (by rw [hs, e])
    have htb : t ≠ b := fun e => hsy (by rw [ht, e])
    rw [la r _ (spot_lt ha hc hsn), back_spot, lx s hsa, ← e, lb r _ (spot_lt (by omega) (by omega) htn), back_spot, ly t htb]
    exact hparts s t hs ht r hr
  have hshape : (G.shape.eraseIdx a).take c ++ 3 :: (G.shape.eraseIdx a).drop c = A.shape := by
    have hlen : (G.shape.eraseIdx a).length = G.ndim - 1 := by
      rw [List.length_eraseIdx, if_pos (by simpa [NArr.shape] using ha)]; simp [NArr.shape]
    have htl : ((G.shape.eraseIdx a).take c).length = c := by rw [List.length_take]; omega
    apply List.ext_getElem?
    intro k
    have hAs : ∀ k < G.ndim, A.shape[k]? = some (A.dim k) := by
      intro k hk
      unfold NArr.shape
      rw [List.getElem?_map, List.getElem?_range (by omega)]; rfl
    rcases Nat.lt_trichotomy k c with h | h | h
    · rw [List.getElem?_append_left (by omega), List.getElem?_take_of_lt h, shape_erase_get G a k (by omega), hAs k (by omega), hAk k (by omega) (by omega)]
      unfold backSpot
      simp only
      rw [if_neg (show ¬ k = c by omega), if_pos h]
    · rw [List.getElem?_append_right (by omega), htl, h, Nat.sub_self, hAs c hc, hA3]
      rfl
    · rw [List.getElem?_append_right (by omega), htl]
      obtain ⟨m, rfl⟩ : ∃ m, k = m + 1 := ⟨k - 1, by omega⟩
      rw [show m + 1 - c = (m - c) + 1 by omega, List.getElem?_cons_succ, List.getElem?_drop, show c + (m - c) = m by omega]
      by_cases hm : m + 1 < G.ndim
      · rw [shape_erase_get G a m hm, hAs _ hm, hAk _ hm (by omega)]
        unfold backSpot
        simp only
        rw [if_neg (show ¬ m + 1 = c by omega), if_neg (show ¬ m + 1 < c by omega), Nat.add_sub_cancel]
      · rw [List.getElem?_eq_none (by omega), List.getElem?_eq_none (by simp [NArr.shape]; omega)]
  obtain ⟨zl, z1, z2⟩ := rep_cross ra rb (by omega) (by omega) (by
    intro k hk
    rw [na] at hk
    by_cases hkc : k = c
    · subst hkc
      rw [hA3, db _ (by omega), back_eq_iff.2 rfl, vec3_dim dy, if_pos rfl]
    · rw [hAk k hk hkc, hBk k hk hkc, hGH k hk hkc]) hA3 hsc hp2 _ rfl none
  have lnx := hx.2.1
  have lny := hy.2.1
  have eax : crossAxes x.gshape.length y.gshape.length axisa axisb axisc (-1) = .ok (a, b, c) := by
    have one : ∀ (n : Nat) (v : Nat) (w : Int), v < n → (w = v ∨ w = (v : Int) - n) → sanitizeAxis n (some w) = .ok (some v) := by
      intro n v w hv hw
      rw [sanitizeAxis_some _ _ (by omega), if_pos (by omega)]
      congr 2
      split <;> omega
    unfold crossAxes
    rw [if_neg (by
      rintro (h | h)
      · exact h rfl
      · exact hall h), lnx, lny, one _ a axisa ha haa, one _ b axisb (by omega) (by omega), one _ c axisc hc hcc]
  have hget : ∀ idx j, j < 3 → A.get (setAx idx c j) = comp G a (fun k => idx (spot a c k)) j := by
    intro idx j hj
    rw [ga, ← comp_vec3 dx hj]
    congr 1
    funext k
    unfold setAx
    by_cases hk : k = a
    · rw [if_pos hk, if_pos (spot_eq_iff.2 hk)]
    · rw [if_neg hk, if_neg (fun e => hk (spot_eq_iff.1 e))]
  have hgetB : ∀ idx j, j < 3 → B.get (setAx idx c j) = comp H b (fun k => idx (spot b c k)) j := by
    intro idx j hj
    rw [gb, ← comp_vec3 dy hj]
    congr 1
    funext k
    unfold setAx
    by_cases hk : k = b
    · rw [if_pos hk, if_pos (spot_eq_iff.2 hk)]
    · rw [if_neg hk, if_neg (fun e => hk (spot_eq_iff.1 e))]
  have sp2 : x2.split = x.split.map (spot a c) := by rw [spa, sx]
  rw [sp2] at z2
  refine ⟨zl, x2, y2, A, B, z1, z2, na, hA3, hAk, hget, hgetB, ?_⟩
  unfold cross
  rw [eax]
  dsimp only
  rw [if_neg (by rintro (h | h); exacts [hsx h, hsy h]), if_neg (by omega), rep_gshape hx, rep_gshape hy, ← hd, broadcastShape_refl]
  dsimp only
  rw [ex, ey]
  dsimp only
  rw [mx, my]
  dsimp only
  have gx : G.shape.getD a 0 = G.dim a := getD_map_rangeN _ ha
  have gy : H.shape.getD b 0 = H.dim b := getD_map_rangeN _ (by omega)
  rw [if_neg (by rw [hp2.1]; simp), gx, gy, hshape, sp2]
  by_cases h2 : G.dim a = 2 ∧ H.dim b = 2
  · rw [if_pos h2, if_pos h2]
    rfl
  · rw [if_neg h2, if_neg h2]

/-- **C166, different axes:** vectors along axis `a` of `x` and axis `b` of `y` (three- or two-dimensional, not both two-dimensional), equal shapes apart from these axes, split along corresponding axes (not the vector axes)
into equally large parts: the result holds numpy's cross products along axis `c`. -/
theorem cross_axes_partial {P : Nat} {x y : DND α} {G H : NArr α} {a b c : Nat} (hx : Rep P x G) (hy : Rep P y H) (hn : G.ndim = H.ndim) (ha : a < G.ndim) (hb : b < G.ndim) (hc : c < G.ndim)
    (hd : G.shape.eraseIdx a = H.shape.eraseIdx b) (hsx : x.split ≠ some a) (hsy : y.split ≠ some b) (hsp : x.split.map (spot a c) = y.split.map (spot b c))
    (hparts : ∀ s t, x.split = some s → y.split = some t → ∀ r < P, (x.loc r).dim s = (y.loc r).dim t) (vx : VecOk P x G a) (vy : VecOk P y H b) (h2 : ¬ (G.dim a = 2 ∧ H.dim b = 2))
    {axisa axisb axisc : Int} (hall : ¬ (axisa = -1 ∧ axisb = -1 ∧ axisc = -1)) (haa : axisa = a ∨ axisa = (a : Int) - G.ndim) (hbb : axisb = b ∨ axisb = (b : Int) - G.ndim) (hcc : axisc = c ∨ axisc = (c : Int) - G.ndim) :
    ∃ out T, cross P x y axisa axisb axisc (-1) = .ok out ∧ IsCrossAxes G H a b c T ∧ Delivers P out T ∧ out.split = x.split.map (spot a c) := by
  obtain ⟨zl, x2, y2, A, B, z1, z2, na, hA3, hAk, hget, hgetB, z3⟩ := cross_axes_core hx hy hn ha hb hc hd hsx hsy hsp hparts vx vy hall haa hbb hcc
  rw [if_neg h2] at z3
  refine ⟨_, crossArr A B c, z3, ⟨na, hA3, ?_, ?_⟩, ⟨⟨A.shape, x.split.map (spot a c), zl, none⟩, rfl, rfl, z1, z2⟩, rfl⟩
  · intro k hk hka
    show A.dim _ = _
    rw [hAk _ (spot_lt ha hc hk) (fun e => hka (spot_eq_iff.1 e)), back_spot]
  · intro idx _
    refine ⟨fun h => ?_, fun h => ?_, fun h => ?_⟩
    all_goals
      show A.get _ * B.get _ - A.get _ * B.get _ = _
      rw [h, hget _ _ (by omega), hget _ _ (by omega), hgetB _ _ (by omega), hgetB _ _ (by omega)]

/-- Two-dimensional vectors along different axes, moved behind the split axis: the result holds the third entries of the cross products, without the vector axes. -/
theorem cross_axes_z_partial {P : Nat} {x y : DND α} {G H : NArr α} {a b c : Nat} (hx : Rep P x G) (hy : Rep P y H) (hn : G.ndim = H.ndim) (ha : a < G.ndim) (hb : b < G.ndim) (hc : c < G.ndim)
    (hd : G.shape.eraseIdx a = H.shape.eraseIdx b) (hsx : x.split ≠ some a) (hsy : y.split ≠ some b) (hsp : x.split.map (spot a c) = y.split.map (spot b c))
    (hparts : ∀ s t, x.split = some s → y.split = some t → ∀ r < P, (x.loc r).dim s = (y.loc r).dim t) (vx : VecOk P x G a) (vy : VecOk P y H b) (h2 : G.dim a = 2 ∧ H.dim b = 2) (hsc : ∀ s, x.split = some s → spot a c s < c)
    {axisa axisb axisc : Int} (hall : ¬ (axisa = -1 ∧ axisb = -1 ∧ axisc = -1)) (haa : axisa = a ∨ axisa = (a : Int) - G.ndim) (hbb : axisb = b ∨ axisb = (b : Int) - G.ndim) (hcc : axisc = c ∨ axisc = (c : Int) - G.ndim) :
    ∃ out T, cross P x y axisa axisb axisc (-1) = .ok out ∧ IsCrossZAxes G H a b T ∧ Delivers P out T ∧ out.split = x.split.map (spot a c) := by
  obtain ⟨zl, x2, y2, A, B, z1, z2, na, hA3, hAk, hget, hgetB, z3⟩ := cross_axes_core hx hy hn ha hb hc hd hsx hsy hsp hparts vx vy hall haa hbb hcc
  rw [if_pos h2] at z3
  have rl := rep_lastAlong z2 (ax := c) (by show c < A.ndim; omega) (by show 0 < A.dim c; omega) (by
    intro s hs
    obtain ⟨t, ht, rfl⟩ := Option.map_eq_some_iff.1 hs
    exact hsc t ht) none
  refine ⟨_, (crossArr A B c).lastAlong c, z3, ⟨?_, ?_, ?_⟩, ⟨⟨(crossArr A B c).shape.eraseIdx c, x.split.map (spot a c), fun r => (zl r).lastAlong c, none⟩, ?_, rfl, ?_, rl⟩, rfl⟩
  · show A.ndim - 1 + 1 = _
    omega
  · intro k hk
    have hk : k < A.ndim - 1 := hk
    show A.dim (if k < c then k else k + 1) = _
    rw [hAk _ (by split_ifs <;> omega) (by split_ifs <;> omega)]
    congr 1
    unfold backSpot
    simp only
    split_ifs <;> omega
  · intro idx _
    have hlast : ∀ (q : Nat), (fun k => (fun k => if k < c then idx k else if k = c then A.dim c - 1 else idx (k - 1)) (spot q c k)) = fun k => if k = q then 2 else idx (if k < q then k else k - 1) := by
      intro q
      funext k
      rw [hA3]
      unfold spot
      simp only
      by_cases hk : k = q
      · subst hk
        rw [if_pos rfl, if_pos rfl, if_neg (by omega), if_pos rfl]
      · rw [if_neg hk, if_neg hk]
        generalize (if k < q then k else k - 1) = m
        by_cases hm : m < c
        · rw [if_pos hm, if_pos hm]
        · rw [if_neg hm, if_neg (by omega), if_neg (by omega), Nat.add_sub_cancel]
    have hcomp : ∀ (K : NArr α) (q j : Nat) (i1 : Nat → Nat), comp K q (fun k => if k = q then 2 else i1 k) j = comp K q i1 j := by
      intro K q j i1
      unfold comp
      congr 2
      funext k
      by_cases hk : k = q
      · rw [if_pos hk, if_pos hk]
      · rw [if_neg hk, if_neg hk]
        exact if_neg hk
    show A.get (setAx _ c _) * B.get (setAx _ c _) - A.get (setAx _ c _) * B.get (setAx _ c _) = _
    rw [hget _ _ (Nat.mod_lt _ (by omega)), hget _ _ (Nat.mod_lt _ (by omega)), hgetB _ _ (Nat.mod_lt _ (by omega)), hgetB _ _ (Nat.mod_lt _ (by omega))]
    have hv : (fun k => if k < c then idx k else if k = c then (crossArr A B c).dim c - 1 else idx (k - 1)) c = 2 := by
      dsimp only
      rw [if_neg (by omega), if_pos rfl]
      show A.dim c - 1 = 2
      omega
    have e1 : (crossArr A B c).dim c = A.dim c := rfl
    rw [e1] at hv ⊢
    rw [hv, hlast a, hlast b, hcomp, hcomp, hcomp, hcomp]
  · show G.shape.eraseIdx a = A.shape.eraseIdx c
    apply List.ext_getElem?
    intro m
    by_cases hm : m + 1 < G.ndim
    · rw [shape_erase_get G a m hm, shape_erase_get A c m (by omega), hAk _ (by split_ifs <;> omega) (by split_ifs <;> omega)]
      congr 2
      unfold backSpot
      simp only
      split_ifs <;> omega
    · have l1 : (G.shape.eraseIdx a).length = G.ndim - 1 := by
        rw [List.length_eraseIdx, if_pos (by simpa [NArr.shape] using ha)]; simp [NArr.shape]
      have l2 : (A.shape.eraseIdx c).length = A.ndim - 1 := by
        rw [List.length_eraseIdx, if_pos (by simp [NArr.shape]; omega)]; simp [NArr.shape]
      rw [List.getElem?_eq_none (by omega), List.getElem?_eq_none (by omega)]
  · intro r hr
    show (match torchCross (x2.loc r) (y2.loc r) c with
      | .error e => (.error e : Except Err (NArr α))
      | .ok t => .ok (t.lastAlong c)) = _
    rw [z1 r hr]

omit [Mul α] [Sub α] [Zero α] in
/-- Six vectors as rows and six vectors as columns on 4 processes, the products as columns. -/
example (u v : Nat → Nat → Int) : ∃ out T, cross 4 (evenA 4 (matA 6 3 u) 0) (evenA 4 (matA 2 6 v) 1) 1 0 0 (-1) = .ok out ∧ IsCrossAxes (matA 6 3 u) (matA 2 6 v) 1 0 0 T ∧ Delivers 4 out T ∧ out.split = some 1 := by
  have hx := (goodRep_even (P := 4) (by omega) (matA_local 6 3 u) (s := 0) (by show 0 < 2; omega)).1
  have hy := (goodRep_even (P := 4) (by omega) (matA_local 2 6 v) (s := 1) (by show 1 < 2; omega)).1
  exact cross_axes_partial (a := 1) (b := 0) (c := 0) hx hy rfl (by show 1 < 2; omega) (by show 0 < 2; omega) (by show 0 < 2; omega) rfl (by intro h; cases h) (by intro h; cases h) rfl
    (fun s t hs ht r _ => by have hs : some 0 = some s := hs; have ht : some 1 = some t := ht; cases hs; cases ht; rfl) (.inl rfl)
    (.inr ⟨rfl, fun s hs r _ => by have hs : some 1 = some s := hs; cases hs; rfl⟩) (by intro h; have : (3 : Nat) = 2 := h.1; omega) (by omega) (.inl rfl) (.inl rfl) (.inl rfl)

omit [Mul α] [Sub α] [Zero α] in
/-- Six two-dimensional vectors as rows and as columns. -/
example (u v : Nat → Nat → Int) : ∃ out T, cross 4 (evenA 4 (matA 6 2 u) 0) (evenA 4 (matA 2 6 v) 1) (-1) 0 (-1) (-1) = .ok out ∧ IsCrossZAxes (matA 6 2 u) (matA 2 6 v) 1 0 T ∧ Delivers 4 out T ∧ out.split = some 0 := by
  have hx := (goodRep_even (P := 4) (by omega) (matA_local 6 2 u) (s := 0) (by show 0 < 2; omega)).1
  have hy := (goodRep_even (P := 4) (by omega) (matA_local 2 6 v) (s := 1) (by show 1 < 2; omega)).1
  exact cross_axes_z_partial (a := 1) (b := 0) (c := 1) hx hy rfl (by show 1 < 2; omega) (by show 0 < 2; omega) (by show 1 < 2; omega) rfl (by intro h; cases h) (by intro h; cases h) rfl
    (fun s t hs ht r _ => by have hs : some 0 = some s := hs; have ht : some 1 = some t := ht; cases hs; cases ht; rfl) (.inr ⟨rfl, fun s hs r _ => by have hs : some 0 = some s := hs; cases hs; rfl⟩)
    (.inr ⟨rfl, fun s hs r _ => by have hs : some 1 = some s := hs; cases hs; rfl⟩) ⟨rfl, rfl⟩ (fun s hs => by have hs : some 0 = some s := hs; cases hs; decide) (by omega) (.inr rfl) (.inl rfl) (.inr rfl)

end Heat
