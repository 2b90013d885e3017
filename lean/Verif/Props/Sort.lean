import Verif.Proof.Sort
import Verif.Proof.StrideTricks
import Verif.Props.Dist
import Verif.Props.Indexing
import Verif.Props.BinaryOp
import Mathlib.Tactic.Linarith
import Mathlib.Tactic.Ring
/-!
# C60: sort
-/
namespace Heat
open Spec

variable {κ β : Type}

/-- `srt` sorts by the values and moves the accompanying indices along; it need not be stable. -/
structure SortFn (lt : κ → κ → Bool) (srt : List (κ × Nat) → List (κ × Nat)) : Prop where
  perm : ∀ l, (srt l).Perm l
  sorted : ∀ l, SortedBy lt ((srt l).map Prod.fst)

/-! ### Lists -/

theorem mapM_some_of {γ : Type} {f : β → Option γ} {g : β → γ} : ∀ {l : List β}, (∀ x ∈ l, f x = some (g x)) → l.mapM f = some (l.map g)
  | [], _ => rfl
  | a :: l, h => by
    rw [List.mapM_cons, h a (List.mem_cons_self ..), mapM_some_of (l := l) fun x hx => h x (List.mem_cons_of_mem _ hx)]
    rfl

theorem content_append_perm (P : Nat) (a b : Nat → List β) : (content P fun r => a r ++ b r).Perm (content P a ++ content P b) := by
  induction P with
  | zero => exact List.Perm.refl _
  | succ k ih =>
    rw [content_succ, content_succ, content_succ]
    calc content k (fun r => a r ++ b r) ++ (a k ++ b k)
        |>.Perm ((content k a ++ content k b) ++ (a k ++ b k)) := ih.append_right _
      _ |>.Perm ((content k a ++ a k) ++ (content k b ++ b k)) := by
        simp only [List.append_assoc]
        refine List.Perm.append_left _ ?_
        rw [← List.append_assoc, ← List.append_assoc]
        exact List.Perm.append_right _ List.perm_append_comm

theorem content_nil (P : Nat) : content P (fun _ => ([] : List β)) = [] := by
  induction P with
  | zero => rfl
  | succ k ih => rw [content_succ, ih]; rfl

/-- Exchanging the order of two concatenations permutes the entries. -/
theorem content_swap (P k : Nat) (s : Nat → Nat → List β) : (content k fun q => content P fun r => s r q).Perm (content P fun r => content k fun q => s r q) := by
  induction k with
  | zero => rw [content_zero]; simp only [content_zero]; rw [content_nil]
  | succ k ih =>
    rw [content_succ]
    simp only [content_succ]
    exact (ih.append_right _).trans (content_append_perm P _ _).symm

theorem content_perm {P : Nat} {a b : Nat → List β} (h : ∀ r < P, (a r).Perm (b r)) : (content P a).Perm (content P b) := by
  induction P with
  | zero => exact List.Perm.refl _
  | succ k ih =>
    rw [content_succ, content_succ]
    exact (ih fun r hr => h r (by omega)).append (h k (by omega))

theorem mem_content {P : Nat} {d : Nat → List β} {x : β} : x ∈ content P d ↔ ∃ r < P, x ∈ d r := by
  unfold content
  simp [List.mem_flatMap]

theorem content_pairwise {P : Nat} {d : Nat → List β} {R : β → β → Prop} :
    (content P d).Pairwise R ↔ (∀ r < P, (d r).Pairwise R) ∧ ∀ r s, r < s → s < P → ∀ x ∈ d r, ∀ y ∈ d s, R x y := by
  induction P with
  | zero => simp [content_zero]
  | succ k ih =>
    rw [content_succ, List.pairwise_append, ih]
    constructor
    · rintro ⟨⟨h1, h2⟩, h3, h4⟩
      refine ⟨?_, ?_⟩
      · intro r hr
        by_cases e : r = k
        · rw [e]; exact h3
        · exact h1 r (by omega)
      · intro r s hrs hs x hx y hy
        by_cases e : s = k
        · rw [e] at hy
          exact h4 x (mem_content.2 ⟨r, by omega, hx⟩) y hy
        · exact h2 r s hrs (by omega) x hx y hy
    · rintro ⟨h1, h2⟩
      refine ⟨⟨fun r hr => h1 r (by omega), fun r s hrs hs => h2 r s hrs (by omega)⟩, h1 k (by omega), ?_⟩
      intro x hx y hy
      obtain ⟨r, hr, hx⟩ := mem_content.1 hx
      exact h2 r k hr (by omega) x hx y hy

theorem slice_eq (l : List β) (d m d' m' : Nat) (h1 : min m (l.length - d) = min m' (l.length - d')) (h2 : min m (l.length - d) = 0 ∨ d = d') :
    (l.drop d).take m = (l.drop d').take m' := by
  apply List.ext_getElem?
  intro i
  rw [List.getElem?_take, List.getElem?_take, List.getElem?_drop, List.getElem?_drop]
  by_cases ha : i < min m (l.length - d)
  · rw [if_pos (by omega), if_pos (by omega)]
    rcases h2 with h2 | h2
    · omega
    · rw [h2]
  · have e1 : (if i < m then l[d + i]? else none) = none := by
      by_cases hm : i < m
      · rw [if_pos hm, List.getElem?_eq_none (by omega)]
      · rw [if_neg hm]
    have e2 : (if i < m' then l[d' + i]? else none) = none := by
      by_cases hm : i < m'
      · rw [if_pos hm, List.getElem?_eq_none (by omega)]
      · rw [if_neg hm]
    rw [e1, e2]

/-! ### Buckets -/

/-- A sorted list is cut by a value into the smaller entries and the rest. -/
theorem sorted_cut {lt : κ → κ → Bool} (hw : WeakOrder lt) (v : κ) : ∀ (l : List (κ × Nat)), SortedBy lt (l.map Prod.fst) →
    (∀ x ∈ l.take (l.countP fun x => lt x.1 v), lt x.1 v = true) ∧ (∀ x ∈ l.drop (l.countP fun x => lt x.1 v), lt x.1 v = false)
  | [], _ => by simp
  | a :: t, h => by
    have h' : (a.1 :: t.map Prod.fst).Pairwise fun a b => lt b a = false := h
    rw [List.pairwise_cons] at h'
    have ih := sorted_cut hw v t h'.2
    by_cases ha : lt a.1 v = true
    · rw [List.countP_cons_of_pos (p := fun x : κ × Nat => lt x.1 v) ha, List.take_succ_cons, List.drop_succ_cons]
      refine ⟨?_, ih.2⟩
      intro x hx
      rcases List.mem_cons.1 hx with rfl | hx
      · exact ha
      · exact ih.1 x hx
    · have hall : ∀ x ∈ a :: t, lt x.1 v = false := by
        intro x hx
        rcases List.mem_cons.1 hx with rfl | hx
        · simpa using ha
        · exact hw.ntrans _ _ _ (h'.1 x.1 (List.mem_map.2 ⟨x, hx, rfl⟩)) (by simpa using ha)
      have h0 : (a :: t).countP (fun x => lt x.1 v) = 0 := by
        rw [List.countP_eq_zero]
        intro x hx; rw [hall x hx]; simp
      rw [h0]
      exact ⟨by simp, by simpa using hall⟩

/-- How many entries of the column `l` go to the ranks below `k`. -/
def cutAt (lt : κ → κ → Bool) (P : Nat) (gp : List κ) (l : List (κ × Nat)) (k : Nat) : Nat :=
  if k = 0 then 0 else if k = P then l.length else l.countP fun x => gp[k - 1]?.any fun p => lt x.1 p

theorem sum_ltPivot (lt : κ → κ → Bool) (gp : List κ) (i : Nat) (l : List (κ × Nat)) :
    (l.map fun x => ltPivot lt gp i x.1).sum = ((l.countP fun x => gp[i]?.any fun p => lt x.1 p : Nat) : Int) := by
  induction l with
  | nil => rfl
  | cons a t ih =>
    rw [List.map_cons, List.sum_cons, ih, List.countP_cons]
    unfold ltPivot
    split <;> simp_all <;> omega

theorem sum_map_sub (l : List β) (f g : β → Int) : (l.map fun x => f x - g x).sum = (l.map f).sum - (l.map g).sum := by
  induction l with
  | nil => rfl
  | cons a t ih => simp only [List.map_cons, List.sum_cons, ih]; omega

theorem sum_map_one (l : List β) : (l.map fun _ => (1 : Int)).sum = (l.length : Int) := by
  induction l with
  | nil => rfl
  | cons a t ih => simp only [List.map_cons, List.sum_cons, ih, List.length_cons]; omega

theorem localPartition_eq (lt : κ → κ → Bool) (P : Nat) (hP : 2 ≤ P) (gp : List κ) (l : List (κ × Nat)) (i : Nat) (hi : i < P) :
    localPartition lt P gp l i = (cutAt lt P gp l (i + 1) : Int) - (cutAt lt P gp l i : Int) := by
  unfold localPartition ltPartition cutAt
  by_cases h1 : i = P - 1
  · simp only [if_pos h1]
    rw [sum_map_sub, sum_map_one, sum_ltPivot, if_neg (by omega), if_pos (by omega), if_neg (by omega), if_neg (by omega), show i - 1 = P - 2 by omega]
  · simp only [if_neg h1]
    by_cases h2 : i > 0
    · simp only [if_pos h2]
      rw [sum_map_sub, sum_ltPivot, sum_ltPivot, if_neg (by omega), if_neg (by omega), if_neg (by omega), if_neg (by omega), show i + 1 - 1 = i by omega]
    · simp only [if_neg h2]
      rw [sum_ltPivot, if_neg (by omega), if_neg (by omega), if_pos (by omega), show i + 1 - 1 = i by omega]
      simp

theorem cum_localPartition (lt : κ → κ → Bool) (P : Nat) (hP : 2 ≤ P) (gp : List κ) (l : List (κ × Nat)) (k : Nat) (hk : k ≤ P) :
    cum (localPartition lt P gp l) k = (cutAt lt P gp l k : Int) := by
  induction k with
  | zero => simp [cum, cutAt]
  | succ k ih => rw [cum, ih (by omega), localPartition_eq lt P hP gp l k (by omega)]; omega

/-- The pivots are in order. -/
def PivotsSorted (lt : κ → κ → Bool) (P : Nat) (gp : List κ) : Prop := gp.length = P - 1 ∧ SortedBy lt gp

theorem PivotsSorted.le {lt : κ → κ → Bool} {P : Nat} {gp : List κ} (h : PivotsSorted lt P gp) (hw : WeakOrder lt) {i j : Nat} (hij : i ≤ j) {a b : κ}
    (ha : gp[i]? = some a) (hb : gp[j]? = some b) : lt b a = false := by
  by_cases e : i = j
  · subst e; rw [ha] at hb; cases hb; exact hw.irrefl a
  · have hp := h.2
    unfold SortedBy at hp
    rw [List.pairwise_iff_getElem] at hp
    obtain ⟨h1, rfl⟩ := List.getElem?_eq_some_iff.1 ha
    obtain ⟨h2, rfl⟩ := List.getElem?_eq_some_iff.1 hb
    exact hp i j h1 h2 (by omega)

theorem cutAt_mono {lt : κ → κ → Bool} (hw : WeakOrder lt) {P : Nat} (gp : List κ) (hg : PivotsSorted lt P gp) (l : List (κ × Nat)) (k : Nat) (hk : k < P) :
    cutAt lt P gp l k ≤ cutAt lt P gp l (k + 1) := by
  unfold cutAt
  by_cases h0 : k = 0
  · rw [if_pos h0]; omega
  · rw [if_neg h0, if_neg (by omega), if_neg (by omega)]
    by_cases h1 : k + 1 = P
    · rw [if_pos h1]; exact List.countP_le_length
    · rw [if_neg h1]
      apply List.countP_mono_left
      intro x _ hx
      have i1 : k - 1 < gp.length := by rw [hg.1]; omega
      have i2 : k + 1 - 1 < gp.length := by rw [hg.1]; omega
      rw [List.getElem?_eq_getElem i1] at hx
      rw [List.getElem?_eq_getElem i2]
      simp only [Option.any_some] at hx ⊢
      have := hg.le hw (show k - 1 ≤ k + 1 - 1 by omega) (List.getElem?_eq_getElem i1) (List.getElem?_eq_getElem i2)
      cases hc : lt x.1 gp[k + 1 - 1] with
      | true => rfl
      | false => rw [hw.ntrans _ _ _ hc this] at hx; cases hx

theorem cutAt_le_length {lt : κ → κ → Bool} {P : Nat} (gp : List κ) (l : List (κ × Nat)) (k : Nat) : cutAt lt P gp l k ≤ l.length := by
  unfold cutAt
  by_cases h0 : k = 0
  · rw [if_pos h0]; omega
  · rw [if_neg h0]
    by_cases h1 : k = P
    · rw [if_pos h1]
    · rw [if_neg h1]; exact List.countP_le_length

/-- The piece shipped to rank `q`, with natural numbers. -/
theorem segment_eq (lt : κ → κ → Bool) (P : Nat) (hP : 2 ≤ P) (gp : List κ) (l : List (κ × Nat)) (q : Nat) (hq : q < P) :
    segment (localPartition lt P gp l) l q = (l.take (cutAt lt P gp l (q + 1))).drop (cutAt lt P gp l q) := by
  unfold segment
  rw [cum_localPartition lt P hP gp l q (by omega), localPartition_eq lt P hP gp l q hq, List.drop_take]
  simp only [Int.toNat_natCast]
  congr 1
  omega

theorem segments_content {lt : κ → κ → Bool} (hw : WeakOrder lt) (P : Nat) (hP : 2 ≤ P) (gp : List κ) (hg : PivotsSorted lt P gp) (l : List (κ × Nat)) :
    content P (fun q => segment (localPartition lt P gp l) l q) = l := by
  rw [content_congr (d' := fun q => (l.take (cutAt lt P gp l (q + 1))).drop (cutAt lt P gp l q)) fun q hq => segment_eq lt P hP gp l q hq,
    content_slices l (cutAt lt P gp l) (by simp [cutAt]) P fun r hr => cutAt_mono hw gp hg l r hr]
  rw [cutAt, if_neg (by omega), if_pos rfl, List.take_length]

/-- Values for lower ranks are not greater than values for higher ranks. -/
theorem segments_ordered {lt : κ → κ → Bool} (hw : WeakOrder lt) (P : Nat) (hP : 2 ≤ P) (gp : List κ) (hg : PivotsSorted lt P gp) (l l' : List (κ × Nat))
    (hl : SortedBy lt (l.map Prod.fst)) (hl' : SortedBy lt (l'.map Prod.fst)) (q q' : Nat) (hqq : q < q') (hq' : q' < P) (x y : κ × Nat)
    (hx : x ∈ segment (localPartition lt P gp l) l q) (hy : y ∈ segment (localPartition lt P gp l') l' q') : lt y.1 x.1 = false := by
  rw [segment_eq lt P hP gp l q (by omega)] at hx
  rw [segment_eq lt P hP gp l' q' hq'] at hy
  have i1 : q < gp.length := by rw [hg.1]; omega
  have i2 : q' - 1 < gp.length := by rw [hg.1]; omega
  have h1 : lt x.1 gp[q] = true := by
    have hx' := List.mem_of_mem_drop hx
    rw [cutAt, if_neg (by omega), if_neg (by omega), show q + 1 - 1 = q by omega, List.getElem?_eq_getElem i1] at hx'
    simp only [Option.any_some] at hx'
    exact (sorted_cut hw gp[q] l hl).1 x hx'
  have h2 : lt y.1 gp[q' - 1] = false := by
    rw [List.drop_take] at hy
    have hy' := List.mem_of_mem_take hy
    rw [cutAt, if_neg (by omega), if_neg (by omega), List.getElem?_eq_getElem i2] at hy'
    simp only [Option.any_some] at hy'
    exact (sorted_cut hw gp[q' - 1] l' hl').2 y hy'
  have h3 := hg.le hw (show q ≤ q' - 1 by omega) (List.getElem?_eq_getElem i1) (List.getElem?_eq_getElem i2)
  have h4 := hw.ntrans _ _ _ h2 h3
  cases hc : lt y.1 x.1 with
  | false => rfl
  | true => rw [hw.trans _ _ _ hc h1] at h4; cases h4

/-! ### The second exchange -/

theorem slice_arith (a b c m : Nat) :
    min (min ((c : Int) + m) ((a : Int) + b) - min (c : Int) ((a : Int) + b) - min ((c : Int) + m) a + min (c : Int) a).toNat
        (m - (min ((c : Int) + m) a - min (c : Int) a).toNat) = min (b - (c - a)) (m - (a - c)) ∧
      (min (min ((c : Int) + m) ((a : Int) + b) - min (c : Int) ((a : Int) + b) - min ((c : Int) + m) a + min (c : Int) a).toNat
        (m - (min ((c : Int) + m) a - min (c : Int) a).toNat) = 0 ∨ (min ((c : Int) + m) a - min (c : Int) a).toNat = a - c) := by
  rcases Nat.le_total c a with h1 | h1 <;> rcases Nat.le_total (c + m) a with h2 | h2 <;> rcases Nat.le_total c (a + b) with h3 | h3 <;>
    rcases Nat.le_total (c + m) (a + b) with h4 | h4 <;> omega

/-- The pieces given by the overlap matrix are the slices of the concatenation. -/
theorem received_slices {P : Nat} {counts part : Nat → Int} (hy : SVHyp P counts part) (V : Nat → Nat → Int) (hV : ∀ i < P, ∀ j < P, V i j = nw counts part i j)
    (S : Nat → List β) (hS : ∀ p < P, ((S p).length : Int) = part p) (q : Nat) (hq : q < P) :
    received P V S q = ((content P S).drop (cum counts q).toNat).take (counts q).toNat := by
  have hrec : received P V S q = content P fun p => segment (V p) (S p) q := rfl
  rw [hrec]
  have main : ∀ k ≤ P, content k (fun p => segment (V p) (S p) q) = ((content k S).drop (cum counts q).toNat).take (counts q).toNat := by
    intro k
    induction k with
    | zero => intro _; simp [content_zero]
    | succ k ih =>
      intro hk
      rw [content_succ, content_succ, ih (by omega), List.drop_append, List.take_append]
      congr 1
      unfold segment
      have e1 : cum (V k) q = min (cum part (k + 1)) (cum counts q) - min (cum part k) (cum counts q) := by
        rw [← cum_nw_row counts part P hy.hp k q (by omega)]
        exact cum_congr fun j hj => hV k (by omega) j (by omega)
      rw [e1, hV k (by omega) q hq]
      have e2 : (((content k S).length : Nat) : Int) = cum part k := (cum_eq_content part S k fun i hi => (hS i (by omega)).symm).symm
      have e3 : cum part (k + 1) = cum part k + part k := rfl
      have e4 : cum counts (q + 1) = cum counts q + counts q := rfl
      have e5 := hS k (by omega)
      have e6 := svCum_nonneg counts P hy.ht q (by omega)
      have e7 := hy.ht q hq
      have e8 := svCum_nonneg part P hy.hp k (by omega)
      have e9 := hy.hp k (by omega)
      rw [List.length_drop]
      unfold nw
      obtain ⟨a, ha⟩ := Int.eq_ofNat_of_zero_le e6
      obtain ⟨b, hb⟩ := Int.eq_ofNat_of_zero_le e7
      rw [e3, e4, ← e5, ← e2, ha, hb, Int.toNat_natCast, Int.toNat_natCast]
      have := slice_arith a b (content k S).length (S k).length
      exact slice_eq _ _ _ _ _ this.1 this.2
  exact main P (Nat.le_refl _)

/-- **The two exchanges sort**, given pivots that do not overload a prefix of the ranks. -/
theorem sortExchange_spec {lt : κ → κ → Bool} (hw : WeakOrder lt) {srt : List (κ × Nat) → List (κ × Nat)} (hs : SortFn lt srt) (P n : Nat) (hP : 2 ≤ P)
    (gp : List κ) (hg : PivotsSorted lt P gp) (l : Nat → List (κ × Nat)) (hsort : ∀ r < P, SortedBy lt ((l r).map Prod.fst))
    (hlen : ∀ r < P, (l r).length = evenSize n P r)
    (hbound : ∀ p, p + 1 < P → cum (fun r => (cutAt lt P gp (l r) (p + 1) : Int)) P ≤ (((chunkRange n (p + 2) P).1 : Nat) : Int)) :
    ∃ R, sortExchange lt srt P n gp l = .ok R ∧ (content P R).Perm (content P l) ∧ SortedBy lt ((content P R).map Prod.fst) ∧
      ∀ r < P, (R r).length = evenSize n P r := by
  have hcsz : ∀ r, (chunkRange n r P).2 - (chunkRange n r P).1 = evenSize n P r := fun r => chunkRange_size n r P
  -- running sums of the targets
  have hT : ∀ k ≤ P, cum (fun r => (((chunkRange n r P).2 - (chunkRange n r P).1 : Nat) : Int)) k = (((chunkRange n k P).1 : Nat) : Int) := by
    intro k
    induction k with
    | zero => intro _; simp [cum, chunkRange_zero]
    | succ k ih =>
      intro hk
      rw [cum, ih (by omega), chunkRange_succ]
      have := chunkRange_mono n P (show k ≤ k + 1 by omega)
      rw [chunkRange_succ] at this
      omega
  -- running sums of the buckets
  have hC : ∀ k ≤ P, cum (partitionMatrix lt P gp l) k = cum (fun r => (cutAt lt P gp (l r) k : Int)) P := by
    intro k
    induction k with
    | zero =>
      intro _
      rw [cum, cum_congr (g := fun _ => 0) (fun i _ => by simp [cutAt])]
      have : ∀ P, cum (fun _ => (0 : Int)) P = 0 := by
        intro P; induction P with
        | zero => rfl
        | succ k ih => rw [cum, ih]; rfl
      rw [this]
    | succ k ih =>
      intro hk
      rw [cum, ih (by omega)]
      unfold partitionMatrix
      have hadd : ∀ (f g : Nat → Int) P, cum f P + cum g P = cum (fun r => f r + g r) P := by
        intro f g P; induction P with
        | zero => rfl
        | succ k ih => simp only [cum]; rw [← ih]; omega
      rw [hadd]
      exact cum_congr fun r _ => by rw [localPartition_eq lt P hP gp (l r) k (by omega)]; omega
  have htotl : cum (fun r => ((l r).length : Int)) P = (n : Int) := by
    rw [← congrArg (fun x : Nat => (x : Int)) (chunkRange_at_P n P (by omega)), ← hT P (Nat.le_refl _)]
    exact cum_congr fun r hr => by rw [hlen r hr, hcsz]
  have hy : SVHyp P (fun r => (((chunkRange n r P).2 - (chunkRange n r P).1 : Nat) : Int)) (partitionMatrix lt P gp l) := by
    refine ⟨?_, fun i _ => by omega, ?_, ?_, ?_⟩
    · intro i hi
      apply svCum_nonneg _ P _ P (Nat.le_refl _)
      intro r _
      rw [localPartition_eq lt P hP gp (l r) i hi]
      have := cutAt_mono hw gp hg (l r) i hi
      omega
    · intro i hi
      rw [hcsz, hcsz]
      unfold evenSize
      split <;> split <;> omega
    · rw [hC P (Nat.le_refl _), hT P (Nat.le_refl _), chunkRange_at_P n P (by omega), ← htotl]
      exact cum_congr fun r _ => by rw [cutAt, if_neg (by omega), if_pos rfl]
    · intro p hp
      rw [hC (p + 1) (by omega), hT (p + 2) (by omega)]
      exact hbound p hp
  obtain ⟨V, hV, hVnw⟩ := sendVec_spec hy
  -- first exchange
  have hfirst : ∀ q, received P (fun p => localPartition lt P gp (l p)) l q = content P fun r => segment (localPartition lt P gp (l r)) (l r) q := fun _ => rfl
  have hflen : ∀ q < P, ((received P (fun p => localPartition lt P gp (l p)) l q).length : Int) = partitionMatrix lt P gp l q := by
    intro q hq
    rw [hfirst]
    unfold partitionMatrix
    rw [cum_eq_content]
    intro r _
    rw [segment_eq lt P hP gp (l r) q hq, localPartition_eq lt P hP gp (l r) q hq, List.length_drop, List.length_take]
    have := cutAt_mono hw gp hg (l r) q hq
    have := cutAt_le_length (lt := lt) (P := P) gp (l r) (q + 1)
    omega
  have hfperm : (content P fun q => received P (fun p => localPartition lt P gp (l p)) l q).Perm (content P l) := by
    refine (content_swap P P fun r q => segment (localPartition lt P gp (l r)) (l r) q).trans ?_
    rw [content_congr (d' := l) fun r _ => segments_content hw P hP gp hg (l r)]
  -- locally sorted buckets
  have hWperm : (content P fun q => srt (received P (fun p => localPartition lt P gp (l p)) l q)).Perm (content P l) :=
    (content_perm fun q _ => hs.perm _).trans hfperm
  have hWsorted : (content P fun q => srt (received P (fun p => localPartition lt P gp (l p)) l q)).Pairwise fun a b => lt b.1 a.1 = false := by
    rw [content_pairwise]
    refine ⟨?_, ?_⟩
    · intro r _
      have := hs.sorted (received P (fun p => localPartition lt P gp (l p)) l r)
      unfold SortedBy at this
      rw [List.pairwise_map] at this
      exact this
    · intro r s hrs hsP x hx y hy
      have hx := (hs.perm _).mem_iff.1 hx
      have hy := (hs.perm _).mem_iff.1 hy
      rw [hfirst, mem_content] at hx hy
      obtain ⟨a, ha, hx⟩ := hx
      obtain ⟨b, hb, hy⟩ := hy
      exact segments_ordered hw P hP gp hg (l a) (l b) (hsort a ha) (hsort b hb) r s hrs hsP x y hx hy
  -- second exchange
  have hsecond : ∀ q < P, received P V (fun q => srt (received P (fun p => localPartition lt P gp (l p)) l q)) q =
      ((content P fun q => srt (received P (fun p => localPartition lt P gp (l p)) l q)).take (chunkRange n (q + 1) P).1).drop (chunkRange n q P).1 := by
    intro q hq
    rw [received_slices hy V hVnw _ (fun p hp => by rw [(hs.perm _).length_eq, hflen p hp]) q hq, hT q (by omega), chunkRange_succ, List.drop_take]
    simp
  have hWlen : (content P fun q => srt (received P (fun p => localPartition lt P gp (l p)) l q)).length = n := by
    rw [hWperm.length_eq]
    have := cum_eq_content (fun r => ((l r).length : Int)) l P fun _ _ => rfl
    omega
  generalize hW : (content P fun q => srt (received P (fun p => localPartition lt P gp (l p)) l q)) = W at *
  have hslen : ∀ q < P, (received P V (fun q => srt (received P (fun p => localPartition lt P gp (l p)) l q)) q).length = evenSize n P q := by
    intro q hq
    rw [hsecond q hq, List.length_drop, List.length_take, hWlen, ← hcsz, ← chunkRange_succ]
    have h1 := chunkRange_mono n P (show q ≤ q + 1 by omega)
    have h2 := chunkRange_mono n P (show q + 1 ≤ P by omega)
    rw [chunkRange_at_P n P (by omega)] at h2
    omega
  have hscont : content P (received P V (fun q => srt (received P (fun p => localPartition lt P gp (l p)) l q))) = W := by
    rw [content_congr hsecond, content_slices W (fun r => (chunkRange n r P).1) (chunkRange_zero n P) P fun r _ => chunkRange_mono n P (by omega),
      chunkRange_at_P n P (by omega), List.take_of_length_le (by omega)]
  have hok : sortExchange lt srt P n gp l = .ok fun q => srt (received P V (fun q => srt (received P (fun p => localPartition lt P gp (l p)) l q)) q) := by
    unfold sortExchange
    dsimp only
    rw [hV]
    dsimp only
    rw [if_pos]
    rw [List.all_eq_true]
    intro q hq
    have hq := List.mem_range.1 hq
    have e1 := hslen q hq
    have e2 := hlen q hq
    have e3 := hcsz q
    simp only [Bool.and_eq_true, decide_eq_true_eq]
    omega
  refine ⟨_, hok, ?_, ?_, ?_⟩
  · refine (content_perm (b := received P V (fun q => srt (received P (fun p => localPartition lt P gp (l p)) l q))) fun q _ => hs.perm _).trans ?_
    rw [hscont]; exact hWperm
  · unfold SortedBy
    rw [List.pairwise_map, content_pairwise]
    rw [← hscont, content_pairwise] at hWsorted
    refine ⟨?_, ?_⟩
    · intro r _
      have := hs.sorted (received P V (fun q => srt (received P (fun p => localPartition lt P gp (l p)) l q)) r)
      unfold SortedBy at this
      rw [List.pairwise_map] at this
      exact this
    · intro r s hrs hsP x hx y hy
      exact hWsorted.2 r s hrs hsP x ((hs.perm _).mem_iff.1 hx) y ((hs.perm _).mem_iff.1 hy)
  · intro r hr
    rw [(hs.perm _).length_eq, hslen r hr]

/-! ### The pivots do not overload a prefix of the ranks -/

theorem cum_le {f g : Nat → Int} : ∀ {P : Nat}, (∀ r < P, f r ≤ g r) → cum f P ≤ cum g P
  | 0, _ => Int.le_refl _
  | P + 1, h => by
    have := cum_le (P := P) fun r hr => h r (by omega)
    have := h P (by omega)
    simp only [cum]; omega

theorem cum_add (f g : Nat → Int) (P : Nat) : cum (fun r => f r + g r) P = cum f P + cum g P := by
  induction P with
  | zero => rfl
  | succ k ih => simp only [cum]; rw [ih]; omega

theorem cum_mul (c : Int) (f : Nat → Int) (P : Nat) : cum (fun r => c * f r) P = c * cum f P := by
  induction P with
  | zero => simp [cum]
  | succ k ih => simp only [cum]; rw [ih]; ring

theorem cum_const (c : Int) (P : Nat) : cum (fun _ => c) P = c * P := by
  induction P with
  | zero => simp [cum]
  | succ k ih => simp only [cum]; rw [ih]; push_cast; ring

theorem cum_countP (f : β → Bool) (P : Nat) (d : Nat → List β) : (((content P d).countP f : Nat) : Int) = cum (fun r => ((d r).countP f : Int)) P := by
  induction P with
  | zero => rfl
  | succ k ih => rw [content_succ, List.countP_append, cum, ← ih]; push_cast; rfl

/-- Weights of total at most `m * B` that are at most `B` each give the most if they sit on the `m` largest sizes. -/
theorem weighted_le {P m : Nat} (hm : 0 < m) (hmP : m ≤ P) (a L : Nat → Int) (B : Int) (ha0 : ∀ r < P, 0 ≤ a r) (haB : ∀ r < P, a r ≤ B)
    (hL0 : ∀ r < P, 0 ≤ L r) (hanti : ∀ r s, r ≤ s → s < P → L s ≤ L r) (htot : cum a P ≤ B * m) :
    cum (fun r => a r * L r) P ≤ B * cum L m := by
  have h1 : cum (fun r => a r * L r - (if r < m then B * L r else 0)) P ≤ cum (fun r => (a r - (if r < m then B else 0)) * L (m - 1)) P := by
    apply cum_le
    intro r hr
    by_cases h : r < m
    · rw [if_pos h, if_pos h]
      have e1 := hanti r (m - 1) (by omega) (by omega)
      have e2 := haB r hr
      nlinarith
    · rw [if_neg h, if_neg h]
      have e1 := hanti (m - 1) r (by omega) hr
      have e2 := ha0 r hr
      nlinarith
  have h2 : cum (fun r => (a r - (if r < m then B else 0)) * L (m - 1)) P = L (m - 1) * (cum a P - B * m) := by
    rw [cum_congr (g := fun r => L (m - 1) * (a r + (if r < m then (-B) else 0))) (fun r _ => by split <;> ring), cum_mul, cum_add,
      cum_ite_lt (fun _ => -B) m P hmP, cum_const]
    ring
  have h3 : cum (fun r => a r * L r - (if r < m then B * L r else 0)) P = cum (fun r => a r * L r) P - B * cum L m := by
    rw [cum_congr (g := fun r => a r * L r + (if r < m then (-B) * L r else 0)) (fun r _ => by split <;> ring), cum_add,
      cum_ite_lt (fun r => -B * L r) m P hmP, cum_mul]
    ring
  have h4 := hL0 (m - 1) (by omega)
  nlinarith

theorem countP_range_ge {f : Nat → Bool} {j P : Nat} (hj : j ≤ P) (h : ∀ x < j, f x = true) : j ≤ (List.range P).countP f := by
  have e : List.range P = List.range j ++ (List.range (P - j)).map (j + ·) := by
    rw [← List.range_add]; congr 1; omega
  rw [e, List.countP_append]
  have : (List.range j).countP f = j := by
    rw [List.countP_eq_length.2 (fun x hx => h x (List.mem_range.1 hx)), List.length_range]
  omega

theorem mapM_total {γ : Type} {f : β → Option γ} : ∀ {l : List β}, (∀ x ∈ l, (f x).isSome = true) → ∃ ys, l.mapM f = some ys ∧ ys.map some = l.map f
  | [], _ => ⟨[], rfl, rfl⟩
  | a :: l, h => by
    obtain ⟨y, hy⟩ := Option.isSome_iff_exists.1 (h a (List.mem_cons_self ..))
    obtain ⟨ys, h1, h2⟩ := mapM_total (l := l) fun x hx => h x (List.mem_cons_of_mem _ hx)
    refine ⟨y :: ys, ?_, ?_⟩
    · rw [List.mapM_cons, hy, h1]; rfl
    · rw [List.map_cons, List.map_cons, hy, h2]

theorem countP_any (f : κ → Bool) : ∀ (l : List κ), (l.map some).countP (fun o => o.any f) = l.countP f
  | [] => rfl
  | a :: l => by
    rw [List.map_cons, List.countP_cons, List.countP_cons, countP_any f l]
    rfl

theorem pivot_index {P len x : Nat} (hlen : 0 < len) (hx : x < P) : (x + 1) * len / (P + 1) < len := by
  rw [Nat.div_lt_iff_lt_mul (by omega), Nat.mul_comm]
  exact Nat.mul_lt_mul_of_pos_left (by omega) hlen

/-- The samples of a rank are dense: a value with few samples below it has few entries below it. -/
theorem localPivots_dense {lt : κ → κ → Bool} (hw : WeakOrder lt) (P : Nat) (l : List (κ × Nat)) (hl : SortedBy lt (l.map Prod.fst)) (hlen : 0 < l.length) :
    ∃ ps, localPivots P l.length (l.map Prod.fst) = some ps ∧ ps.length = P ∧
      ∀ v, (l.countP fun x => lt x.1 v) * (P + 1) ≤ ((ps.countP fun x => lt x v) + 1) * l.length := by
  unfold localPivots
  rw [if_pos (by omega)]
  obtain ⟨ps, h1, h2⟩ := mapM_total (f := fun x => (l.map Prod.fst)[x * (l.map Prod.fst).length / (P + 1)]?) (l := (List.range P).map (· + 1)) (by
    intro x hx
    obtain ⟨y, hy, rfl⟩ := List.mem_map.1 hx
    rw [List.getElem?_eq_getElem (by rw [List.length_map]; exact pivot_index hlen (List.mem_range.1 hy))]
    rfl)
  have hplen : ps.length = P := by
    have := congrArg List.length h2
    simpa using this
  refine ⟨ps, h1, hplen, ?_⟩
  intro v
  generalize hk : (ps.countP fun x => lt x v) = k
  generalize hm : (l.countP fun x => lt x.1 v) = m
  have hmlen : m ≤ l.length := by rw [← hm]; exact List.countP_le_length
  have hkP : k ≤ P := by rw [← hk, ← hplen]; exact List.countP_le_length
  by_cases hc : m * (P + 1) ≤ (k + 1) * l.length
  · exact hc
  · exfalso
    have hk1 : k + 1 ≤ P := by
      by_cases e : k = P
      · exfalso
        apply hc
        rw [e, Nat.mul_comm (P + 1)]
        exact Nat.mul_le_mul_right _ hmlen
      · omega
    have hcount : k = (List.range P).countP fun x => (l.map Prod.fst)[(x + 1) * (l.map Prod.fst).length / (P + 1)]?.any fun w => lt w v := by
      rw [← hk, ← countP_any (fun x => lt x v) ps, h2, List.countP_map, List.countP_map]
      rfl
    have := countP_range_ge (f := fun x => (l.map Prod.fst)[(x + 1) * (l.map Prod.fst).length / (P + 1)]?.any fun w => lt w v) hk1 (by
      intro x hx
      have hidx : (x + 1) * l.length / (P + 1) < m := by
        rw [Nat.div_lt_iff_lt_mul (by omega)]
        have : (x + 1) * l.length ≤ (k + 1) * l.length := Nat.mul_le_mul_right _ (by omega)
        omega
      have hin : (x + 1) * l.length / (P + 1) < l.length := by omega
      have hmem : l[(x + 1) * l.length / (P + 1)] ∈ l.take m := by
        rw [List.mem_iff_getElem]
        refine ⟨(x + 1) * l.length / (P + 1), ?_, ?_⟩
        · rw [List.length_take]; omega
        · rw [List.getElem_take]
      have := (sorted_cut hw v l hl).1 _ (by rw [hm]; exact hmem)
      rw [List.length_map, List.getElem?_map, List.getElem?_eq_getElem hin]
      exact this)
    omega

theorem sorted_count_le {lt : κ → κ → Bool} (hw : WeakOrder lt) (l : List (κ × Nat)) (hl : SortedBy lt (l.map Prod.fst)) (i : Nat) (hi : i < l.length) :
    (l.countP fun x => lt x.1 l[i].1) ≤ i := by
  by_cases hc : (l.countP fun x => lt x.1 l[i].1) ≤ i
  · exact hc
  · exfalso
    have hmem : l[i] ∈ l.take (l.countP fun x => lt x.1 l[i].1) := by
      rw [List.mem_iff_getElem]
      refine ⟨i, ?_, ?_⟩
      · rw [List.length_take]; omega
      · rw [List.getElem_take]
    have := (sorted_cut hw l[i].1 l hl).1 _ hmem
    rw [hw.irrefl] at this; cases this

theorem evenSize_anti (n P r s : Nat) (h : r ≤ s) : evenSize n P s ≤ evenSize n P r := by
  unfold evenSize; split <;> split <;> omega

theorem evenSize_zero_pos {n P : Nat} (hn : 0 < n) (hP : 0 < P) : 0 < evenSize n P 0 := by
  unfold evenSize
  by_cases h : 0 < n % P
  · rw [if_pos h]; exact Nat.succ_pos _
  · have : n = P * (n / P) := by have := Nat.div_add_mod n P; omega
    have : 0 < n / P := by
      rcases Nat.eq_zero_or_pos (n / P) with e | e
      · rw [e] at this; omega
      · exact e
    omega

theorem cum_evenSize (n P : Nat) (k : Nat) : cum (fun r => (evenSize n P r : Int)) k = (((chunkRange n k P).1 : Nat) : Int) := by
  induction k with
  | zero => simp [cum, chunkRange_zero]
  | succ k ih =>
    rw [cum, ih, chunkRange_succ, ← chunkRange_size]
    have := chunkRange_mono n P (show k ≤ k + 1 by omega)
    rw [chunkRange_succ] at this
    omega

/-- **The pivots**: they exist if there is any value, they are sorted, and the entries below pivot `p` fit on the ranks up to `p + 1`. -/
theorem pivots_spec {lt : κ → κ → Bool} (hw : WeakOrder lt) {srt : List (κ × Nat) → List (κ × Nat)} (hs : SortFn lt srt) (P n : Nat) (hP : 2 ≤ P) (hn : 0 < n)
    (l : Nat → List (κ × Nat)) (hsort : ∀ r < P, SortedBy lt ((l r).map Prod.fst)) (hlen : ∀ r < P, (l r).length = evenSize n P r) :
    ∃ pb gp, pivotBuffer P n (fun r => (l r).map Prod.fst) = some pb ∧ globalPivots P ((srt (pb.map fun v => (v, 0))).map Prod.fst) = some gp ∧
      PivotsSorted lt P gp ∧ ∀ p, p + 1 < P → cum (fun r => (cutAt lt P gp (l r) (p + 1) : Int)) P ≤ (((chunkRange n (p + 2) P).1 : Nat) : Int) := by
  -- the samples of all ranks
  have hps : ∀ r < P, ∃ ps, localPivots P ((chunkRange n r P).2 - (chunkRange n r P).1) ((l r).map Prod.fst) = some ps ∧
      ps.length = (if (l r).length = 0 then 0 else P) ∧
      ∀ v, (((l r).countP fun x => lt x.1 v : Nat) : Int) * ((P : Int) + 1) ≤ (if (l r).length = 0 then 0 else ((ps.countP fun x => lt x v : Nat) : Int) + 1) * ((l r).length : Int) := by
    intro r hr
    rw [chunkRange_size, ← hlen r hr]
    by_cases h0 : (l r).length = 0
    · have e : l r = [] := List.length_eq_zero_iff.1 h0
      refine ⟨[], ?_, ?_, ?_⟩
      · unfold localPivots; rw [if_neg (by omega)]
      · rw [if_pos h0]; rfl
      · intro v; rw [e]; simp
    · obtain ⟨ps, h1, h2, h3⟩ := localPivots_dense hw P (l r) (hsort r hr) (by omega)
      refine ⟨ps, h1, by rw [if_neg h0, h2], ?_⟩
      intro v
      rw [if_neg h0]
      have := h3 v
      exact_mod_cast this
  classical
  let ps : Nat → List κ := fun r => (localPivots P ((chunkRange n r P).2 - (chunkRange n r P).1) ((l r).map Prod.fst)).getD []
  have hpsr : ∀ r < P, localPivots P ((chunkRange n r P).2 - (chunkRange n r P).1) ((l r).map Prod.fst) = some (ps r) ∧
      (ps r).length = (if (l r).length = 0 then 0 else P) ∧
      ∀ v, (((l r).countP fun x => lt x.1 v : Nat) : Int) * ((P : Int) + 1) ≤ (if (l r).length = 0 then 0 else (((ps r).countP fun x => lt x v : Nat) : Int) + 1) * ((l r).length : Int) := by
    intro r hr
    obtain ⟨q, h1, h2⟩ := hps r hr
    have : ps r = q := by show (localPivots P _ _).getD [] = q; rw [h1]; rfl
    rw [this]; exact ⟨h1, h2⟩
  have hpb : pivotBuffer P n (fun r => (l r).map Prod.fst) = some (content P ps) := by
    unfold pivotBuffer
    rw [mapM_some_of (g := ps) fun r hr => (hpsr r (List.mem_range.1 hr)).1, Option.map_some]
    unfold content
    rw [List.flatMap_def]
  -- E: number of ranks with data
  let e : Nat → Int := fun r => if (l r).length = 0 then 0 else 1
  have he0 : ∀ r < P, 0 ≤ e r := fun r _ => by show 0 ≤ (if _ then (0 : Int) else 1); split <;> omega
  have he1 : ∀ r < P, e r ≤ 1 := fun r _ => by show (if _ then (0 : Int) else 1) ≤ 1; split <;> omega
  obtain ⟨E, hE⟩ := Int.eq_ofNat_of_zero_le (svCum_nonneg e P he0 P (Nat.le_refl _))
  have hEP : E ≤ P := by
    have := cum_le he1
    rw [cum_const, hE] at this
    push_cast at this; omega
  have hEpos : 0 < E := by
    have h1 : e 0 = 1 := by
      show (if _ then (0 : Int) else 1) = 1
      rw [if_neg]
      have := evenSize_zero_pos (P := P) hn (by omega)
      have := hlen 0 (by omega); omega
    have := cum_mono e P he0 (show 1 ≤ P by omega) (Nat.le_refl _)
    have h2 : cum e 1 = e 0 := by simp [cum]
    rw [h2, h1, hE] at this
    omega
  have hpblen : (content P ps).length = P * E := by
    have h1 := cum_eq_content (fun r => (P : Int) * e r) ps P (fun r hr => by
      rw [(hpsr r hr).2.1]
      show (P : Int) * (if _ then (0 : Int) else 1) = _
      split <;> simp)
    rw [cum_mul, hE] at h1
    exact_mod_cast h1.symm
  -- sorted samples
  generalize hsp : srt ((content P ps).map fun v => (v, 0)) = sp
  have hspperm : (sp.map Prod.fst).Perm (content P ps) := by
    rw [← hsp]
    refine ((hs.perm _).map Prod.fst).trans ?_
    rw [List.map_map]
    have : (Prod.fst ∘ fun v : κ => (v, 0)) = id := rfl
    rw [this, List.map_id]
  have hsps : SortedBy lt (sp.map Prod.fst) := by rw [← hsp]; exact hs.sorted _
  have hsplen : sp.length = P * E := by
    have := hspperm.length_eq
    rw [List.length_map] at this; omega
  obtain ⟨gp, hgp, hgp2⟩ := mapM_total (f := fun x => (sp.map Prod.fst)[x * (sp.map Prod.fst).length / P]?) (l := (List.range (P - 1)).map (· + 1)) (by
    intro x hx
    obtain ⟨y, hy, rfl⟩ := List.mem_map.1 hx
    have hy := List.mem_range.1 hy
    rw [List.getElem?_eq_getElem (by
      rw [List.length_map, hsplen, Nat.mul_left_comm, Nat.mul_div_cancel_left _ (by omega)]
      exact Nat.mul_lt_mul_of_pos_right (by omega) hEpos)]
    rfl)
  have hglen : gp.length = P - 1 := by
    have := congrArg List.length hgp2
    simpa using this
  have hgget : ∀ i, i < P - 1 → ∃ h : (i + 1) * E < sp.length, gp[i]? = some sp[(i + 1) * E].1 := by
    intro i hi
    have hlt : (i + 1) * E < sp.length := by
      rw [hsplen]; exact Nat.mul_lt_mul_of_pos_right (by omega) hEpos
    refine ⟨hlt, ?_⟩
    have := congrArg (fun l => l[i]?) hgp2
    simp only [List.getElem?_map, List.getElem?_range hi, Option.map_some] at this
    rw [List.length_map, hsplen, Nat.mul_left_comm, Nat.mul_div_cancel_left _ (show 0 < P by omega), List.getElem?_eq_getElem hlt] at this
    cases hg : gp[i]? with
    | none => rw [hg] at this; cases this
    | some v =>
      rw [hg] at this
      simpa using this
  have hspw : sp.Pairwise fun a b => lt b.1 a.1 = false := by
    unfold SortedBy at hsps; rwa [List.pairwise_map] at hsps
  refine ⟨content P ps, gp, hpb, ?_, ⟨hglen, ?_⟩, ?_⟩
  · rw [hsp]; exact hgp
  · unfold SortedBy
    rw [List.pairwise_iff_getElem]
    intro i j hi hj hij
    obtain ⟨h1, h2⟩ := hgget i (by omega)
    obtain ⟨h3, h4⟩ := hgget j (by omega)
    rw [List.getElem?_eq_getElem hi] at h2
    rw [List.getElem?_eq_getElem hj] at h4
    rw [Option.some.inj h2, Option.some.inj h4]
    rw [List.pairwise_iff_getElem] at hspw
    exact hspw _ _ h1 h3 (Nat.mul_lt_mul_of_pos_right (by omega) hEpos)
  · intro p hp
    obtain ⟨h1, h2⟩ := hgget p (by omega)
    generalize hv : sp[(p + 1) * E].1 = v at h2
    have hcut : ∀ r, cutAt lt P gp (l r) (p + 1) = (l r).countP fun x => lt x.1 v := by
      intro r
      rw [cutAt, if_neg (by omega), if_neg (by omega), show p + 1 - 1 = p by omega, h2]
      rfl
    -- samples below v
    have hk : cum (fun r => (((ps r).countP fun x => lt x v : Nat) : Int)) P ≤ ((p : Int) + 1) * E := by
      rw [← cum_countP, ← hspperm.countP_eq, List.countP_map]
      have := sorted_count_le hw sp hsps ((p + 1) * E) h1
      rw [hv] at this
      exact_mod_cast this
    let a : Nat → Int := fun r => if (l r).length = 0 then 0 else (((ps r).countP fun x => lt x v : Nat) : Int) + 1
    have haeq : ∀ r < P, a r = (((ps r).countP fun x => lt x v : Nat) : Int) + e r := by
      intro r hr
      show (if _ then (0 : Int) else _) = _ + (if _ then (0 : Int) else 1)
      by_cases h0 : (l r).length = 0
      · rw [if_pos h0, if_pos h0]
        have hz : ps r = [] := List.length_eq_zero_iff.1 (by rw [(hpsr r hr).2.1, if_pos h0])
        rw [hz]; rfl
      · rw [if_neg h0, if_neg h0]
    have hw1 := weighted_le (P := P) (m := p + 2) (by omega) (by omega) a (fun r => (evenSize n P r : Int)) ((P : Int) + 1)
      (fun r hr => by rw [haeq r hr]; have := he0 r hr; omega)
      (fun r hr => by
        rw [haeq r hr]
        have h3 : (ps r).countP (fun x => lt x v) ≤ (ps r).length := List.countP_le_length
        rw [(hpsr r hr).2.1] at h3
        have h4 := he1 r hr
        split at h3 <;> omega)
      (fun r _ => by omega)
      (fun r s hrs _ => by have := evenSize_anti n P r s hrs; omega)
      (by
        rw [cum_congr haeq, cum_add, hE]
        push_cast
        have hE' : (E : Int) ≤ P := by exact_mod_cast hEP
        have : (0 : Int) ≤ p := by omega
        nlinarith)
    have hw2 : cum (fun r => ((P : Int) + 1) * (cutAt lt P gp (l r) (p + 1) : Int)) P ≤ cum (fun r => a r * (evenSize n P r : Int)) P := by
      apply cum_le
      intro r hr
      rw [hcut, ← hlen r hr, Int.mul_comm]
      exact (hpsr r hr).2.2 v
    rw [cum_mul] at hw2
    rw [cum_evenSize] at hw1
    have h5 : ((P : Int) + 1) * cum (fun r => (cutAt lt P gp (l r) (p + 1) : Int)) P ≤ ((P : Int) + 1) * (((chunkRange n (p + 2) P).1 : Nat) : Int) := Int.le_trans hw2 hw1
    exact Int.le_of_mul_le_mul_left h5 (by omega)

/-! ### C60 -/

theorem zipIdx_content (P : Nat) (parts : Nat → List κ) (k : Nat) (hk : k ≤ P) :
    content k (fun r => (parts r).zipIdx.map fun x => (x.1, x.2 + startOf parts r)) = (content k parts).zipIdx := by
  induction k with
  | zero => rfl
  | succ k ih =>
    rw [content_succ, content_succ, ih (by omega), List.zipIdx_append]
    congr 1
    rw [List.zipIdx_eq_map_add (i := 0 + (content k parts).length)]
    apply List.map_congr_left
    intro x _
    simp only [startOf]
    rw [Nat.zero_add, Nat.add_comm]

/-- **C60.** Sorting along the split axis (given as a non-negative number) an array with at least one value that has the canonical distribution: for every
number of processes, every total order of the values (ascending or descending, ties allowed) and every - not necessarily stable - local sort routine, the
result is sorted across all ranks, the (value, index) pairs are exactly the values of the array with their global positions, and
every rank keeps its size.  `conv` is the conversion of indices to the type of the values; it must be exact on the positions of the array. -/
theorem sort_spec_partial {lt : κ → κ → Bool} (hw : WeakOrder lt) {srt : List (κ × Nat) → List (κ × Nat)} (hs : SortFn lt srt) (conv : Nat → Nat) (P ndim split : Nat)
    (hP : 0 < P) (hsp : split < ndim) (parts : Nat → List κ) (hb : Balanced P parts) (hn : 0 < (content P parts).length)
    (hconv : ∀ k < (content P parts).length, conv k = k) :
    ∃ R, sortAlong lt srt conv P ndim split (split : Int) (content P parts).length parts = .ok R ∧
      SortedBy lt ((content P R).map Prod.fst) ∧ (content P R).Perm (withPositions (content P parts)) ∧ ∀ r < P, (R r).length = (parts r).length := by
  generalize hN : (content P parts).length = n at *
  unfold sortAlong
  rw [sanitizeAxis_nat ndim split hsp]
  dsimp only
  by_cases h1 : P ≤ 1
  · have e : P = 1 := by omega
    subst e
    rw [if_pos (Or.inl h1)]
    refine ⟨_, rfl, ?_, ?_, ?_⟩
    · rw [content_succ, content_zero, List.nil_append]; exact hs.sorted _
    · rw [content_succ, content_zero, List.nil_append, content_succ, content_zero, List.nil_append]; exact hs.perm _
    · intro r _
      rw [(hs.perm _).length_eq, List.length_zipIdx]
  · rw [if_neg (by rintro (h | h); exact h1 h; exact h rfl)]
    unfold sortDist
    dsimp only
    have hlen : ∀ r < P, (srt (indexed conv (chunkRange n r P).1 (parts r))).length = evenSize n P r := by
      intro r hr
      rw [(hs.perm _).length_eq, indexed, List.length_map, List.length_zipIdx, hb r hr, hN]
    have hsort : ∀ r < P, SortedBy lt ((srt (indexed conv (chunkRange n r P).1 (parts r))).map Prod.fst) := fun r _ => hs.sorted _
    obtain ⟨pb, gp, h2, h3, h4, h5⟩ := pivots_spec hw hs P n (by omega) hn _ hsort hlen
    rw [h2]
    dsimp only
    rw [h3]
    dsimp only
    obtain ⟨R, r1, r2, r3, r4⟩ := sortExchange_spec hw hs P n (by omega) gp h4 _ hsort hlen h5
    refine ⟨R, r1, r3, ?_, ?_⟩
    · refine r2.trans ?_
      refine (content_perm fun r _ => hs.perm _).trans ?_
      unfold withPositions
      rw [← zipIdx_content P parts P (Nat.le_refl _)]
      have : content P (fun r => indexed conv (chunkRange n r P).1 (parts r)) =
          content P (fun r => (parts r).zipIdx.map fun x => (x.1, x.2 + startOf parts r)) := by
        apply content_congr
        intro r hr
        have hst := balanced_chunk_start hb r (by omega)
        rw [hN] at hst
        unfold indexed
        apply List.map_congr_left
        intro x hx
        have hx2 : x.2 < (parts r).length := by
          have := List.mem_zipIdx hx; omega
        have hle : startOf parts r + (parts r).length ≤ n := by
          rw [← startOf_succ, ← hN]
          exact startOf_mono parts (show r + 1 ≤ P by omega)
        unfold storeIndex
        rw [hconv x.2 (by omega), ← hst, hconv _ (by omega)]
      rw [this]
    · intro r hr
      rw [r4 r hr, hb r hr, hN]

/-! ### A concrete sort routine -/

/-- Insertion of an entry into a sorted list. -/
def insertBy (lt : κ → κ → Bool) (a : κ × Nat) : List (κ × Nat) → List (κ × Nat)
  | [] => [a]
  | b :: l => if lt b.1 a.1 then b :: insertBy lt a l else a :: b :: l

/-- Insertion sort by value. -/
def isortBy (lt : κ → κ → Bool) : List (κ × Nat) → List (κ × Nat)
  | [] => []
  | a :: l => insertBy lt a (isortBy lt l)

theorem insertBy_perm (lt : κ → κ → Bool) (a : κ × Nat) : ∀ l, (insertBy lt a l).Perm (a :: l)
  | [] => List.Perm.refl _
  | b :: l => by
    unfold insertBy
    split
    · exact ((insertBy_perm lt a l).cons b).trans (List.Perm.swap a b l)
    · exact List.Perm.refl _

theorem insertBy_sorted {lt : κ → κ → Bool} (hw : WeakOrder lt) (a : κ × Nat) : ∀ l : List (κ × Nat), l.Pairwise (fun a b => lt b.1 a.1 = false) →
    (insertBy lt a l).Pairwise fun a b => lt b.1 a.1 = false
  | [], _ => by simp [insertBy]
  | b :: l, h => by
    have h' := List.pairwise_cons.1 h
    unfold insertBy
    by_cases hc : lt b.1 a.1 = true
    · rw [if_pos hc, List.pairwise_cons]
      refine ⟨?_, insertBy_sorted hw a l h'.2⟩
      intro x hx
      rcases List.mem_cons.1 ((insertBy_perm lt a l).mem_iff.1 hx) with rfl | hx
      · cases hd : lt x.1 b.1 with
        | false => rfl
        | true => have := hw.trans _ _ _ hd hc; rw [hw.irrefl] at this; cases this
      · exact h'.1 x hx
    · have hc : lt b.1 a.1 = false := by simpa using hc
      rw [if_neg (by simp [hc]), List.pairwise_cons]
      refine ⟨?_, h⟩
      intro x hx
      rcases List.mem_cons.1 hx with rfl | hx
      · exact hc
      · exact hw.ntrans _ _ _ (h'.1 x hx) hc

/-- Insertion sort meets the requirements on the sort routine. -/
theorem isortBy_fn {lt : κ → κ → Bool} (hw : WeakOrder lt) : SortFn lt (isortBy lt) := by
  refine ⟨?_, ?_⟩
  · intro l
    induction l with
    | nil => exact List.Perm.refl _
    | cons a l ih => exact (insertBy_perm lt a _).trans (ih.cons a)
  · intro l
    unfold SortedBy
    rw [List.pairwise_map]
    induction l with
    | nil => exact List.Pairwise.nil
    | cons a l ih => exact insertBy_sorted hw a _ ih

/-- `torch.lt` on integers. -/
def intLt (a b : Int) : Bool := decide (a < b)

/-- `torch.gt` on integers (descending order). -/
def intGt (a b : Int) : Bool := decide (a > b)

theorem intLt_weak : WeakOrder intLt := by
  refine ⟨?_, ?_, ?_⟩ <;> simp only [intLt, decide_eq_true_eq, decide_eq_false_iff_not] <;> omega

theorem intGt_weak : WeakOrder intGt := by
  refine ⟨?_, ?_, ?_⟩ <;> simp only [intGt, decide_eq_true_eq, decide_eq_false_iff_not] <;> omega

/-- Seven values with ties on three ranks (3, 2, 2). -/
def sortExample (r : Nat) : List Int := if r = 0 then [5, 1, 5] else if r = 1 then [2, 9] else if r = 2 then [1, 5] else []

-- non-vacuity: the hypotheses of `sort_spec_partial` hold for ascending and descending order, and the model computes the sorted array
example : Balanced 3 sortExample ∧ 0 < (content 3 sortExample).length ∧ WeakOrder intLt ∧ WeakOrder intGt ∧ SortFn intLt (isortBy intLt) ∧ SortFn intGt (isortBy intGt) :=
  ⟨by unfold Balanced; decide, by decide, intLt_weak, intGt_weak, isortBy_fn intLt_weak, isortBy_fn intGt_weak⟩

example : (match sortAlong intLt (isortBy intLt) id 3 1 0 0 7 sortExample with | .ok R => content 3 R | .error _ => []) =
    [(1, 1), (1, 5), (2, 3), (5, 0), (5, 2), (5, 6), (9, 4)] := by decide +kernel

example : (match sortAlong intGt (isortBy intGt) id 3 1 0 0 7 sortExample with | .ok R => content 3 R | .error _ => []) =
    [(9, 4), (5, 0), (5, 2), (5, 6), (2, 3), (1, 1), (1, 5)] := by decide +kernel

/-- The default `axis=-1` is compared with the split axis without being normalised: a vector distributed over two ranks is only sorted locally. -/
theorem sort_default_axis_violated :
    ∃ (P : Nat) (parts : Nat → List Int), Balanced P parts ∧ ∀ (srt : List (Int × Nat) → List (Int × Nat)), SortFn intLt srt → ∀ conv,
      ∃ R, sortAlong intLt srt conv P 1 0 (-1) (content P parts).length parts = .ok R ∧ ¬ SortedBy intLt ((content P R).map Prod.fst) := by
  refine ⟨2, fun r => if r = 0 then [2] else [1], by unfold Balanced; decide, ?_⟩
  intro srt hs conv
  have h1 : ∀ x, srt [x] = [x] := fun x => List.perm_singleton.1 (hs.perm [x])
  refine ⟨fun r => srt ((if r = 0 then [(2 : Int)] else [1]).zipIdx), ?_, ?_⟩
  · unfold sortAlong
    rw [sanitizeAxis_some _ _ (by omega), if_pos (by omega)]
    dsimp only
    rw [if_pos (Or.inr (by omega))]
  · have : content 2 (fun r => srt ((if r = 0 then [(2 : Int)] else [1]).zipIdx)) = [(2, 0), (1, 0)] := by
      rw [content_succ, content_succ, content_zero, if_pos rfl, if_neg (by omega)]
      simp [List.zipIdx, h1]
    rw [this]
    unfold SortedBy
    decide

/-- An empty distributed array cannot be sorted: the root process indexes an empty tensor of pivots (IndexError), for every number of processes. -/
theorem sort_empty_violated (lt : κ → κ → Bool) (srt : List (κ × Nat) → List (κ × Nat)) (hs : SortFn lt srt) (conv : Nat → Nat) (P : Nat) (hP : 2 ≤ P) :
    sortAlong lt srt conv P 1 0 0 0 (fun _ => ([] : List κ)) = .error .indexError := by
  have hnil : srt [] = [] := List.perm_nil.1 (hs.perm [])
  have hz : ∀ r, (chunkRange 0 r P).2 - (chunkRange 0 r P).1 = 0 := by
    intro r; rw [chunkRange_size]; unfold evenSize; simp
  have hpb : pivotBuffer P 0 (fun _ => ([] : List κ)) = some [] := by
    unfold pivotBuffer
    rw [mapM_some_of (g := fun _ => []) (fun r _ => by rw [hz]; rfl)]
    simp
  have hgp : globalPivots P ([] : List κ) = none := by
    unfold globalPivots
    obtain ⟨q, rfl⟩ : ∃ q, P = q + 2 := ⟨P - 2, by omega⟩
    rw [show q + 2 - 1 = q + 1 by omega, List.range_succ_eq_map]
    rfl
  unfold sortAlong
  rw [sanitizeAxis_some _ _ (by omega), if_pos (by omega)]
  dsimp only
  rw [if_neg (by omega)]
  unfold sortDist
  simp only [indexed, List.zipIdx_nil, List.map_nil, hnil, hpb, hgp]

/-- The exception of a result, if any. -/
def errOf {γ : Type} : Except Err γ → Option Err
  | .ok _ => none
  | .error e => some e

/-- Arrays that are not in the canonical distribution cannot be sorted along the split axis: the local results do not fit (RuntimeError), or the
samples of an empty part are taken (IndexError). -/
theorem sort_unbalanced_violated :
    sortAlong intLt (isortBy intLt) id 2 1 0 0 4 (fun r => if r = 0 then [4, 3, 2] else [1]) = .error .runtimeError ∧
    sortAlong intLt (isortBy intLt) id 2 1 0 0 2 (fun r => if r = 0 then [2, 1] else []) = .error .indexError := by
  have key : ∀ x : Except Err (Nat → List (Int × Nat)), ∀ e, errOf x = some e → x = .error e := by
    intro x e h
    cases x with
    | ok _ => cases h
    | error _ => cases h; rfl
  exact ⟨key _ _ (by decide +kernel), key _ _ (by decide +kernel)⟩

/-- What the index type `bool` makes of an index. -/
def boolIndex (k : Nat) : Nat := if k = 0 then 0 else 1

/-- The returned indices pass through the type of the values: for a boolean array the index 2 is reported as 1, although everything else is right. -/
theorem sort_index_type_violated :
    ∃ R, sortAlong intLt (isortBy intLt) boolIndex 2 1 0 0 3 (fun r => if r = 0 then [1, 0] else [1]) = .ok R ∧
      ((content 2 R).map Prod.snd).Perm [0, 1, 1] ∧ ¬ (content 2 R).Perm (withPositions [1, 0, 1]) := by
  have h : (match sortAlong intLt (isortBy intLt) boolIndex 2 1 0 0 3 (fun r => if r = 0 then [1, 0] else [1]) with
      | .ok R => content 2 R | .error _ => []) = [(0, 1), (1, 0), (1, 1)] := by decide +kernel
  cases hR : sortAlong intLt (isortBy intLt) boolIndex 2 1 0 0 3 (fun r => if r = 0 then [1, 0] else [1]) with
  | error e => rw [hR] at h; simp at h
  | ok R =>
    rw [hR] at h
    dsimp only at h
    refine ⟨R, rfl, ?_, ?_⟩
    · rw [h]; decide
    · rw [h]; decide

/-- Indices of float32 arrays are rounded beyond 2^24. -/
theorem sort_index_float32_violated : storeIndex f32 1 (2 ^ 24) = 2 ^ 24 := by decide +kernel

/-- The rebalancing plan alone is not right for all bucket sizes: for buckets of 6, 1, 0, 1 values on four ranks it ends in `StopIteration`.  Only the
choice of the pivots (`pivots_spec`) excludes such buckets. -/
theorem sendVec_overload : errOf (sendVec 4 (fun _ => 2) (fun i => if i = 0 then 6 else if i = 1 then 1 else if i = 3 then 1 else 0)) = some .stopIteration := by
  decide +kernel

end Heat
