import Verif.Props.Mpi
import Mathlib.Data.List.Nodup
/-!
# Passes of a schedule in which every rank sends at most one and receives at most one message
-/
namespace Heat

variable {S M : Type}

theorem filterMap_all_none {ι β : Type} (f : ι → Option β) (l : List ι) (h : ∀ k ∈ l, f k = none) : l.filterMap f = [] := by
  induction l with
  | nil => rfl
  | cons x l ih => rw [List.filterMap_cons, h x (by simp)]; exact ih fun k hk => h k (by simp [hk])

theorem filterMap_one {β : Type} (f : Nat → Option β) (n a : Nat) (u : β) (ha : a < n) (hu : f a = some u) (h : ∀ k < n, k ≠ a → f k = none) : (List.range n).filterMap f = [u] := by
  induction n with
  | zero => omega
  | succ n ih =>
    rw [List.range_succ, List.filterMap_append]
    by_cases e : a = n
    · subst e
      rw [filterMap_all_none f _ (fun k hk => h k (by have := List.mem_range.1 hk; omega) (by have := List.mem_range.1 hk; omega))]
      simp [hu]
    · rw [ih (by omega) (fun k hk hka => h k (by omega) hka)]
      simp [h n (by omega) (by omega)]

theorem filterMap_two {β : Type} (f : Nat → Option β) (n a b : Nat) (u v : β) (hab : a < b) (hb : b < n) (hu : f a = some u) (hv : f b = some v)
    (h : ∀ k < n, k ≠ a → k ≠ b → f k = none) : (List.range n).filterMap f = [u, v] := by
  induction n with
  | zero => omega
  | succ n ih =>
    rw [List.range_succ, List.filterMap_append]
    by_cases e : b = n
    · subst e
      rw [filterMap_one f b a u hab hu (fun k hk hka => h k (by omega) hka (by omega))]
      simp [hv]
    · rw [ih (by omega) (fun k hk hka hkb => h k (by omega) hka hkb)]
      simp [h n (by omega) (by omega) (by omega)]

/-- The effect of a pass: every receiver applies its message to its state from before the pass, everybody else keeps its state. -/
theorem runSeq_pass {ι : Type} (X : ι → Xfer S M) (hafter : ∀ i s, (X i).after s = s) (hmsg : ∀ i j m s, (X i).msg ((X j).take m s) = (X i).msg s) :
    ∀ (L : List ι), L.Nodup → (∀ i ∈ L, ∀ j ∈ L, (X i).dst = (X j).dst → i = j) → ∀ loc : Nat → S,
      (∀ i ∈ L, runSeq (L.map X) loc (X i).dst = (X i).take ((X i).msg (loc (X i).src)) (loc (X i).dst)) ∧
      ∀ q, (∀ i ∈ L, (X i).dst ≠ q) → runSeq (L.map X) loc q = loc q
  | [], _, _, loc => by simp [runSeq]
  | x :: L, hn, hinj, loc => by
    have hn' := List.nodup_cons.1 hn
    have ih := runSeq_pass X hafter hmsg L hn'.2 (fun i hi j hj => hinj i (by simp [hi]) j (by simp [hj])) (Xfer.apply loc (X x))
    have hloc : ∀ q, Xfer.apply loc (X x) q = if q = (X x).dst then (X x).take ((X x).msg (loc (X x).src)) (loc (X x).dst) else loc q := by
      intro q
      simp only [Xfer.apply, set1, hafter]
      by_cases e : q = (X x).dst
      · simp [e]
      · simp only [e, if_false]
        by_cases e2 : q = (X x).src <;> simp [e2]
    have hrun : ∀ q, runSeq ((x :: L).map X) loc q = runSeq (L.map X) (Xfer.apply loc (X x)) q := fun q => rfl
    constructor
    · intro i hi
      rw [hrun]
      rcases List.mem_cons.1 hi with rfl | hi'
      · rw [ih.2 _ (fun j hj e => hn'.1 (by rw [hinj i (by simp) j (by simp [hj]) e.symm]; exact hj)), hloc, if_pos rfl]
      · have hne : (X i).dst ≠ (X x).dst := fun e => hn'.1 (by rw [← hinj i hi x (by simp) e]; exact hi')
        rw [ih.1 i hi', hloc (X i).dst, if_neg hne, hloc (X i).src]
        congr 1
        by_cases e : (X i).src = (X x).dst
        · rw [if_pos e, hmsg, e]
        · rw [if_neg e]
    · intro q hq
      rw [hrun, ih.2 q (fun i hi => hq i (by simp [hi])), hloc, if_neg]
      exact fun e => hq x (by simp) e.symm

end Heat
