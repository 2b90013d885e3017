import Verif.Model.ManyFiles
import Verif.Proof.Chunk
import Verif.Proof.Dist
import Verif.Props.Hdf5
/-!
# C153: many files become one array; C154: concurrent writing of a zarr store
-/
namespace Heat
open Heat.Spec
variable {α : Type}

theorem fileRange_eq (n P r : Nat) : fileRange n P r = ((chunkRange n r P).1, (chunkRange n r P).2 - (chunkRange n r P).1) := by
  unfold fileRange chunkRange
  by_cases h : r < n % P
  · rw [if_pos h]; simp only [gt_iff_lt, h, if_true]; simp
  · rw [if_neg h]; simp only [gt_iff_lt, h, if_false]; simp

theorem content_flatten (P : Nat) (d : Nat → List (List α)) : content P (fun r => (d r).flatten) = (content P d).flatten := by
  induction P with
  | zero => rfl
  | succ k ih => rw [content_succ, content_succ, ih, List.flatten_append]

theorem filesLocal_eq (files : List (List α)) (P r : Nat) :
    filesLocal files P r = ((files.take (chunkRange files.length r P).2).drop (chunkRange files.length r P).1).flatten := by
  unfold filesLocal
  rw [fileRange_eq, List.take_drop]
  congr 3
  have h := chunkRange_mono files.length P (r := r) (s := r + 1) (by omega)
  rw [chunkRange_succ] at h
  dsimp only; omega

theorem chunked_flatten (files : List (List α)) (P : Nat) (hP : 0 < P) :
    content P (fun r => ((files.take (chunkRange files.length r P).2).drop (chunkRange files.length r P).1).flatten) = files.flatten := by
  rw [content_flatten, content_chunkParts files P hP P (Nat.le_refl _), chunkRange_at_P _ _ hP, List.take_length]

/-- **C153 (partial), folders.**  If all processes see the same listing with at least as many files as processes, the array is the
concatenation of all files in the order of the listing.  Missing: listings that differ between the processes (`folder_listing_violated`),
`split=None` (`folder_none_violated`) and communicators other than MPI_WORLD (`folder_comm_violated`). -/
theorem folder_partial (P : Nat) (hP : 0 < P) (files : List (List α)) (h : P ≤ files.length) :
    ∃ loc : Nat → List α, (∀ r < P, loadFolder P (fun _ => files) r = .ok (loc r)) ∧ content P loc = files.flatten := by
  refine ⟨filesLocal files P, ?_, ?_⟩
  · intro r _
    unfold loadFolder
    dsimp only
    rw [if_neg (by omega), if_neg (by omega)]
  · rw [content_congr fun r _ => filesLocal_eq files P r]
    exact chunked_flatten files P hP

/-- Every process has at least one file, and the numbers differ by at most one. -/
theorem folder_balanced (P n r : Nat) (hr : r < P) (h : P ≤ n) : 1 ≤ (fileRange n P r).2 ∧ n / P ≤ (fileRange n P r).2 ∧ (fileRange n P r).2 ≤ n / P + 1 := by
  have : 1 ≤ n / P := (Nat.one_le_div_iff (by omega)).2 h
  unfold fileRange
  split <;> dsimp only <;> omega

/-- No file, or fewer files than processes: all processes raise the same error. -/
theorem folder_refused (P : Nat) (files : List (List α)) (h : files.length < P) :
    (files = [] → ∀ r, loadFolder P (fun _ => files) r = .error .valueError) ∧
    (files ≠ [] → ∀ r, loadFolder P (fun _ => files) r = .error .runtimeError) := by
  constructor
  · intro e r; subst e; rfl
  · intro e r
    have : files.length ≠ 0 := fun h0 => e (List.eq_nil_of_length_eq_zero h0)
    unfold loadFolder
    dsimp only
    rw [if_neg this, if_pos (by omega)]

/-- `os.listdir` promises no order: two processes that see the same two files in different orders both read the file `[1]`, and `[2]` is lost. -/
theorem folder_listing_violated :
    let listing : Nat → List (List Nat) := fun r => if r = 0 then [[1], [2]] else [[2], [1]]
    loadFolder 2 listing 0 = .ok [1] ∧ loadFolder 2 listing 1 = .ok [1] := by decide

/-- `split=None` is accepted, the array counts as replicated, but every process holds its own files only. -/
theorem folder_none_violated : loadFolder 2 (fun _ => [[1], [2]]) 0 = .ok [1] ∧ loadFolder 2 (fun _ => [[1], [2]]) 1 = .ok [2] := by decide

/-- A communicator that consists of one of two processes: only half of the files is loaded. -/
theorem folder_comm_violated (files : List (List α)) (h : 2 ≤ files.length) (r : Nat) :
    loadFolderComm 2 (fun _ => r) (fun _ => files) 0 = .ok (filesLocal files 2 r) ∧
    (filesLocal files 2 0) ++ (filesLocal files 2 1) = files.flatten := by
  refine ⟨?_, ?_⟩
  · unfold loadFolderComm loadFolder
    dsimp only
    rw [if_neg (by omega), if_neg (by omega)]
  · obtain ⟨loc, h1, h2⟩ := folder_partial 2 (by omega) files h
    have e : ∀ r < 2, loc r = filesLocal files 2 r := by
      intro r hr
      have := h1 r hr
      unfold loadFolder at this
      dsimp only at this
      rw [if_neg (by omega), if_neg (by omega)] at this
      exact (Except.ok.inj this).symm
    rw [← h2]
    show _ = ([] ++ loc 0) ++ (loc 1 ++ [])
    rw [e 0 (by omega), e 1 (by omega)]; simp

/-- **C153, zarr with a wildcard.**  For every number of directories and processes (also more processes than directories) the local parts
together are all directories in sorted order, and the declared extent is that of the concatenation. -/
theorem zarr_wildcard (P : Nat) (hP : 0 < P) (dirs : List (List α)) :
    content P (zarrLocal dirs P) = dirs.flatten ∧ zarrExtent dirs P = dirs.flatten.length := by
  have h : content P (zarrLocal dirs P) = dirs.flatten := chunked_flatten dirs P hP
  refine ⟨h, ?_⟩
  rw [← h]
  unfold zarrExtent
  have : ∀ k, ((List.range k).map fun r => (zarrLocal dirs P r).length).sum = (content k (zarrLocal dirs P)).length := by
    intro k
    induction k with
    | zero => rfl
    | succ k ih => rw [List.range_succ, List.map_append, List.sum_append, ih, content_succ, List.length_append]; simp
  exact this P

/-- With `split=None` (concatenation along axis 0, array counted as replicated) the processes hold different arrays. -/
theorem zarr_none_violated : zarrLocal [[1], [2]] 2 0 = [1] ∧ zarrLocal [[1], [2]] 2 1 = [2] := by decide

/-! ## Writing -/

theorem zarrShrink_spec (limit slab k c : Nat) (hc : 0 < c) :
    0 < zarrShrink limit slab k c ∧ zarrShrink limit slab k c ∣ c ∧ (zarrShrink limit slab k c * slab ≤ limit ∨ zarrShrink limit slab k c = 1) := by
  induction k generalizing c with
  | zero => exact ⟨by simp [zarrShrink], by simp [zarrShrink], Or.inr rfl⟩
  | succ k ih =>
    unfold zarrShrink
    by_cases h : c * slab > limit
    · rw [if_pos h]
      by_cases h2 : c % 2 = 0
      · rw [if_pos h2]
        obtain ⟨h3, h4, h5⟩ := ih (c / 2) (by omega)
        refine ⟨h3, Nat.dvd_trans h4 ⟨2, by omega⟩, h5⟩
      · rw [if_neg h2]; exact ⟨by omega, Nat.one_dvd c, Or.inr rfl⟩
    · rw [if_neg h]; exact ⟨hc, Nat.dvd_refl c, Or.inl (by omega)⟩

/-- **C154, size of chunks.**  A chunk stays below the limit of the codec or has one slab. -/
theorem zarr_chunk_limit (n P slab : Nat) (hP : 0 < P) (hn : 0 < n) :
    0 < zarrChunkSize n P slab ∧ (zarrChunkSize n P slab * slab ≤ 2 ^ 31 - 1 ∨ zarrChunkSize n P slab = 1) := by
  unfold zarrChunkSize
  by_cases h : n % P ≠ 0
  · rw [if_pos h]; exact ⟨by omega, Or.inr rfl⟩
  · rw [if_neg h]
    have hm : 0 < n / P := Nat.div_pos (Nat.le_of_dvd hn (Nat.dvd_of_mod_eq_zero (by omega))) hP
    exact ⟨(zarrShrink_spec _ _ _ _ hm).1, (zarrShrink_spec _ _ _ _ hm).2.2⟩

/-- **C154, exclusive chunks.**  A chunk that contains a slab of a process contains no slab of another one. -/
theorem zarr_chunk_inside (n P slab r i i' : Nat) (hP : 0 < P) (hi : (chunkRange n r P).1 ≤ i ∧ i < (chunkRange n r P).2)
    (hn : 0 < n) (he : i' / zarrChunkSize n P slab = i / zarrChunkSize n P slab) :
    (chunkRange n r P).1 ≤ i' ∧ i' < (chunkRange n r P).2 := by
  unfold zarrChunkSize at he
  by_cases h : n % P ≠ 0
  · rw [if_pos h, Nat.div_one, Nat.div_one] at he; rw [he]; exact hi
  · rw [if_neg h] at he
    have h0 : n % P = 0 := by omega
    have hm : 0 < n / P := Nat.div_pos (Nat.le_of_dvd hn (Nat.dvd_of_mod_eq_zero h0)) hP
    obtain ⟨hc, ⟨d, hd⟩, _⟩ := zarrShrink_spec (2 ^ 31 - 1) slab 10 (n / P) hm
    generalize zarrShrink (2 ^ 31 - 1) slab 10 (n / P) = c at *
    have hr : chunkRange n r P = (r * (n / P), r * (n / P) + n / P) := by
      unfold chunkRange; simp [h0]
    rw [hr] at hi ⊢
    dsimp only at hi ⊢
    rw [hd] at hi ⊢
    have e1 : r * (c * d) = c * (r * d) := by rw [Nat.mul_left_comm]
    have e2 : r * (c * d) + c * d = c * (r * d + d) := by rw [Nat.mul_add, e1]
    rw [e2] at hi ⊢
    rw [e1] at hi ⊢
    have k1 : r * d ≤ i / c := (Nat.le_div_iff_mul_le hc).2 (by rw [Nat.mul_comm]; exact hi.1)
    have k2 : i / c < r * d + d := (Nat.div_lt_iff_lt_mul hc).2 (by rw [Nat.mul_comm]; exact hi.2)
    rw [← he] at k1 k2
    exact ⟨by rw [Nat.mul_comm]; exact (Nat.le_div_iff_mul_le hc).1 k1, by rw [Nat.mul_comm]; exact (Nat.div_lt_iff_lt_mul hc).1 k2⟩

theorem mem_zarrChunksOf {n P slab r k : Nat} (h : k ∈ zarrChunksOf n P slab r) :
    ∃ i < n, (chunkRange n r P).1 ≤ i ∧ i < (chunkRange n r P).2 ∧ i / zarrChunkSize n P slab = k := by
  unfold zarrChunksOf at h
  obtain ⟨_, h2⟩ := List.mem_filter.1 h
  obtain ⟨i, hi, h3⟩ := List.any_eq_true.1 h2
  simp only [Bool.and_eq_true, decide_eq_true_eq, beq_iff_eq] at h3
  exact ⟨i, List.mem_range.1 hi, h3.1.1, h3.1.2, h3.2⟩

theorem zarrChunksOf_mem {n P slab r i : Nat} (hi : i < n) (h1 : (chunkRange n r P).1 ≤ i) (h2 : i < (chunkRange n r P).2) :
    i / zarrChunkSize n P slab ∈ zarrChunksOf n P slab r := by
  unfold zarrChunksOf
  refine List.mem_filter.2 ⟨List.mem_range.2 (Nat.lt_succ_of_le (Nat.div_le_div_right (by omega))), ?_⟩
  refine List.any_eq_true.2 ⟨i, List.mem_range.2 hi, ?_⟩
  simp [h1, h2]

/-- What holds in every reachable state. -/
structure ZInv (n P slab : Nat) (val : Nat → α) (s : ZState α) : Prop where
  own : ∀ r k, ZOp.write k ∈ s.prog r → k ∈ zarrChunksOf n P slab r
  done : ∀ r < P, ∀ i < n, (chunkRange n r P).1 ≤ i → i < (chunkRange n r P).2 →
    ZOp.write (i / zarrChunkSize n P slab) ∈ s.prog r ∨ s.file i = some (val i)

theorem zinit_inv (n P slab : Nat) (val : Nat → α) (old : Nat → Option α) : ZInv n P slab val (zinit n P slab old) := by
  constructor
  · intro r k h
    unfold zinit at h
    dsimp only at h
    by_cases hr : r < P
    · rw [if_pos hr] at h
      unfold zarrProg at h
      obtain ⟨k', hk', h'⟩ := List.mem_flatMap.1 h
      simp at h'
      rw [h']; exact hk'
    · rw [if_neg hr] at h; cases h
  · intro r hr i hi h1 h2
    left
    unfold zinit zarrProg
    dsimp only
    rw [if_pos hr]
    exact List.mem_flatMap.2 ⟨_, zarrChunksOf_mem hi h1 h2, by simp⟩

theorem zstep_inv (n P slab : Nat) (hP : 0 < P) (hn : 0 < n) (val : Nat → α) (r : Nat) (s : ZState α) (h : ZInv n P slab val s) :
    ZInv n P slab val (zstep n P slab val r s) := by
  unfold zstep
  cases hp : s.prog r with
  | nil => exact h
  | cons op rest =>
    have hsub : ∀ q k, ZOp.write k ∈ (if q = r then rest else s.prog q) → ZOp.write k ∈ s.prog q := by
      intro q k hk
      by_cases e : q = r
      · rw [if_pos e] at hk; rw [e, hp]; exact List.mem_cons_of_mem _ hk
      · rwa [if_neg e] at hk
    cases op with
    | read k0 =>
      refine ⟨fun q k hk => h.own q k (hsub q k hk), ?_⟩
      intro q hq i hi h1 h2
      rcases h.done q hq i hi h1 h2 with hd | hd
      · left
        dsimp only
        by_cases e : q = r
        · rw [if_pos e]; rw [e, hp] at hd
          rcases List.mem_cons.1 hd with hd | hd
          · cases hd
          · exact hd
        · rwa [if_neg e]
      · right; exact hd
    | write k0 =>
      refine ⟨fun q k hk => h.own q k (hsub q k hk), ?_⟩
      intro q hq i hi h1 h2
      dsimp only
      by_cases hk : i / zarrChunkSize n P slab = k0
      · right
        rw [if_pos hk]
        obtain ⟨j, _, j1, j2, j3⟩ := mem_zarrChunksOf (h.own r k0 (by rw [hp]; exact List.mem_cons_self))
        rw [if_pos (zarr_chunk_inside n P slab r j i hP ⟨j1, j2⟩ hn (by rw [hk, j3]))]
      · rw [if_neg hk]
        rcases h.done q hq i hi h1 h2 with hd | hd
        · left
          by_cases e : q = r
          · rw [if_pos e]; rw [e, hp] at hd
            rcases List.mem_cons.1 hd with hd | hd
            · injection hd with hd; exact absurd hd hk
            · exact hd
          · rwa [if_neg e]
        · right; exact hd

theorem zrun_inv (n P slab : Nat) (hP : 0 < P) (hn : 0 < n) (val : Nat → α) (sched : List Nat) (s : ZState α) (h : ZInv n P slab val s) :
    ZInv n P slab val (zrun n P slab val sched s) := by
  unfold zrun
  induction sched generalizing s with
  | nil => exact h
  | cons r t ih => exact ih _ (zstep_inv n P slab hP hn val r s h)

theorem chunk_has_owner (n P i : Nat) (hP : 0 < P) (hi : i < n) : ∃ r < P, (chunkRange n r P).1 ≤ i ∧ i < (chunkRange n r P).2 := by
  have : ∀ k, i < (chunkRange n k P).1 → ∃ r < k, (chunkRange n r P).1 ≤ i ∧ i < (chunkRange n r P).2 := by
    intro k
    induction k with
    | zero => intro h; rw [chunkRange_zero] at h; omega
    | succ k ih =>
      intro h
      by_cases h' : i < (chunkRange n k P).1
      · obtain ⟨r, hr, h2⟩ := ih h'; exact ⟨r, by omega, h2⟩
      · rw [chunkRange_succ] at h; exact ⟨k, by omega, by omega, h⟩
  exact this P (by rw [chunkRange_at_P _ _ hP]; exact hi)

/-- **C154.**  For every array, number of processes and slab size, whatever the store contained before and in whichever order the processes
read and write their chunks: once all have finished, the store contains the array. -/
theorem zarr_save (n P slab : Nat) (hP : 0 < P) (val : Nat → α) (old : Nat → Option α) (sched : List Nat)
    (hfin : ∀ r < P, (zrun n P slab val sched (zinit n P slab old)).prog r = []) (i : Nat) (hi : i < n) :
    (zrun n P slab val sched (zinit n P slab old)).file i = some (val i) := by
  have hn : 0 < n := by omega
  have h := zrun_inv n P slab hP hn val sched _ (zinit_inv n P slab val old)
  obtain ⟨r, hr, h1, h2⟩ := chunk_has_owner n P i hP hi
  rcases h.done r hr i hi h1 h2 with hd | hd
  · rw [hfin r hr] at hd; cases hd
  · exact hd

/-- The hypothesis is met: an interleaved schedule of two processes and six slabs. -/
example : zarrChunkSize 6 2 8 = 3 ∧ (∀ r < 2, (zrun 6 2 8 (fun i => 10 * i) [0, 1, 1, 0] (zinit 6 2 8 fun _ => none)).prog r = []) := by decide

example : zarrChunkSize 6 2 (2 ^ 30) = 1 ∧ zarrChunkSize 16 2 (2 ^ 30) = 1 ∧ zarrChunkSize 16 2 (2 ^ 29) = 2 ∧ zarrChunkSize 7 2 8 = 1 := by decide

end Heat
