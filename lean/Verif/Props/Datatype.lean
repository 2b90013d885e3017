import Verif.Proof.Datatype
import Verif.Spec.Dist
/-!
# C46, C56, C57: MPI datatypes describe exactly the elements that are meant
-/
namespace Heat
open Spec MType

/-! ## C46: counts beyond the limit -/

theorem range_blocks (f : Nat → Nat) (q L : Nat) :
    ((List.range q).flatMap fun i => (List.range L).map fun j => f (i * L + j)) = (List.range (q * L)).map f := by
  induction q with
  | zero => simp
  | succ q ih =>
    rw [List.range_succ, List.flatMap_append, ih, Nat.succ_mul, List.range_add, List.map_append, List.map_map]
    simp [Function.comp_def]

theorem vector_block (sz q L : Nat) : ((basic sz).vector q L L).offs = (List.range (q * L)).map (· * sz) := by
  rw [← range_blocks]
  simp only [vector, basic, List.map_cons, List.map_nil, Nat.add_zero]
  congr 1
  funext i
  induction (List.range L) with
  | nil => rfl
  | cons a l ih => simp [List.flatMap_cons, ih]

theorem message_one (t : MType) : t.message 1 = t.offs := by
  simp [message]

theorem contiguous_offs (sz n : Nat) : ((basic sz).contiguous n).offs = (List.range n).map (· * sz) := by
  simp only [contiguous, message, basic, List.map_cons, List.map_nil, Nat.add_zero]
  induction (List.range n) with
  | nil => rfl
  | cons a l ih => simp [List.flatMap_cons, ih]

/-- C46.  Whatever the number of elements, if a datatype is returned, one item of it is exactly the `elements` contiguous
elements of the buffer, in order. -/
theorem large_count_describes (L sz elements : Nat) (t : MType) (c : Nat) (h : handleLargeCount L sz elements = .ok (t, c)) :
    t.message c = (List.range elements).map (· * sz) := by
  simp only [handleLargeCount] at h
  by_cases h1 : elements / L > L
  · simp [h1] at h
  · simp only [h1, if_false] at h
    have key : elements / L * L + elements % L = elements := Nat.div_add_mod' elements L
    by_cases h2 : elements % L > 0
    · simp only [h2, if_true, Except.ok.injEq, Prod.mk.injEq] at h
      obtain ⟨rfl, rfl⟩ := h
      rw [message_one]
      simp only [commit, struct2, vector_block, contiguous_offs]
      conv => rhs; rw [← key, List.range_add, List.map_append]
      congr 1
      rw [List.map_map, List.map_map]
      apply List.map_congr_left
      intro i _
      simp only [Function.comp]
      rw [Nat.add_mul, Nat.mul_comm L]
    · simp only [h2, if_false, Except.ok.injEq, Prod.mk.injEq] at h
      obtain ⟨rfl, rfl⟩ := h
      rw [message_one, vector_block]
      have : elements / L * L = elements := by omega
      rw [this]

/-- C46.  A datatype is refused (ValueError) exactly when more than `L` blocks of `L` elements would be needed. -/
theorem large_count_refused_iff (L sz elements : Nat) :
    handleLargeCount L sz elements = .error .valueError ↔ elements / L > L := by
  simp only [handleLargeCount]
  by_cases h1 : elements / L > L
  · simp [h1]
  · simp only [h1, if_false, iff_false]
    by_cases h2 : elements % L > 0 <;> simp [h2]

/-- C46.  With a remainder the datatype is committed, hence usable in a communication. -/
theorem large_count_committed (L sz elements : Nat) (t : MType) (c : Nat) (hr : elements % L ≠ 0)
    (h : handleLargeCount L sz elements = .ok (t, c)) : t.committed = true := by
  simp only [handleLargeCount] at h
  by_cases h1 : elements / L > L
  · simp [h1] at h
  · have h2 : elements % L > 0 := by omega
    simp only [h1, if_false, h2, if_true, Except.ok.injEq, Prod.mk.injEq] at h
    rw [← h.1]; rfl

/-- C46 fails when the number of elements is a multiple of the limit: the vector type is returned without having been committed, and MPI
refuses uncommitted types in every communication call. -/
theorem large_count_uncommitted_violated (L sz k : Nat) (hL : 0 < L) (hk : k ≤ L) :
    ∃ t, handleLargeCount L sz (k * L) = .ok (t, 1) ∧ t.committed = false := by
  refine ⟨(basic sz).vector k L L, ?_, rfl⟩
  simp only [handleLargeCount, Nat.mul_div_cancel _ hL, Nat.mul_mod_left]
  rw [if_neg (by omega), if_neg (by omega)]

/-- The real limit: 2^31 - 1 elements per count; 2 * (2^31 - 1) float64 elements give an uncommitted datatype. -/
example : ∃ t, handleLargeCount (2 ^ 31 - 1) 8 (2 * (2 ^ 31 - 1)) = .ok (t, 1) ∧ t.committed = false :=
  large_count_uncommitted_violated (2 ^ 31 - 1) 8 2 (by omega) (by omega)

/-- Non-vacuity: a small limit makes the typemap visible. -/
example : (handleLargeCount 3 8 8).map (fun r => r.1.message r.2) = .ok [0, 8, 16, 24, 32, 40, 48, 56] := by decide

/-! ## C56: non-contiguous tensors -/

/-- C56.  For every shape of at least two axes and all strides, the count and datatype computed for a non-contiguous tensor address
exactly the elements of the tensor, in row-major order, and the datatype is committed. -/
theorem noncontiguous_describes (L sz d0 s0 : Nat) (sh st : List Nat) (hl : sh.length = st.length) (hne : sh ≠ []) :
    ∃ t c, mpiTypeAndElements L sz (d0 :: sh) (s0 :: st) false none = .ok (.plain t c) ∧
      t.message c = byteOffsets sz (d0 :: sh) (s0 :: st) ∧ t.committed = true := by
  obtain ⟨h1, h2, h3⟩ := chainType_spec sz d0 s0 sh st hl hne
  exact ⟨chainType sz (d0 :: sh) (s0 :: st), d0, rfl, message_spec _ _ _ _ _ _ h1 h2, h3⟩

theorem byteOffsets_append_one (sz d s : Nat) : byteOffsets sz [d, 1] [s, 1] = byteOffsets sz [d] [s] := by
  rw [byteOffsets_cons, byteOffsets_cons, byteOffsets_cons, byteOffsets_nil]
  simp

/-- C56, one axis: a strided 1-D tensor. -/
theorem noncontiguous_1d_describes (L sz d s : Nat) :
    ∃ t c, asBuffer L sz [d] [s] false none = .ok (.plain t c) ∧ t.message c = byteOffsets sz [d] [s] ∧ t.committed = true := by
  obtain ⟨t, c, h1, h2, h3⟩ := noncontiguous_describes L sz d s [1] [1] rfl (by simp)
  refine ⟨t, c, ?_, ?_, h3⟩
  · simpa [asBuffer] using h1
  · rw [h2, byteOffsets_append_one]

/-- C56.  A contiguous tensor of at most `L` elements is sent as its elements in memory order, which is row-major order. -/
theorem contiguous_describes (L sz : Nat) (sh : List Nat) (hL : sh.prod ≤ L) :
    ∃ t c, mpiTypeAndElements L sz sh (cStrides sh) true none = .ok (.plain t c) ∧
      t.message c = byteOffsets sz sh (cStrides sh) ∧ t.committed = true := by
  refine ⟨basic sz, sh.prod, ?_, ?_, rfl⟩
  · simp [mpiTypeAndElements, Nat.not_lt.2 hL]
  · have key : ∀ sh : List Nat, byteOffsets sz sh (cStrides sh) = (List.range sh.prod).map (· * sz) := by
      intro sh
      induction sh with
      | nil => rw [cStrides, byteOffsets_nil]; simp
      | cons n sh ih =>
        rw [cStrides, byteOffsets_cons, ih, List.prod_cons, ← range_blocks]
        congr 1
        funext i
        rw [List.map_map]
        apply List.map_congr_left
        intro j _
        simp only [Function.comp]
        rw [Nat.add_mul, Nat.mul_comm sz, Nat.mul_assoc]
    rw [key, ← contiguous_offs]
    rfl

/-- C56.  v-collectives (`Allgatherv`, `Alltoallv`, ...) on a non-contiguous tensor: partner `q` reads or writes exactly the rows
`displs[q], ..., displs[q] + counts[q] - 1` of the first axis. -/
theorem noncontiguous_rows (L sz d0 s0 : Nat) (sh st counts displs : List Nat) (hl : sh.length = st.length) (hne : sh ≠ [])
    (q : Nat) :
    ∃ b, mpiTypeAndElements L sz (d0 :: sh) (s0 :: st) false (some (counts, displs)) = .ok b ∧
      b.block q = some (blockOffsets sz (counts.getD q 0 :: sh) (displs.getD q 0 :: List.replicate sh.length 0) (s0 :: st)) := by
  obtain ⟨h1, h2, _⟩ := chainType_spec sz d0 s0 sh st hl hne
  refine ⟨_, rfl, ?_⟩
  have g1 : ∀ l : List Nat, (l.map fun (c : Nat) => (c : Int)).getD q 0 = ((l.getD q 0 : Nat) : Int) := by
    intro l
    by_cases hq : q < l.length <;> simp [List.getD, hq]
  simp only [Buf.block, g1]
  rw [if_neg (by omega)]
  congr 1
  rw [Int.toNat_natCast, Int.toNat_natCast, message_spec _ _ _ _ _ _ h1 h2, h2]
  have hz : ∀ (m : Nat) (l : List Nat), dot (List.replicate m 0) l = 0 := by
    intro m
    induction m with
    | zero => intro l; simp [dot]
    | succ m ih =>
      intro l
      cases l with
      | nil => simp [dot]
      | cons a l => rw [List.replicate_succ, dot_cons, ih]; simp
  simp only [byteOffsets, blockOffsets, List.map_map]
  apply List.map_congr_left
  intro idx _
  simp only [Function.comp, dot_cons, hz, Nat.add_zero]
  rw [Nat.mul_add, Nat.mul_left_comm]

theorem wrap32_eq (n : Nat) (h : n < 2147483648) : ((n : Int) + 2147483648) % 4294967296 - 2147483648 = n := by omega

theorem wrap32_small (n : Nat) (h : n < 2147483648) : wrap32 n = n := by
  unfold wrap32; exact wrap32_eq n h

theorem getD_map_lt (g : Nat → Int) (l : List Nat) (q : Nat) (hq : q < l.length) : (l.map g).getD q 0 = g (l.getD q 0) := by
  simp only [List.getD_eq_getElem?_getD, List.getElem?_map, List.getElem?_eq_getElem hq, Option.map_some, Option.getD_some]
theorem scale32_get (f : Nat) (l : List Nat) (q : Nat) (hb : f * l.getD q 0 < 2147483648) :
   (scale32 (f : Int) l).getD q 0 = ((f * l.getD q 0 : Nat) : Int) := by
  by_cases hq : q < l.length
  · unfold scale32
    rw [getD_map_lt _ _ _ hq, ← Int.natCast_mul, wrap32_eq _ hb]
  · have e1 : l.getD q 0 = 0 := by simp only [List.getD_eq_getElem?_getD, List.getElem?_eq_none (Nat.le_of_not_lt hq), Option.getD_none]
    have e2 : (scale32 (f : Int) l).getD q 0 = 0 := by
      simp only [scale32, List.getD_eq_getElem?_getD, List.getElem?_map, List.getElem?_eq_none (Nat.le_of_not_lt hq), Option.map_none, Option.getD_none]
    rw [e1, e2, Nat.mul_zero, Int.natCast_zero]

/-- C56.  v-collectives on a contiguous tensor: partner `q` reads or writes exactly the rows `displs[q], ..., displs[q] + counts[q] - 1`,
as long as the number of elements before the end of its block fits into 31 bits. -/
theorem contiguous_rows_partial (L sz d0 : Nat) (sh counts displs : List Nat) (q : Nat)
    (hsz : sh.prod < 2147483648) (hc : sh.prod * counts.getD q 0 < 2147483648) (hd : sh.prod * displs.getD q 0 < 2147483648) :
    ∃ b, mpiTypeAndElements L sz (d0 :: sh) (cStrides (d0 :: sh)) true (some (counts, displs)) = .ok b ∧
      b.block q = some ((List.range (counts.getD q 0 * sh.prod)).map fun i => (displs.getD q 0 * sh.prod + i) * sz) := by
  refine ⟨.counted (basic sz) (scale32 (wrap32 sh.prod) counts) (scale32 (wrap32 sh.prod) displs), by simp [mpiTypeAndElements], ?_⟩
  have g1 : ∀ l : List Nat, sh.prod * l.getD q 0 < 2147483648 →
      (scale32 (wrap32 sh.prod) l).getD q 0 = ((sh.prod * l.getD q 0 : Nat) : Int) := by
    intro l hb
    rw [wrap32_small _ hsz, scale32_get _ _ _ hb]
  simp only [Buf.block, g1 counts hc, g1 displs hd]
  rw [if_neg (by omega)]
  congr 1
  rw [Int.toNat_natCast, Int.toNat_natCast]
  have : (basic sz).message (sh.prod * counts.getD q 0) = ((basic sz).contiguous (sh.prod * counts.getD q 0)).offs := rfl
  rw [this, contiguous_offs, List.map_map, Nat.mul_comm (counts.getD q 0)]
  apply List.map_congr_left
  intro i _
  simp only [Function.comp, basic]
  rw [Nat.add_mul, Nat.mul_comm sh.prod]

/-- C56 fails beyond 31 bits: the displacement of the second of two blocks of 32768 rows of 65536 elements wraps to a negative number,
which MPI refuses (or, unchecked, addresses memory before the buffer). -/
theorem contiguous_rows_violated :
    (mpiTypeAndElements (2 ^ 31 - 1) 4 [65536, 65536] (cStrides [65536, 65536]) true (some ([32767, 32769], [0, 32768]))).map (fun b => b.block 1)
      = .ok none := by decide +kernel

/-- Non-vacuity: a transposed 2×3 matrix (strides 1, 3... of the 3×2 view). -/
example : (mpiTypeAndElements 100 8 [3, 2] [1, 3] false none).map (fun b => b.block 0) = .ok (some [0, 24, 8, 32, 16, 40]) := by decide
example : byteOffsets 8 [3, 2] [1, 3] = [0, 24, 8, 32, 16, 40] := by decide

/-! ## C57: large buffers in collectives without counts -/

/-- C57.  Receive buffers of `Allgather`/`Alltoall` up to the limit: block `q` of the buffer is addressed for partner `q`. -/
theorem allgather_block_partial (L sz P n : Nat) (sh : List Nat) (hP : 0 < P) (hL : (P * n :: sh).prod ≤ L) (q : Nat) :
    ∃ b, mpiTypeAndElements L sz (P * n :: sh) (cStrides (P * n :: sh)) true none = .ok b ∧
      (perProcess P b).block q = some ((List.range (n * sh.prod)).map fun i => (q * (n * sh.prod) + i) * sz) := by
  refine ⟨.plain (basic sz) (P * n :: sh).prod, by simp only [mpiTypeAndElements, if_true]; rw [if_neg (Nat.not_lt.2 hL)], ?_⟩
  have e : (P * n :: sh).prod / P = n * sh.prod := by
    rw [List.prod_cons, Nat.mul_assoc, Nat.mul_div_cancel_left _ hP]
  simp only [perProcess, Buf.block, e]
  congr 1
  have : (basic sz).message (n * sh.prod) = ((basic sz).contiguous (n * sh.prod)).offs := rfl
  rw [this, contiguous_offs, List.map_map]
  apply List.map_congr_left
  intro i _
  simp only [Function.comp, basic]
  rw [Nat.add_mul]

/-- C57 fails beyond the limit: the buffer is described by one item of a large datatype, and one item divided by the number of
processes is none, so nothing at all is addressed for any partner. -/
theorem allgather_block_violated (L sz P : Nat) (hP : 1 < P) (sh : List Nat) (h1 : L < sh.prod) (h2 : sh.prod / L ≤ L) (q : Nat) :
    ∃ b, mpiTypeAndElements L sz sh (cStrides sh) true none = .ok b ∧ (perProcess P b).block q = some [] := by
  have hlc : ∃ t, handleLargeCount L sz sh.prod = .ok (t, 1) := by
    simp only [handleLargeCount]
    rw [if_neg (by omega)]
    by_cases h : sh.prod % L > 0
    · rw [if_pos h]; exact ⟨_, rfl⟩
    · rw [if_neg h]; exact ⟨_, rfl⟩
  obtain ⟨t, ht⟩ := hlc
  refine ⟨.plain t 1, by simp [mpiTypeAndElements, h1, ht], ?_⟩
  have : 1 / P = 0 := Nat.div_eq_of_lt hP
  simp [perProcess, Buf.block, this, message]

/-- Non-vacuity: two processes gathering 2^31 elements. -/
example : ∃ b, mpiTypeAndElements (2 ^ 31 - 1) 4 [2 ^ 31] (cStrides [2 ^ 31]) true none = .ok b ∧ (perProcess 2 b).block 0 = some [] :=
  allgather_block_violated (2 ^ 31 - 1) 4 2 (by omega) [2 ^ 31] (by simp) (by simp) 0

/-! ## C58: blocks exchanged by `Alltoallw` and `Alltoall` -/

theorem drop_cons_getD (l : List Nat) (i : Nat) (h : i < l.length) : l.drop i = l.getD i 0 :: l.drop (i + 1) := by
  rw [List.drop_eq_getElem_cons h]
  simp [List.getD, h]

theorem basic_offs_byte (sz : Nat) : (basic sz).offs = byteOffsets sz [] [] := by rw [byteOffsets_nil]; rfl

/-- The plain steps of the recursion, from axis `i` (not the last one) down. -/
theorem recLoop_plain (L sz : Nat) (stride sub : List Nat) (hl : sub.length = stride.length) (i : Nat) (cur : MType)
    (hi : i + 1 < stride.length) (h1 : cur.offs = byteOffsets sz (sub.drop (i + 1)) (stride.drop (i + 1)))
    (h2 : cur.extent = sz * stride.getD i 0) :
    (recLoop L sz stride sub i cur).offs = byteOffsets sz (sub.drop 1) (stride.drop 1) ∧
    (recLoop L sz stride sub i cur).extent = sz * stride.getD 0 0 := by
  induction i generalizing cur with
  | zero => rw [recLoop]; exact ⟨h1, h2⟩
  | succ i ih =>
    rw [recLoop]
    have hlast : ¬ (i + 1 = stride.length - 1) := by omega
    simp only [hlast, false_and, if_false]
    apply ih
    · omega
    · show (MType.vector cur (sub.getD (i + 1) 0) 1 1).offs = _
      rw [vector_one, h1, h2, Nat.mul_one, drop_cons_getD sub (i + 1) (by omega), drop_cons_getD stride (i + 1) (by omega),
        byteOffsets_cons]
    · rfl

theorem vector_two (sz a b s : Nat) : ((basic sz).vector a b s).offs = byteOffsets sz [a, b] [s, 1] := by
  rw [byteOffsets_cons, byteOffsets_cons, byteOffsets_nil]
  simp only [vector, basic, List.map_cons, List.map_nil, Nat.add_zero, Nat.mul_one]
  congr 1
  funext i
  rw [List.map_flatMap]
  congr 1
  funext j
  simp only [List.map_cons, List.map_nil]
  rw [Nat.add_mul, Nat.mul_assoc, Nat.mul_comm s sz]

/-- What one item of the recursive type addresses: the whole block if the two axes of a 2-D array were merged, otherwise one row. -/
theorem recLoop_spec (L sz : Nat) (stride sub : List Nat) (hl : sub.length = stride.length) (hn : 2 ≤ stride.length) :
    let t := recLoop L sz stride sub (stride.length - 1) (basic sz)
    if stride.length = 2 ∧ stride.getLastD 0 = 1 ∧ stride.getD 0 0 < L then t.offs = byteOffsets sz sub stride
    else t.offs = byteOffsets sz (sub.drop 1) (stride.drop 1) ∧ t.extent = sz * stride.getD 0 0 := by
  obtain ⟨m, hm⟩ : ∃ m, stride.length = m + 2 := ⟨stride.length - 2, by omega⟩
  have hlast : stride.getLastD 0 = stride.getD (m + 1) 0 := by
    rw [List.getLastD_eq_getLast?, List.getLast?_eq_getElem?, hm]; simp
  have dl : ∀ l : List Nat, l.length = m + 2 → l.drop (m + 1) = [l.getD (m + 1) 0] := by
    intro l h
    rw [drop_cons_getD l (m + 1) (by omega), List.drop_of_length_le (by omega)]
  have dl2 : ∀ l : List Nat, l.length = m + 2 → l.drop m = [l.getD m 0, l.getD (m + 1) 0] := by
    intro l h
    rw [drop_cons_getD l m (by omega), dl l h]
  simp only [hm, hlast, show m + 2 - 1 = m + 1 from rfl]
  rw [recLoop]
  simp only [hm, show m + 2 - 1 = m + 1 from rfl, true_and, if_true]
  by_cases hc : stride.getD (m + 1) 0 = 1 ∧ stride.getD m 0 < L
  · rw [if_pos hc]
    cases m with
    | zero =>
      rw [if_pos ⟨rfl, hc⟩]
      simp only [if_true, Nat.zero_sub, recLoop]
      have e1 := dl2 sub (by omega)
      have e2 := dl2 stride hm
      rw [List.drop_zero] at e1 e2
      show ((basic sz).vector (sub.getD 0 0) (sub.getD 1 0) (stride.getD 0 0)).offs = _
      rw [vector_two]
      conv => rhs; rw [e1, e2]
      rw [hc.1]
    | succ m =>
      rw [if_neg (by omega)]
      simp only [Nat.succ_ne_zero, if_false, Nat.add_sub_cancel]
      apply recLoop_plain _ _ _ _ hl
      · omega
      · show ((basic sz).vector (sub.getD (m + 1) 0) (sub.getD (m + 2) 0) (stride.getD (m + 1) 0)).offs = _
        rw [vector_two, dl2 sub (by omega), dl2 stride hm, hc.1]
      · rfl
  · rw [if_neg hc, if_neg (by
      rintro ⟨h0, h1, h2⟩
      have : m = 0 := by omega
      subst this
      exact hc ⟨h1, h2⟩)]
    apply recLoop_plain _ _ _ _ hl
    · omega
    · show ((basic sz).vector (sub.getD (m + 1) 0) 1 (stride.getD (m + 1) 0)).offs = _
      rw [vector_one, dl sub (by omega), dl stride hm, byteOffsets_cons, byteOffsets_nil]
      rfl
    · rfl

theorem blockOffsets_eq (sz : Nat) (sub start stride : List Nat) :
    blockOffsets sz sub start stride = (byteOffsets sz sub stride).map (dot start stride * sz + ·) := by
  simp only [blockOffsets, byteOffsets, List.map_map]
  apply List.map_congr_left
  intro idx _
  simp only [Function.comp]
  rw [Nat.mul_add, Nat.mul_comm sz (dot start stride)]

theorem dot_comm (a b : List Nat) : ((b.zip a).map fun p => p.1 * p.2).sum = dot a b := by
  unfold dot
  induction a generalizing b with
  | nil => simp
  | cons x a ih =>
    cases b with
    | nil => simp
    | cons y b => simp [ih, Nat.mul_comm]

/-- C58.  The recursive datatype with the count chosen by `Alltoallw` addresses exactly the requested block in row-major order — for
every number of axes from two on, all strides, extents and starts, except for a 2-D array with unit last stride whose row stride
reaches the limit. -/
theorem recursive_describes_partial (L sz : Nat) (stride sub start : List Nat) (hl : sub.length = stride.length)
    (hn : 2 ≤ stride.length)
    (hx : ¬ (stride.length = 2 ∧ stride.getLastD 0 = 1 ∧ L ≤ stride.getD 0 0)) :
    (recursiveType L sz stride sub start).message (if sub.length = 2 ∧ stride.getLastD 0 = 1 then 1 else sub.headD 0)
      = blockOffsets sz sub start stride := by
  have key := recLoop_spec L sz stride sub hl hn
  simp only at key
  rw [blockOffsets_eq, ← dot_comm, hl]
  simp only [recursiveType, commit, hindexed1, message]
  by_cases hc : stride.length = 2 ∧ stride.getLastD 0 = 1
  · have h0 : stride.getD 0 0 < L := by
      have := fun h => hx ⟨hc.1, hc.2, h⟩
      omega
    rw [if_pos ⟨hc.1, hc.2, h0⟩] at key
    rw [if_pos hc, key]
    simp
  · rw [if_neg (fun h => hc ⟨h.1, h.2.1⟩)] at key
    obtain ⟨k1, k2⟩ := key
    have e1 : sub = sub.headD 0 :: sub.drop 1 := by
      cases sub with
      | nil => simp at hl; omega
      | cons a l => rfl
    have e2 : stride = stride.getD 0 0 :: stride.drop 1 := by
      cases stride with
      | nil => simp at hn
      | cons a l => rfl
    rw [if_neg hc, k1, k2]
    conv => rhs; arg 2; rw [e1, e2, byteOffsets_cons]
    rw [List.map_flatMap]
    congr 1
    funext i
    rw [List.map_map, List.map_map]
    apply List.map_congr_left
    intro x _
    simp only [Function.comp]
    omega

/-- C58 fails for a 2-D array with unit last stride and a row stride of at least the limit: of a block of `a` rows only the first row
is addressed. -/
theorem recursive_describes_violated (L sz a b s : Nat) (hs : L ≤ s) :
    (recursiveType L sz [s, 1] [a, b] [0, 0]).message (if [a, b].length = 2 ∧ [s, 1].getLastD 0 = 1 then 1 else [a, b].headD 0)
      = byteOffsets sz [b] [1] := by
  have : ¬ s < L := by omega
  have e : recLoop L sz [s, 1] [a, b] 1 (basic sz) = (((basic sz).vector b 1 1).commit.resized (sz * s)).commit := by
    rw [recLoop]
    simp [this, recLoop]
  simp only [recursiveType, List.length_cons, List.length_nil, Nat.zero_add, Nat.add_sub_cancel, e]
  simp [message, hindexed1, commit, resized, vector_one, byteOffsets_cons, byteOffsets_nil, basic]

theorem subarrayElems_spec : ∀ (sizes sub starts : List Nat), sub.length = sizes.length → starts.length = sizes.length →
    subarrayElems sizes sub starts = (indices sub).map fun idx => dot starts (cStrides sizes) + dot idx (cStrides sizes)
  | [], sub, starts, h1, h2 => by
    have := List.length_eq_zero_iff.1 h1
    have := List.length_eq_zero_iff.1 h2
    subst_vars
    simp [subarrayElems, indices, dot]
  | n :: sizes, [], starts, h1, h2 => by simp at h1
  | n :: sizes, m :: sub, [], h1, h2 => by simp at h2
  | n :: sizes, m :: sub, s :: starts, h1, h2 => by
    have ih := subarrayElems_spec sizes sub starts (by simpa using h1) (by simpa using h2)
    simp only [subarrayElems, ih, indices, List.map_flatMap, List.map_map, cStrides]
    congr 1
    funext i
    apply List.map_congr_left
    intro idx _
    simp only [Function.comp, dot_cons]
    rw [Nat.add_mul]
    omega

theorem inside_length : ∀ {sh sub start : List Nat}, Inside sh sub start → sub.length = sh.length ∧ start.length = sh.length
  | [], [], [], _ => ⟨rfl, rfl⟩
  | _ :: _, _ :: _, _ :: _, h => by
    have := inside_length h.2
    simp [this.1, this.2]

theorem contig_length : ∀ {sh st : List Nat}, Contig sh st → st.length = sh.length
  | [], [], _ => rfl
  | _ :: _, _ :: _, h => by simp [contig_length h.2]

/-- Inside a contiguous tensor the elements are where the C-order strides put them. -/
theorem contig_dot : ∀ {sh st sub start idx : List Nat}, Contig sh st → Inside sh sub start → idx ∈ indices sub →
    dot start st + dot idx st = dot start (cStrides sh) + dot idx (cStrides sh)
  | [], [], [], [], idx, _, _, h => by simp [dot, cStrides]
  | n :: sh, s :: st, m :: sub, a :: start, idx, hc, hi, h => by
    simp only [indices, List.mem_flatMap, List.mem_map, List.mem_range] at h
    obtain ⟨i, him, idx, hidx, rfl⟩ := h
    have ih := contig_dot hc.2 hi.2 hidx
    simp only [cStrides, dot_cons]
    have hs := hi.1
    rcases hc.1 with rfl | rfl
    · have : a = 0 := by omega
      have : i = 0 := by omega
      subst_vars
      simp only [Nat.zero_mul]
      omega
    · omega

/-- C58.  What `Alltoallw` packs for a partner: exactly the requested block of the local tensor in row-major order, contiguous or not, of
any number of axes (at least two) and any size — except in the case of `recursive_describes_violated`. -/
theorem alltoallw_block_partial (L sz : Nat) (lshape stride sub start : List Nat) (contig : Bool)
    (hn : 2 ≤ stride.length) (hin : Inside lshape sub start) (hl : stride.length = lshape.length)
    (hpos : ∀ n ∈ sub, 0 < n) (hcont : contig = true → Contig lshape stride)
    (hx : ¬ (stride.length = 2 ∧ stride.getLastD 0 = 1 ∧ L ≤ stride.getD 0 0)) :
    let (t, c) := sendType L sz lshape stride sub start contig
    t.message c = blockOffsets sz sub start stride ∧ t.committed = true := by
  obtain ⟨l1, l2⟩ := inside_length hin
  have hp : (sub.all fun x => decide (x > 0)) = true := by simpa using hpos
  simp only [sendType, hp, if_true]
  by_cases hc : contig = true ∧ (lshape.all fun x => decide (x < L)) = true ∧ (sub.all fun x => decide (x < L)) = true ∧
      (start.all fun x => decide (x < L)) = true
  · rw [if_pos hc]
    refine ⟨?_, rfl⟩
    show (((basic sz).subarray lshape sub start).commit).message 1 = _
    rw [message_one]
    simp only [commit, subarray, subarrayElems_spec lshape sub start l1 l2, basic, List.map_cons, List.map_nil, Nat.add_zero]
    have flat : ∀ (l : List Nat), (l.flatMap fun d => [d * sz]) = l.map (· * sz) := by
      intro l
      induction l with
      | nil => rfl
      | cons a l ih => simp [List.flatMap_cons, ih]
    rw [flat, List.map_map]
    unfold blockOffsets
    apply List.map_congr_left
    intro idx hidx
    simp only [Function.comp]
    rw [contig_dot (hcont hc.1) hin hidx, Nat.mul_comm]
  · rw [if_neg hc]
    exact ⟨recursive_describes_partial L sz stride sub start (by omega) hn hx, rfl⟩

/-- Empty blocks exchange nothing. -/
theorem alltoallw_empty (L sz : Nat) (lshape stride sub start : List Nat) (contig : Bool) (h : 0 ∈ sub) :
    let (t, c) := sendType L sz lshape stride sub start contig
    t.message c = [] := by
  have hp : ¬ (sub.all fun x => decide (x > 0)) = true := by
    intro h'
    have := List.all_eq_true.1 h' 0 h
    simp at this
  simp only [sendType, hp, if_false]
  simp [message]

/-- Non-vacuity: the middle 2×2 block of a transposed 3×4 array, 8-byte elements (strides 1, 3), and the same in a 3-D array. -/
example : let (t, c) := sendType 100 8 [3, 4] [1, 3] [2, 2] [1, 1] false; t.message c = [32, 56, 40, 64] := by decide +kernel
example : let (t, c) := sendType 100 8 [2, 3, 4] [12, 4, 1] [2, 2, 2] [0, 1, 1] false;
    t.message c = blockOffsets 8 [2, 2, 2] [0, 1, 1] [12, 4, 1] := by decide +kernel
example : Inside [2, 3, 4] [2, 2, 2] [0, 1, 1] := by simp [Inside]

/-! ### `Alltoall` along axes beyond the second -/

theorem dot_zeros : ∀ (m : Nat) (l : List Nat), dot (List.replicate m 0) l = 0
  | 0, l => by simp [dot]
  | m + 1, [] => by simp [dot]
  | m + 1, a :: l => by rw [List.replicate_succ, dot_cons, dot_zeros]; simp

/-- Number of rows before the canonical chunk of rank `p`. -/
def evenStart (m P p : Nat) : Nat := ((List.range p).map (evenSize m P)).sum

theorem inner_spec (sz s1 : Nat) (rest st : List Nat) (hl : rest.length = st.length) (cnt s0 : Nat) (last : Nat)
    (hlast : last = (s1 :: st).getLastD 0) :
    let n := rest.length + 2
    let strides := (List.replicate n 1).set (n - 1) last
    let offsets := 0 :: (s0 :: s1 :: st).dropLast.map (sz * ·)
    ∀ d0 d1, let inner := (((d0 :: d1 :: rest).zip (strides.zip offsets)).drop 2).foldr step (basic sz)
    (((inner.vector cnt 1 (strides.getD 1 0)).resized (offsets.getD 1 0)).commit).offs = byteOffsets sz (cnt :: rest) (s1 :: st) ∧
    (((inner.vector cnt 1 (strides.getD 1 0)).resized (offsets.getD 1 0)).commit).extent = sz * s0 ∧ strides.getD 0 0 = 1 := by
  intro n strides offsets d0 d1 inner
  have hs : strides = List.replicate (rest.length + 1) 1 ++ [last] := by
    simp only [strides, n]
    exact set_last last (rest.length + 2) (by omega)
  refine ⟨?_, ?_, ?_⟩
  · show (inner.vector cnt 1 (strides.getD 1 0)).offs = _
    rw [vector_one, byteOffsets_cons]
    cases rest with
    | nil =>
      have : st = [] := List.length_eq_zero_iff.1 hl.symm
      subst this
      have hi : inner = basic sz := by
        simp only [inner, hs, offsets]
        simp
      have h1 : strides.getD 1 0 = s1 := by rw [hs, hlast]; simp
      rw [hi, h1, byteOffsets_nil]
      rfl
    | cons r rest =>
      have hi : inner = ((r :: rest).zip ((List.replicate ((r :: rest).length - 1) 1 ++ [st.getLastD 0]).zip ((s1 :: st).dropLast.map (sz * ·)))).foldr step (basic sz) := by
        have hst : st ≠ [] := by intro h; subst h; simp at hl
        have e : last = st.getLastD 0 := by
          rw [hlast]
          cases st with
          | nil => exact absurd rfl hst
          | cons a l => simp
        simp only [inner, hs, offsets, e]
        simp only [List.length_cons, List.replicate_succ, List.cons_append, List.dropLast_cons₂, List.map_cons, List.zip_cons_cons, List.drop_succ_cons, List.drop_zero, Nat.add_sub_cancel]
      have key := chain_spec sz (r :: rest) st s1 hl (by simp)
      simp only [← hi] at key
      have h1 : strides.getD 1 0 = 1 := by rw [hs]; simp [List.replicate_succ]
      rw [h1, Nat.mul_one, key.1, key.2.1]
  · show offsets.getD 1 0 = sz * s0
    simp [offsets]
  · rw [hs]; simp [List.replicate_succ]

theorem sendElems (m P p : Nat) (hp : p < P) :
    evenSize m P p = if p < m % P then evenSize m P 0 else evenSize m P (P - 1) := by
  have h2 : ¬ (P - 1 < m % P) := by
    have := Nat.mod_lt m (show P > 0 by omega)
    omega
  unfold evenSize
  by_cases h : p < m % P
  · rw [if_pos h, if_pos h, if_pos (by omega)]
  · rw [if_neg h, if_neg h, if_neg h2]

/-- C58.  `alltoall_sendbuffer`: partner `p` is sent exactly its canonical chunk along the second axis, for every shape and all strides. -/
theorem alltoall_send (sz P d0 d1 s0 s1 : Nat) (rest st : List Nat) (hl : rest.length = st.length) (p : Nat) (hp : p < P) :
    sendBytes sz P (d0 :: d1 :: rest) (s0 :: s1 :: st) p =
      blockOffsets sz (d0 :: evenSize d1 P p :: rest) (0 :: evenStart d1 P p :: List.replicate rest.length 0) (s0 :: s1 :: st) := by
  have hlast : (s0 :: s1 :: st).getLastD 0 = (s1 :: st).getLastD 0 := by simp
  have key : ∀ cnt e, (((((((((d0 :: d1 :: rest).zip (((List.replicate (d0 :: d1 :: rest).length 1).set ((d0 :: d1 :: rest).length - 1)
        ((s0 :: s1 :: st).getLastD 0)).zip (0 :: (s0 :: s1 :: st).dropLast.map (sz * ·)))).drop 2).foldr step (basic sz)).vector cnt 1
        (((List.replicate (d0 :: d1 :: rest).length 1).set ((d0 :: d1 :: rest).length - 1) ((s0 :: s1 :: st).getLastD 0)).getD 1 0)).resized
        ((0 :: (s0 :: s1 :: st).dropLast.map (sz * ·)).getD 1 0)).commit).vector d0 1
        (((List.replicate (d0 :: d1 :: rest).length 1).set ((d0 :: d1 :: rest).length - 1) ((s0 :: s1 :: st).getLastD 0)).getD 0 0)).resized e).commit.offs
        = byteOffsets sz (d0 :: cnt :: rest) (s0 :: s1 :: st) := by
    intro cnt e
    have := inner_spec sz s1 rest st hl cnt s0 _ hlast d0 d1
    simp only at this
    obtain ⟨k1, k2, k3⟩ := this
    show (MType.vector _ d0 1 _).offs = _
    rw [vector_one, byteOffsets_cons]
    simp only [List.length_cons] at k1 k2 k3 ⊢
    rw [k1, k2, k3, Nat.mul_one]
  rw [blockOffsets_eq]
  simp only [sendBytes, sendBlock, message_one]
  have fold : (fun (p : Nat × Nat × Nat) (t : MType) => ((t.vector p.1 1 p.2.1).resized p.2.2).commit) = step := rfl
  simp only [fold, show (d0 :: d1 :: rest).getD 1 0 = d1 from rfl, show (d0 :: d1 :: rest).getD 0 0 = d0 from rfl,
    show (s0 :: s1 :: st).getD 1 0 = s1 from rfl]
  have he : ∀ q, (d1 / P + if q < d1 % P then 1 else 0) = evenSize d1 P q := fun q => rfl
  simp only [he]
  simp only [apply_ite MType.offs, key]
  have : (if p < d1 % P then byteOffsets sz (d0 :: evenSize d1 P 0 :: rest) (s0 :: s1 :: st)
      else byteOffsets sz (d0 :: evenSize d1 P (P - 1) :: rest) (s0 :: s1 :: st)) =
      byteOffsets sz (d0 :: evenSize d1 P p :: rest) (s0 :: s1 :: st) := by
    rw [sendElems d1 P p hp]
    by_cases h : p < d1 % P <;> simp [h]
  rw [this]
  congr 1
  funext x
  rw [dot_cons, dot_cons, dot_zeros, evenStart]
  congr 1
  rw [Nat.zero_mul, Nat.zero_add, Nat.add_zero, Nat.mul_assoc, Nat.mul_comm sz, Nat.mul_comm s1]

/-- C58.  `alltoall_recvbuffer`: the data of partner `q` goes to its canonical chunk of the first axis. -/
theorem alltoall_recv (sz P d0 s0 : Nat) (sh st : List Nat) (hl : sh.length = st.length) (hne : sh ≠ []) (q : Nat) :
    recvBytes sz P (d0 :: sh) (s0 :: st) q =
      blockOffsets sz (evenSize d0 P q :: sh) (evenStart d0 P q :: List.replicate sh.length 0) (s0 :: st) := by
  obtain ⟨h1, h2, _⟩ := chainType_spec sz d0 s0 sh st hl hne
  rw [blockOffsets_eq]
  simp only [recvBytes, show (d0 :: sh).getD 0 0 = d0 from rfl, show (s0 :: st).getD 0 0 = s0 from rfl]
  have he : ∀ q, (d0 / P + if q < d0 % P then 1 else 0) = evenSize d0 P q := fun q => rfl
  simp only [he]
  rw [message_spec _ _ _ _ _ _ h1 h2]
  congr 1
  funext x
  rw [dot_cons, dot_zeros, evenStart]
  congr 1
  rw [Nat.add_zero, Nat.mul_assoc, Nat.mul_comm sz, Nat.mul_comm s0]

/-- C58.  `Alltoall(send, recv, send_axis, recv_axis)` with an axis beyond the second, seen in the permuted axes (receive axis, send axis,
rest): if MPI delivers, element by element, what rank `q` packed for rank `p` (`hmpi`), then rank `p` holds at
`[start_q + i, j, ...]` the element `[i, start_p + j, ...]` of rank `q`: the array that was split along the first axis is now
split along the second one.  Shapes, strides and numbers of processes are arbitrary. -/
theorem alltoall_resplits {β : Type} (sz P n m : Nat) (rest : List Nat) (S R : Nat → Nat → β)
    (ss rs : Nat → List Nat) (hs : ∀ q < P, (ss q).length = rest.length + 2) (hr : ∀ p < P, (rs p).length = rest.length + 2)
    (hmpi : ∀ p < P, ∀ q < P, (recvBytes sz P (n :: evenSize m P p :: rest) (rs p) q).map (R p) =
      (sendBytes sz P (evenSize n P q :: m :: rest) (ss q) p).map (S q))
    (p q : Nat) (hp : p < P) (hq : q < P) (i j : Nat) (ks : List Nat) (hi : i < evenSize n P q) (hj : j < evenSize m P p)
    (hk : ks ∈ indices rest) :
    R p (sz * dot ((evenStart n P q + i) :: j :: ks) (rs p)) = S q (sz * dot (i :: (evenStart m P p + j) :: ks) (ss q)) := by
  have h := hmpi p hp q hq
  obtain ⟨s0, s1, st, hss⟩ : ∃ s0 s1 st, ss q = s0 :: s1 :: st := by
    have := hs q hq
    match h : ss q with
    | [] => rw [h] at this; simp at this
    | [_] => rw [h] at this; simp at this
    | a :: b :: l => exact ⟨a, b, l, rfl⟩
  obtain ⟨r0, r1, rt, hrs⟩ : ∃ s0 s1 st, rs p = s0 :: s1 :: st := by
    have := hr p hp
    match h : rs p with
    | [] => rw [h] at this; simp at this
    | [_] => rw [h] at this; simp at this
    | a :: b :: l => exact ⟨a, b, l, rfl⟩
  have l1 : rest.length = st.length := by have := hs q hq; rw [hss] at this; simpa using this.symm
  have l2 : rest.length = rt.length := by have := hr p hp; rw [hrs] at this; simpa using this.symm
  rw [hss, hrs] at h ⊢
  rw [alltoall_send _ _ _ _ _ _ _ _ l1 _ hp, alltoall_recv _ _ _ _ _ _ (by simpa using l2) (by simp)] at h
  simp only [blockOffsets, List.map_map] at h
  have := (List.map_inj_left.1 h) (i :: j :: ks) (by
    simp only [indices, List.mem_flatMap, List.mem_map, List.mem_range]
    exact ⟨i, hi, j :: ks, ⟨j, hj, ks, hk, rfl⟩, rfl⟩)
  simp only [Function.comp, dot_cons, dot_zeros, List.length_cons, List.replicate_succ] at this
  simp only [dot_cons]
  rw [Nat.add_mul, Nat.add_mul]
  refine Eq.trans (congrArg (R p) ?_) (this.trans (congrArg (S q) ?_))
  · congr 1; omega
  · congr 1; omega

/-- Sender and receiver agree on the number of elements, so no message is truncated. -/
theorem alltoall_lengths (sz P n m : Nat) (rest : List Nat) (s0 s1 r0 r1 : Nat) (st rt : List Nat) (l1 : rest.length = st.length)
    (l2 : rest.length = rt.length) (p q : Nat) (hp : p < P) :
    (recvBytes sz P (n :: evenSize m P p :: rest) (r0 :: r1 :: rt) q).length =
      (sendBytes sz P (evenSize n P q :: m :: rest) (s0 :: s1 :: st) p).length := by
  rw [alltoall_send _ _ _ _ _ _ _ _ l1 _ hp, alltoall_recv _ _ _ _ _ _ (by simpa using l2) (by simp), blockOffsets_eq, blockOffsets_eq]
  simp only [List.length_map, byteOffsets_length]

/-- The axis permutation puts the receive axis first and the send axis second, and is a permutation. -/
theorem alltoall_axes (n send recv : Nat) (hs : send < n) (hr : recv < n) (hne : send ≠ recv) (h2 : 2 ≤ send ∨ 2 ≤ recv) :
    (alltoallAxes n send recv).getD 0 0 = recv ∧ (alltoallAxes n send recv).getD 1 0 = send ∧
    (alltoallAxes n send recv).length = n ∧ (alltoallAxes n send recv).Nodup ∧ ∀ a ∈ alltoallAxes n send recv, a < n := by
  have g : ∀ k, k < n → (alltoallAxes n send recv)[k]? = some (
      if k = 0 then recv else if k = 1 then send
      else if k = recv then (if send = 0 then 1 else if send = 1 then 0 else 0)
      else if k = send then (if recv = 1 then 0 else 1) else k) := by
    intro k hk
    unfold alltoallAxes
    have gs : ∀ (l : List Nat) (i v : Nat), l.length = n → i < n → (l.set i v)[k]? = if k = i then some v else l[k]? := by
      intro l i v hl hi
      rw [List.getElem?_set]
      by_cases h : i = k
      · subst h; simp [hl, hi]
      · simp [h, Ne.symm h]
    have gd : ∀ (l : List Nat) (i v j : Nat), l.length = n → i < n → (l.set i v).getD j 0 = if j = i then v else l.getD j 0 := by
      intro l i v j hl hi
      rw [List.getD, List.getElem?_set]
      by_cases h : i = j
      · subst h; simp [hl, hi]
      · simp [h, Ne.symm h, List.getD]
    have gr : (List.range n)[k]? = some k := by simp [hk]
    have gr1 : (List.range n).getD 1 0 = 1 := by simp [List.getD, show 1 < n by omega]
    by_cases h0 : send = 0
    · subst h0
      simp only [if_true]
      rw [gs _ _ _ (by simp) (by omega), gs _ _ _ (by simp) hr, gs _ _ _ (by simp) (by omega), gs _ _ _ (by simp) (by omega), gr,
        gd _ _ _ _ (by simp) (by omega), if_pos rfl]
      repeat' split
      all_goals first | rfl | omega | (simp only [Option.some.injEq]; omega)
    · simp only [h0, if_false]
      rw [gs _ _ _ (by simp) (by omega), gs _ _ _ (by simp) hs, gs _ _ _ (by simp) hr, gs _ _ _ (by simp) (by omega), gr,
        gd _ _ _ _ (by simp) hr, gd _ _ _ _ (by simp) (by omega), gr1]
      repeat' split
      all_goals first | rfl | omega | (simp only [Option.some.injEq]; omega)
  have hlen : (alltoallAxes n send recv).length = n := by
    unfold alltoallAxes
    split <;> simp
  refine ⟨?_, ?_, hlen, ?_, ?_⟩
  · rw [List.getD, g 0 (by omega)]; rfl
  · rw [List.getD, g 1 (by omega)]; rfl
  · rw [List.Nodup, List.pairwise_iff_getElem]
    intro a b ha hb hab
    have ea := g a (by omega)
    have eb := g b (by omega)
    rw [List.getElem?_eq_getElem ha, Option.some.injEq] at ea
    rw [List.getElem?_eq_getElem hb, Option.some.injEq] at eb
    rw [ea, eb]
    repeat' split
    all_goals omega
  · intro a ha
    obtain ⟨k, hk, rfl⟩ := List.mem_iff_getElem.1 ha
    have ea := g k (by omega)
    rw [List.getElem?_eq_getElem hk, Option.some.injEq] at ea
    rw [ea]
    repeat' split
    all_goals omega

/-- Non-vacuity: a 5×3×2 array on two processes. -/
example : sendBytes 1 2 [3, 3, 2] [6, 2, 1] 0 = [0, 1, 2, 3, 6, 7, 8, 9, 12, 13, 14, 15] ∧
    recvBytes 1 2 [5, 2, 2] [4, 2, 1] 0 = [0, 1, 2, 3, 4, 5, 6, 7, 8, 9, 10, 11] := by decide +kernel
example : alltoallAxes 4 3 2 = [2, 3, 0, 1] := by decide

/-- Non-vacuity of the delivery hypothesis of `alltoall_resplits`: a 2×2 array on two processes. -/
example : ∀ p < 2, ∀ q < 2, (recvBytes 1 2 (2 :: evenSize 2 2 p :: []) [1, 1] q).map (fun b => (b, p)) =
    (sendBytes 1 2 (evenSize 2 2 q :: 2 :: []) [2, 1] p).map (fun b => (q, b)) := by decide +kernel

end Heat
