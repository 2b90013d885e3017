import Verif.Model.DerivedOp
import Verif.Props.Memory
/-!
# C204: reductions of more than COUNT_LIMIT elements

The operation given to MPI has to combine the elements at the same positions of the two blocks and must not touch anything else.
-/
namespace Heat
variable {α β : Type}

/-- Reading back what was written, and only the bytes of an element matter. -/
structure LawfulElem (ty : ElemType α β) : Prop where
  pos : 0 < ty.size
  dec_enc : ∀ v g, (∀ j, j < ty.size → g j = ty.enc v j) → ty.dec g = v
  loc : ∀ g g', (∀ j, j < ty.size → g j = g' j) → ty.dec g = ty.dec g'

/-- What MPI expects of an operation on blocks of `n` elements: the `k`-th elements are combined, and the memory behind the block stays. -/
def CombinesBlocks (ty : ElemType α β) (n : Nat) (f : α → α → α) (send recv res : Nat → β) : Prop :=
  (∀ k, k < n → byteElem ty res (ty.size * k) = f (byteElem ty send (ty.size * k)) (byteElem ty recv (ty.size * k))) ∧ ∀ q, ty.size * n ≤ q → res q = recv q

/-- The elements of the tensor lie densely: the positions of the elements are 0, 1, ..., n - 1 in some order (contiguous or transposed). -/
def DenseTensor (shape strides : List Nat) : Prop := ((List.range shape.prod).map fun i => strideDot (unrav shape i) strides).Perm (List.range shape.prod)

theorem opWrite_byte (ty : ElemType α β) (t : OpTensor) (f : α → α → α) (send recv : Nat → β) (idx : List Nat) {q : Nat} (h : q < opPosition ty t idx ∨ opPosition ty t idx + ty.size ≤ q) : opWrite ty t f send recv idx q = recv q := by
  unfold opWrite
  rw [if_neg (by omega)]

theorem opWrite_elem {ty : ElemType α β} (hl : LawfulElem ty) (t : OpTensor) (f : α → α → α) (send recv : Nat → β) (idx : List Nat) : byteElem ty (opWrite ty t f send recv idx) (opPosition ty t idx) = f (byteElem ty send (opPosition ty t idx)) (byteElem ty recv (opPosition ty t idx)) := by
  show ty.dec _ = _
  refine hl.dec_enc _ _ fun j hj => ?_
  unfold opWrite
  rw [if_pos ⟨Nat.le_add_right _ _, by omega⟩, Nat.add_sub_cancel_left]

theorem blocks_apart {e a b : Nat} (h : a ≠ b) : e * a + e ≤ e * b ∨ e * b + e ≤ e * a := by
  rcases Nat.lt_or_gt_of_ne h with h | h
  · left
    have := Nat.mul_le_mul_left e (Nat.succ_le_of_lt h)
    rw [Nat.mul_succ] at this
    exact this
  · right
    have := Nat.mul_le_mul_left e (Nat.succ_le_of_lt h)
    rw [Nat.mul_succ] at this
    exact this

/-- The loop over indices with different positions. -/
theorem opLoop {ty : ElemType α β} (hl : LawfulElem ty) (t : OpTensor) (f : α → α → α) (send : Nat → β) (idxs : List (List Nat)) (hn : (idxs.map fun i => strideDot i t.strides).Nodup) (recv : Nat → β) :
    (∀ idx ∈ idxs, byteElem ty (idxs.foldl (fun r idx => opWrite ty t f send r idx) recv) (opPosition ty t idx) = f (byteElem ty send (opPosition ty t idx)) (byteElem ty recv (opPosition ty t idx))) ∧
    (∀ q, (∀ idx ∈ idxs, q < opPosition ty t idx ∨ opPosition ty t idx + ty.size ≤ q) → idxs.foldl (fun r idx => opWrite ty t f send r idx) recv q = recv q) := by
  induction idxs generalizing recv with
  | nil => exact ⟨by simp, fun q _ => rfl⟩
  | cons x l ih =>
    rw [List.map_cons, List.nodup_cons] at hn
    obtain ⟨h1, h2⟩ := ih hn.2 (opWrite ty t f send recv x)
    have hap : ∀ y ∈ l, opPosition ty t x + ty.size ≤ opPosition ty t y ∨ opPosition ty t y + ty.size ≤ opPosition ty t x := by
      intro y hy
      have hne : strideDot x t.strides ≠ strideDot y t.strides := fun e => hn.1 (List.mem_map.mpr ⟨y, hy, e.symm⟩)
      have := blocks_apart (e := ty.size) hne
      unfold opPosition
      omega
    rw [List.foldl_cons]
    constructor
    · intro idx hi
      rcases List.mem_cons.mp hi with rfl | hi
      · rw [← opWrite_elem hl t f send recv]
        refine hl.loc _ _ fun j hj => ?_
        refine h2 _ fun y hy => ?_
        have := hap y hy
        omega
      · rw [h1 idx hi]
        congr 1
        refine hl.loc _ _ fun j hj => ?_
        refine opWrite_byte ty t f send recv x ?_
        have := hap idx hi
        omega
    · intro q hq
      rw [h2 q fun y hy => hq y (List.mem_cons_of_mem _ hy)]
      exact opWrite_byte ty t f send recv x (hq x (List.mem_cons_self ..))

theorem dense_nodup {shape strides : List Nat} (hd : DenseTensor shape strides) : ((((List.range shape.prod).map (unrav shape))).map fun i => strideDot i strides).Nodup := by
  rw [List.map_map]
  exact hd.nodup_iff.mpr List.nodup_range

/-- For every dense tensor the operation combines the elements which begin `offset` bytes behind those of the blocks. -/
theorem derivedOp_shifted {ty : ElemType α β} (hl : LawfulElem ty) {t : OpTensor} (hd : DenseTensor t.shape t.strides) (f : α → α → α) (send recv : Nat → β) :
    (∀ k, k < t.shape.prod → byteElem ty (derivedOp ty t f send recv) (t.offset + ty.size * k) = f (byteElem ty send (t.offset + ty.size * k)) (byteElem ty recv (t.offset + ty.size * k))) ∧
    ∀ q, q < t.offset ∨ t.offset + ty.size * t.shape.prod ≤ q → derivedOp ty t f send recv q = recv q := by
  obtain ⟨h1, h2⟩ := opLoop hl t f send ((List.range t.shape.prod).map (unrav t.shape)) (dense_nodup hd) recv
  constructor
  · intro k hk
    have hm : k ∈ (List.range t.shape.prod).map fun i => strideDot (unrav t.shape i) t.strides := hd.mem_iff.mpr (List.mem_range.mpr hk)
    obtain ⟨i, hi, he⟩ := List.mem_map.mp hm
    have := h1 (unrav t.shape i) (List.mem_map.mpr ⟨i, hi, rfl⟩)
    unfold opPosition at this
    rw [he] at this
    exact this
  · intro q hq
    refine h2 q fun idx hi => ?_
    obtain ⟨i, hi', rfl⟩ := List.mem_map.mp hi
    have hk : strideDot (unrav t.shape i) t.strides < t.shape.prod := List.mem_range.mp (hd.mem_iff.mp (List.mem_map.mpr ⟨i, hi', rfl⟩))
    have := Nat.mul_le_mul_left ty.size (Nat.succ_le_of_lt hk)
    rw [Nat.mul_succ] at this
    unfold opPosition
    omega

/-- For a tensor at the beginning of its storage the operation is what MPI expects (any number of elements, contiguous or transposed). -/
theorem derivedOp_partial {ty : ElemType α β} (hl : LawfulElem ty) {t : OpTensor} (hd : DenseTensor t.shape t.strides) (ho : t.offset = 0) (f : α → α → α) (send recv : Nat → β) : CombinesBlocks ty t.shape.prod f send recv (derivedOp ty t f send recv) := by
  obtain ⟨h1, h2⟩ := derivedOp_shifted hl hd f send recv
  rw [ho] at h1 h2
  simp only [Nat.zero_add] at h1 h2
  exact ⟨h1, fun q hq => h2 q (Or.inr hq)⟩

/-- False in heat: for a slice which begins at element `offset` of its storage (at least the size of an element) the first element is not combined at all. -/
theorem derivedOp_first_violated {ty : ElemType α β} (hl : LawfulElem ty) {t : OpTensor} (hd : DenseTensor t.shape t.strides) (ho : ty.size ≤ t.offset) (f : α → α → α) (send recv : Nat → β) : byteElem ty (derivedOp ty t f send recv) 0 = byteElem ty recv 0 := by
  refine hl.loc _ _ fun j hj => ?_
  exact (derivedOp_shifted hl hd f send recv).2 _ (Or.inl (by omega))

/-- False in heat: for every nonzero offset the last element which is combined reaches beyond the block, and is read and written there. -/
theorem derivedOp_outside_violated {ty : ElemType α β} (hl : LawfulElem ty) {t : OpTensor} (hd : DenseTensor t.shape t.strides) (ho : 0 < t.offset) (hn : 0 < t.shape.prod) (f : α → α → α) (send recv : Nat → β) :
    ∃ p, ty.size * t.shape.prod < p + ty.size ∧ byteElem ty (derivedOp ty t f send recv) p = f (byteElem ty send p) (byteElem ty recv p) := by
  refine ⟨t.offset + ty.size * (t.shape.prod - 1), ?_, (derivedOp_shifted hl hd f send recv).1 _ (by omega)⟩
  have : ty.size * t.shape.prod = ty.size * (t.shape.prod - 1) + ty.size := by
    rw [← Nat.mul_succ]
    congr 1
    omega
  omega

theorem dot_unrav : ∀ {sh : List Nat} {i : Nat}, i < sh.prod → strideDot (unrav sh i) (rowStrides sh) = i
  | [], i, h => by
    simp at h
    subst h
    rfl
  | n :: sh, i, h => by
    rw [List.prod_cons] at h
    have hp : 0 < sh.prod := Nat.pos_of_ne_zero fun e => by rw [e] at h; omega
    unfold unrav rowStrides
    rw [strideDot_cons, dot_unrav (Nat.mod_lt _ hp), Nat.mul_comm]
    exact Nat.div_add_mod _ _

/-- Every contiguous tensor is dense. -/
theorem row_dense (sh : List Nat) : DenseTensor sh (rowStrides sh) := by
  unfold DenseTensor
  have : (List.range sh.prod).map (fun i => strideDot (unrav sh i) (rowStrides sh)) = List.range sh.prod := by
    conv_rhs => rw [← List.map_id (List.range sh.prod)]
    exact List.map_congr_left fun i hi => dot_unrav (List.mem_range.mp hi)
  rw [this]

/-- Numbers of two bytes (base 256 digits, low byte first). -/
def twoBytes : ElemType Nat Nat := ⟨2, fun g => g 0 % 256 + 256 * (g 1 % 256), fun v j => if j = 0 then v % 256 else v / 256 % 256⟩

/-- A concrete transposed 2×3 tensor is dense, and adding one at offset 2 leaves the first element as it was. -/
example : DenseTensor [2, 3] [1, 2] ∧ byteElem twoBytes (derivedOp twoBytes ⟨[3], [1], 0⟩ (· + ·) (fun q => q) (fun _ => 1)) 2 = 2 + 256 * 3 + 257 ∧ byteElem twoBytes (derivedOp twoBytes ⟨[3], [1], 2⟩ (· + ·) (fun q => q) (fun _ => 1)) 0 = 257 := by
  refine ⟨?_, by decide, by decide⟩
  unfold DenseTensor
  decide

/-- Elements of one byte satisfy the laws. -/
example : LawfulElem (α := Nat) (β := Nat) ⟨1, fun g => g 0, fun v _ => v⟩ := ⟨by decide, fun v g h => h 0 (by decide), fun g g' h => h 0 (by decide)⟩

end Heat
