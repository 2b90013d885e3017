import Verif.Model.Dist
/-!
# Model of `__reduce_op` and `__cum_op` (heat/core/_operations.py:234-335, 415-545)

A slab is a value of an arbitrary type; the element-wise operator on slabs is an arbitrary binary operation.
-/
namespace Heat
variable {α M : Type}

/-- The values `MPI_Allreduce`/`MPI_Reduce` may deliver for the contributions `l` with a commutative operator: MPI is free to
choose any order and any bracketing (MPI standard, 6.9.1). -/
inductive Combine (op : M → M → M) : List M → M → Prop
  | one (x : M) : Combine op [x] x
  | node {l₁ l₂ l : List M} {a b : M} : Combine op l₁ a → Combine op l₂ b → l.Perm (l₁ ++ l₂) → Combine op l (op a b)

/-- The partial result of one rank (heat/core/_operations.py:462-478, 491): the local reduction, or, on a rank
without data, the reduction of one slab filled with `neutral`.  `f` is the element map applied before the reduction
(`t != 0` for `any`/`all`, heat/core/logical.py:93, 213; the identity otherwise). -/
def localPartial (op : M → M → M) (f : α → M) (neutral : α) : List α → M
  | [] => f neutral
  | x :: xs => (xs.map f).foldl op (f x)

/-- `v` is a possible result of the reduction along the split axis (heat/core/_operations.py:505-510). -/
def ReduceResult (op : M → M → M) (f : α → M) (neutral : α) (P : Nat) (d : Nat → List α) (v : M) : Prop :=
  Combine op ((List.range P).map fun r => localPartial op f neutral (d r)) v

/-- Running totals of a local chunk, continuing from `acc`. -/
def scanFrom (op : M → M → M) (acc : M) : List M → List M
  | [] => []
  | x :: xs => op acc x :: scanFrom op (op acc x) xs

/-- `torch.cumsum` / `torch.cumprod` of a local chunk (heat/core/_operations.py:297-302). -/
def cumLocal (op : M → M → M) : List M → List M
  | [] => []
  | x :: xs => x :: scanFrom op x xs

/-- The value a rank contributes to the exclusive scan: its last running total, or `neutral` if it has no data
(heat/core/_operations.py:305-315). -/
def cumSend (op : M → M → M) (neutral : M) (l : List M) : M := ((cumLocal op l).getLast?).getD neutral

/-- `recv` on rank `r` after `Exscan` (heat/core/_operations.py:316-323): any bracketing of the contributions of the lower
ranks; on rank 0 the buffer is not touched and keeps `neutral`. -/
def CumRecv (op : M → M → M) (neutral : M) (d : Nat → List M) (r : Nat) (v : M) : Prop :=
  if r = 0 then v = neutral else Combine op ((List.range r).map fun q => cumSend op neutral (d q)) v

/-- The local result (heat/core/_operations.py:324): `final_op(cumop, recv)`. -/
def cumResult (op : M → M → M) (l : List M) (recv : M) : List M := (cumLocal op l).map fun x => op x recv

/-! ## Metadata of the result -/

/-- `shape[:dim] + (1,) + shape[dim+1:]` for all reduced dimensions. -/
def onesAt (shape : List Nat) (axes : List Nat) : List Nat := axes.foldl (fun s dim => s.set dim 1) shape

/-- `tuple(shape[dim] for dim in range(len(shape)) if dim not in axis)` -/
def loseDims (shape : List Nat) (axes : List Nat) : List Nat :=
  ((List.range shape.length).filter fun dim => dim ∉ axes).map fun dim => shape.getD dim 0

/-- Result metadata. -/
structure RedMeta where
  gshape : List Nat
  lshape : List Nat
  split : Option Nat
  deriving DecidableEq, Repr

/-- The shape bookkeeping of `__reduce_op` on one rank (heat/core/_operations.py:454-514) for operators that reduce with
`keepdim=True` (all but argmin/argmax/topk).  `axis` is sanitized; `none` = Python's None. -/
def reduceMeta (distributed : Bool) (gshape lshape : List Nat) (split : Option Nat) (axis : Option (List Nat))
    (keepdims : Bool) : RedMeta :=
  let splitIn (ax : List Nat) : Bool := match split with | none => false | some s => decide (s ∈ ax)
  match axis with
  | none => ⟨[], [], none⟩                       -- lines 477-484, 505-508
  | some ax =>
    -- lines 463-474
    let partial0 := if distributed && lshape.contains 0 && splitIn ax then
        match split with | none => lshape | some s => gshape.set s 1
      else lshape
    -- lines 486-492
    let part := onesAt partial0 ax
    let out := onesAt gshape ax
    -- lines 493-503
    let (out, part) :=
      if !keepdims && part.length ≠ 1 then
        let l := loseDims lshape ax
        (loseDims gshape ax, if l.length > 0 then l else part)
      else (out, part)
    -- lines 505-514
    let sp := match split with
      | none => none
      | some s => if splitIn ax then none
                  else if !keepdims then some (s - (ax.filter fun dim => dim < s).length) else some s
    ⟨out, part, sp⟩

end Heat
