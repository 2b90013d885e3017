import Verif.Model.Reshape
/-!
# flip and rot90 of n-dimensional arrays (heat/core/manipulations.py:1121-1184, 2495-2581)

The local `torch.flip`, `torch.rot90` and `permute` are library functions, modelled by what they do to shape and elements.  The
messages of `flip` (one exchange with the mirrored process) are the subject of C39 and C48; here only their effect is used.  The `balanced`
attribute of results of `factories.array(is_split=...)` is left open.
-/
namespace Heat
variable {α : Type}

/-- `torch.flip(tensor, axes)`. -/
def NArr.flip (a : NArr α) (axes : List Nat) : NArr α :=
  ⟨a.ndim, a.dim, fun idx => a.get fun k => if k ∈ axes then a.dim k - 1 - idx k else idx k⟩

/-- `torch.rot90(tensor, k, [i, j])` (ATen: `k % 4`, then one flip and one transposition, or two flips). -/
def NArr.rot90 (a : NArr α) (k : Int) (i j : Nat) : NArr α :=
  if k % 4 = 1 then (a.flip [j]).permute (swapOrder a.ndim i j)
  else if k % 4 = 2 then a.flip [i, j]
  else if k % 4 = 3 then (a.flip [i]).permute (swapOrder a.ndim i j)
  else a

/-- `x.balance_()` of an array split along `s` (heat/core/dndarray.py, C09): every process obtains its canonical chunk. -/
def balanceND (P : Nat) (x : DND α) (s : Nat) : DND α :=
  let w := resplitNone P x
  let n := x.gshape.getD s 0
  ⟨x.gshape, some s, fun r => (w.loc r).slice s (chunkRange n r P).1 ((chunkRange n r P).2 - (chunkRange n r P).1), some true⟩

/-- `flip(a, axis)` for an int, list or tuple (manipulations.py:1160-1184).  A 0-d array has no axes: `sanitize_axis` returns `None`, which
`torch.flip` rejects (TypeError); repeated axes are rejected by torch (RuntimeError). -/
def flipND (P : Nat) (x : DND α) (axes : List Int) : Except Err (DND α) :=
  match sanitizeAxes x.gshape.length axes with
  | .error e => .error e
  | .ok none => .error .typeError
  | .ok (some l) =>
    if ¬ l.Nodup then .error .runtimeError
    else
      match x.split with
      | none => .ok ⟨x.gshape, none, fun r => (x.loc r).flip l, none⟩
      | some s =>
        if P ≤ 1 ∨ s ∉ l then .ok ⟨x.gshape, some s, fun r => (x.loc r).flip l, none⟩
        else .ok (balanceND P ⟨x.gshape, some s, fun r => (x.loc (P - 1 - r)).flip l, none⟩ s)

/-- `flip(a)` without axis (manipulations.py:1151-1152): all axes. -/
def flipAll (P : Nat) (x : DND α) : Except Err (DND α) :=
  flipND P x ((List.range x.gshape.length).map Int.ofNat)

/-- `rot90(m, k, axes)` (manipulations.py:2542-2581). -/
def rot90 (P : Nat) (x : DND α) (k : Int) (axes : List Int) : Except Err (DND α) :=
  let n : Nat := x.gshape.length
  match axes with
  | [a, b] =>
    if a = b ∨ ((a - b).natAbs : Int) = n then .error .valueError
    else if a ≥ n ∨ a < -(n : Int) ∨ b ≥ n ∨ b < -(n : Int) then .error .valueError
    else
      match x.split with
      | none => .ok ⟨((x.loc 0).rot90 k (a % n).toNat (b % n).toNat).shape, none, fun r => (x.loc r).rot90 k (a % n).toNat (b % n).toNat, some true⟩
      | some _ =>
        let k := k % 4
        if k = 0 then .ok x
        else if k = 2 then
          match flipND P x [a] with
          | .error e => .error e
          | .ok y => flipND P y [b]
        else
          match pyIndex n a, pyIndex n b with
          | .ok i, .ok j =>
            let order := (swapOrder n i j).map Int.ofNat
            if k = 1 then
              match flipND P x [b] with
              | .error e => .error e
              | .ok y => transpose y (some order)
            else
              match transpose x (some order) with
              | .error e => .error e
              | .ok y => flipND P y [b]
          | .error e, _ => .error e
          | _, .error e => .error e
  | _ => .error .valueError

end Heat
