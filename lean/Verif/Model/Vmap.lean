import Verif.Model.Diag
/-!
# vmap (heat/core/vmap.py)

`torch.vmap` is modelled by its contract: slice `b` of the result along `out_dim` is the function of the slices `b` of the arguments.  `chunk_size` (a bound on the number of slices that are processed at a time) does not change this
and is not modelled, nor are randomness and keyword arguments (they are part of the function).  A function with several results is modelled as several functions.
-/
namespace Heat
variable {α β : Type}

/-- The index with coordinate `b` inserted as coordinate `s`. -/
def insAt (s b : Nat) (idx : Nat → Nat) (k : Nat) : Nat := if k < s then idx k else if k = s then b else idx (k - 1)

/-- The index without coordinate `s`. -/
def delAt (s : Nat) (idx : Nat → Nat) (k : Nat) : Nat := if k < s then idx k else idx (k + 1)

/-- `t.select(s, b)` (torch). -/
def NArr.pick (t : NArr α) (s b : Nat) : NArr α := ⟨t.ndim - 1, delAt s t.dim, fun idx => t.get (insAt s b idx)⟩

/-- Slice `b` of an argument; arguments with `in_dim` None are handed on (torch.vmap). -/
def vmapArg (b : Nat) (a : NArr α × Option Nat) : NArr α :=
  match a.2 with
  | none => a.1
  | some s => a.1.pick s b

/-- The extents of the mapped axes (torch.vmap: `_validate_and_get_batch_size`). -/
def vmapSizes (args : List (NArr α × Option Nat)) : List Nat :=
  args.filterMap fun a => a.2.map a.1.dim

/-- `torch.vmap(func, in_dims, out_dim)(*args)`: refused if no axis is mapped or if the mapped axes have different extents (ValueError) or if `out_dim` is not an axis of the result (IndexError). -/
def torchVmap (func : List (NArr α) → NArr β) (outDim : Int) (args : List (NArr α × Option Nat)) : Except Err (NArr β) :=
  match vmapSizes args with
  | [] => .error .valueError
  | B :: l =>
    if l.any fun n => n ≠ B then .error .valueError
    else
      let n := (func (args.map (vmapArg 0))).ndim + 1
      if outDim < -(n : Int) ∨ (n : Int) ≤ outDim then .error .indexError
      else
        let o := (if outDim < 0 then outDim + n else outDim).toNat
        .ok ⟨n, insAt o B (func (args.map (vmapArg 0))).dim, fun idx => (func (args.map (vmapArg (idx o)))).get (delAt o idx)⟩

/-- One process (vmap.py:81-88). -/
def vmapLocal (func : List (NArr α) → NArr β) (outDim : Int) (args : List (DND α)) (r : Nat) : Except Err (NArr β) :=
  torchVmap func outDim (args.map fun x => (x.loc r, x.split))

/-- The local results, the first error if there is one. -/
def firstError (loc : Nat → Except Err (NArr β)) : List Nat → Option Err
  | [] => none
  | r :: l => match loc r with
    | .error e => some e
    | .ok _ => firstError loc l

/-- The tensor of a process (of none that raises). -/
def okPart [Inhabited β] : Except Err (NArr β) → NArr β
  | .ok t => t
  | .error _ => ⟨0, fun _ => 0, fun _ => default⟩

/-- `vmap(func, out_dims)(*args)` for one result (vmap.py:74-105): torch's vmap on every process, then `array(is_split=out_dim)`.  If torch refuses on one process, that process raises; the others raise too or wait in the
communication of `array`: the call as a whole fails. -/
def vmapOne [Inhabited β] (P : Nat) (func : List (NArr α) → NArr β) (outDim : Int) (args : List (DND α)) : Except Err (DND β) :=
  match firstError (vmapLocal func outDim args) (List.range P) with
  | some e => .error e
  | none =>
    match sanitizeAxis (okPart (vmapLocal func outDim args 0)).ndim (some outDim) with
    | .error e => .error e
    | .ok sp => .ok ⟨isSplitShape P (fun r => okPart (vmapLocal func outDim args r)) sp, sp, fun r => okPart (vmapLocal func outDim args r), none⟩

/-- All results: one `out_dims` for all of them, or a tuple with one for each (vmap.py:90-105). -/
def vmap [Inhabited β] (P : Nat) (funcs : List (List (NArr α) → NArr β)) (outDims : Int ⊕ List Int) (args : List (DND α)) : Except Err (List (DND β)) :=
  let dims := match outDims with
    | .inl o => List.replicate funcs.length o
    | .inr l => l
  if dims.length ≠ funcs.length then .error .valueError
  else (funcs.zip dims).mapM fun fo => vmapOne P fo.1 fo.2 args

end Heat
