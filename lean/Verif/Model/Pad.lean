import Verif.Model.Dist
/-!
# `pad` (heat/core/manipulations.py:1427-1748)

An array that is split along an axis is a list of slabs per rank.  Padding the other axes is a function `f` on slabs (`torch.nn.functional.pad` on the local
tensor, a library call) and `z` is a slab that consists of padding only.
-/
namespace Heat
variable {σ τ : Type}

/-- `last_ps_with_data` (manipulations.py:1699-1702). -/
def padLast (P n : Nat) : Nat := if P ≥ n then n - 1 else P - 1

/-- The padded local tensor of rank `r` (manipulations.py:1642-1736) for an array of `n` slabs that is padded with `before` and `after` slabs along the split axis.
`zb` and `za`: the slab for the beginning and the one for the end. -/
def padLocal (P n before after : Nat) (f : σ → τ) (zb za : τ) (d : Nat → List σ) (r : Nat) : List τ :=
  if d r = [] then []
  else if P = 1 then List.replicate before zb ++ (d r).map f ++ List.replicate after za
  else if r = 0 then List.replicate before zb ++ (d r).map f
  else if r = padLast P n then (d r).map f ++ List.replicate after za
  else (d r).map f

/-- `pad` of an array that is split along a padded axis: local padding, `factories.array(is_split=...)`, `balance_()` (manipulations.py:1738-1748). -/
def padSplit (P before after : Nat) (f : σ → τ) (zb za : τ) (n : Nat) (d : Nat → List σ) : Except Err (Nat → List τ) :=
  let parts := padLocal P n before after f zb za d
  balance 2 (((List.range P).map fun r => (parts r).length).sum) P parts

/-- `pad` of an array that is not split, or split along an axis that is not padded (manipulations.py:1642-1672): every rank pads what it has; rank-wise nothing is added along the split axis. -/
def padOther (P : Nat) (f : σ → τ) (d : Nat → List σ) : Except Err (Nat → List τ) :=
  let parts := fun r => (d r).map f
  balance 2 (((List.range P).map fun r => (parts r).length).sum) P parts

/-- `pad` of a replicated list of slabs along the axis of the slabs (manipulations.py:1651-1672). -/
def padWhole (before after : Nat) (f : σ → τ) (zb za : τ) (l : List σ) : List τ := List.replicate before zb ++ l.map f ++ List.replicate after za

end Heat
