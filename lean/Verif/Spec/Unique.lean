/-!
# Distinct values
-/
namespace Heat.Spec
variable {α : Type}

/-- `u` lists the values of `l`, each once. -/
def DistinctOf (l u : List α) : Prop := u.Nodup ∧ ∀ x, x ∈ u ↔ x ∈ l

/-- `inv` says where the elements of `l` are found in `u`: `u[inv] = l`. -/
def InverseOf (l u : List α) (inv : List Nat) : Prop := inv.map (fun k => u[k]?) = l.map some

end Heat.Spec
