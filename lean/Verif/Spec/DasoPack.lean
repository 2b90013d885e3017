/-!
# What a parameter exchange has to deliver

A network is a list of parameters: whether it is trained, and its values.
-/
namespace Heat

/-- The same parameters with other values. -/
def SameNetwork {α : Type} (ps qs : List (Bool × List α)) : Prop := ps.map (fun p => (p.1, p.2.length)) = qs.map (fun p => (p.1, p.2.length))

/-- Every trained parameter of `ps` gets the values of the parameter of `qs` at the same place; the others keep theirs. -/
def delivered {α : Type} (ps qs : List (Bool × List α)) : List (List α) := List.zipWith (fun p q => if p.1 then q.2 else p.2) ps qs

end Heat
