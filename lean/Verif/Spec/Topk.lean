/-!
# The best `k` of a list
-/
namespace Heat.Spec

/-- The `k` largest (`mx`) or smallest values, best first. -/
def bestValues (mx : Bool) (k : Nat) (l : List Int) : List Int := (l.mergeSort fun a b => if mx then decide (b ≤ a) else decide (a ≤ b)).take k

/-- The entries (value, index) of `t` are elements of `l`, different ones, with their positions. -/
def EntriesOf (l : List Int) (t : List (Int × Nat)) : Prop := (∀ e ∈ t, l[e.2]? = some e.1) ∧ (t.map Prod.snd).Nodup

end Heat.Spec
