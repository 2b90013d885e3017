/-!
# Text files with separated values

A file is the list of its bytes; line feed is 10.
-/
namespace Heat.Spec

/-- Put a byte in front of the first piece. -/
def consHead (b : Nat) : List (List Nat) → List (List Nat)
  | [] => [[b]]
  | l :: ls => (b :: l) :: ls

/-- Cut at every occurrence of `x` (Python's `s.split(x)`). -/
def cutBytes (x : Nat) : List Nat → List (List Nat)
  | [] => [[]]
  | b :: t => if b = x then [] :: cutBytes x t else consHead b (cutBytes x t)

/-- The rows of a table: the non-empty lines after the header, cut at the separator. -/
def csvRows (bytes : List Nat) (header sep : Nat) : List (List (List Nat)) :=
  (((cutBytes 10 bytes).drop header).filter fun l => !l.isEmpty).map (cutBytes sep)

end Heat.Spec
