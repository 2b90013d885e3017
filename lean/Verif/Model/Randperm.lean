import Verif.Model.Random
/-!
# Random permutations (heat/core/random.py:759-806, 388-395)

The state of the generators of one process is that of `Verif/Model/Random.lean`.  Torch's `randperm` is any function `tp` of the seed of torch's generator,
of how much has been taken from it, and of the length.
-/
namespace Heat

/-- `torch.randperm(n)` on a process in the state `s` (random.py:802). -/
def torchPerm (tp : Int → Nat → Nat → List Nat) (n : Nat) (s : RngState) : List Nat := tp s.torchSeed s.torchPos n

/-- It takes `n` numbers from torch's generator (simplification: exactly `n`; the same for all processes). -/
def permState (n : Nat) (s : RngState) : RngState := { s with torchPos := s.torchPos + n }

/-- The permutation a process works with (random.py:802-804, 392-394): its own with Threefry, that of the process 0 otherwise; `st` are the states of
all processes. -/
def agreedPerm (tp : Int → Nat → Nat → List Nat) (P n : Nat) (st : Nat → RngState) (r : Nat) : List Nat :=
  if 1 < P ∧ (st r).rng ≠ .threefry then torchPerm tp n (st 0) else torchPerm tp n (st r)

/-- `randperm(n, split)` (random.py:806): the local data of the process `r`, everything or its chunk. -/
def randperm (tp : Int → Nat → Nat → List Nat) (P n : Nat) (split : Bool) (st : Nat → RngState) (r : Nat) : List Nat :=
  if split then ((agreedPerm tp P n st r).take (chunkRange n r P).2).drop (chunkRange n r P).1 else agreedPerm tp P n st r

/-- What all processes do together: the operations of `RngOp`, and random permutations. -/
inductive PermOp where
  | base (op : RngOp)
  | perm (n : Nat)

/-- One operation on the process `rank`. -/
def permStep (rank : Nat) (s : RngState) : PermOp → RngState
  | .base op => rngStep rank s op
  | .perm n => permState n s

/-- The states of all processes after `import heat` with the seed `sd` and the operations `ops`. -/
def permHistory (sd : Int) (ops : List PermOp) (r : Nat) : RngState := ops.foldl (permStep r) (initState r sd)

/-- `randn(n, rowSize, split)` with Threefry (random.py:716-723): `k` (the Kundu transform, random.py:272-289, after the conversion of the words to numbers) of the local
numbers of `rand`. -/
def randnRank {w : Nat} {β : Type} (k : BitVec w → β) (rnd : Nat → Nat) (g : BitVec w × BitVec w → BitVec w × BitVec w) (P rank counter : Nat) (q : DrawReq) : List β × Nat :=
  ((drawRank rnd g P rank counter q).1.map k, (drawRank rnd g P rank counter q).2)

end Heat
