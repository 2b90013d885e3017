import Verif.Model.Dist
import Verif.Model.Float32
import Verif.Spec.Sort
/-!
# `sort` (heat/core/manipulations.py:2606-2900)

One column of the array along the sorted axis: the code treats the columns independently (`np.ndindex` loops, lines 2775, 2799, 2854; all other
statements are column-wise torch operations).  An entry is a pair of a value and the index that accompanies it.  `lt` is `torch.lt` or, for
`descending=True`, `torch.gt` (line 2736).  `srt` is `torch.sort` along the column in that direction, moving the indices along; it need not be stable.
NaN is not modelled.  Alltoall(v), Allreduce, Gatherv and Bcast are functions of all ranks' arguments.
-/
namespace Heat

/-- `V[i][j] = v`. -/
def upd2 (V : Nat → Nat → Int) (i j : Nat) (v : Int) : Nat → Nat → Int := upd V i (upd (V i) j v)

/-- `send_vec` and `current_counts` (manipulations.py:2797-2804). -/
structure SVState where
  V : Nat → Nat → Int
  cc : Nat → Int

/-- `send_vec[idx][:, j].sum()`. -/
def colSum (P : Nat) (V : Nat → Nat → Int) (j : Nat) : Int := cum (fun i => V i j) P

/-- `send_vec[idx][i].sum()`. -/
def rowSum (P : Nat) (V : Nat → Nat → Int) (i : Nat) : Int := cum (V i) P

/-- One pass of the loop over `counts[first:last]` (manipulations.py:2815-2820); the second component is `sent`. -/
def svFill (P : Nat) (counts : Nat → Int) (proc : Nat) (s : SVState × Int) (j : Nat) : SVState × Int :=
  let amount := counts j - colSum P s.1.V j
  let V := upd2 s.1.V proc j amount
  (⟨V, upd s.1.cc j (s.1.cc j + amount)⟩, cum (V proc) (j + 1))

/-- The process has too many values (manipulations.py:2806-2825).  `next` without a result raises `StopIteration`. -/
def svExcess (P : Nat) (counts part : Nat → Int) (proc : Nat) (s : SVState) : Except Err SVState :=
  match firstFrom P 0 fun i => decide (colSum P s.V i < counts i) with
  | none => .error .stopIteration
  | some first =>
    let last := (firstFrom P 0 fun i => decide (cum s.cc (proc + 1) < cum counts (i + 1))).getD P
    let t := (List.range' first (last - first)).foldl (svFill P counts proc) (s, 0)
    if last < P then
      let rest := part proc - t.2
      .ok ⟨upd2 t.1.V proc last rest, upd t.1.cc last (t.1.cc last + rest)⟩
    else .ok t.1

/-- One pass of the loop over `partition_matrix[first:last]` (manipulations.py:2836-2839). -/
def svDrain (P : Nat) (part : Nat → Int) (proc : Nat) (s : SVState) (i : Nat) : SVState :=
  ⟨upd2 s.V i proc (part i - rowSum P s.V i), upd s.cc i 0⟩

/-- `first` of the deficit branch (manipulations.py:2828-2834). -/
def svFirst (P : Nat) (counts : Nat → Int) (proc : Nat) (s : SVState) : Option Nat :=
  if proc = 0 then some 0 else firstFrom P 0 fun i => decide (cum counts proc < cum s.cc (i + 1))

/-- The process needs values from higher ranks (manipulations.py:2826-2842).  `current_cumsum[last - 1]` is the last entry if `last = 0`; it is the
cumsum from before the loop. -/
def svDeficit (P : Nat) (counts part : Nat → Int) (proc : Nat) (s : SVState) : Except Err SVState :=
  match svFirst P counts proc s, firstFrom P 0 fun i => decide (cum counts (proc + 1) ≤ cum s.cc (i + 1)) with
  | some first, some last =>
    let t := (List.range' first (last - first)).foldl (svDrain P part proc) s
    let prev := cum s.cc (if last = 0 then P else last)
    let amt := cum counts (proc + 1) - prev
    .ok ⟨upd2 t.V last proc amt, upd t.cc last (t.cc last - amt)⟩
  | _, _ => .error .stopIteration

/-- Body of the loop over `proc` (manipulations.py:2805-2849). -/
def svProc (P : Nat) (counts part : Nat → Int) (s : SVState) (proc : Nat) : Except Err SVState :=
  let r := if cum s.cc (proc + 1) > cum counts (proc + 1) then svExcess P counts part proc s
    else if cum s.cc (proc + 1) < cum counts (proc + 1) then svDeficit P counts part proc s
    else .ok ⟨upd2 s.V proc proc (part proc - rowSum P s.V proc), s.cc⟩
  match r with
  | .error e => .error e
  | .ok t => .ok ⟨t.V, upd t.cc proc (counts proc)⟩

/-- The first `k` passes of the loop over `proc` (manipulations.py:2797-2849). -/
def svLoop (P : Nat) (counts part : Nat → Int) : Nat → Except Err SVState
  | 0 => .ok ⟨fun _ _ => 0, part⟩
  | k + 1 => match svLoop P counts part k with
    | .error e => .error e
    | .ok s => svProc P counts part s k

/-- `send_vec` (manipulations.py:2797-2849). -/
def sendVec (P : Nat) (counts part : Nat → Int) : Except Err (Nat → Nat → Int) :=
  match svLoop P counts part P with
  | .error e => .error e
  | .ok s => .ok s.V

variable {κ : Type}

/-- `local_pivots` of a rank (manipulations.py:2699-2705): `size` samples of the sorted local column; none if the rank's *canonical* count is zero.
`none` stands for the IndexError of indexing an empty tensor. -/
def localPivots (P count : Nat) (l : List κ) : Option (List κ) :=
  if count ≠ 0 then ((List.range P).map (· + 1)).mapM fun x => l[x * l.length / (P + 1)]? else some []

/-- `pivot_buffer` on the root process (manipulations.py:2708-2718): the pivots of all ranks in rank order. -/
def pivotBuffer (P n : Nat) (l : Nat → List κ) : Option (List κ) :=
  ((List.range P).mapM fun r => localPivots P ((chunkRange n r P).2 - (chunkRange n r P).1) (l r)).map List.flatten

/-- `sorted_pivots[global_partitions]` (manipulations.py:2726-2730). -/
def globalPivots (P : Nat) (sorted : List κ) : Option (List κ) :=
  ((List.range (P - 1)).map (· + 1)).mapM fun x => sorted[x * sorted.length / P]?

/-- `comp_op(local_sorted, p)` as an integer for pivot number `i` (manipulations.py:2739). -/
def ltPivot (lt : κ → κ → Bool) (gp : List κ) (i : Nat) (v : κ) : Int := if gp[i]?.any (fun p => lt v p) then 1 else 0

/-- Entry of `lt_partitions[i]` for a value (manipulations.py:2734-2745). -/
def ltPartition (lt : κ → κ → Bool) (P : Nat) (gp : List κ) (i : Nat) (v : κ) : Int :=
  if i = P - 1 then 1 - ltPivot lt gp (P - 2) v
  else if i > 0 then ltPivot lt gp i v - ltPivot lt gp (i - 1) v
  else ltPivot lt gp i v

/-- `local_partitions[i]` of a rank: how many values it ships to rank `i` (manipulations.py:2748). -/
def localPartition (lt : κ → κ → Bool) (P : Nat) (gp : List κ) (l : List (κ × Nat)) (i : Nat) : Int :=
  (l.map fun x => ltPartition lt P gp i x.1).sum

/-- The piece of a buffer that `Alltoallv` ships to rank `j`: counts and running displacements (manipulations.py:2780-2781, 2859-2860). -/
def segment {β : Type} (cnt : Nat → Int) (l : List β) (j : Nat) : List β := (l.drop (cum cnt j).toNat).take (cnt j).toNat

/-- What rank `q` receives in an `Alltoallv`: the pieces in rank order of the senders. -/
def received {β : Type} (P : Nat) (cnt : Nat → Nat → Int) (l : Nat → List β) (q : Nat) : List β := (List.range P).flatMap fun p => segment (cnt p) (l p) q

/-- `actual_indices` (manipulations.py:2695): the local indices are converted to the type of the values, then the displacement of the rank in the
canonical distribution is added in that type.  `conv` is what the type makes of an index. -/
def storeIndex (conv : Nat → Nat) (j d : Nat) : Nat := conv (conv j + d)

/-- The local column with the accompanying indices (manipulations.py:2689-2695, before sorting). -/
def indexed (conv : Nat → Nat) (d : Nat) (l : List κ) : List (κ × Nat) := l.zipIdx.map fun x => (x.1, storeIndex conv x.2 d)

/-- `partition_matrix[i]` (manipulations.py:2750-2751). -/
def partitionMatrix (lt : κ → κ → Bool) (P : Nat) (gp : List κ) (l : Nat → List (κ × Nat)) (i : Nat) : Int := cum (fun r => localPartition lt P gp (l r) i) P

/-- The distributed branch after the pivots are known (manipulations.py:2734-2885).  `n` is the extent of the axis.  `second_result[...] = r_val`
raises unless the rank receives as many values as it had (line 2875; a received single value would be broadcast, but then another rank
raises, because the totals agree). -/
def sortExchange (lt : κ → κ → Bool) (srt : List (κ × Nat) → List (κ × Nat)) (P n : Nat) (gp : List κ) (l : Nat → List (κ × Nat)) :
    Except Err (Nat → List (κ × Nat)) :=
  let counts : Nat → Int := fun r => (((chunkRange n r P).2 - (chunkRange n r P).1 : Nat) : Int)
  let first := received P (fun p => localPartition lt P gp (l p)) l
  match sendVec P counts (partitionMatrix lt P gp l) with
  | .error e => .error e
  | .ok V =>
    let second := received P V fun q => srt (first q)
    if (List.range P).all fun q => decide (((second q).length : Int) = counts q) && decide ((second q).length = (l q).length)
    then .ok fun q => srt (second q) else .error .runtimeError

/-- The distributed branch (manipulations.py:2685-2885). -/
def sortDist (lt : κ → κ → Bool) (srt : List (κ × Nat) → List (κ × Nat)) (conv : Nat → Nat) (P n : Nat) (parts : Nat → List κ) :
    Except Err (Nat → List (κ × Nat)) :=
  let l := fun r => srt (indexed conv (chunkRange n r P).1 (parts r))
  match pivotBuffer P n fun r => (l r).map Prod.fst with
  | none => .error .indexError
  | some pb =>
    match globalPivots P ((srt (pb.map fun v => (v, 0))).map Prod.fst) with
    | none => .error .indexError
    | some gp => sortExchange lt srt P n gp l

/-- `sort(a, axis)` for a column of an array with `ndim` axes that is split along `split` (the column is along `axis`, which is `split` unless the code
takes the local branch; manipulations.py:2667-2685).  The sanitised axis is *not* used.  In the local branch every rank sorts its own
part. -/
def sortAlong (lt : κ → κ → Bool) (srt : List (κ × Nat) → List (κ × Nat)) (conv : Nat → Nat) (P ndim : Nat) (split : Nat) (axis : Int) (n : Nat)
    (parts : Nat → List κ) : Except Err (Nat → List (κ × Nat)) :=
  match sanitizeAxis ndim (some axis) with
  | .error e => .error e
  | .ok _ =>
    if P ≤ 1 ∨ axis ≠ (split : Int) then .ok fun r => srt ((parts r).zipIdx)
    else sortDist lt srt conv P n parts

end Heat
