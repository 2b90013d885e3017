import Verif.Model.Outer
/-!
# Distance matrices: `_dist` (heat/spatial/distance.py:209-479), behind `cdist`, `rbf` and `manhattan`

Rows are elements of an arbitrary type `α` and the metric is a function `f` of two rows (the local functions of distance.py:15-108 compute every entry of a
tile from its two rows).  The local part of the result is the list of its columns, as in `Verif.Model.Outer`.  Blocking `Send` and `Recv` are those of
`Verif.Model.Mpi`; `Probe` followed by `Recv` is a `Recv` into a buffer of the right size (the number of features is not 0).  Type promotion is not modelled.
-/
namespace Heat

/-- Messages: a block of rows, or a tile of distances in row-major order. -/
inductive DMsg (α γ : Type) where
  | block (rows : List α)
  | tile (data : List γ)

/-- Local state: the rows this rank computes distances of (`x_`), the block it sends (`stationary`), the last tile (`d_ij`, row-major), the columns of
`d.larray` (`none`: this rank has raised; its messages are still part of the ring, its result is not). -/
structure DLoc (α γ : Type) where
  fix : List α
  blk : List α
  dij : List γ
  lines : Option (List (List γ))

/-- `d_ij = metric(x, y)` in memory order. -/
def flatTile {α γ : Type} (f : α → α → γ) (xs ys : List α) : List γ := xs.flatMap fun x => ys.map (f x)

/-- `d.larray[:, lo:hi] = tile` (distance.py:278, 309, 334, 353, 365, 435, 472): torch's assignment of a tile with `k` rows to the columns of a tensor with `R`
rows; one row or one column is broadcast, any other difference raises. -/
def assignTile {γ : Type} (R : Nat) (L : List (List γ)) (lo hi k : Nat) (new : List (List γ)) : Option (List (List γ)) :=
  if k = R then assignLines L lo hi new
  else if k = 1 then assignLines L lo hi (new.map fun c => c.flatMap (List.replicate R))
  else none

/-- The slice of columns that belongs to rank `q`: `displ[q]` and `displ[q + 1]` or the total (distance.py:268-273, 285-287, 313-315, 425, 443-445).
`counts_displs_shape` returns the canonical displacements. -/
def distCols (n P q : Nat) : Nat × Nat := ((chunkRange n q P).1, if q ≠ P - 1 then (chunkRange n (q + 1) P).1 else n)

/-- State of a rank after the 0th iteration (distance.py:258-278, 410-435): `d` is zeros in the canonical distribution of `m` rows and `n` columns. -/
def distStart {α γ : Type} (f : α → α → γ) (zero : γ) (m n P : Nat) (X Y : Nat → List α) (r : Nat) : DLoc α γ :=
  let R := (chunkRange m r P).2 - (chunkRange m r P).1
  { fix := X r
    blk := Y r
    dij := flatTile f (X r) (Y r)
    lines := assignTile R (List.replicate n (List.replicate R zero)) (distCols n P r).1 (distCols n P r).2 (X r).length (einsumLines f (X r) (Y r)) }

/-- Rank `r` gets the block of rank `q`, computes the tile and stores it (distance.py:290-309, 448-472). -/
def distTakeBlock {α γ : Type} (f : α → α → γ) (m n P r q : Nat) (msg : DMsg α γ) (st : DLoc α γ) : DLoc α γ :=
  match msg with
  | .block b =>
    { st with
      dij := flatTile f st.fix b
      lines := st.lines.bind fun L =>
        assignTile ((chunkRange m r P).2 - (chunkRange m r P).1) L (distCols n P q).1 (distCols n P q).2 st.fix.length (einsumLines f st.fix b) }
  | .tile _ => { st with lines := none }

/-- The rows of a tile of `a` rows and `b` columns that is stored in row-major order. -/
def tileRows {γ : Type} (a b : Nat) (data : List γ) : List (List γ) := (List.range a).map fun i => (data.drop (i * b)).take b

/-- Rank `r` gets the tile that rank `q` has computed for it into a buffer of zeros and stores the transpose (distance.py:312-334, 356-365). -/
def distTakeTile {α γ : Type} (zero : γ) (n P r q : Nat) (msg : DMsg α γ) (st : DLoc α γ) : DLoc α γ :=
  match msg with
  | .tile d =>
    let cq := (distCols n P q).2 - (distCols n P q).1
    let cr := (distCols n P r).2 - (distCols n P r).1
    { st with
      lines := if cq * cr < d.length then none
               else st.lines.bind fun L =>
                 assignTile ((chunkRange n r P).2 - (chunkRange n r P).1) L (distCols n P q).1 (distCols n P q).2 cr
                   (tileRows cq cr (d ++ List.replicate (cq * cr - d.length) zero)) }
  | .block _ => { st with lines := none }

/-- `comm.Send(stationary, …)`. -/
def distSendBlock {α γ : Type} (dst tag : Nat) : BOp (DLoc α γ) (DMsg α γ) := .send dst tag (fun st => .block st.blk) id

/-- `comm.Send(d_ij, …)`. -/
def distSendTile {α γ : Type} (dst tag : Nat) : BOp (DLoc α γ) (DMsg α γ) := .send dst tag (fun st => .tile st.dij) id

/-- Program of rank `r` for two arguments that are both split along the rows (distance.py:437-472). -/
def crossProg {α γ : Type} (f : α → α → γ) (m n P r : Nat) : List (BOp (DLoc α γ) (DMsg α γ)) :=
  if r < P then
    (List.range' 1 (P - 1)).flatMap fun i =>
      let receiver := (r + i) % P
      let sender := (r + P - i) % P
      if r / i ≠ 0 then [.recv sender i (distTakeBlock f m n P r sender), distSendBlock receiver i]
      else [distSendBlock receiver i, .recv sender i (distTakeBlock f m n P r sender)]
  else []

/-- The additional half iteration for an even number of ranks (distance.py:336-365). -/
def symHalf {α γ : Type} (f : α → α → γ) (zero : γ) (n P r : Nat) : List (BOp (DLoc α γ) (DMsg α γ)) :=
  let k := (P + 1) / 2
  let receiver := (r + k) % P
  let sender := (r + P - k) % P
  if (P + 1) % 2 ≠ 0 then
    if r < P / 2 then [.recv sender k (distTakeBlock f n n P r sender), distSendTile sender k]
    else [distSendBlock receiver k, .recv receiver k (distTakeTile zero n P r receiver)]
  else []

/-- Program of rank `r` for one argument: half of the tiles are computed, each is sent back to the rank whose block it was computed from
(distance.py:279-365). -/
def symProg {α γ : Type} (f : α → α → γ) (zero : γ) (n P r : Nat) : List (BOp (DLoc α γ) (DMsg α γ)) :=
  if r < P then
    ((List.range' 1 ((P + 1) / 2 - 1)).flatMap fun i =>
      let receiver := (r + i) % P
      let sender := (r + P - i) % P
      (if r / i ≠ 0 then [.recv sender i (distTakeBlock f n n P r sender), distSendBlock receiver i]
       else [distSendBlock receiver i, .recv sender i (distTakeBlock f n n P r sender)]) ++
      (if r / i ≠ 0 then [.recv receiver i (distTakeTile zero n P r receiver), distSendTile sender i]
       else [distSendTile sender i, .recv receiver i (distTakeTile zero n P r receiver)])) ++
    symHalf f zero n P r
  else []

/-- All ranks before the communication of `cdist(X, Y)`. -/
def crossInit {α γ : Type} (f : α → α → γ) (zero : γ) (m n P : Nat) (X Y : Nat → List α) : BState (DLoc α γ) (DMsg α γ) :=
  { prog := crossProg f m n P, loc := distStart f zero m n P X Y, chan := fun _ _ _ => [] }

/-- All ranks before the communication of `cdist(X)`. -/
def symInit {α γ : Type} (f : α → α → γ) (zero : γ) (n P : Nat) (X : Nat → List α) : BState (DLoc α γ) (DMsg α γ) :=
  { prog := symProg f zero n P, loc := distStart f zero n n P X X, chan := fun _ _ _ => [] }

/-- What `_dist(X, Y)` does for given splits (distance.py:372-479). -/
inductive DistCase where
  /-- raises `NotImplementedError` -/
  | error
  /-- `d.larray = metric(X.larray, Y.larray)`, with the split of the result -/
  | «local» (split : Option Nat)
  /-- the ring, result split along the rows -/
  | ring
  /-- nothing: `d` is returned as allocated -/
  | zeros
  deriving DecidableEq, Repr

/-- The branches of `_dist` for two arguments (distance.py:376-394 and 412-478); the second `elif X.split == 0` (475) is never reached. -/
def distCase (sx sy : Option Nat) : DistCase :=
  match sx with
  | none =>
    match sy with
    | none => .local none
    | some 0 => .local (some 1)
    | some _ => .error
  | some 0 =>
    match sy with
    | none => .local (some 0)
    | some 0 => .ring
    | some _ => .zeros
  | some _ => .error

end Heat
