import Verif.Model.Basic
/-!
# MPI point-to-point communication as heat uses it

Two small transition systems, parametrised by what heat does with them.  MPI itself is modelled (it is
part of the trusted base), heat's programs are inputs.

* `XStep`: a non-blocking exchange.  Every rank posts its `Isend`/`Irecv` operations in program order
  (roll: manipulations.py:2393-2404; permutation: random.py:412-419; get_halo: dndarray.py:434-452; flip:
  manipulations.py:1177-1179) and afterwards waits for all of them.  Ranks are interleaved arbitrarily
  and MPI may match any posted send with any posted receive of the same (source, destination, tag) at
  any time.  A send counts as complete only once it is matched (rendezvous), the worst case.
* `BStep`: blocking `Send`/`Recv` (`__redistribute_shuffle`, dndarray.py:1477-1522; `outer`,
  linalg/basics.py:1460-1475).  A `Send` may be buffered by MPI (`send`), in which case it returns at
  once; but MPI is free not to buffer and to let it wait for its `Recv` (`Rendezvous`).  Messages
  with the same (source, destination, tag) are delivered in order.
-/
namespace Heat

/-! ## Non-blocking exchanges -/

/-- A posted operation: `Isend(v, dst, tag)` or `Irecv(slot, src, tag)` of a rank. -/
inductive XOp (α : Type) where
  | isend (dst tag : Nat) (v : α)
  | irecv (src tag slot : Nat)
  deriving DecidableEq, Repr

/-- Status of an operation. -/
inductive XStatus where
  | unposted | posted | done
  deriving DecidableEq, Repr

/-- State of an exchange: a status for every operation and what has been stored in the receive slots
(`store rank slot`). -/
structure XState (α : Type) where
  status : Nat → XStatus
  store : Nat → Nat → Option α

/-- The program of an exchange: all operations of all ranks.  Rank `r` executes the entries `(r, _)`
in the order of the list. -/
abbrev XProg (α : Type) := List (Nat × XOp α)

/-- The send `i` and the receive `j` have the same envelope. -/
def XMatch {α : Type} (prog : XProg α) (i j : Nat) (v : α) (dst slot : Nat) : Prop :=
  ∃ src tag, prog[i]? = some (src, .isend dst tag v) ∧ prog[j]? = some (dst, .irecv src tag slot)

/-- One step of an exchange: a rank posts its next operation, or MPI completes a matching pair. -/
inductive XStep {α : Type} (prog : XProg α) : XState α → XState α → Prop where
  | post (s : XState α) (k r : Nat) (op : XOp α) (hk : prog[k]? = some (r, op))
      (hs : s.status k = .unposted)
      (hprev : ∀ i < k, ∀ op', prog[i]? = some (r, op') → s.status i ≠ .unposted) :
      XStep prog s { s with status := fun i => if i = k then .posted else s.status i }
  | complete (s : XState α) (i j : Nat) (v : α) (dst slot : Nat) (hm : XMatch prog i j v dst slot)
      (hi : s.status i = .posted) (hj : s.status j = .posted) :
      XStep prog s { status := fun k => if k = i ∨ k = j then .done else s.status k
                     store := fun a b => if a = dst ∧ b = slot then some v else s.store a b }

/-- Before anything is posted. -/
def XState.init {α : Type} : XState α := ⟨fun _ => .unposted, fun _ _ => none⟩

/-- Executions: any number of steps. -/
inductive Steps {σ : Type} (step : σ → σ → Prop) : Nat → σ → σ → Prop where
  | refl (s : σ) : Steps step 0 s s
  | tail {n : Nat} {s t u : σ} : Steps step n s t → step t u → Steps step (n + 1) s u

/-! ## Blocking transfers -/

/-- A blocking operation of a rank with local state `S`: `Send` of a message computed from the state,
or `Recv` whose message is merged into the state. -/
inductive BOp (S M : Type) where
  | send (dst tag : Nat) (msg : S → M) (after : S → S)
  | recv (src tag : Nat) (take : M → S → S)

/-- Remaining programs, local states, and messages buffered by MPI per (source, destination, tag). -/
structure BState (S M : Type) where
  prog : Nat → List (BOp S M)
  loc : Nat → S
  chan : Nat → Nat → Nat → List M

/-- Replace one value of a function on ranks. -/
def set1 {β : Type} (f : Nat → β) (i : Nat) (v : β) : Nat → β := fun j => if j = i then v else f j

/-- Replace the buffer of one envelope. -/
def setChan {M : Type} (c : Nat → Nat → Nat → List M) (s d t : Nat) (v : List M) :
    Nat → Nat → Nat → List M :=
  fun s' d' t' => if s' = s ∧ d' = d ∧ t' = t then v else c s' d' t'

/-- Steps: MPI buffers a send, or a receive takes the oldest buffered message of its envelope. -/
inductive BStep {S M : Type} : BState S M → BState S M → Prop where
  | send (st : BState S M) (r d t : Nat) (msg : S → M) (after : S → S) (rest : List (BOp S M))
      (h : st.prog r = .send d t msg after :: rest) :
      BStep st { prog := set1 st.prog r rest, loc := set1 st.loc r (after (st.loc r)),
                 chan := setChan st.chan r d t (st.chan r d t ++ [msg (st.loc r)]) }
  | recv (st : BState S M) (r s t : Nat) (take : M → S → S) (rest : List (BOp S M)) (m : M) (ms : List M)
      (h : st.prog r = .recv s t take :: rest) (hc : st.chan s r t = m :: ms) :
      BStep st { prog := set1 st.prog r rest, loc := set1 st.loc r (take m (st.loc r)),
                 chan := setChan st.chan s r t ms }

/-- A step that MPI must eventually make even if it buffers nothing: a receive of an already buffered
message, or the meeting of a `Send` with the `Recv` it waits for. -/
inductive MustStep {S M : Type} : BState S M → Prop where
  | recv (st : BState S M) (r s t : Nat) (take : M → S → S) (rest : List (BOp S M)) (m : M) (ms : List M)
      (h : st.prog r = .recv s t take :: rest) (hc : st.chan s r t = m :: ms) : MustStep st
  | meet (st : BState S M) (r d t : Nat) (msg : S → M) (after : S → S) (rest : List (BOp S M))
      (take : M → S → S) (rest' : List (BOp S M)) (h : st.prog r = .send d t msg after :: rest)
      (h' : st.prog d = .recv r t take :: rest') : MustStep st

/-- A transfer of a global schedule that every rank knows: `src` sends, `dst` receives. -/
structure Xfer (S M : Type) where
  src : Nat
  dst : Nat
  tag : Nat
  msg : S → M
  after : S → S
  take : M → S → S

/-- What rank `r` executes of a transfer (`if rank == snd_pr: Send ...; if rank == rcv_pr: Recv ...`,
dndarray.py:1502-1518). -/
def Xfer.proj {S M : Type} (r : Nat) (x : Xfer S M) : Option (BOp S M) :=
  if x.src = r then some (.send x.dst x.tag x.msg x.after)
  else if x.dst = r then some (.recv x.src x.tag x.take)
  else none

/-- All ranks run through the same list of transfers, each doing its own part. -/
def scheduleInit {S M : Type} (T : List (Xfer S M)) (loc : Nat → S) : BState S M :=
  { prog := fun r => T.filterMap (Xfer.proj r), loc := loc, chan := fun _ _ _ => [] }

/-- The effect of one transfer executed atomically. -/
def Xfer.apply {S M : Type} (loc : Nat → S) (x : Xfer S M) : Nat → S :=
  set1 (set1 loc x.src (x.after (loc x.src))) x.dst (x.take (x.msg (loc x.src)) (loc x.dst))

/-- The sequential execution of the list of transfers. -/
def runSeq {S M : Type} (T : List (Xfer S M)) (loc : Nat → S) : Nat → S := T.foldl Xfer.apply loc

end Heat
