import Verif.Model.Basic
/-!
# DASO: packing, chunks and unpacking (heat/optim/dp_optimizer.py:495-702)

A network is the list of its parameters in the order of `named_parameters()`: `requires_grad` and the flattened values. The reduction acts element by element and is left out here (Model/Daso has it).
-/
namespace Heat
variable {α : Type}

/-- `_gs_create_param_dict` (dp_optimizer.py:495-517): where each parameter starts in the buffer; *all* parameters are counted. -/
def dasoStarts (st : Nat) : List (Bool × List α) → List Nat
  | [] => []
  | p :: ps => st :: dasoStarts (st + p.2.length) ps

/-- `_param_send_buffer_size` (dp_optimizer.py:511-513). -/
def dasoBufferSize (ps : List (Bool × List α)) : Nat := (ps.map (fun p => p.2.length)).sum

/-- `__pack_data` (dp_optimizer.py:687-702) into the buffer of zeros of lines 630-634: only parameters that require a gradient are copied, one behind the other. -/
def dasoPack (zero : α) (ps : List (Bool × List α)) : List α :=
  let d := (ps.filter Prod.fst).flatMap Prod.snd
  d ++ List.replicate (dasoBufferSize ps - d.length) zero

/-- The sizes of the chunks (dp_optimizer.py:654-658): the remainder first. -/
def dasoChunkSizes (n split : Nat) : List Nat :=
  let num := (n + split - 1) / split
  (n - split * (num - 1)) :: List.replicate (num - 1) split

/-- Cut a buffer into chunks of the given sizes (dp_optimizer.py:663-667). -/
def dasoCut : List Nat → List α → List (List α)
  | [], _ => []
  | n :: ns, buf => buf.take n :: dasoCut ns (buf.drop n)

/-- What is sent (dp_optimizer.py:647-668): one buffer, or chunks. -/
def dasoSendChunks (split : Nat) (buf : List α) : List (List α) :=
  if buf.length ≤ split then [buf] else dasoCut (dasoChunkSizes buf.length split) buf

/-- One more chunk, if the parameter ends behind what was received (dp_optimizer.py:561-567: `if`). `prev_params[0][0]` raises an `IndexError` when nothing is left. -/
def dasoMore (stop : Nat) (got : List α) (rest : List (List α)) : Except Err (List α × List (List α)) :=
  if got.length < stop then
    match rest with
    | [] => .error .indexError
    | c :: cs => .ok (got ++ c, cs)
  else .ok (got, rest)

/-- The loop of the last batch (dp_optimizer.py:599-604: `while`). -/
def dasoMoreLoop (stop : Nat) (got : List α) : List (List α) → Except Err (List α × List (List α))
  | [] => if got.length < stop then .error .indexError else .ok (got, [])
  | c :: cs => if got.length < stop then dasoMoreLoop stop (got ++ c) cs else .ok (got, c :: cs)

/-- The loop over the parameters (dp_optimizer.py:557-573 and 596-607): the slice of the buffer has to have as many elements as the parameter (`reshape`). Frozen parameters are skipped. -/
def dasoUnpackFrom (more : Nat → List α → List (List α) → Except Err (List α × List (List α))) : List (Bool × List α) → Nat → List α → List (List α) → Except Err (List (List α))
  | [], _, _, _ => .ok []
  | p :: ps, st, got, rest =>
    if p.1 then
      match more (st + p.2.length) got rest with
      | .error e => .error e
      | .ok (got', rest') =>
        let v := (got'.drop st).take p.2.length
        if v.length ≠ p.2.length then .error .runtimeError
        else
          match dasoUnpackFrom more ps (st + p.2.length) got' rest' with
          | .error e => .error e
          | .ok vs => .ok (v :: vs)
    else
      match dasoUnpackFrom more ps (st + p.2.length) got rest with
      | .error e => .error e
      | .ok vs => .ok (p.2 :: vs)

/-- The receiver in the middle of an epoch (dp_optimizer.py:541-573). -/
def dasoUnpack (ps : List (Bool × List α)) (chunks : List (List α)) : Except Err (List (List α)) :=
  match chunks with
  | [] => .error .indexError
  | c :: cs => dasoUnpackFrom dasoMore ps 0 c cs

/-- The receiver of the last batch and of the blocking phases (dp_optimizer.py:576-607). -/
def dasoUnpackLast (ps : List (Bool × List α)) (chunks : List (List α)) : Except Err (List (List α)) :=
  match chunks with
  | [] => .error .indexError
  | c :: cs => dasoUnpackFrom dasoMoreLoop ps 0 c cs

end Heat
