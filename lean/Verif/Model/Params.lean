import Verif.Model.Basic
/-!
# Parameters of estimators (heat/core/base.py)

An `AttributeError` is written as `typeError`.
-/
namespace Heat

/-- Values of parameters: dictionaries, estimators, and everything else. -/
inductive PVal where
  | leaf (v : Nat)
  | dict (d : Nat)
  | est (e : Nat)
  deriving DecidableEq

/-- An estimator: the names of the parameters of its constructor (base.py:18-35) and its attributes. -/
structure PEst where
  names : List String
  attr : String → Option PVal

/-- What `get_params` of the estimators in the parameters returns. -/
abbrev SubParams := Nat → Except Err Nat

/-- One entry of `get_params` (base.py:48-54). -/
def getParam (sub : SubParams) (deep : Bool) (E : PEst) (key : String) : Except Err PVal :=
  match E.attr key with
  | none => .error .typeError
  | some (.est e) => if deep then (match sub e with | .ok d => .ok (.dict d) | .error x => .error x) else .ok (.est e)
  | some v => .ok v

/-- Name and value (base.py:54). -/
def getEntry (sub : SubParams) (deep : Bool) (E : PEst) (key : String) : Except Err (String × PVal) :=
  match getParam sub deep E key with
  | .ok v => .ok (key, v)
  | .error x => .error x

/-- `get_params(deep)` (base.py:37-55). -/
def getParams (sub : SubParams) (deep : Bool) (E : PEst) : Except Err (List (String × PVal)) := E.names.mapM (getEntry sub deep E)

/-- `setattr(self, key, value)`. -/
def setAttr (E : PEst) (key : String) (v : PVal) : PEst := { E with attr := fun k => if k = key then some v else E.attr k }

/-- One entry of `set_params` (base.py:82-91): for a dictionary, `getattr(self, key).set_params(value)` passes the dictionary as a positional argument, which `set_params(self, **params)` refuses; and whatever has no `set_params` raises as well. -/
def setParam (E : PEst) (key : String) (v : PVal) : Except Err PEst :=
  if key ∉ E.names then .error .valueError
  else match v with
    | .dict _ => .error .typeError
    | v => .ok (setAttr E key v)

/-- `set_params(**params)` (base.py:68-93): the estimator afterwards, and the error if one was raised. -/
def setParams : PEst → List (String × PVal) → PEst × Option Err
  | E, [] => (E, none)
  | E, (k, v) :: rest => match setParam E k v with
    | .error x => (E, some x)
    | .ok E' => setParams E' rest

end Heat
