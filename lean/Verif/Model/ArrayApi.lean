import Verif.Model.Types
/-!
# The Array API namespace: types and indices (heat/array_api/_dtypes.py, _data_type_functions.py, _array_object.py)
-/
namespace Heat

/-- `_all_dtypes` (_dtypes.py:40-53): no `float16`. -/
def apiAll : List Dt := [.bool, .int8, .int16, .int32, .int64, .uint8, .float32, .float64, .complex64, .complex128]

/-- The names of `_dtype_categories` (_dtypes.py:113-123). -/
inductive ApiCat where
  | all | realNumeric | numeric | integer | integerOrBool | boolean | realFloating | complexFloating | floating
  deriving DecidableEq, Repr

/-- `_dtype_categories` (_dtypes.py:54-123). -/
def ApiCat.types : ApiCat → List Dt
  | .all => apiAll
  | .realNumeric => [.float32, .float64, .int8, .int16, .int32, .int64, .uint8]
  | .numeric => [.float32, .float64, .complex64, .complex128, .int8, .int16, .int32, .int64, .uint8]
  | .integer => [.int8, .int16, .int32, .int64, .uint8]
  | .integerOrBool => [.bool, .int8, .int16, .int32, .int64, .uint8]
  | .boolean => [.bool]
  | .realFloating => [.float32, .float64, .complex64, .complex128]
  | .complexFloating => [.complex64, .complex128]
  | .floating => [.float32, .float64, .complex64, .complex128]

/-- `_promotion_table` (_dtypes.py:125-207). -/
def apiTable : List ((Dt × Dt) × Dt) :=
  [((.int8, .int8), .int8), ((.int8, .int16), .int16), ((.int8, .int32), .int32), ((.int8, .int64), .int64),
   ((.int16, .int8), .int16), ((.int16, .int16), .int16), ((.int16, .int32), .int32), ((.int16, .int64), .int64),
   ((.int32, .int8), .int32), ((.int32, .int16), .int32), ((.int32, .int32), .int32), ((.int32, .int64), .int64),
   ((.int64, .int8), .int64), ((.int64, .int16), .int64), ((.int64, .int32), .int64), ((.int64, .int64), .int64),
   ((.uint8, .uint8), .uint8), ((.int8, .uint8), .int16), ((.int16, .uint8), .int16), ((.int32, .uint8), .int32), ((.int64, .uint8), .int64),
   ((.uint8, .int8), .int16), ((.uint8, .int16), .int16), ((.uint8, .int32), .int32), ((.uint8, .int64), .int64),
   ((.float32, .float32), .float32), ((.float32, .float64), .float64), ((.float64, .float32), .float64), ((.float64, .float64), .float64),
   ((.complex64, .complex64), .complex64), ((.complex128, .complex128), .complex128), ((.complex64, .complex128), .complex128), ((.complex128, .complex64), .complex128),
   ((.float32, .complex64), .complex64), ((.float32, .complex128), .complex128), ((.float64, .complex64), .complex128), ((.float64, .complex128), .complex128),
   ((.complex64, .float32), .complex64), ((.complex64, .float64), .complex128), ((.complex128, .float32), .complex128), ((.complex128, .float64), .complex128),
   ((.bool, .bool), .bool)]

/-- `_result_type` (_dtypes.py:210-213). -/
def apiResult (a b : Dt) : Except Err Dt :=
  match apiTable.find? fun e => e.1 == (a, b) with
  | some e => .ok e.2
  | none => .error .typeError

/-- The loop of `result_type` (_data_type_functions.py:176-178). -/
def apiFold (t : Dt) : List Dt → Except Err Dt
  | [] => .ok t
  | u :: l => match apiResult t u with
    | .ok v => apiFold v l
    | .error e => .error e

/-- `result_type(*arrays_and_dtypes)` (_data_type_functions.py:152-178). -/
def apiResultType (l : List Dt) : Except Err Dt :=
  if l.any fun t => !apiAll.contains t then .error .typeError
  else match l with
    | [] => .error .valueError
    | t :: l => apiFold t l

/-- `can_cast` (_data_type_functions.py:67-93). -/
def apiCanCast (frm to : Dt) : Except Err Bool :=
  if !apiAll.contains frm || !apiAll.contains to then .error .typeError
  else match apiResult frm to with
    | .ok d => .ok (to == d)
    | .error _ => .ok false

/-- The other operand of an operator: an Array with its type and number of axes, a Python scalar, or something else. -/
inductive ApiOther where
  | arr (t : Dt) (ndim : Nat)
  | bool
  | int
  | float
  | other
  deriving DecidableEq, Repr

/-- `_promote_scalar` (_array_object.py:109-132): the scalar becomes a zero-dimensional array of the type of the array. -/
def promoteScalar (t : Dt) : ApiOther → Except Err (Dt × Nat)
  | .bool => if t ∉ ApiCat.boolean.types then .error .typeError else .ok (t, 0)
  | .int => if t ∈ ApiCat.boolean.types then .error .typeError else .ok (t, 0)
  | .float => if t ∉ ApiCat.floating.types then .error .typeError else .ok (t, 0)
  | _ => .error .typeError

/-- `_check_allowed_dtypes` (_array_object.py:87-107); `none` is `NotImplemented`. -/
def apiCheck (cat : ApiCat) (t : Dt) (o : ApiOther) : Except Err (Option (Dt × Nat)) :=
  if t ∉ cat.types then .error .typeError
  else match o with
    | .other => .ok none
    | .arr u n => if u ∉ cat.types then .error .typeError else match apiResult t u with
      | .ok _ => .ok (some (u, n))
      | .error e => .error e
    | s => match promoteScalar t s with
      | .ok x => match apiResult t x.1 with
        | .ok _ => .ok (some x)
        | .error e => .error e
      | .error e => .error e

/-- `_normalize_two_args` (_array_object.py:134-154) on the numbers of axes. -/
def apiNormalize (n1 n2 : Nat) : Nat × Nat := if n1 = 0 ∧ n2 ≠ 0 then (1, n2) else if n2 = 0 ∧ n1 ≠ 0 then (n1, 1) else (n1, n2)

/-- The precedence of an array in `result_type` (types.py:986-1005). -/
def apiPrec (n : Nat) : Nat := if n = 0 then 2 else 0

/-- The type of the result of an arithmetic operator (_array_object.py:288-303 and the like): what heat's binary operations take (C25). `NotImplemented` on both sides is a TypeError. -/
def apiOperator (cat : ApiCat) (t : Dt) (n : Nat) (o : ApiOther) : Except Err Dt :=
  match apiCheck cat t o with
  | .error e => .error e
  | .ok none => .error .typeError
  | .ok (some (u, m)) => resultType [(t, apiPrec (apiNormalize n m).1), (u, apiPrec (apiNormalize n m).2)]

/-! ## Indices -/

/-- One entry of an index.  `arr own mask nd`: an array of this namespace (`own`) or a DNDarray, boolean or of integers, with `nd` axes. -/
inductive ApiKey where
  | int (i : Int)
  | slice (start stop : Option Int)
  | ellipsis
  | newaxis
  | arr (own mask : Bool) (nd : Nat)
  | bad
  deriving DecidableEq, Repr

/-- Entries that take an axis (_array_object.py:187-203). -/
def ApiKey.single : ApiKey → Bool
  | .newaxis => false
  | .ellipsis => false
  | _ => true

/-- Boolean arrays (_array_object.py:192-194). -/
def ApiKey.isMask : ApiKey → Bool
  | .arr _ mask _ => mask
  | _ => false

/-- A bound of a slice (_array_object.py:238-263). -/
def boundOk (side : Nat) : Option Int → Bool
  | none => true
  | some v => -(side : Int) ≤ v && v ≤ side

/-- The check of one entry against the extent of its axis (_array_object.py:231-275); `sole`: it is the only entry. -/
def entryOk (sole : Bool) (k : ApiKey) (side : Nat) : Bool :=
  match k with
  | .slice a b => boundOk side a && boundOk side b
  | .arr own mask nd => !own || ((!mask || sole) && (mask || nd == 0))
  | _ => true

/-- `indexed_shape` (_array_object.py:218-229). -/
def indexedShape (shape : List Nat) (key : List ApiKey) : List Nat :=
  if ApiKey.ellipsis ∈ key then
    let ne := key.filter fun k => k != .newaxis
    let start := ne.idxOf .ellipsis
    let stop : Int := shape.length - ((key.filter ApiKey.single).length - start)
    shape.take start ++ shape.drop (if stop < 0 then (stop + shape.length).toNat else stop.toNat)
  else shape

/-- `_validate_index` (_array_object.py:156-275) for a tuple of entries. -/
def validateIndex (shape : List Nat) (key : List ApiKey) : Except Err Unit :=
  let single := key.filter ApiKey.single
  if ApiKey.bad ∈ key then .error .indexError
  else if 1 < key.count .ellipsis then .ok ()
  else if ApiKey.ellipsis ∉ key ∧ single.any ApiKey.isMask = false ∧ single.length < shape.length then .error .indexError
  else if (single.zip (indexedShape shape key)).all fun p => entryOk (key.length == 1) p.1 p.2 then .ok ()
  else .error .indexError

end Heat
