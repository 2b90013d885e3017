import Verif.Model.Basic
/-!
# Model of `heat/core/types.py`: cast tables, `can_cast`, `promote_types`, `result_type`

The type classes are the constructors of `Dt`; the class attributes become tables.  Turning a Python
object (string, torch/numpy type, scalar) into its heat type (`canonical_heat_type`, `heat_type_of`)
is not modelled here except for the table of `mappings` (`Dt.codes`, `canonical`).
-/
namespace Heat

/-- The concrete heat types: the leaf classes of types.py:244-610 (without the unused `flexible`). -/
inductive Dt where
  | bool | int8 | int16 | int32 | int64 | uint8
  | float16 | float32 | float64 | complex64 | complex128
  deriving DecidableEq, Repr

/-- `__get_all_heat_types` (types.py:629-638); the order of the Python list is unspecified
(it is built from a `set`). -/
def Dt.all : List Dt :=
  [.bool, .int8, .int16, .int32, .int64, .uint8, .float16, .float32, .float64, .complex64,
   .complex128]

/-- `_can_be_cast_safely_to` (types.py:249-261, 308-318, 341-349, 373, 397, 428-438, 469-475,
498-503, 526-529, 566-569, 592-594). -/
def Dt.safe : Dt → List Dt
  | .bool => [.bool, .uint8, .int8, .int16, .int32, .int64, .float16, .float32, .float64,
      .complex64, .complex128]
  | .int8 => [.int8, .int16, .int32, .int64, .float16, .float32, .float64, .complex64, .complex128]
  | .int16 => [.int16, .int32, .int64, .float32, .float64, .complex64, .complex128]
  | .int32 => [.int32, .int64, .float64, .complex128]
  | .int64 => [.int64, .float64, .complex128]
  | .uint8 => [.uint8, .int16, .int32, .int64, .float16, .float32, .float64, .complex64, .complex128]
  | .float16 => [.float16, .float32, .float64, .complex64, .complex128]
  | .float32 => [.float32, .float64, .complex64, .complex128]
  | .float64 => [.float64, .complex128]
  | .complex64 => [.complex64, .complex128]
  | .complex128 => [.complex128]

/-- `_can_be_cast_intuitively_to` (types.py:92 default `[]`, 350, 374). -/
def Dt.intuitive : Dt → List Dt
  | .int16 => [.float16]
  | .int32 => [.float32, .complex64]
  | _ => []

/-- The size in bits read off the digits of the class name, `bool` counting 1 (types.py:955-956). -/
def Dt.bits : Dt → Nat
  | .bool => 1 | .int8 => 8 | .int16 => 16 | .int32 => 32 | .int64 => 64 | .uint8 => 8
  | .float16 => 16 | .float32 => 32 | .float64 => 64 | .complex64 => 64 | .complex128 => 128

/-- The families a concrete type may belong to: the classes `bool` (244), `integer` (287),
`floating` (456) and `complex` (555).  Every concrete type is a subclass of exactly one. -/
inductive Kind where
  | bool | integer | floating | complex
  deriving DecidableEq, Repr

/-- Which of the four families is a base class of the type (class headers in types.py:244-610). -/
def Dt.kind : Dt → Kind
  | .bool => .bool
  | .int8 | .int16 | .int32 | .int64 | .uint8 => .integer
  | .float16 | .float32 | .float64 => .floating
  | .complex64 | .complex128 => .complex

/-- `issubdtype(t, base)` (types.py:882-912) for the four family classes. -/
def issubdtype (t : Dt) (k : Kind) : Bool := t.kind == k

/-- The values of the `casting` argument (types.py:222-241); `other` is any other string. -/
inductive Casting where
  | no | unsafe' | sameKind | intuitive | safe | other
  deriving DecidableEq, Repr

/-- `can_cast` on two canonical types, i.e. `datatype.can_cast_to` (types.py:222-241, 826-840). -/
def canCast (frm to : Dt) : Casting → Except Err Bool
  | .no => .ok (to == frm)
  | .unsafe' => .ok true
  | .sameKind => .ok <| [Kind.floating, .integer, .complex, .bool].any fun k =>
      issubdtype to k && issubdtype frm k
  | .intuitive => .ok (frm.safe.contains to || frm.intuitive.contains to)
  | .safe => .ok (frm.safe.contains to)
  | .other => .error .valueError

/-- `np.argmin` restricted to the element: the first element with the smallest size. -/
def firstMin (size : Dt → Nat) : List Dt → Option Dt
  | [] => none
  | t :: ts => match firstMin size ts with
    | none => some t
    | some u => if size u < size t then some u else some t

/-- `promote_types` on canonical types (types.py:938-959): the first of the common targets, in the
order of the first argument's tables, with the fewest bits; no common target raises. -/
def promoteTypes (t1 t2 : Dt) : Except Err Dt :=
  let options1 := t1.safe ++ t1.intuitive
  let options2 := t2.safe ++ t2.intuitive
  let shared := options1.filter fun t => options2.contains t
  match firstMin Dt.bits shared with
  | none => .error .runtimeError
  | some t => .ok t

/-- An operand of `result_type` after types.py:986-1005: its type and precedence
(0 array, 1 type, 2 zero-dimensional array, 3 Python scalar). -/
abbrev Operand := Dt × Nat

/-- Position of the family in `[bool, integer, floating, complex]` (types.py:1026-1038). -/
def Kind.priority : Kind → Nat
  | .bool => 0 | .integer => 1 | .floating => 2 | .complex => 3

/-- One step of `result_type_rec` (types.py:1012-1043): combine the head operand with the result of
the rest. -/
def resultPair (a b : Operand) : Except Err Operand :=
  if a.1 = b.1 then .ok (a.1, min a.2 b.2)
  else if a.2 = b.2 then
    match promoteTypes a.1 b.1 with
    | .ok t => .ok (t, a.2)
    | .error e => .error e
  else if canCast a.1 b.1 .sameKind = .ok true then
    if a.2 < b.2 then .ok (a.1, min a.2 b.2) else .ok (b.1, min a.2 b.2)
  else if a.1.kind.priority < b.1.kind.priority then .ok (b.1, min a.2 b.2)
  else .ok (a.1, min a.2 b.2)

/-- `result_type_rec` (types.py:984-1046): recursion on the tail first.  No operand at all raises
`IndexError` (`arrays_and_types[0]` of an empty tuple). -/
def resultRec : List Operand → Except Err Operand
  | [] => .error .indexError
  | [a] => .ok a
  | a :: b :: rest => do
    let r ← resultRec (b :: rest)
    resultPair a r

/-- `result_type` (types.py:962-1048). -/
def resultType (l : List Operand) : Except Err Dt := do
  let r ← resultRec l
  pure r.1

/-- The string codes among `mappings` (types.py:262, 319, 351, 375, 398, 439, 476, 504, 530, 570,
595). -/
def Dt.codes : Dt → List String
  | .bool => ["bool_", "?"] | .int8 => ["b", "i1"] | .int16 => ["h", "i2"] | .int32 => ["i", "i4"]
  | .int64 => ["l", "i8"] | .uint8 => ["B", "u", "u1"] | .float16 => ["f2"] | .float32 => ["f", "f4"]
  | .float64 => ["d", "f8"] | .complex64 => ["F", "c8"] | .complex128 => ["D", "c16"]

/-- `char` (types.py:271-276, 328-333, 360-365, 384-389, 407-412, 448-453, 485-490, 513-518,
539-544, 579-584, 604-609). -/
def Dt.char : Dt → String
  | .bool => "u1" | .int8 => "i1" | .int16 => "i2" | .int32 => "i4" | .int64 => "i8"
  | .uint8 => "u1" | .float16 => "f2" | .float32 => "f4" | .float64 => "f8" | .complex64 => "c8"
  | .complex128 => "c16"

/-- `canonical_heat_type` of a string (types.py:645-678).  `order` is the order in which
`__get_all_heat_types` happens to list the types. -/
def canonical (order : List Dt) (s : String) : Except Err Dt :=
  match order.find? fun t => t.codes.contains s with
  | some t => .ok t
  | none => .error .typeError

end Heat
