/-!
# Common definitions of the model

Python exceptions are values (`Except Err _`).  Only the exception class is kept, not the message.
-/
namespace Heat

/-- The Python exception classes raised by the modelled code. -/
inductive Err where
  | valueError
  | typeError
  | indexError
  | runtimeError
  | notImplemented
  | recursionError
  | zeroDivision
  | stopIteration
  deriving DecidableEq, Repr

deriving instance DecidableEq for Except

end Heat
