/-!
# Python-level vocabulary

Exceptions are values.  Every model function that can raise returns `Res α`.
-/
namespace TD

/-- Exceptions raised by the modelled code.  `invalidArgument` is TensorFlow's
`InvalidArgumentError` / shape `ValueError` raised by an op whose operands do not fit
(TensorFlow 1 raises one or the other depending on whether shapes are static);
`tensorErr` is TensorD's own class (`tensorD/base/error.py:4-5`), `argumentError` is
`ctypes.ArgumentError` (imported at `tensorD/dataproc/reader.py:7`).
`nonFinite` is not an exception: TensorFlow goes on with an infinity or a NaN; the model stops there. -/
inductive PyErr where
  | valueError
  | indexError
  | typeError
  | attributeError
  | unboundLocal
  | zeroDivision
  | notImplemented
  | tensorErr
  | argumentError
  | invalidArgument
  | nonFinite
  | fileNotFound
  deriving DecidableEq, Repr

/-- Result of a call: a value or a raised exception (every function of /repo; for example `ops.py:38` raises). -/
abbrev Res (α : Type) := Except PyErr α

end TD
