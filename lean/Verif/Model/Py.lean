/-! Python exceptions as values. -/

namespace SmoothRF

/-- Exception classes raised by the modelled code. Two constructors are not Python exceptions:
`debugger` means `pdb.set_trace()` was reached (inside a bare `except:`), and `nonFinite` means
numpy produced an array with an `inf` or `nan` entry (division by zero, log of zero), which exact
arithmetic cannot represent. -/
inductive PyErr
  | typeError | valueError | indexError | assertionError | nameError | unboundLocalError
  | keyError | runtimeError | attributeError | debugger | nonFinite | zeroDivisionError
  deriving DecidableEq, Repr

end SmoothRF
