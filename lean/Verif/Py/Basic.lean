/-!
# Python exceptions as values

Every modelled Python function that can raise returns `Except PyErr α`. One
constructor per exception class that the code of `/repo/rsbeams` can raise.
-/

namespace Verif

/-- Exception classes raised by the modelled code (the message is not modelled). -/
inductive PyErr where
  | assertionError
  | attributeError
  | exception        -- a bare `raise Exception(...)`
  | indexError
  | keyError
  | lookupError
  | nameError
  | notImplementedError
  | recursionError
  | structError      -- `struct.error`
  | typeError
  | valueError
  | zeroDivisionError
  | unicodeError
  | osError          -- `OSError`, such as a file that does not exist
  | notModelled      -- behaviour outside the model; no theorem concludes anything from it
  deriving DecidableEq, Repr

end Verif
