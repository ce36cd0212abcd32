import Verif.Model.Core

/-!
# Where an error is
-/

namespace OniComb
variable {I : Type}

/-- The fields `input`, `offset`, `length` of the innermost `Mismatch` or `Conversion` of an error (they are
public, parse_error.rs:10-22). -/
def PError.site : PError I → Option (List I × Nat × Nat)
  | .mismatch input offset length => some (input, offset, length)
  | .conversion input offset length => some (input, offset, length)
  | .incomplete => none
  | .expect _ inner _ => inner.site
  | .customInner _ inner _ => inner.site
  | .custom _ _ => none

/-- The offset an error displays, parse_error.rs:37-66; `Incomplete` displays none. -/
def PError.offset? : PError I → Option Nat
  | .mismatch _ offset _ => some offset
  | .conversion _ offset _ => some offset
  | .incomplete => none
  | .expect offset _ _ => some offset
  | .customInner offset _ _ => some offset
  | .custom offset _ => some offset

/-- The error and all errors inside it, outermost first. -/
def PError.layers : PError I → List (PError I)
  | .expect o inner l => .expect o inner l :: inner.layers
  | .customInner o inner l => .customInner o inner l :: inner.layers
  | e => [e]

end OniComb
