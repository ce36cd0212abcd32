import Verif.Model.Combinators

/-!
# The second implementation of `Parsers`

Models `ParserParsers`, `/repo/parser/src/core/parsers.rs:61-146`.  Its `successful`, `failed`, `flat_map` and
`map` (:79-107, :127-145) have the code of `ParsersImpl` (`Combinators.lean`) or call it; `parse` and
`filter` are different.
-/

namespace OniComb.ParserParsers
variable {I A : Type}

/-- `ParserParsers::parse`, parsers.rs:71-81. -/
def parse (p : Parser I A) (input : List I) : Res.Out I A :=
  match OniComb.parse p input with
  | .ok v => .ok v
  | .err _ => .err (.custom 0 (.text "Parse failed"))
  | .panic => .panic
  | .diverge => .diverge

/-- `ParserParsers::filter`, parsers.rs:109-125. -/
def filter (p : Parser I A) (f : A → Bool) : Parser I A :=
  flatMap p fun a =>
    if f a then successful a else failed (.custom 0 (.text "Filter predicate failed")) .uncommitted

end OniComb.ParserParsers
