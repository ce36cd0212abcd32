import Verif.Model.Repeat
import Verif.Model.Chain

/-!
# Operators and methods of `Parser`

Models the operators of `/repo/parser/src/internal/parser_impl/{add,bitor,mul_parser,sub_parser,not}_impl.rs` and the
methods of `operator_parser_impl.rs`, `repeat_parser_impl.rs` and `skip_parser_impl.rs` there that do more than call the
function of the same name with the same arguments.  (`scan_right1`, operator_parser_impl.rs:46-51, is `chain_right1`; for
`of_many_n_m`, `of_many_n_m_sep` and `of_count_sep` see `Repeat.lean`.)
-/

namespace OniComb
variable {I A B C : Type}

/-- `p + q`, add_impl.rs:13-15. -/
def opAdd (p : Parser I A) (q : Parser I B) : Parser I (A × B) := andThen p q

/-- `p | q`, bitor_impl.rs:12-14. -/
def opOr (p q : Parser I A) : Parser I A := or p q

/-- `p * q`, mul_parser_impl.rs:13-15. -/
def opMul (p : Parser I A) (q : Parser I B) : Parser I B := skipLeft p q

/-- `p - q`, sub_parser_impl.rs:13-15. -/
def opSub (p : Parser I A) (q : Parser I B) : Parser I A := skipRight p q

/-- `!p`, not_impl.rs:13-15. -/
def opNot (p : Parser I A) : Parser I Unit := not_ p

/-- `p.surround(l, r)`, parser_impl/skip_parser_impl.rs:22-32: the arguments in another order. -/
def surroundMethod (p : Parser I A) (l : Parser I B) (r : Parser I C) : Parser I A := surround l p r

/-- `empty`, primitive_parsers_impl.rs:25-27. -/
def empty : Parser I Unit := unit

/-- `begin`, extension/parsers/primitive_parsers.rs:6-8, lib.rs:58-62. -/
def begin : Parser I Unit := empty

end OniComb
