import Verif.Model.Calculator
import Verif.Spec.JsonTicks

/-!
# The calculator example with a clock

The parsers of `Model/Calculator` with the combinators of `Model/CacheGrammar`; the store is a clock, which is advanced by one by
every parser without parts and every run of `lazy(..)`, and by `regex` also for every character that it copies. Line numbers are
of `/repo/parser/examples/calculator.rs`.
-/

namespace OniComb.Calc.Ticking
open OniComb OniComb.Calc OniComb.Stateful
open OniComb.Peg (tick)

variable {D : Type}

/-- `regex`, elements_parsers_impl.rs:83-107: the clock is advanced by one, and for every character of the rest of the text. -/
def copying (m : List Char → Option Nat) : SParser Nat Char (List Char) := fun s =>
  .bind (tick 1 unit s) fun _ => tick (s.input.drop s.offset).length (regex m) s

/-- `lazy`, lazy_parsers_impl.rs:5-22: the clock is advanced by one. -/
def later {A : Type} (p : SParser Nat Char A) : SParser Nat Char A := fun s => .bind (tick 1 unit s) fun _ => p s

/-- `space`, calculator.rs:38-40. -/
def space : SParser Nat Char Unit := Stateful.unary discard (Json.Ticking.many0 (tick 1 (elmOf " \t\r\n".toList)))

/-- `value`, calculator.rs:142-147. -/
def value (S : Std D) : SParser Nat Char (Expr D) :=
  Stateful.unary (fun p => map p .value) (Stateful.unary (fun p => mapRes p S.dec) (copying (matchNumber S)))

/-- A parenthesis with the blanks around it, calculator.rs:133 and :135. -/
def bracket (c : Char) : SParser Nat Char ((Unit × Char) × Unit) :=
  Stateful.andThen (Stateful.andThen space (tick 1 (elm c))) space

/-- `primary0`, calculator.rs:131-140. -/
def primary0 (S : Std D) (expr : SParser Nat Char (Expr D)) : SParser Nat Char (Expr D) :=
  Stateful.or (Stateful.unary (fun p => map p .parenthesized) (Stateful.surround (bracket '(') expr (bracket ')'))) (value S)

/-- `primary`, calculator.rs:120-129. -/
def primaryOf (S : Std D) (primary expr : SParser Nat Char (Expr D)) : SParser Nat Char (Expr D) :=
  Stateful.or (Stateful.unary (fun p => map p fun x => Calc.unary x.1 x.2)
    (Stateful.andThen (Stateful.or (tick 1 (elm '+')) (tick 1 (elm '-'))) primary)) (primary0 S expr)

/-- An operator with the blanks around it, calculator.rs:100 and :112. -/
def sign (c d : Char) : SParser Nat Char Char :=
  Stateful.skipRight (Stateful.skipLeft space (Stateful.or (tick 1 (elm c)) (tick 1 (elm d)))) space

/-- `multitive`, calculator.rs:96-106. -/
def multitive (primary : SParser Nat Char (Expr D)) : SParser Nat Char (Expr D) :=
  Stateful.chainLeft1 primary (Stateful.unary (fun p => map p fun c => if c = '*' then .multiply else .divide) (sign '*' '/'))

/-- `additive` and `expr`, calculator.rs:42-44, 108-118. -/
def additive (primary : SParser Nat Char (Expr D)) : SParser Nat Char (Expr D) :=
  Stateful.chainLeft1 (multitive primary) (Stateful.unary (fun p => map p fun c => if c = '+' then .add else .sub) (sign '+' '-'))

/-- `primary`, calculator.rs:120-129, unrolled `n` times. -/
def primary (S : Std D) : Nat → SParser Nat Char (Expr D)
  | 0 => tick 1 diverging
  | n + 1 => primaryOf S (later (primary S n)) (later (additive (primary S n)))

/-- `calculator`, calculator.rs:162-164, unrolled `n` times. -/
def calculator (S : Std D) (n : Nat) : SParser Nat Char (Expr D) :=
  Stateful.skipRight (additive (primary S n)) (tick 1 end_)

end OniComb.Calc.Ticking
