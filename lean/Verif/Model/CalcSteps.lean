import Verif.Model.Calculator
import Verif.Model.Steps

/-!
# The calculator example, its steps counted

The parsers of `Model/Calculator` once more, written with the counted combinators of `Model/Steps`; the parser of the numerals
is a parameter. Line numbers are of `/repo/parser/examples/calculator.rs`.
-/

namespace OniComb.Calc.Counting
open OniComb OniComb.Calc
open OniComb.Counted (prim)

variable {D : Type}

/-- `space`, calculator.rs:38-40. -/
def space : Counted Char Unit := Counted.unary discard (.many0 (prim (elmOf " \t\r\n".toList)))

/-- `value`, calculator.rs:142-147, given the parser of its expression. -/
def value (S : Std D) (numeral : Counted Char (List Char)) : Counted Char (Expr D) :=
  Counted.unary (fun p => map p .value) (Counted.unary (fun p => mapRes p S.dec) numeral)

/-- A parenthesis with the blanks around it, calculator.rs:133 and :135. -/
def bracket (c : Char) : Counted Char ((Unit × Char) × Unit) := .andThen (.andThen space (prim (elm c))) space

/-- `primary0`, calculator.rs:131-140, given `value` and what `lazy(expr)` runs. -/
def primary0 (value expr : Counted Char (Expr D)) : Counted Char (Expr D) :=
  .or (Counted.unary (fun p => map p .parenthesized) (.surround (bracket '(') expr (bracket ')'))) value

/-- `primary`, calculator.rs:120-129, given `value` and what `lazy(primary)` and `lazy(expr)` run. -/
def primaryOf (value primary expr : Counted Char (Expr D)) : Counted Char (Expr D) :=
  .or (Counted.unary (fun p => map p fun x => Calc.unary x.1 x.2) (.andThen (.or (prim (elm '+')) (prim (elm '-'))) primary))
    (primary0 value expr)

/-- An operator with the blanks around it, calculator.rs:100 and :112. -/
def sign (c d : Char) : Counted Char Char := .skipRight (.skipLeft space (.or (prim (elm c)) (prim (elm d)))) space

/-- The operator of `multitive`, calculator.rs:100-104. -/
def mulOp : Counted Char (Expr D → Expr D → Expr D) :=
  Counted.unary (fun p => map p fun c => if c = '*' then .multiply else .divide) (sign '*' '/')

/-- The operator of `additive`, calculator.rs:112-116. -/
def addOp : Counted Char (Expr D → Expr D → Expr D) :=
  Counted.unary (fun p => map p fun c => if c = '+' then .add else .sub) (sign '+' '-')

/-- `multitive`, calculator.rs:96-106, given `primary()`. -/
def multitive (primary : Counted Char (Expr D)) : Counted Char (Expr D) := .chainLeft1 primary mulOp

/-- `additive` and `expr`, calculator.rs:42-44, 108-118, given `primary()`. -/
def additive (primary : Counted Char (Expr D)) : Counted Char (Expr D) := .chainLeft1 (multitive primary) addOp

/-- `primary`, calculator.rs:120-129, unrolled `n` times. -/
def primary (value : Counted Char (Expr D)) : Nat → Counted Char (Expr D)
  | 0 => prim diverging
  | n + 1 => primaryOf value (.lazy fun _ => primary value n) (.lazy fun _ => additive (primary value n))

/-- `calculator`, calculator.rs:162-164, unrolled `n` times, given the parser of the numerals. -/
def calculatorOf (S : Std D) (numeral : Counted Char (List Char)) (n : Nat) : Counted Char (Expr D) :=
  .skipRight (additive (primary (value S numeral) n)) (prim end_)

/-- `calculator`, calculator.rs:162-164: `regex` copies the rest of the text. -/
def calculator (S : Std D) (n : Nat) : Counted Char (Expr D) := calculatorOf S (.regex (matchNumber S)) n

/-- `calculator`, calculator.rs:162-164, with every run of `regex` counted as one step. -/
def calculatorRuns (S : Std D) (n : Nat) : Counted Char (Expr D) := calculatorOf S (prim (regex (matchNumber S))) n

end OniComb.Calc.Counting
