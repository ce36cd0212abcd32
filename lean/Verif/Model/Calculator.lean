import Verif.Model.Combinators
import Verif.Model.Elements
import Verif.Model.Repeat
import Verif.Model.Chain

/-!
# The calculator example

`/repo/parser/examples/calculator.rs`.
-/

namespace OniComb.Calc

/-- What the program takes from outside: the `\d` of the `regex` crate beyond ASCII (it stands for all
decimal digits of Unicode) and `rust_decimal`.  An arithmetic operation of `Decimal` panics on overflow and
on division by zero; that is `none`. -/
structure Std (D : Type) where
  /-- decimal digits outside ASCII -/
  digit : Char → Bool
  /-- `Decimal::from_str` -/
  dec : List Char → Option D
  add : D → D → Option D
  sub : D → D → Option D
  mul : D → D → Option D
  div : D → D → Option D
  /-- `Decimal::from(-1)` -/
  minusOne : D

/-- `Expr`, calculator.rs:8-18. -/
inductive Expr (D : Type) where
  | value (d : D)
  | add (l r : Expr D)
  | sub (l r : Expr D)
  | plus (e : Expr D)
  | minus (e : Expr D)
  | multiply (l r : Expr D)
  | divide (l r : Expr D)
  | parenthesized (e : Expr D)

variable {D : Type} (S : Std D)

/-- `\d` of the `regex` crate. -/
def isDigit (c : Char) : Bool := if c.toNat < 128 then Chr.isDigit c else S.digit c

/-- The match of `^\d+([.]\d+)?` at the start of a text, calculator.rs:143: as many digits as possible, then
if possible a dot and as many digits as possible. -/
def matchNumber (t : List Char) : Option Nat :=
  let n := (t.takeWhile (isDigit S)).length
  if n = 0 then none
  else
    match t.drop n with
    | '.' :: r =>
      let m := (r.takeWhile (isDigit S)).length
      if m = 0 then some n else some (n + 1 + m)
    | _ => some n

/-- `space`, calculator.rs:38-40. -/
def space : Parser Char Unit := discard (many0 (elmOf " \t\r\n".toList))

/-- `value`, calculator.rs:142-147. -/
def value : Parser Char (Expr D) := map (mapRes (regex (matchNumber S)) S.dec) .value

/-- `primary0`, calculator.rs:131-140; `expr` is what `lazy(expr)` runs. -/
def primary0 (expr : Parser Char (Expr D)) : Parser Char (Expr D) :=
  or (map (surround (andThen (andThen space (elm '(')) space) expr (andThen (andThen space (elm ')')) space))
    .parenthesized) (value S)

/-- The constructors chosen by the sign, calculator.rs:122-127.  The `_ => panic!()` branch is never taken,
the parser returns `'+'` or `'-'`. -/
def unary (c : Char) (e : Expr D) : Expr D := if c = '-' then .minus e else .plus e

/-- `primary`, calculator.rs:120-129; `primary` and `expr` are what `lazy(primary)` and `lazy(expr)` run. -/
def primaryOf (primary expr : Parser Char (Expr D)) : Parser Char (Expr D) :=
  or (map (andThen (or (elm '+') (elm '-')) primary) fun x => unary x.1 x.2) (primary0 S expr)

/-- The operator of `multitive`, calculator.rs:100-104 (the `_ => panic!(…)` branch is never taken). -/
def mulOp : Parser Char (Expr D → Expr D → Expr D) :=
  map (skipRight (skipLeft space (or (elm '*') (elm '/'))) space)
    fun c => if c = '*' then .multiply else .divide

/-- The operator of `additive`, calculator.rs:112-116 (the `_ => panic!(…)` branch is never taken). -/
def addOp : Parser Char (Expr D → Expr D → Expr D) :=
  map (skipRight (skipLeft space (or (elm '+') (elm '-'))) space)
    fun c => if c = '+' then .add else .sub

/-- `multitive`, calculator.rs:96-106, given `primary()`. -/
def multitive (primary : Parser Char (Expr D)) : Parser Char (Expr D) := chainLeft1 primary mulOp

/-- `additive` and `expr`, calculator.rs:42-44, 108-118, given `primary()`. -/
def additive (primary : Parser Char (Expr D)) : Parser Char (Expr D) := chainLeft1 (multitive primary) addOp

/-- One unrolling of `primary`. -/
def primaryStep (primary : Parser Char (Expr D)) : Parser Char (Expr D) :=
  primaryOf S primary (lazy fun _ => additive primary)

/-- `calculator`, calculator.rs:162-164, unrolled `n` times. -/
def calculator (n : Nat) : Parser Char (Expr D) := skipRight (additive (fixN (primaryStep S) n)) end_

/-- `eval`, calculator.rs:149-160; `none` is a panic. -/
def eval : Expr D → Option D
  | .value d => some d
  | .add l r => do S.add (← eval l) (← eval r)
  | .sub l r => do S.sub (← eval l) (← eval r)
  | .multiply l r => do S.mul (← eval l) (← eval r)
  | .divide l r => do S.div (← eval l) (← eval r)
  | .minus e => do S.mul (← eval e) S.minusOne
  | .plus e => eval e
  | .parenthesized e => eval e

end OniComb.Calc
