import Verif.Model.Crond
import Verif.Model.Steps

/-!
# The cron parser, its steps counted

The parsers of `Model/Crond` once more, written with the counted combinators of `Model/Steps`. `.cache()` is the identity, as in
`Model/Crond`; `Spec/CrondCacheTicks` has the caches. Line numbers are of `/repo/crond/src/cron_parser.rs`.
-/

namespace OniComb.Crond.Counting
open OniComb OniComb.Crond
open OniComb.Counted (prim unary)

/-- Two digits, `(a + b).map(..).attempt()`, :7, :16, :19, :28, :31, :40. -/
def pair (p q : Parser Char Char) : Counted Char CronExpr :=
  unary attempt (unary (fun p => map p pairVal) (.andThen (prim p) (prim q)))

/-- A digit with a leading zero, `(elm('0') * b).map(..).attempt()`, :9, :21, :33, :42. -/
def zeroed (q : Parser Char Char) : Counted Char CronExpr :=
  unary attempt (unary (fun p => map p oneVal) (.skipLeft (prim (elm '0')) (prim q)))

/-- One digit, :11, :23, :35, :44. -/
def single (q : Parser Char Char) : Counted Char CronExpr := unary (fun p => map p oneVal) (prim q)

/-- `min_digit`, cron_parser.rs:5-12. -/
def minDigit : Counted Char CronExpr := .or (.or (pair (elmIn '1' '5') elmDigit) (zeroed elmDigit)) (single elmDigit)

/-- `hour_digit`, cron_parser.rs:14-24. -/
def hourDigit : Counted Char CronExpr :=
  .or (.or (.or (pair (elm '2') (elmIn '0' '3')) (pair (elm '1') elmDigit)) (zeroed elmDigit))
    (unary (fun p => logMap p "hour_digit_4") (single elmDigit))

/-- `day_digit`, cron_parser.rs:26-36. -/
def dayDigit : Counted Char CronExpr :=
  .or (.or (.or (pair (elm '3') (elmOf ['0', '1'])) (pair (elmOf ['1', '2']) elmDigit)) (zeroed elmDigit19)) (single elmDigit19)

/-- `month_digit`, cron_parser.rs:38-45. -/
def monthDigit : Counted Char CronExpr :=
  .or (.or (pair (elm '1') (elmOf ['0', '1', '2'])) (zeroed elmDigit19)) (single elmDigit19)

/-- One alternative of `day_of_week_digit`. -/
def dowName (n : Nat) (s : List Char) : Counted Char CronExpr := unary attempt (unary (fun p => map p fun _ => .value n) (.seq s))

/-- `day_of_week_digit`, cron_parser.rs:47-57. -/
def dayOfWeekDigit : Counted Char CronExpr :=
  .or (.or (.or (.or (.or (.or (.or (dowName 1 ['S', 'U', 'N']) (dowName 2 ['M', 'O', 'N']))
    (dowName 3 ['T', 'U', 'E'])) (dowName 4 ['W', 'E', 'D'])) (dowName 5 ['T', 'H', 'U']))
    (dowName 6 ['F', 'R', 'I'])) (dowName 7 ['S', 'A', 'T']))
    (unary (fun p => map p fun _ => .last) (prim (elm 'L')))

/-- `day_of_week_text`, cron_parser.rs:59-61. -/
def dayOfWeekText : Counted Char CronExpr := single (elmIn '1' '7')

/-- `asterisk`, cron_parser.rs:63-65. -/
def asterisk : Counted Char CronExpr := unary (fun p => map p fun _ => .any) (prim (elm '*'))

/-- `per`, cron_parser.rs:67-69. -/
def perP (p : Counted Char CronExpr) : Counted Char CronExpr := .skipLeft (prim (elm '/')) p

/-- `asterisk_per`, cron_parser.rs:71-79. -/
def asteriskPer (p : Counted Char CronExpr) : Counted Char CronExpr :=
  unary attempt (unary (fun p => map p fun x => .per x.1 x.2) (.andThen asterisk (perP p)))

/-- `range_per`, cron_parser.rs:81-86. -/
def rangePer (p : Counted Char CronExpr) : Counted Char CronExpr :=
  unary (fun p => map p fun e =>
    match e with
    | none => .noOp
    | some s => s) (.opt (perP p))

/-- `list`, cron_parser.rs:88-95. -/
def listP (p : Counted Char CronExpr) : Counted Char CronExpr :=
  unary attempt (unary (fun p => map p fun es =>
    match es with
    | [e] => e
    | es => .list es) (.many1Sep p (prim (elm ','))))

/-- `range!`, cron_parser.rs:97-107. -/
def rangeP (x : Counted Char CronExpr) : Counted Char CronExpr :=
  unary attempt (unary (fun p => map p fun e => .range e.1.1 e.1.2 e.2)
    (.andThen (.andThen (.skipRight x (prim (elm '-'))) x) (rangePer x)))

/-- `digit_instruction!`, cron_parser.rs:109-113. -/
def digitInstruction (x : Counted Char CronExpr) : Counted Char CronExpr :=
  .or (.or (listP (.or (rangeP x) x)) (asteriskPer x)) asterisk

/-- `instruction`, cron_parser.rs:115-129. -/
def instruction : Counted Char CronExpr :=
  unary (fun p => map p fun e => .cron e.1.1.1.1 e.1.1.1.2 e.1.1.2 e.1.2 e.2)
    (.andThen (.skipRight (.andThen (.skipRight (.andThen (.skipRight (.andThen
      (.skipRight (digitInstruction minDigit) (prim (elm ' '))) (digitInstruction hourDigit)) (prim (elm ' ')))
      (digitInstruction dayDigit)) (prim (elm ' '))) (digitInstruction monthDigit)) (prim (elm ' ')))
      (digitInstruction (.or dayOfWeekText dayOfWeekDigit)))

/-- The parser of `CronParser::parse`, cron_parser.rs:134-138. -/
def cron : Counted Char CronExpr := .skipRight instruction (prim end_)

end OniComb.Crond.Counting
