import Verif.Model.Crond
import Verif.Spec.JsonTicks

/-!
# The cron parser with a clock

The parsers of `Model/Crond` with the combinators of `Model/CacheGrammar`; the store is a clock, which is advanced by one by every
parser without parts, and for the name of a weekday by its length and one. `.cache()` is left out, see `Spec/CrondCacheTicks`. Line numbers are of
`/repo/crond/src/cron_parser.rs`.
-/

namespace OniComb.Crond.Ticking
open OniComb OniComb.Crond
open OniComb.Peg (tick optTicked)
open OniComb.Stateful (SParser)

/-- Two digits, `(a + b).map(..).attempt()`, :7, :16, :19, :28, :31, :40. -/
def pair (p q : Parser Char Char) : SParser Nat Char CronExpr :=
  Stateful.unary attempt (Stateful.unary (fun p => map p pairVal) (Stateful.andThen (tick 1 p) (tick 1 q)))

/-- A digit with a leading zero, `(elm('0') * b).map(..).attempt()`, :9, :21, :33, :42. -/
def zeroed (q : Parser Char Char) : SParser Nat Char CronExpr :=
  Stateful.unary attempt (Stateful.unary (fun p => map p oneVal) (Stateful.skipLeft (tick 1 (elm '0')) (tick 1 q)))

/-- One digit, :11, :23, :35, :44. -/
def single (q : Parser Char Char) : SParser Nat Char CronExpr := Stateful.unary (fun p => map p oneVal) (tick 1 q)

/-- `min_digit`, cron_parser.rs:5-12. -/
def minDigit : SParser Nat Char CronExpr := Stateful.or (Stateful.or (pair (elmIn '1' '5') elmDigit) (zeroed elmDigit)) (single elmDigit)

/-- `hour_digit`, cron_parser.rs:14-24. -/
def hourDigit : SParser Nat Char CronExpr :=
  Stateful.or (Stateful.or (Stateful.or (pair (elm '2') (elmIn '0' '3')) (pair (elm '1') elmDigit)) (zeroed elmDigit))
    (Stateful.unary (fun p => logMap p "hour_digit_4") (single elmDigit))

/-- `day_digit`, cron_parser.rs:26-36. -/
def dayDigit : SParser Nat Char CronExpr :=
  Stateful.or (Stateful.or (Stateful.or (pair (elm '3') (elmOf ['0', '1'])) (pair (elmOf ['1', '2']) elmDigit)) (zeroed elmDigit19)) (single elmDigit19)

/-- `month_digit`, cron_parser.rs:38-45. -/
def monthDigit : SParser Nat Char CronExpr :=
  Stateful.or (Stateful.or (pair (elm '1') (elmOf ['0', '1', '2'])) (zeroed elmDigit19)) (single elmDigit19)

/-- One alternative of `day_of_week_digit`. -/
def dowName (n : Nat) (s : List Char) : SParser Nat Char CronExpr := Stateful.unary attempt (Stateful.unary (fun p => map p fun _ => .value n) (Json.Ticking.word s))

/-- `day_of_week_digit`, cron_parser.rs:47-57. -/
def dayOfWeekDigit : SParser Nat Char CronExpr :=
  Stateful.or (Stateful.or (Stateful.or (Stateful.or (Stateful.or (Stateful.or (Stateful.or (dowName 1 ['S', 'U', 'N']) (dowName 2 ['M', 'O', 'N']))
    (dowName 3 ['T', 'U', 'E'])) (dowName 4 ['W', 'E', 'D'])) (dowName 5 ['T', 'H', 'U']))
    (dowName 6 ['F', 'R', 'I'])) (dowName 7 ['S', 'A', 'T']))
    (Stateful.unary (fun p => map p fun _ => .last) (tick 1 (elm 'L')))

/-- `day_of_week_text`, cron_parser.rs:59-61. -/
def dayOfWeekText : SParser Nat Char CronExpr := single (elmIn '1' '7')

/-- `asterisk`, cron_parser.rs:63-65. -/
def asterisk : SParser Nat Char CronExpr := Stateful.unary (fun p => map p fun _ => .any) (tick 1 (elm '*'))

/-- `per`, cron_parser.rs:67-69. -/
def perP (p : SParser Nat Char CronExpr) : SParser Nat Char CronExpr := Stateful.skipLeft (tick 1 (elm '/')) p

/-- `asterisk_per`, cron_parser.rs:71-79. -/
def asteriskPer (p : SParser Nat Char CronExpr) : SParser Nat Char CronExpr :=
  Stateful.unary attempt (Stateful.unary (fun p => map p fun x => .per x.1 x.2) (Stateful.andThen asterisk (perP p)))

/-- `range_per`, cron_parser.rs:81-86. -/
def rangePer (p : SParser Nat Char CronExpr) : SParser Nat Char CronExpr :=
  Stateful.unary (fun p => map p fun e =>
    match e with
    | none => .noOp
    | some s => s) (optTicked (perP p))

/-- `list`, cron_parser.rs:88-95. -/
def listP (p : SParser Nat Char CronExpr) : SParser Nat Char CronExpr :=
  Stateful.unary attempt (Stateful.unary (fun p => map p fun es =>
    match es with
    | [e] => e
    | es => .list es) (Stateful.repeatSep p (.from_ 1) (some (tick 1 (elm ',')))))

/-- `range!`, cron_parser.rs:97-107. -/
def rangeP (x : SParser Nat Char CronExpr) : SParser Nat Char CronExpr :=
  Stateful.unary attempt (Stateful.unary (fun p => map p fun e => .range e.1.1 e.1.2 e.2)
    (Stateful.andThen (Stateful.andThen (Stateful.skipRight x (tick 1 (elm '-'))) x) (rangePer x)))

/-- `digit_instruction!`, cron_parser.rs:109-113. -/
def digitInstruction (x : SParser Nat Char CronExpr) : SParser Nat Char CronExpr :=
  Stateful.or (Stateful.or (listP (Stateful.or (rangeP x) x)) (asteriskPer x)) asterisk

/-- `instruction`, cron_parser.rs:115-129. -/
def instruction : SParser Nat Char CronExpr :=
  Stateful.unary (fun p => map p fun e => .cron e.1.1.1.1 e.1.1.1.2 e.1.1.2 e.1.2 e.2)
    (Stateful.andThen (Stateful.skipRight (Stateful.andThen (Stateful.skipRight (Stateful.andThen (Stateful.skipRight (Stateful.andThen
      (Stateful.skipRight (digitInstruction minDigit) (tick 1 (elm ' '))) (digitInstruction hourDigit)) (tick 1 (elm ' ')))
      (digitInstruction dayDigit)) (tick 1 (elm ' '))) (digitInstruction monthDigit)) (tick 1 (elm ' ')))
      (digitInstruction (Stateful.or dayOfWeekText dayOfWeekDigit)))

/-- The parser of `CronParser::parse`, cron_parser.rs:134-138. -/
def cron : SParser Nat Char CronExpr := Stateful.skipRight instruction (tick 1 end_)

end OniComb.Crond.Ticking
