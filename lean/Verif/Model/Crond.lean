import Verif.Model.Combinators
import Verif.Model.Elements
import Verif.Model.Repeat

/-!
# The `crond` crate

Models `/repo/crond/src/{cron_expr,cron_parser,cron_evaluator,cron_environment,cron_specification,
cron_interval,cron_interval_iterator,cron_schedule,lib}.rs`.
-/

namespace OniComb.Crond
open OniComb

/-- `CronExpr`, cron_expr.rs:1-24.  The `u8` of `ValueExpr` is a `Nat`; the parser only builds numbers up
to 59 (`c36_in_range`), and no intermediate result exceeds 107, so nothing overflows. -/
inductive CronExpr where
  | noOp
  | value (n : Nat)
  | last
  | any
  | per (digit option : CronExpr)
  | range (from_ to per : CronExpr)
  | list (es : List CronExpr)
  | cron (mins hours days months dows : CronExpr)

/-! ## Parser -/

/-- `.cache()`, modelled as the identity: the grammar with its caches, `CrondCache.lean`, has the same results
(`c106_crond`). -/
def cache (p : Parser Char CronExpr) : Parser Char CronExpr := p

/-- `e as u8 - 48` for an ASCII digit. -/
def digitVal (c : Char) : Nat := c.toNat - 48

/-- `|(e1, e2)| ValueExpr((e1 as u8 - 48) * 10 + e2 as u8 - 48)`, cron_parser.rs:7 and later. -/
def pairVal (c : Char × Char) : CronExpr := .value ((digitVal c.1) * 10 + c.2.toNat - 48)

/-- `|e| ValueExpr(e as u8 - 48)`. -/
def oneVal (c : Char) : CronExpr := .value (digitVal c)

/-- `min_digit`, cron_parser.rs:5-12. -/
def minDigit : Parser Char CronExpr :=
  cache (or (or (attempt (map (andThen (elmIn '1' '5') elmDigit) pairVal))
    (attempt (map (skipLeft (elm '0') elmDigit) oneVal)))
    (map elmDigit oneVal))

/-- `hour_digit`, cron_parser.rs:14-24. -/
def hourDigit : Parser Char CronExpr :=
  cache (or (or (or (attempt (map (andThen (elm '2') (elmIn '0' '3')) pairVal))
    (attempt (map (andThen (elm '1') elmDigit) pairVal)))
    (attempt (map (skipLeft (elm '0') elmDigit) oneVal)))
    (logMap (map elmDigit oneVal) "hour_digit_4"))

/-- `day_digit`, cron_parser.rs:26-36. -/
def dayDigit : Parser Char CronExpr :=
  cache (or (or (or (attempt (map (andThen (elm '3') (elmOf ['0', '1'])) pairVal))
    (attempt (map (andThen (elmOf ['1', '2']) elmDigit) pairVal)))
    (attempt (map (skipLeft (elm '0') elmDigit19) oneVal)))
    (map elmDigit19 oneVal))

/-- `month_digit`, cron_parser.rs:38-45. -/
def monthDigit : Parser Char CronExpr :=
  cache (or (or (attempt (map (andThen (elm '1') (elmOf ['0', '1', '2'])) pairVal))
    (attempt (map (skipLeft (elm '0') elmDigit19) oneVal)))
    (map elmDigit19 oneVal))

/-- One alternative of `day_of_week_digit`. -/
def dowName (n : Nat) (s : List Char) : Parser Char CronExpr := attempt (map (tag s) fun _ => .value n)

/-- `day_of_week_digit`, cron_parser.rs:47-57. -/
def dayOfWeekDigit : Parser Char CronExpr :=
  cache (or (or (or (or (or (or (or (dowName 1 ['S', 'U', 'N']) (dowName 2 ['M', 'O', 'N']))
    (dowName 3 ['T', 'U', 'E'])) (dowName 4 ['W', 'E', 'D'])) (dowName 5 ['T', 'H', 'U']))
    (dowName 6 ['F', 'R', 'I'])) (dowName 7 ['S', 'A', 'T']))
    (map (elm 'L') fun _ => .last))

/-- `day_of_week_text`, cron_parser.rs:59-61. -/
def dayOfWeekText : Parser Char CronExpr := cache (map (elmIn '1' '7') oneVal)

/-- `asterisk`, cron_parser.rs:63-65. -/
def asterisk : Parser Char CronExpr := cache (map (elm '*') fun _ => .any)

/-- `per`, cron_parser.rs:67-69. -/
def perP (p : Parser Char CronExpr) : Parser Char CronExpr := skipLeft (elm '/') p

/-- `asterisk_per`, cron_parser.rs:71-79. -/
def asteriskPer (p : Parser Char CronExpr) : Parser Char CronExpr :=
  cache (attempt (map (andThen asterisk (perP p)) fun x => .per x.1 x.2))

/-- `range_per`, cron_parser.rs:81-86. -/
def rangePer (p : Parser Char CronExpr) : Parser Char CronExpr :=
  map (opt (perP p)) fun e =>
    match e with
    | none => .noOp
    | some s => s

/-- `list`, cron_parser.rs:88-95. -/
def listP (p : Parser Char CronExpr) : Parser Char CronExpr :=
  attempt (map (many1Sep p (elm ',')) fun es =>
    match es with
    | [e] => e
    | es => .list es)

/-- `range!`, cron_parser.rs:97-107. -/
def rangeP (x : Parser Char CronExpr) : Parser Char CronExpr :=
  attempt (map (andThen (andThen (skipRight x (elm '-')) x) (rangePer x)) fun e =>
    .range e.1.1 e.1.2 e.2)

/-- `digit_instruction!`, cron_parser.rs:109-113. -/
def digitInstruction (x : Parser Char CronExpr) : Parser Char CronExpr :=
  or (or (listP (or (rangeP x) x)) (asteriskPer x)) asterisk

/-- `instruction`, cron_parser.rs:115-129. -/
def instruction : Parser Char CronExpr :=
  map (andThen (skipRight (andThen (skipRight (andThen (skipRight (andThen
      (skipRight (digitInstruction minDigit) (elm ' ')) (digitInstruction hourDigit)) (elm ' '))
      (digitInstruction dayDigit)) (elm ' ')) (digitInstruction monthDigit)) (elm ' '))
      (digitInstruction (or dayOfWeekText dayOfWeekDigit))) fun e =>
    .cron e.1.1.1.1 e.1.1.1.2 e.1.1.2 e.1.2 e.2

/-- `CronParser::parse`, cron_parser.rs:134-138.  The error is turned into a text with `Display`
(parse_error.rs:38-67), which formats the stored fields and cannot fail. -/
def cronParse (input : List Char) : Res.Out Char CronExpr := parse (skipRight instruction end_) input

/-! ## Evaluation -/

/-- `CronEnvironment`, cron_environment.rs. -/
structure Env where
  now : Nat
  max : Nat

/-- `(start..=end).step_by(per)`: the elements; `none` is the panic of `step_by(0)`. -/
def stepBy (start stop per : Nat) : Option (List Nat) :=
  if per = 0 then none
  else some ((List.range ((stop + 1 - start + (per - 1)) / per)).map fun k => start + k * per)

mutual
/-- `CronEvaluator::visit`, cron_evaluator.rs:42-69.  `none`: panic. -/
def visit (env : Env) : CronExpr → Option Bool
  | .any => some true
  | .last => some (env.now == env.max)
  | .value n => some (env.now == n)
  | .list es => visitAny env es
  | .range (.value start) (.value stop) .noOp => some (decide (start ≤ env.now) && decide (env.now ≤ stop))
  | .range (.value start) (.value stop) (.value per) =>
    (stepBy start stop per).map fun l => l.any (· == env.now)
  | .per .any (.value per) => (stepBy 0 env.max per).map fun l => l.any (· == env.now)
  | _ => some false
/-- `list.iter().any(|e| self.visit(env, e))`, cron_evaluator.rs:47. -/
def visitAny (env : Env) : List CronExpr → Option Bool
  | [] => some false
  | e :: es =>
    match visit env e with
    | none => none
    | some true => some true
    | some false => visitAny env es
end

/-- The fields of a chrono `DateTime` in its own time zone that the evaluator reads (`Datelike`,
`Timelike`), and the day of the week (Sunday = 1), which it does not read. -/
structure DateTime where
  year : Int
  month : Nat
  day : Nat
  hour : Nat
  minute : Nat
  weekday : Nat
deriving DecidableEq, Repr

/-- `NaiveDate::from_ymd(y, m, d)` of chrono as a day number of the proleptic Gregorian calendar; `none`:
panic.  chrono is not part of the repository: its day count is represented by the well known
closed formula that counts from March, and its last supported year is the parameter `maxYear`
(262142 in chrono 0.4.38; the corresponding lower bound is left out). -/
def fromYmd (maxYear : Int) (y : Int) (m d : Nat) : Option Int :=
  if maxYear < y then none
  else
    let y' := if m ≤ 2 then y - 1 else y
    let m' : Nat := if 2 < m then m - 3 else m + 9
    some (365 * y' + y' / 4 - y' / 100 + y' / 400 + ((153 * m' + 2) / 5 + d - 1 : Nat))

/-- `get_days_from_month`, lib.rs:23-37; `none`: panic. -/
def getDaysFromMonth (maxYear : Int) (year : Int) (month : Nat) : Option Int :=
  match fromYmd maxYear (if month = 12 then year + 1 else year) (if month = 12 then 1 else month + 1) 1,
      fromYmd maxYear year month 1 with
  | some a, some b => some (a - b)
  | _, _ => none

/-- `CronEvaluator::eval`, cron_evaluator.rs:15-40 (`CronSpecification::is_satisfied_by`,
cron_specification.rs:21-25).  All five fields are visited before the conjunction. -/
def eval (maxYear : Int) (dt : DateTime) : CronExpr → Option Bool
  | .cron mins hours days months dows =>
    match getDaysFromMonth maxYear dt.year dt.month with
    | none => none
    | some lastDay =>
      match visit ⟨dt.minute, 59⟩ mins, visit ⟨dt.hour, 23⟩ hours,
          visit ⟨dt.day, lastDay.toNat⟩ days, visit ⟨dt.month, 12⟩ months,
          visit ⟨dt.minute, 7⟩ dows with
      | some a, some b, some c, some d, some e => some (a && b && c && d && e)
      | _, _, _, _, _ => none
  | _ => some false

/-! ## Schedules

A `DateTime<Tz>` is its instant, a number of nanoseconds (`Int`).  `+ Duration::minutes(1)` adds
`minuteNs`; chrono's overflow panic at the end of its range is not modelled.  The specification is an
arbitrary predicate on instants: `CronSpecification` is `eval` of the local date and time. -/

/-- One minute. -/
def minuteNs : Int := 60000000000
/-- One millisecond. -/
def milliNs : Int := 1000000

/-- `timestamp_millis` followed by `timestamp_millis_opt`, cron_interval.rs:23-26 and :47-51: the
instant rounded down to milliseconds. -/
def toMillis (t : Int) : Int := t / milliNs * milliNs

/-- `CronInterval`, cron_interval.rs:14-19, with a lower limit (`iter` panics without one).  The upper
limit is closed (`Interval::closed`).  `Interval::closed` of intervals-rs rejects `end < start`. -/
structure Interval where
  start : Int
  stop : Option Int

/-- `CronInterval::new`, cron_interval.rs:31-43. -/
def Interval.new (start : Int) (stop : Option Int) : Interval := ⟨toMillis start, stop.map toMillis⟩

/-- The mutable part of `CronIntervalIterator`, cron_interval_iterator.rs:11-16. -/
structure Iter where
  curr : Int
  next : Int
deriving DecidableEq, Repr

/-- `CronInterval::iter`, cron_interval.rs:47-51. -/
def Interval.iter (i : Interval) : Iter := ⟨i.start, i.start⟩

/-- `proceed_next`, cron_interval_iterator.rs:79-84.  The loop has no bound in the source; `fuel` bounds
the number of tests, `none` means not finished within it. -/
def proceedNext (sat : Int → Bool) : Nat → Iter → Option Iter
  | 0, _ => none
  | fuel + 1, it =>
    if sat it.curr then some it else proceedNext sat fuel ⟨it.next, it.next + minuteNs⟩

/-- `next`, cron_interval_iterator.rs:34-53. Outer `none`: not finished within the fuel. -/
def Interval.next (i : Interval) (sat : Int → Bool) (fuel : Nat) (it : Iter) :
    Option (Option Int × Iter) :=
  let it' : Iter := ⟨it.next, it.next + minuteNs⟩
  match i.stop with
  | none => (proceedNext sat fuel it').map fun it'' => (some it''.curr, it'')
  | some e =>
    if e ≥ it'.curr then (proceedNext sat fuel it').map fun it'' => (some it''.curr, it'')
    else some (none, it')

/-- The first `n` items of an iterator: `next` called `n` times, stopping at the first `None`
(`Iterator::take`). -/
def Interval.takeItems (i : Interval) (sat : Int → Bool) (fuel : Nat) : Nat → Iter → Option (List Int)
  | 0, _ => some []
  | n + 1, it =>
    match i.next sat fuel it with
    | none => none
    | some (none, _) => some []
    | some (some t, it') => (i.takeItems sat fuel n it').map (t :: ·)

/-- `CronSchedule::upcoming`, cron_schedule.rs:46-57. -/
def upcoming (start : Int) : Interval := Interval.new start none

end OniComb.Crond
