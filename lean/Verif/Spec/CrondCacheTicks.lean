import Verif.Model.CrondCache
import Verif.Spec.CacheTicks
import Verif.Spec.CrondTicks

/-!
# The cron parser with its caches and a clock

`Model/CrondCache` once more, with the clock of `Spec/CacheTicks`; the parts below the caches are those of `Spec/CrondTicks`. Line
numbers are of `/repo/crond/src/cron_parser.rs`.
-/

namespace OniComb.Crond.CacheTicking
open OniComb OniComb.Crond OniComb.Stateful OniComb.Stateful.Ticking

/-- `min_digit`, :5-12. -/
def minDigit : SParser (Nat × Leaf) Char CronExpr := Ticking.cache (bare Crond.Ticking.minDigit)

/-- `hour_digit`, :14-24. -/
def hourDigit : SParser (Nat × Leaf) Char CronExpr := Ticking.cache (bare Crond.Ticking.hourDigit)

/-- `day_digit`, :26-36. -/
def dayDigit : SParser (Nat × Leaf) Char CronExpr := Ticking.cache (bare Crond.Ticking.dayDigit)

/-- `month_digit`, :38-45. -/
def monthDigit : SParser (Nat × Leaf) Char CronExpr := Ticking.cache (bare Crond.Ticking.monthDigit)

/-- `day_of_week_text() | day_of_week_digit()`, :47-61 and :121. -/
def dayOfWeek : SParser (Nat × Leaf × Leaf) Char CronExpr :=
  Ticking.either (Ticking.cache (bare Crond.Ticking.dayOfWeekText)) (Ticking.cache (bare Crond.Ticking.dayOfWeekDigit))

/-- `asterisk`, :63-65. -/
def asterisk : SParser (Nat × Leaf) Char CronExpr := Ticking.cache (bare Crond.Ticking.asterisk)

section
variable {X : Type} (x : SParser (Nat × X) Char CronExpr)

/-- `per`, :67-69. -/
def perP : SParser (Nat × X) Char CronExpr := Stateful.skipLeft (Ticking.tick 1 (elm '/')) x

/-- `asterisk_per`, :71-79. -/
def asteriskPer : SParser (Nat × M × Leaf × X) Char CronExpr :=
  Ticking.cache (Stateful.unary attempt (Stateful.unary (fun p => map p fun x => .per x.1 x.2)
    (Stateful.andThen (Ticking.left asterisk) (Ticking.right (perP x)))))

/-- `range_per`, :81-86. -/
def rangePer : SParser (Nat × X) Char CronExpr :=
  Stateful.unary (fun p => map p fun e => match e with
    | none => .noOp
    | some s => s) (Ticking.opt (perP x))

/-- `list`, :88-95. -/
def listP : SParser (Nat × X) Char CronExpr :=
  Stateful.unary attempt (Stateful.unary (fun p => map p fun es => match es with
    | [e] => e
    | es => .list es) (Stateful.repeatSep x (.from_ 1) (some (Ticking.tick 1 (elm ',')))))

/-- `range!`, :97-107. -/
def rangeP : SParser (Nat × (X × X) × X) Char CronExpr :=
  Stateful.unary attempt (Stateful.unary (fun p => map p fun e => .range e.1.1 e.1.2 e.2)
    (Stateful.andThen (Ticking.left (Stateful.andThen (Ticking.left (Stateful.skipRight x (Ticking.tick 1 (elm '-')))) (Ticking.right x)))
      (Ticking.right (rangePer x))))

/-- `digit_instruction!`, :109-113. -/
def digitInstruction : SParser (Nat × FieldStore X) Char CronExpr :=
  Ticking.either (Ticking.either (listP (Ticking.either (rangeP x) x)) (asteriskPer x)) asterisk

end

section
variable {A X Y : Type}

/-- A field, a blank and the next field, :117-121. -/
def next (p : SParser (Nat × X) Char A) (q : SParser (Nat × Y) Char CronExpr) : SParser (Nat × X × Y) Char (A × CronExpr) :=
  Stateful.andThen (Ticking.left (Stateful.skipRight p (Ticking.tick 1 (elm ' ')))) (Ticking.right q)

end

/-- `instruction`, :115-129. -/
def instruction : SParser
    (Nat × (((FieldStore Leaf × FieldStore Leaf) × FieldStore Leaf) × FieldStore Leaf) × FieldStore (Leaf × Leaf)) Char CronExpr :=
  Stateful.unary (fun p => map p fun e => .cron e.1.1.1.1 e.1.1.1.2 e.1.1.2 e.1.2 e.2)
    (next (next (next (next (digitInstruction minDigit) (digitInstruction hourDigit)) (digitInstruction dayDigit))
      (digitInstruction monthDigit)) (digitInstruction dayOfWeek))

/-- The parser that `CronParser::parse`, :134-138, builds and runs once; the clock before and after. -/
def cron : SParser Nat Char CronExpr := Ticking.built (Stateful.skipRight instruction (Ticking.tick 1 end_))

end OniComb.Crond.CacheTicking
