import Verif.Model.Crond
import Verif.Model.CacheGrammar

/-!
# The crond parser with its caches

Models `/repo/crond/src/cron_parser.rs` again, now with `.cache()`; line numbers are of that file.  A macro that
mentions `$x` several times builds it several times, each time with its own caches.
-/

namespace OniComb.Crond
open OniComb.Stateful

/-- The contents of one cache. -/
abbrev M := CacheMap Char CronExpr

/-- The store of a parser whose only cache is the outermost one. -/
abbrev Leaf := M × Unit

/-- `min_digit`, :5-12. -/
def minDigitC : SParser Leaf Char CronExpr := Stateful.cache (ofParser minDigit)

/-- `hour_digit`, :14-24. -/
def hourDigitC : SParser Leaf Char CronExpr := Stateful.cache (ofParser hourDigit)

/-- `day_digit`, :26-36. -/
def dayDigitC : SParser Leaf Char CronExpr := Stateful.cache (ofParser dayDigit)

/-- `month_digit`, :38-45. -/
def monthDigitC : SParser Leaf Char CronExpr := Stateful.cache (ofParser monthDigit)

/-- `day_of_week_text() | day_of_week_digit()`, :47-61 and :121. -/
def dayOfWeekC : SParser (Leaf × Leaf) Char CronExpr :=
  either (Stateful.cache (ofParser dayOfWeekText)) (Stateful.cache (ofParser dayOfWeekDigit))

/-- `asterisk`, :63-65. -/
def asteriskC : SParser Leaf Char CronExpr := Stateful.cache (ofParser asterisk)

section
variable {X : Type} (x : SParser X Char CronExpr)

/-- `per`, :67-69. -/
def perC : SParser X Char CronExpr := Stateful.skipLeft (ofParser (elm '/')) x

/-- `asterisk_per`, :71-79. -/
def asteriskPerC : SParser (M × Leaf × X) Char CronExpr :=
  Stateful.cache (unary attempt (unary (fun p => map p fun x => .per x.1 x.2)
    (Stateful.andThen (left asteriskC) (lift (perC x)))))

/-- `range_per`, :81-86. -/
def rangePerC : SParser X Char CronExpr :=
  unary (fun p => map p fun e => match e with
    | none => .noOp
    | some s => s) (unary opt (perC x))

/-- `list`, :88-95. -/
def listC : SParser X Char CronExpr :=
  unary attempt (unary (fun p => map p fun es => match es with
    | [e] => e
    | es => .list es) (Stateful.repeatSep x (.from_ 1) (some (ofParser (elm ',')))))

/-- `range!`, :97-107. -/
def rangeC : SParser ((X × X) × X) Char CronExpr :=
  unary attempt (unary (fun p => map p fun e => .range e.1.1 e.1.2 e.2)
    (Stateful.andThen (left (Stateful.andThen (left (Stateful.skipRight x (ofParser (elm '-')))) (lift x)))
      (lift (rangePerC x))))

/-- The store of a field. -/
abbrev FieldStore (X : Type) := ((((X × X) × X) × X) × (M × Leaf × X)) × Leaf

/-- `digit_instruction!`, :109-113. -/
def digitInstructionC : SParser (FieldStore X) Char CronExpr :=
  either (either (listC (either (rangeC x) x)) (asteriskPerC x)) asteriskC

end

/-- `instruction`, :115-129. -/
def instructionC : SParser ((((FieldStore Leaf × FieldStore Leaf) × FieldStore Leaf) × FieldStore Leaf) × FieldStore (Leaf × Leaf)) Char CronExpr :=
  unary (fun p => map p fun e => .cron e.1.1.1.1 e.1.1.1.2 e.1.1.2 e.1.2 e.2)
    (Stateful.andThen (left (Stateful.skipRight
      (Stateful.andThen (left (Stateful.skipRight
        (Stateful.andThen (left (Stateful.skipRight
          (Stateful.andThen (left (Stateful.skipRight
            (digitInstructionC minDigitC) (ofParser (elm ' ')))) (lift (digitInstructionC hourDigitC)))
          (ofParser (elm ' ')))) (lift (digitInstructionC dayDigitC)))
        (ofParser (elm ' ')))) (lift (digitInstructionC monthDigitC)))
      (ofParser (elm ' ')))) (lift (digitInstructionC dayOfWeekC)))

instance {X : Type} [New X] : New (FieldStore X) := inferInstance

/-- The parser that `CronParser::parse`, :134-138, builds and runs once. -/
def cronParserC : SParser Unit Char CronExpr := built (Stateful.skipRight instructionC (ofParser end_))

end OniComb.Crond
