import Verif.Model.Crond

/-!
# Specification of cron expressions: texts, trees and their meaning

Nothing here mentions parsers or the evaluator; only the tree type `CronExpr` is taken from the model.
-/

namespace OniComb.Crond

/-- The kinds of fields. -/
inductive Field where
  | minute | hour | day | month | weekday
deriving DecidableEq, Repr

/-- Smallest value of a field. -/
def Field.lo : Field → Nat
  | .minute => 0 | .hour => 0 | .day => 1 | .month => 1 | .weekday => 1

/-- Largest value of a field. -/
def Field.hi : Field → Nat
  | .minute => 59 | .hour => 23 | .day => 31 | .month => 12 | .weekday => 7

/-! ## Trees -/

/-- A number of the field, or `L` in the weekday field. -/
inductive WFValue (f : Field) : CronExpr → Prop where
  | value {n : Nat} : f.lo ≤ n → n ≤ f.hi → WFValue f (.value n)
  | last : f = .weekday → WFValue f .last

/-- A value, a range, or a range with a step. -/
inductive WFItem (f : Field) : CronExpr → Prop where
  | value {v : CronExpr} : WFValue f v → WFItem f v
  | range {a b : CronExpr} : WFValue f a → WFValue f b → WFItem f (.range a b .noOp)
  | step {a b k : CronExpr} : WFValue f a → WFValue f b → WFValue f k → WFItem f (.range a b k)

/-- `*`, `*/k`, an item, or a list of at least two items. -/
inductive WFField (f : Field) : CronExpr → Prop where
  | any : WFField f .any
  | per {k : CronExpr} : WFValue f k → WFField f (.per .any k)
  | item {e : CronExpr} : WFItem f e → WFField f e
  | list {es : List CronExpr} : 2 ≤ es.length → (∀ e ∈ es, WFItem f e) → WFField f (.list es)

/-- Five fields. -/
inductive WFCron : CronExpr → Prop where
  | mk {a b c d e : CronExpr} : WFField .minute a → WFField .hour b → WFField .day c →
      WFField .month d → WFField .weekday e → WFCron (.cron a b c d e)

/-! ## Texts -/

/-- The number written by one or two decimal digits. -/
inductive Digits : List Char → Nat → Prop where
  | one {c : Char} : '0'.toNat ≤ c.toNat → c.toNat ≤ '9'.toNat → Digits [c] (c.toNat - '0'.toNat)
  | two {c d : Char} : '0'.toNat ≤ c.toNat → c.toNat ≤ '9'.toNat → '0'.toNat ≤ d.toNat →
      d.toNat ≤ '9'.toNat → Digits [c, d] (10 * (c.toNat - '0'.toNat) + (d.toNat - '0'.toNat))

/-- Names of the days of the week. -/
def weekdayNames : List (List Char × Nat) :=
  [(['S', 'U', 'N'], 1), (['M', 'O', 'N'], 2), (['T', 'U', 'E'], 3), (['W', 'E', 'D'], 4),
   (['T', 'H', 'U'], 5), (['F', 'R', 'I'], 6), (['S', 'A', 'T'], 7)]

/-- Texts of values: one or two digits (a leading zero is allowed), in the weekday field one digit, a
name or `L`. -/
inductive ValueText : Field → List Char → CronExpr → Prop where
  | number {f : Field} {t : List Char} {n : Nat} : f ≠ .weekday → Digits t n → f.lo ≤ n → n ≤ f.hi →
      ValueText f t (.value n)
  | weekday {c : Char} {n : Nat} : Digits [c] n → Field.weekday.lo ≤ n → n ≤ Field.weekday.hi →
      ValueText .weekday [c] (.value n)
  | name {t : List Char} {n : Nat} : (t, n) ∈ weekdayNames → ValueText .weekday t (.value n)
  | last : ValueText .weekday ['L'] .last

/-- Texts of items: `a`, `a-b`, `a-b/k`. -/
inductive ItemText (f : Field) : List Char → CronExpr → Prop where
  | value {t : List Char} {v : CronExpr} : ValueText f t v → ItemText f t v
  | range {t u : List Char} {a b : CronExpr} : ValueText f t a → ValueText f u b →
      ItemText f (t ++ '-' :: u) (.range a b .noOp)
  | step {t u w : List Char} {a b k : CronExpr} : ValueText f t a → ValueText f u b →
      ValueText f w k → ItemText f (t ++ '-' :: u ++ '/' :: w) (.range a b k)

/-- Texts of item lists, separated by commas. -/
inductive ItemsText (f : Field) : List Char → List CronExpr → Prop where
  | one {t : List Char} {e : CronExpr} : ItemText f t e → ItemsText f t [e]
  | cons {t u : List Char} {e : CronExpr} {es : List CronExpr} : ItemText f t e → ItemsText f u es →
      ItemsText f (t ++ ',' :: u) (e :: es)

/-- The tree of a list: a list of one item is that item. -/
def listTree : List CronExpr → CronExpr
  | [e] => e
  | es => .list es

/-- Texts of fields.  A comma at the end of a list is allowed. -/
inductive FieldText (f : Field) : List Char → CronExpr → Prop where
  | any : FieldText f ['*'] .any
  | per {t : List Char} {k : CronExpr} : ValueText f t k → FieldText f ('*' :: '/' :: t) (.per .any k)
  | list {t : List Char} {es : List CronExpr} : ItemsText f t es → FieldText f t (listTree es)
  | listComma {t : List Char} {es : List CronExpr} : ItemsText f t es →
      FieldText f (t ++ [',']) (listTree es)

/-- Texts of cron expressions: five fields separated by single spaces. -/
inductive CronText : List Char → CronExpr → Prop where
  | mk {ta tb tc td te : List Char} {a b c d e : CronExpr} : FieldText .minute ta a →
      FieldText .hour tb b → FieldText .day tc c → FieldText .month td d → FieldText .weekday te e →
      CronText (ta ++ ' ' :: (tb ++ ' ' :: (tc ++ ' ' :: (td ++ ' ' :: te)))) (.cron a b c d e)

/-! ## The canonical text of a tree -/

/-- Decimal digit. -/
def digitChar (n : Nat) : Char := Char.ofNat (48 + n)

/-- Decimal number below 100 without leading zero. -/
def printNum (n : Nat) : List Char :=
  if n < 10 then [digitChar n] else [digitChar (n / 10), digitChar (n % 10)]

mutual
/-- The usual way to write a tree. -/
def printExpr : CronExpr → List Char
  | .noOp => []
  | .value n => printNum n
  | .last => ['L']
  | .any => ['*']
  | .per d k => printExpr d ++ '/' :: printExpr k
  | .range a b .noOp => printExpr a ++ '-' :: printExpr b
  | .range a b k => printExpr a ++ '-' :: printExpr b ++ '/' :: printExpr k
  | .list es => printItems es
  | .cron a b c d e => printExpr a ++ ' ' :: (printExpr b ++ ' ' :: (printExpr c ++ ' ' ::
      (printExpr d ++ ' ' :: printExpr e)))
/-- Comma separated. -/
def printItems : List CronExpr → List Char
  | [] => []
  | [e] => printExpr e
  | e :: es => printExpr e ++ ',' :: printItems es
end

/-! ## Meaning

`Matches lo hi now e`: the value `now` of a field with the values `lo..hi` belongs to the set denoted by
`e`. `L` is the largest value. `*/k` means every `k`-th value counted from the smallest one. -/

/-- The number a value stands for. -/
def valueOf (hi : Nat) : CronExpr → Option Nat
  | .value n => some n
  | .last => some hi
  | _ => none

/-- Membership for a single item. -/
def ItemMatches (hi now : Nat) : CronExpr → Prop
  | .range a b .noOp => ∃ x y, valueOf hi a = some x ∧ valueOf hi b = some y ∧ x ≤ now ∧ now ≤ y
  | .range a b k => ∃ x y s, valueOf hi a = some x ∧ valueOf hi b = some y ∧ valueOf hi k = some s ∧
      x ≤ now ∧ now ≤ y ∧ s ∣ now - x
  | v => valueOf hi v = some now

/-- Membership for a field. -/
def FieldMatches (lo hi now : Nat) : CronExpr → Prop
  | .any => True
  | .per .any k => ∃ s, valueOf hi k = some s ∧ lo ≤ now ∧ now ≤ hi ∧ s ∣ now - lo
  | .list es => ∃ e ∈ es, ItemMatches hi now e
  | e => ItemMatches hi now e

/-- Gregorian leap years. -/
def isLeap (y : Int) : Prop := 4 ∣ y ∧ (¬ 100 ∣ y ∨ 400 ∣ y)

instance (y : Int) : Decidable (isLeap y) := by unfold isLeap; infer_instance

/-- Gregorian length of a month. -/
def monthLength (y : Int) (m : Nat) : Nat :=
  if m = 2 then (if isLeap y then 29 else 28)
  else if m = 4 ∨ m = 6 ∨ m = 9 ∨ m = 11 then 30 else 31

/-- A date-time satisfies a cron expression. -/
def CronMatches (dt : DateTime) : CronExpr → Prop
  | .cron mins hours days months dows =>
    FieldMatches 0 59 dt.minute mins ∧ FieldMatches 0 23 dt.hour hours ∧
    FieldMatches 1 (monthLength dt.year dt.month) dt.day days ∧ FieldMatches 1 12 dt.month months ∧
    FieldMatches 1 7 dt.weekday dows
  | _ => False

end OniComb.Crond
