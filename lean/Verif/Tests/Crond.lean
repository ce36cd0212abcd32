import Verif.Model.Crond
import Verif.Tests.Parser

/-!
# The unit tests of `crond`, run on the model

`/repo/crond/src/cron_parser.rs`:160-372, `cron_evaluator.rs`:75-122, `cron_schedule.rs`:60-84.
-/

namespace OniComb.Tests
open OniComb.Crond

mutual
/-- The tree as a list of numbers, to compare trees. -/
def code (e : CronExpr) : List Nat :=
  match e with
  | .noOp => [0]
  | .value n => [1, n]
  | .last => [2]
  | .any => [3]
  | .per a b => 4 :: code a ++ code b
  | .range a b c => 5 :: code a ++ code b ++ code c
  | .list es => 6 :: codes es ++ [7]
  | .cron a b c d e => 8 :: code a ++ code b ++ code c ++ code d ++ code e
def codes (es : List CronExpr) : List Nat :=
  match es with
  | [] => []
  | e :: es => code e ++ codes es
end

/-- `(p - end()).parse(s)` gives the tree. -/
def gives (p : Parser Char CronExpr) (s : String) (e : CronExpr) : Bool :=
  (ok (parse (skipRight p end_) s.toList)).map code == some (code e)

/-- A number with two digits, `{:<02}` (filled with zeros at the left, as numbers are). -/
def two (n : Nat) : String := if n < 10 then "0" ++ toString n else toString n

-- test_instruction_1, test_instruction_2
example : gives instruction "* * * * *" (.cron .any .any .any .any .any) := by decide +kernel
example : gives instruction "1 1 1 1 1" (.cron (.value 1) (.value 1) (.value 1) (.value 1) (.value 1)) := by decide +kernel
-- test_digit_instruction_1 to 5
example : gives (digitInstruction minDigit) "*" .any := by decide +kernel
example : gives (digitInstruction minDigit) "*/2" (.per .any (.value 2)) := by decide +kernel
example : gives (digitInstruction minDigit) "1-10/2" (.range (.value 1) (.value 10) (.value 2)) := by decide +kernel
example : gives (digitInstruction minDigit) "1,2,3" (.list [.value 1, .value 2, .value 3]) := by decide +kernel
example : gives (digitInstruction minDigit) "1" (.value 1) := by decide +kernel
-- test_list
example : gives (listP minDigit) (",".intercalate ((List.range 60).map toString)) (.list ((List.range 60).map .value)) := by
  decide +kernel
-- test_range
example : ∀ n < 59, gives (rangeP minDigit) (two n ++ "-" ++ two (n + 1) ++ "/" ++ two ((n + 1) / 2))
    (.range (.value n) (.value (n + 1)) (.value ((n + 1) / 2))) := by decide +kernel
-- test_asterisk_per
example : ∀ n < 59, gives (asteriskPer minDigit) ("*/" ++ two n) (.per .any (.value n)) := by decide +kernel
-- test_per
example : gives (perP minDigit) "/2" (.value 2) := by decide +kernel
-- test_min_digit
example : ∀ n < 59, gives minDigit (two n) (.value n) := by decide +kernel
example : isErr (parse (skipRight minDigit end_) (c "60")) := by decide +kernel
-- test_hour_digit
example : ∀ n < 24, (n < 10 → gives hourDigit (toString n) (.value n)) ∧ gives hourDigit (two n) (.value n) := by
  decide +kernel
example : isErr (parse (skipRight hourDigit end_) (c "24")) := by decide +kernel
-- test_day_digit
example : ∀ n < 32, 0 < n → (n < 10 → gives dayDigit (toString n) (.value n)) ∧ gives dayDigit (two n) (.value n) := by
  decide +kernel
example : isErr (parse (skipRight dayDigit end_) (c "32")) := by decide +kernel
-- test_month_digit
example : ∀ n < 13, 0 < n → (n < 10 → gives monthDigit (toString n) (.value n)) ∧ gives monthDigit (two n) (.value n) := by
  decide +kernel
example : isErr (parse (skipRight monthDigit end_) (c "13")) := by decide +kernel

/-- 2021-01-01T01:01, a Friday. -/
def newYear : DateTime := ⟨2021, 1, 1, 1, 1, 6⟩

-- test_anytime, test_point_time, test_example
example : eval 262142 newYear (.cron .any .any .any .any .any) = some true := by decide +kernel
example : eval 262142 newYear (.cron (.value 1) (.value 1) (.value 1) (.value 1) .any) = some true := by decide +kernel
example : (ok (cronParse (c "* * * * *"))).bind (eval 262142 newYear) = some true := by decide +kernel

/-- The minutes after midnight of 2021-01-01 at which an expression is satisfied, on that day. -/
def satisfied (e : CronExpr) (t : Int) : Bool :=
  eval 262142 ⟨2021, 1, 1, (t / minuteNs / 60).toNat, (t / minuteNs % 60).toNat, 6⟩ e == some true

/-- The first items of the schedule, in minutes after midnight; the instants count from there. -/
def items (s : String) (start : Int) (n : Nat) : Option (List Int) :=
  (ok (cronParse s.toList)).bind fun e =>
    let i := upcoming (start * minuteNs)
    (i.takeItems (satisfied e) 400 n i.iter).map (·.map (· / minuteNs))

-- test_iterator: from 01:01 on 02:00, 02:30, 04:00, 04:30, 06:00
example : items "0-59/30 0-23/2 * * *" 61 5 = some [120, 150, 240, 270, 360] := by decide +kernel

end OniComb.Tests
