import Verif.Spec.Calendar

/-!
# Two ways to write the same cron field

Texts and sets of values are those of `Spec/Crond`.
-/

namespace OniComb.Crond

/-- The text of a cron expression, from the texts of its fields. -/
def cronText (t : Field → List Char) : List Char :=
  t .minute ++ ' ' :: (t .hour ++ ' ' :: (t .day ++ ' ' :: (t .month ++ ' ' :: t .weekday)))

/-- The text of one field replaced. -/
def put (t : Field → List Char) (f : Field) (x : List Char) : Field → List Char := fun g => if g = f then x else t g

/-- In every cron expression the field `f` may be written as `x` or as `y`: both expressions are accepted, and on every date
and time both are satisfied, or both are not, or the evaluation of both panics. -/
def Interchangeable (f : Field) (x y : List Char) : Prop :=
  ∀ t : Field → List Char, (∀ g, g ≠ f → ∃ e, FieldText g (t g) e) →
    ∃ a b, cronParse (cronText (put t f x)) = .ok a ∧ cronParse (cronText (put t f y)) = .ok b ∧
      ∀ maxYear dt, dt.Valid → eval maxYear dt a = eval maxYear dt b

/-- The largest value of a field; the length of the month for days. -/
def Field.Top : Field → Nat → Prop
  | .day, hi => 28 ≤ hi ∧ hi ≤ 31
  | f, hi => hi = f.hi

/-- Two fields denote the same minutes (hours, days in months of every length, …). -/
def SameValues (f : Field) (a b : CronExpr) : Prop :=
  ∀ hi now, f.Top hi → f.lo ≤ now → now ≤ hi → (FieldMatches f.lo hi now a ↔ FieldMatches f.lo hi now b)

end OniComb.Crond
