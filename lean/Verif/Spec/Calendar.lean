import Verif.Spec.Crond

/-!
# Specification: the proleptic Gregorian calendar and clocks

Dates that exist, their day numbers (years, months and days are counted one after the other; nothing of the
closed formula of the model is used), and what it means that a function gives the local date and time of every
instant.
-/

namespace OniComb.Crond

/-- A date and time that exists. -/
structure DateTime.Valid (dt : DateTime) : Prop where
  month : 1 ≤ dt.month ∧ dt.month ≤ 12
  day : 1 ≤ dt.day ∧ dt.day ≤ monthLength dt.year dt.month
  hour : dt.hour ≤ 23
  minute : dt.minute ≤ 59

/-- Length of a year. -/
def yearLength (y : Int) : Int := if isLeap y then 366 else 365

/-- Days from 1 January of year 1 to 1 January of the year `y`: 365 days each, and a day for every leap year. -/
def daysBeforeYear (y : Int) : Int := 365 * (y - 1) + ((y - 1) / 4 - (y - 1) / 100 + (y - 1) / 400)

/-- Days of the year before the month. -/
def daysBeforeMonth (y : Int) : Nat → Nat
  | 0 => 0
  | 1 => 0
  | m + 2 => daysBeforeMonth y (m + 1) + monthLength y (m + 1)

/-- Number of the day; day 0 is 1 January of year 1. -/
def dayNumber (dt : DateTime) : Int :=
  daysBeforeYear dt.year + daysBeforeMonth dt.year dt.month + (dt.day - 1)

/-- Number of the minute since the epoch, 1 January 1970, which is day 719162. -/
def minuteNumber (dt : DateTime) : Int := ((dayNumber dt - 719162) * 24 + dt.hour) * 60 + dt.minute

/-- `clock` gives the local date and time of every instant (in nanoseconds since the epoch) in a zone whose
offset from UTC is always `offset` nanoseconds; 1 January of year 1 is a Monday. -/
structure Clock (clock : Int → DateTime) (offset : Int) : Prop where
  valid : ∀ t, (clock t).Valid
  minute : ∀ t, minuteNumber (clock t) = (t + offset) / minuteNs
  weekday : ∀ t, ((clock t).weekday : Int) = (dayNumber (clock t) + 1) % 7 + 1

/-- The same in a zone whose offset from UTC changes (summer time, changes of law): it is `offset t` at the instant
`t`, and always less than a day. -/
structure ZoneClock (clock : Int → DateTime) (offset : Int → Int) : Prop where
  valid : ∀ t, (clock t).Valid
  minute : ∀ t, minuteNumber (clock t) = (t + offset t) / minuteNs
  weekday : ∀ t, ((clock t).weekday : Int) = (dayNumber (clock t) + 1) % 7 + 1
  bound : ∀ t, -(1440 * minuteNs) < offset t ∧ offset t < 1440 * minuteNs

/-- The date and time is one that clocks in the zone show for a whole minute: it is not skipped. -/
def Shown (offset : Int → Int) (dt : DateTime) : Prop :=
  ∃ t, ∀ s, t ≤ s → s < t + minuteNs → (s + offset s) / minuteNs = minuteNumber dt

end OniComb.Crond
