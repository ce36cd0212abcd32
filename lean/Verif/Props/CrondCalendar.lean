import Verif.Lemmas.Calendar
import Verif.Props.CrondEval
import Verif.Props.CrondSchedule

/-!
# C109: schedules on the calendar

`CronSpecification::is_satisfied_by` of the schedule is `eval` of the local date and time that a clock shows; the
clock is any clock with a fixed offset from UTC on the proleptic Gregorian calendar.
-/

namespace OniComb.Crond
open OniComb

/-- `CronSpecification::is_satisfied_by`, cron_specification.rs:21-25, at an instant.  (A panic of the evaluator
counts as not satisfied here; by `c39_no_panic_partial` there is none before the last year without zero steps.) -/
def satisfied (maxYear : Int) (clock : Int → DateTime) (e : CronExpr) (t : Int) : Bool :=
  eval maxYear (clock t) e == some true

theorem satisfied_iff {maxYear : Int} {clock : Int → DateTime} {e : CronExpr} {t : Int} :
    satisfied maxYear clock e t = true ↔ eval maxYear (clock t) e = some true := by
  unfold satisfied; exact beq_iff_eq

/-- There is a clock, whatever the offset, and its day of the week is right: the hypotheses below can be met. -/
theorem c109_clock (offset : Int) : ∃ clock, Clock clock offset := clock_exists offset

/-- What evaluation depends on. -/
theorem eval_congr {maxYear : Int} {a b : DateTime} {e : CronExpr} (hy : a.year < maxYear)
    (hy' : b.year < maxYear) (hv : b.Valid) (hm : a.month = b.month)
    (hl : monthLength a.year a.month = monthLength b.year b.month) (hd : a.day = b.day) (hh : a.hour = b.hour)
    (hmi : a.minute = b.minute) : eval maxYear a e = eval maxYear b e := by
  cases e with
  | cron mins hours days months dows =>
    have m1 : 1 ≤ a.month := by rw [hm]; exact hv.month.1
    have m2 : a.month ≤ 12 := by rw [hm]; exact hv.month.2
    have da := c42_days maxYear a.year a.month m1 m2 (by omega) (by omega)
    have db := c42_days maxYear b.year b.month hv.month.1 hv.month.2 (by omega) (by omega)
    simp only [eval]
    rw [da, db, hl, hm, hd, hh, hmi]
  | _ => rfl

/-- After every tested minute there is a satisfying one within eight years. -/
private theorem finds {maxYear : Int} {clock : Int → DateTime} {offset : Int} (hc : Clock clock offset)
    {e : CronExpr} {dt : DateTime} (hv : dt.Valid) (hy : dt.year < maxYear) (h : eval maxYear dt e = some true)
    (i : Interval) (m : Nat) (hm : (clock (tick i m)).year + 8 < maxYear) :
    ∃ k, m < k ∧ satisfied maxYear clock e (tick i k) = true ∧
      (clock (tick i k)).year ≤ (clock (tick i m)).year + 8 := by
  obtain ⟨j, j1, j8, hj⟩ := same_length (clock (tick i m)).year dt.year
  let target : DateTime := { dt with year := (clock (tick i m)).year + j }
  have hlen : ∀ mo, monthLength target.year mo = monthLength dt.year mo := by
    intro mo
    unfold monthLength
    by_cases hz : isLeap dt.year
    · rw [if_pos hz, if_pos (hj.2 hz)]
    · rw [if_neg hz, if_neg fun x => hz (hj.1 x)]
  have htv : target.Valid := ⟨hv.month, ⟨hv.day.1, by rw [hlen]; exact hv.day.2⟩, hv.hour, hv.minute⟩
  have hty : target.year = (clock (tick i m)).year + j := rfl
  -- the target lies behind
  have hlt : minuteNumber (clock (tick i m)) < minuteNumber target := by
    have b1 := (dayNumber_bounds (hc.valid (tick i m))).2
    have b2 := (dayNumber_bounds htv).1
    have := daysBeforeYear_le (show (clock (tick i m)).year + 1 ≤ target.year by omega)
    have := (hc.valid (tick i m)).hour
    have := (hc.valid (tick i m)).minute
    unfold minuteNumber
    omega
  have hcm := hc.minute (tick i m)
  -- and is reached in whole minutes
  let k : Nat := m + (minuteNumber target - minuteNumber (clock (tick i m))).toNat
  have hk : (tick i k + offset) / minuteNs = minuteNumber target := by
    have : tick i k = tick i m + (minuteNumber target - minuteNumber (clock (tick i m))) * minuteNs := by
      have hnn : ((minuteNumber target - minuteNumber (clock (tick i m))).toNat : Int) =
          minuteNumber target - minuteNumber (clock (tick i m)) := Int.toNat_of_nonneg (by omega)
      have : tick i k = tick i m + (((minuteNumber target - minuteNumber (clock (tick i m))).toNat : Nat) : Int) *
          minuteNs := by
        generalize hD : (minuteNumber target - minuteNumber (clock (tick i m))).toNat = D
        have hkD : k = m + D := by rw [← hD]
        rw [hkD]
        unfold tick minuteNs
        omega
      rw [this, hnn]
    rw [this]
    unfold minuteNs at *
    omega
  obtain ⟨e1, e2, e3, e4, e5⟩ := hc.at_minute htv hk
  refine ⟨k, by simp only [k]; omega, ?_, by rw [e1, hty]; omega⟩
  rw [satisfied_iff, ← h]
  refine eval_congr (by rw [e1, hty]; omega) hy hv e2 ?_ e3 e4 e5
  rw [e1, e2, hlen]

private theorem finds_many {maxYear : Int} {clock : Int → DateTime} {offset : Int} (hc : Clock clock offset)
    {e : CronExpr} {dt : DateTime} (hv : dt.Valid) (hy : dt.year < maxYear) (h : eval maxYear dt e = some true)
    (i : Interval) (n m : Nat) (hm : (clock (tick i m)).year + 8 * n < maxYear) :
    ∃ ks : List Nat, ks.length = n ∧ ks.Pairwise (· < ·) ∧
      ∀ k ∈ ks, m < k ∧ satisfied maxYear clock e (tick i k) = true := by
  induction n generalizing m with
  | zero => exact ⟨[], rfl, List.Pairwise.nil, by simp⟩
  | succ n ih =>
    obtain ⟨k, h1, h2, h3⟩ := finds hc hv hy h i m (by omega)
    obtain ⟨ks, g1, g2, g3⟩ := ih k (by push_cast at hm; omega)
    refine ⟨k :: ks, by simp [g1], List.pairwise_cons.2 ⟨fun x hx => (g3 x hx).1, g2⟩, fun x hx => ?_⟩
    rcases List.mem_cons.1 hx with rfl | hx
    · exact ⟨h1, h2⟩
    · exact ⟨by have := (g3 x hx).1; omega, (g3 x hx).2⟩

/-- If some date and time that exists satisfies the expression, `upcoming` returns the next item, from any start,
in one of the next eight years at the latest; all of its items satisfy the expression, and no satisfying minute
is left out.  For every tree, and for as many items as there are eight years each up to the last year. -/
theorem c109_finds (maxYear : Int) (clock : Int → DateTime) (offset : Int) (hc : Clock clock offset)
    (e : CronExpr) (dt : DateTime) (hv : dt.Valid) (hy : dt.year < maxYear) (h : eval maxYear dt e = some true)
    (start : Int) (n : Nat) (hn : (clock (toMillis start)).year + 8 * n < maxYear) :
    ∃ fuel l, (upcoming start).takeItems (satisfied maxYear clock e) fuel n (upcoming start).iter = some l ∧
      l.length = n ∧ l.Pairwise (· < ·) ∧ (∀ t ∈ l, eval maxYear (clock t) e = some true) ∧
      (∀ t ∈ l, ∀ k : Nat, toMillis start + k * minuteNs ≤ t →
        eval maxYear (clock (toMillis start + k * minuteNs)) e = some true →
        toMillis start + k * minuteNs ∈ l) := by
  have h0 : tick (upcoming start) 0 = toMillis start := by simp [tick, upcoming, Interval.new]
  obtain ⟨ks, rfl, hp, hs⟩ := finds_many hc hv hy h (upcoming start) n 0 (by rw [h0]; exact hn)
  obtain ⟨fuel, l, hl⟩ := c40_returns_count start _ ks hp fun k hk => (hs k hk).2
  refine ⟨fuel, l, hl, c40_length _ _ _ _ _ hl, c40_increasing _ _ _ _ _ hl, fun t ht => ?_, fun t ht k hk hs => ?_⟩
  · exact satisfied_iff.1 (c40_sound _ _ _ _ _ hl t ht).1
  · exact c40_complete _ _ _ _ _ hl t ht k hk (satisfied_iff.2 hs)

/-- The first item is in one of the eight years after the start, or before. -/
theorem c109_soon (maxYear : Int) (clock : Int → DateTime) (offset : Int) (hc : Clock clock offset)
    (e : CronExpr) (dt : DateTime) (hv : dt.Valid) (hy : dt.year < maxYear) (h : eval maxYear dt e = some true)
    (start : Int) (hn : (clock (toMillis start)).year + 8 < maxYear) :
    ∃ fuel t, (upcoming start).takeItems (satisfied maxYear clock e) fuel 1 (upcoming start).iter = some [t] ∧
      toMillis start ≤ t ∧ eval maxYear (clock t) e = some true ∧
      (clock t).year ≤ (clock (toMillis start)).year + 8 := by
  have h0 : tick (upcoming start) 0 = toMillis start := by simp [tick, upcoming, Interval.new]
  obtain ⟨k, hk, hs, hky⟩ := finds hc hv hy h (upcoming start) 0 (by rw [h0]; exact hn)
  obtain ⟨fuel, l, hl⟩ := c40_returns_count start (satisfied maxYear clock e) [k] (by simp)
    (by intro x hx; rw [List.mem_singleton.1 hx]; exact hs)
  rw [h0] at hky
  have hlen := c40_length _ _ _ _ _ hl
  obtain ⟨t, rfl⟩ : ∃ t, l = [t] := List.length_eq_one_iff.1 hlen
  obtain ⟨hst, a, hta⟩ := c40_sound _ _ _ _ _ hl t (by simp)
  refine ⟨fuel, t, hl, ?_, satisfied_iff.1 hst, ?_⟩
  · rw [hta]; simp only [upcoming, Interval.new]; unfold minuteNs; omega
  · -- the item found is not behind the one known
    by_cases hle : t ≤ tick (upcoming start) k
    · refine Int.le_trans ?_ hky
      by_contra hlt
      have b1 := (dayNumber_bounds (hc.valid (tick (upcoming start) k))).2
      have b2 := (dayNumber_bounds (hc.valid t)).1
      have b3 := daysBeforeYear_le (show (clock (tick (upcoming start) k)).year + 1 ≤ (clock t).year by omega)
      have m1 := hc.minute t
      have m2 := hc.minute (tick (upcoming start) k)
      have := (hc.valid (tick (upcoming start) k)).hour
      have := (hc.valid (tick (upcoming start) k)).minute
      have : (t + offset) / minuteNs ≤ (tick (upcoming start) k + offset) / minuteNs :=
        Int.ediv_le_ediv (by decide) (by omega)
      rw [← m1, ← m2] at this
      unfold minuteNumber at this
      omega
    · have := c40_complete _ _ _ _ _ hl t (by simp) k (by change tick _ k ≤ t; omega) hs
      rw [List.mem_singleton] at this
      exfalso
      apply hle
      rw [← this]
      exact Int.le_refl _

/-- From the text to the items: for texts of the form for which evaluation is the standard one (`*` as weekday,
no `*/k` in day and month, numbers in ranges, no step 0), the items of `upcoming` are exactly the minutes that
match, if any date that exists matches. (Missing: the other texts; see C38 and C39.) -/
theorem c109_text_partial (maxYear : Int) (clock : Int → DateTime) (offset : Int) (hc : Clock clock offset)
    (input : List Char) (mins hours days months : CronExpr)
    (hparse : cronParse input = .ok (.cron mins hours days months .any))
    (hp : Plain mins ∧ Plain hours ∧ Plain days ∧ Plain months) (hns : NoStar days ∧ NoStar months)
    (dt : DateTime) (hv : dt.Valid) (hy : dt.year < maxYear)
    (h : CronMatches dt (.cron mins hours days months .any))
    (start : Int) (n : Nat) (hn : (clock (toMillis start)).year + 8 * n < maxYear) :
    ∃ fuel l, (upcoming start).takeItems (satisfied maxYear clock (.cron mins hours days months .any)) fuel n
        (upcoming start).iter = some l ∧ l.length = n ∧ l.Pairwise (· < ·) ∧
      (∀ t ∈ l, (clock t).year < maxYear → CronMatches (clock t) (.cron mins hours days months .any)) ∧
      (∀ t ∈ l, ∀ k : Nat, toMillis start + k * minuteNs ≤ t →
        (clock (toMillis start + k * minuteNs)).year < maxYear →
        CronMatches (clock (toMillis start + k * minuteNs)) (.cron mins hours days months .any) →
        toMillis start + k * minuteNs ∈ l) := by
  have key : ∀ d : DateTime, d.Valid → d.year < maxYear →
      (eval maxYear d (.cron mins hours days months .any) = some true ↔
        CronMatches d (.cron mins hours days months .any)) := by
    intro d hd hdy
    obtain ⟨b, h1, h2⟩ := c38_standard_partial maxYear d input mins hours days months hparse hp hns hd.month hdy
    rw [h1, Option.some.injEq]
    exact h2
  obtain ⟨fuel, l, h1, h2, h3, h4, h5⟩ :=
    c109_finds maxYear clock offset hc _ dt hv hy ((key dt hv hy).2 h) start n hn
  exact ⟨fuel, l, h1, h2, h3, fun t ht hty => (key _ (hc.valid t) hty).1 (h4 t ht),
    fun t ht k hk hky hm => h5 t ht k hk ((key _ (hc.valid _) hky).2 hm)⟩

/-- If no date that exists satisfies the expression, `upcoming` is accepted but `next` never returns. -/
theorem c109_never_violated (maxYear : Int) (clock : Int → DateTime) (offset : Int) (hc : Clock clock offset)
    (e : CronExpr) (h : ∀ dt : DateTime, dt.Valid → eval maxYear dt e ≠ some true) (start : Int) (fuel : Nat) :
    (upcoming start).next (satisfied maxYear clock e) fuel (upcoming start).iter = none := by
  refine c40_hangs _ _ (fun k => ?_) (by intro e he; cases he) fuel
  rw [Bool.eq_false_iff, Ne, satisfied_iff]
  exact h _ (hc.valid _)

/-- So it is for every day that its month never has, like 30 February or 31 April: such texts are accepted, with
any minutes, hours and weekdays, and `next` never returns. -/
theorem c109_impossible_day_violated (maxYear : Int) (clock : Int → DateTime) (offset : Int)
    (hc : Clock clock offset) (mins hours dows : CronExpr) (d m : Nat)
    (hd : ∀ y, monthLength y m < d) (start : Int) (fuel : Nat) :
    (upcoming start).next (satisfied maxYear clock (.cron mins hours (.value d) (.value m) dows)) fuel
      (upcoming start).iter = none := by
  refine c109_never_violated maxYear clock offset hc _ (fun dt hv h => ?_) start fuel
  simp only [eval] at h
  split at h
  · cases h
  · split at h
    · rename_i h1 h2 h3 h4 h5
      simp only [Option.some.injEq, Bool.and_eq_true] at h
      obtain ⟨⟨⟨⟨rfl, rfl⟩, rfl⟩, rfl⟩, rfl⟩ := h
      simp only [visit, Option.some.injEq, beq_iff_eq] at h3 h4
      have := hv.day.2
      have := hd dt.year
      rw [h4, h3] at *
      omega
    · cases h

/-- 30 February is accepted. -/
theorem c109_february_violated (maxYear : Int) (clock : Int → DateTime) (offset : Int)
    (hc : Clock clock offset) (start : Int) : ∃ e, cronParse "0 0 30 2 *".toList = .ok e ∧ ∀ fuel,
    (upcoming start).next (satisfied maxYear clock e) fuel (upcoming start).iter = none := by
  refine ⟨.cron (.value 0) (.value 0) (.value 30) (.value 2) .any, rfl, fun fuel => ?_⟩
  refine c109_impossible_day_violated maxYear clock offset hc _ _ _ 30 2 (fun y => ?_) start fuel
  unfold monthLength
  split
  · split <;> decide
  · contradiction

/-- The hypotheses of `c109_text_partial` hold for `30 2 29 2 *`: 29 February 2024 at 2:30. -/
example : ∃ mins hours days months, cronParse "30 2 29 2 *".toList = .ok (.cron mins hours days months .any) ∧
    (Plain mins ∧ Plain hours ∧ Plain days ∧ Plain months) ∧ (NoStar days ∧ NoStar months) ∧
    (⟨2024, 2, 29, 2, 30, 5⟩ : DateTime).Valid ∧
    CronMatches ⟨2024, 2, 29, 2, 30, 5⟩ (.cron mins hours days months .any) := by
  refine ⟨.value 30, .value 2, .value 29, .value 2, rfl, by simp [Plain], by simp [NoStar],
    ⟨by decide, by decide, by decide, by decide⟩, ?_⟩
  simp [CronMatches, FieldMatches, ItemMatches, valueOf]

/-- The epoch, leap days and the days of the week. -/
example : minuteNumber ⟨1970, 1, 1, 0, 0, 5⟩ = 0 ∧ minuteNumber ⟨2024, 2, 29, 2, 30, 5⟩ = 28486230 ∧
    (dayNumber ⟨1970, 1, 1, 0, 0, 5⟩ + 1) % 7 + 1 = 5 ∧ (dayNumber ⟨2024, 2, 29, 2, 30, 5⟩ + 1) % 7 + 1 = 5 ∧
    minuteNumber ⟨1600, 2, 29, 0, 0, 3⟩ < minuteNumber ⟨1600, 3, 1, 0, 0, 4⟩ := by decide

end OniComb.Crond
