import Verif.Props.CrondCalendar

/-!
# C109: zones whose offset from UTC changes
-/

namespace OniComb.Crond
open OniComb

/-- There is a clock for every offset of less than a day. -/
theorem c109_zone_clock (offset : Int → Int) (h : ∀ t, -(1440 * minuteNs) < offset t ∧ offset t < 1440 * minuteNs) :
    ∃ clock, ZoneClock clock offset := by
  choose f h1 h2 h3 using fun t : Int => exists_date ((t + offset t) / minuteNs)
  exact ⟨f, h1, h2, h3, h⟩

private theorem ZoneClock.at_minute {clock : Int → DateTime} {offset : Int → Int} (hc : ZoneClock clock offset)
    {dt : DateTime} (hv : dt.Valid) {t : Int} (h : (t + offset t) / minuteNs = minuteNumber dt) :
    (clock t).year = dt.year ∧ (clock t).month = dt.month ∧ (clock t).day = dt.day ∧
    (clock t).hour = dt.hour ∧ (clock t).minute = dt.minute := by
  have hm := hc.minute t
  rw [h] at hm
  obtain ⟨-, -, a1, a2⟩ := hc.valid t
  have hv'' := hv
  obtain ⟨-, -, b1, b2⟩ := hv''
  unfold minuteNumber at hm
  have hd : dayNumber (clock t) = dayNumber dt := by omega
  obtain ⟨h1, h2, h3⟩ := dayNumber_inj (hc.valid t) hv hd
  exact ⟨h1, h2, h3, by omega, by omega⟩

/-- A date and time that is shown and lies far enough ahead is tested. -/
private theorem tested {clock : Int → DateTime} {offset : Int → Int} (hc : ZoneClock clock offset) {dt : DateTime}
    (hs : Shown offset dt) (i : Interval) (m : Nat)
    (hl : minuteNumber (clock (tick i m)) + 3 * 1440 ≤ minuteNumber dt) :
    ∃ k, m < k ∧ (tick i k + offset (tick i k)) / minuteNs = minuteNumber dt := by
  obtain ⟨t, ht⟩ := hs
  have h0 := ht t (Int.le_refl _) (by unfold minuteNs; omega)
  have b1 := hc.bound t
  have b2 := hc.bound (tick i m)
  have hm := hc.minute (tick i m)
  have hlt : tick i m + minuteNs < t := by
    unfold minuteNs at *
    omega
  refine ⟨m + ((t - tick i m + (minuteNs - 1)) / minuteNs).toNat, ?_, ?_⟩
  · unfold minuteNs at *
    omega
  · have hk : tick i (m + ((t - tick i m + (minuteNs - 1)) / minuteNs).toNat) =
        tick i m + (t - tick i m + (minuteNs - 1)) / minuteNs * minuteNs := by
      have hn : (((t - tick i m + (minuteNs - 1)) / minuteNs).toNat : Int) =
          (t - tick i m + (minuteNs - 1)) / minuteNs := Int.toNat_of_nonneg (by unfold minuteNs at *; omega)
      rw [← hn]
      generalize ((t - tick i m + (minuteNs - 1)) / minuteNs).toNat = D
      unfold tick minuteNs
      omega
    rw [hk]
    refine ht _ ?_ ?_
    · unfold minuteNs at *
      omega
    · unfold minuteNs at *
      omega

private theorem zone_finds {maxYear : Int} {clock : Int → DateTime} {offset : Int → Int} (hc : ZoneClock clock offset)
    {e : CronExpr} {dt : DateTime} (hv : dt.Valid) (hy : dt.year < maxYear) (h : eval maxYear dt e = some true)
    (hs : ∀ y, (isLeap y ↔ isLeap dt.year) → Shown offset { dt with year := y })
    (i : Interval) (m : Nat) (hm : (clock (tick i m)).year + 9 < maxYear) :
    ∃ k, m < k ∧ satisfied maxYear clock e (tick i k) = true ∧
      (clock (tick i k)).year ≤ (clock (tick i m)).year + 9 := by
  obtain ⟨j, j1, j8, hj⟩ := same_length ((clock (tick i m)).year + 1) dt.year
  let target : DateTime := { dt with year := (clock (tick i m)).year + 1 + j }
  have hlen : ∀ mo, monthLength target.year mo = monthLength dt.year mo := by
    intro mo
    unfold monthLength
    by_cases hz : isLeap dt.year
    · rw [if_pos hz, if_pos (hj.2 hz)]
    · rw [if_neg hz, if_neg fun x => hz (hj.1 x)]
  have htv : target.Valid := ⟨hv.month, ⟨hv.day.1, by rw [hlen]; exact hv.day.2⟩, hv.hour, hv.minute⟩
  have hty : target.year = (clock (tick i m)).year + 1 + j := rfl
  obtain ⟨k, hk1, hk2⟩ := tested hc (hs _ hj : Shown offset target) i m (by
    change _ ≤ minuteNumber target
    have b1 := (dayNumber_bounds (hc.valid (tick i m))).2
    have b2 := (dayNumber_bounds htv).1
    have := daysBeforeYear_lt (show (clock (tick i m)).year + 1 < target.year by omega)
    have := (hc.valid (tick i m)).hour
    have := (hc.valid (tick i m)).minute
    unfold minuteNumber
    omega)
  obtain ⟨e1, e2, e3, e4, e5⟩ := hc.at_minute htv hk2
  refine ⟨k, hk1, ?_, by rw [e1, hty]; omega⟩
  rw [satisfied_iff, ← h]
  refine eval_congr (by rw [e1, hty]; omega) hy hv e2 ?_ e3 e4 e5
  rw [e1, e2, hlen]

private theorem zone_finds_many {maxYear : Int} {clock : Int → DateTime} {offset : Int → Int}
    (hc : ZoneClock clock offset) {e : CronExpr} {dt : DateTime} (hv : dt.Valid) (hy : dt.year < maxYear)
    (h : eval maxYear dt e = some true)
    (hs : ∀ y, (isLeap y ↔ isLeap dt.year) → Shown offset { dt with year := y })
    (i : Interval) (n m : Nat) (hm : (clock (tick i m)).year + 9 * n < maxYear) :
    ∃ ks : List Nat, ks.length = n ∧ ks.Pairwise (· < ·) ∧
      ∀ k ∈ ks, m < k ∧ satisfied maxYear clock e (tick i k) = true := by
  induction n generalizing m with
  | zero => exact ⟨[], rfl, List.Pairwise.nil, by simp⟩
  | succ n ih =>
    obtain ⟨k, h1, h2, h3⟩ := zone_finds hc hv hy h hs i m (by omega)
    obtain ⟨ks, g1, g2, g3⟩ := ih k (by push_cast at hm; omega)
    refine ⟨k :: ks, by simp [g1], List.pairwise_cons.2 ⟨fun x hx => (g3 x hx).1, g2⟩, fun x hx => ?_⟩
    rcases List.mem_cons.1 hx with rfl | hx
    · exact ⟨h1, h2⟩
    · exact ⟨by have := (g3 x hx).1; omega, (g3 x hx).2⟩

/-- With summer time: if some date and time satisfies the expression that the clocks of the zone do not skip in any
year that is a leap year like its own or is none like its own, `upcoming` returns the next items, from any start, at
the latest in nine years each; all of its items satisfy the expression by the clocks of the zone, and no satisfying
minute is left out (so a time that is shown twice is returned twice). -/
theorem c109_zone (maxYear : Int) (clock : Int → DateTime) (offset : Int → Int) (hc : ZoneClock clock offset)
    (e : CronExpr) (dt : DateTime) (hv : dt.Valid) (hy : dt.year < maxYear) (h : eval maxYear dt e = some true)
    (hs : ∀ y, (isLeap y ↔ isLeap dt.year) → Shown offset { dt with year := y })
    (start : Int) (n : Nat) (hn : (clock (toMillis start)).year + 9 * n < maxYear) :
    ∃ fuel l, (upcoming start).takeItems (satisfied maxYear clock e) fuel n (upcoming start).iter = some l ∧
      l.length = n ∧ l.Pairwise (· < ·) ∧ (∀ t ∈ l, eval maxYear (clock t) e = some true) ∧
      (∀ t ∈ l, ∀ k : Nat, toMillis start + k * minuteNs ≤ t →
        eval maxYear (clock (toMillis start + k * minuteNs)) e = some true →
        toMillis start + k * minuteNs ∈ l) := by
  have h0 : tick (upcoming start) 0 = toMillis start := by simp [tick, upcoming, Interval.new]
  obtain ⟨ks, rfl, hp, hs⟩ := zone_finds_many hc hv hy h hs (upcoming start) n 0 (by rw [h0]; exact hn)
  obtain ⟨fuel, l, hl⟩ := c40_returns_count start _ ks hp fun k hk => (hs k hk).2
  refine ⟨fuel, l, hl, c40_length _ _ _ _ _ hl, c40_increasing _ _ _ _ _ hl, fun t ht => ?_, fun t ht k hk hs => ?_⟩
  · exact satisfied_iff.1 (c40_sound _ _ _ _ _ hl t ht).1
  · exact c40_complete _ _ _ _ _ hl t ht k hk (satisfied_iff.2 hs)

/-- A time that the clocks of the zone never show is never found, although it is accepted: `next` does not return. -/
theorem c109_zone_skipped_violated (maxYear : Int) (clock : Int → DateTime) (offset : Int → Int)
    (hc : ZoneClock clock offset) (e : CronExpr) (start : Int)
    (h : ∀ dt : DateTime, dt.Valid → eval maxYear dt e = some true → ∀ t, start - milliNs ≤ t →
      (t + offset t) / minuteNs ≠ minuteNumber dt) (fuel : Nat) :
    (upcoming start).next (satisfied maxYear clock e) fuel (upcoming start).iter = none := by
  refine c40_hangs _ _ (fun k => ?_) (by intro e he; cases he) fuel
  rw [Bool.eq_false_iff, Ne, satisfied_iff]
  intro he
  refine h _ (hc.valid _) he _ ?_ (hc.minute _).symm
  simp only [upcoming, Interval.new, toMillis]
  unfold milliNs minuteNs
  omega

/-- A zone that puts its clocks forward by an hour at the epoch. -/
def forward (t : Int) : Int := if t < 0 then 0 else 60 * minuteNs

/-- Noon is shown on every day of it, so `0 12 * * *` is found. -/
example (y : Int) : Shown forward ⟨y, 5, 17, 12, 0, 6⟩ := by
  have hm : minuteNumber ⟨y, 5, 17, 12, 0, 6⟩ % 1440 = 720 := by
    unfold minuteNumber
    dsimp only
    omega
  unfold Shown
  generalize minuteNumber ⟨y, 5, 17, 12, 0, 6⟩ = M at hm
  by_cases h : M < 0
  · refine ⟨M * minuteNs, fun s h1 h2 => ?_⟩
    rw [forward, if_pos (by unfold minuteNs at *; omega)]
    unfold minuteNs at *
    omega
  · refine ⟨(M - 60) * minuteNs, fun s h1 h2 => ?_⟩
    rw [forward, if_neg (by unfold minuteNs at *; omega)]
    unfold minuteNs at *
    omega

/-- It has a clock; half past midnight on 1 January 1970 is not shown. -/
example : (∃ clock, ZoneClock clock forward) ∧ ∀ t, (t + forward t) / minuteNs ≠ minuteNumber ⟨1970, 1, 1, 0, 30, 5⟩ := by
  refine ⟨c109_zone_clock _ fun t => ?_, fun t => ?_⟩
  · unfold forward minuteNs; split <;> omega
  · rw [show minuteNumber ⟨1970, 1, 1, 0, 30, 5⟩ = 30 by decide]
    unfold forward minuteNs
    split <;> omega

end OniComb.Crond
