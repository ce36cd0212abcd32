import Verif.Spec.Calendar
import Mathlib.Tactic.Choose

/-!
# The calendar: day numbers are counted without gaps and repetitions
-/

namespace OniComb.Crond

theorem isLeap_iff (y : Int) : isLeap y ↔ y % 4 = 0 ∧ (y % 100 ≠ 0 ∨ y % 400 = 0) := by
  unfold isLeap
  simp only [Int.dvd_iff_emod_eq_zero, ne_eq]

theorem daysBeforeYear_succ (y : Int) : daysBeforeYear (y + 1) = daysBeforeYear y + yearLength y := by
  unfold daysBeforeYear yearLength
  split
  · rename_i h; rw [isLeap_iff] at h; omega
  · rename_i h; rw [isLeap_iff] at h; omega

theorem daysBeforeMonth_succ (y : Int) {m : Nat} (h : 1 ≤ m) :
    daysBeforeMonth y (m + 1) = daysBeforeMonth y m + monthLength y m := by
  obtain ⟨k, rfl⟩ : ∃ k, m = k + 1 := ⟨m - 1, by omega⟩
  rfl

theorem daysBeforeMonth_end (y : Int) : (daysBeforeMonth y 13 : Int) = yearLength y := by
  unfold yearLength
  by_cases h : isLeap y <;> simp [daysBeforeMonth, monthLength, h]

theorem daysBeforeMonth_le (y : Int) {m k : Nat} (h : 1 ≤ m) (hk : m ≤ k) :
    daysBeforeMonth y m ≤ daysBeforeMonth y k := by
  induction k with
  | zero => omega
  | succ k ih =>
    by_cases e : m = k + 1
    · rw [e]; exact Nat.le_refl _
    · rw [daysBeforeMonth_succ y (by omega)]
      have := ih (by omega)
      omega

theorem daysBeforeYear_lt {x y : Int} (h : x < y) : daysBeforeYear x + 365 ≤ daysBeforeYear y := by
  unfold daysBeforeYear
  omega

theorem daysBeforeYear_le {x y : Int} (h : x ≤ y) : daysBeforeYear x ≤ daysBeforeYear y := by
  unfold daysBeforeYear
  omega

/-- The day is inside its year. -/
theorem dayNumber_bounds {dt : DateTime} (h : dt.Valid) :
    daysBeforeYear dt.year ≤ dayNumber dt ∧ dayNumber dt < daysBeforeYear (dt.year + 1) := by
  obtain ⟨⟨m1, m2⟩, ⟨d1, d2⟩, -, -⟩ := h
  rw [daysBeforeYear_succ, ← daysBeforeMonth_end]
  have := daysBeforeMonth_succ dt.year m1
  have := daysBeforeMonth_le dt.year (m := dt.month + 1) (k := 13) (by omega) (by omega)
  unfold dayNumber
  omega

/-- Two dates with the same number are the same. -/
theorem dayNumber_inj {a b : DateTime} (ha : a.Valid) (hb : b.Valid) (h : dayNumber a = dayNumber b) :
    a.year = b.year ∧ a.month = b.month ∧ a.day = b.day := by
  have ba := dayNumber_bounds ha
  have bb := dayNumber_bounds hb
  have hy : a.year = b.year := by
    rcases Int.lt_trichotomy a.year b.year with hlt | he | hlt
    · have := daysBeforeYear_le (show a.year + 1 ≤ b.year by omega); omega
    · exact he
    · have := daysBeforeYear_le (show b.year + 1 ≤ a.year by omega); omega
  obtain ⟨⟨am1, am2⟩, ⟨ad1, ad2⟩, -, -⟩ := ha
  obtain ⟨⟨bm1, bm2⟩, ⟨bd1, bd2⟩, -, -⟩ := hb
  unfold dayNumber at h
  rw [← hy] at h bd2
  have sa := daysBeforeMonth_succ a.year am1
  have sb := daysBeforeMonth_succ a.year bm1
  have hm : a.month = b.month := by
    rcases Nat.lt_trichotomy a.month b.month with hlt | he | hlt
    · have := daysBeforeMonth_le a.year (m := a.month + 1) (k := b.month) (by omega) hlt; omega
    · exact he
    · have := daysBeforeMonth_le a.year (m := b.month + 1) (k := a.month) (by omega) hlt; omega
  rw [← hm] at h
  exact ⟨hy, hm, by omega⟩

theorem monthLength_ge (y : Int) (m : Nat) : 28 ≤ monthLength y m := by
  unfold monthLength
  split
  · split <;> omega
  · split <;> omega

theorem monthLength_le (y : Int) (m : Nat) : monthLength y m ≤ 31 := by
  unfold monthLength
  split
  · split <;> omega
  · split <;> omega

/-- Every day of a year has a date. -/
theorem date_of_yearDay (y : Int) (n : Nat) (h : (n : Int) < yearLength y) :
    ∃ m d : Nat, (1 ≤ m ∧ m ≤ 12) ∧ (1 ≤ d ∧ d ≤ monthLength y m) ∧ n = daysBeforeMonth y m + (d - 1) := by
  rw [← daysBeforeMonth_end] at h
  have key : ∀ k : Nat, 1 ≤ k → k ≤ 13 → n < daysBeforeMonth y k →
      ∃ m d : Nat, (1 ≤ m ∧ m ≤ 12) ∧ (1 ≤ d ∧ d ≤ monthLength y m) ∧ n = daysBeforeMonth y m + (d - 1) := by
    intro k
    induction k with
    | zero => intro h; omega
    | succ k ih =>
      intro _ hk hn
      by_cases h0 : k = 0
      · subst h0; simp [daysBeforeMonth] at hn
      · by_cases hl : n < daysBeforeMonth y k
        · exact ih (by omega) (by omega) hl
        · rw [daysBeforeMonth_succ y (by omega)] at hn
          exact ⟨k, n - daysBeforeMonth y k + 1, ⟨by omega, by omega⟩, ⟨by omega, by omega⟩, by omega⟩
  exact key 13 (by omega) (by omega) (by omega)

/-- Every day number lies in a year. -/
theorem year_of_dayNumber (n : Int) : ∃ y, daysBeforeYear y ≤ n ∧ n < daysBeforeYear (y + 1) := by
  -- an upper bound for the year, from which we go down
  have down : ∀ (k : Nat) (y : Int), n < daysBeforeYear (y + 1) → daysBeforeYear (y - k) ≤ n →
      ∃ y, daysBeforeYear y ≤ n ∧ n < daysBeforeYear (y + 1) := by
    intro k
    induction k with
    | zero => intro y h1 h2; exact ⟨y, by simpa using h2, h1⟩
    | succ k ih =>
      intro y h1 h2
      by_cases h : daysBeforeYear y ≤ n
      · exact ⟨y, h, h1⟩
      · refine ih (y - 1) (by rw [Int.sub_add_cancel]; omega) ?_
        have : y - 1 - (k : Int) = y - (k + 1 : Nat) := by push_cast; omega
        rw [this]; exact h2
  by_cases hn : 0 ≤ n
  · refine down (n.toNat + 1) (n + 1) ?_ ?_
    · unfold daysBeforeYear; omega
    · unfold daysBeforeYear; omega
  · refine down (-n).toNat 1 ?_ ?_
    · unfold daysBeforeYear; omega
    · unfold daysBeforeYear; omega

/-- Every minute has a date and time. -/
theorem exists_date (t : Int) : ∃ dt : DateTime, dt.Valid ∧ minuteNumber dt = t ∧
    (dt.weekday : Int) = (dayNumber dt + 1) % 7 + 1 := by
  obtain ⟨y, h1, h2⟩ := year_of_dayNumber (t / 1440 + 719162)
  rw [daysBeforeYear_succ] at h2
  obtain ⟨m, d, hm, hd, he⟩ := date_of_yearDay y (t / 1440 + 719162 - daysBeforeYear y).toNat (by omega)
  have hn : daysBeforeYear y + daysBeforeMonth y m + ((d : Int) - 1) = t / 1440 + 719162 := by omega
  refine ⟨⟨y, m, d, (t % 1440 / 60).toNat, (t % 60).toNat, ((t / 1440 + 719162 + 1) % 7 + 1).toNat⟩,
    ⟨hm, hd, ?_, ?_⟩, ?_, ?_⟩
  · dsimp only; omega
  · dsimp only; omega
  · unfold minuteNumber dayNumber
    dsimp only
    rw [hn]
    omega
  · unfold dayNumber
    dsimp only
    rw [hn]
    omega

/-- There is a clock for every offset. -/
theorem clock_exists (offset : Int) : ∃ clock, Clock clock offset := by
  choose f h1 h2 h3 using fun t : Int => exists_date ((t + offset) / minuteNs)
  exact ⟨f, h1, h2, h3⟩

/-- The clock shows a valid date and time in its minute. -/
theorem Clock.at_minute {clock : Int → DateTime} {offset : Int} (hc : Clock clock offset) {dt : DateTime}
    (hv : dt.Valid) {t : Int} (h : (t + offset) / minuteNs = minuteNumber dt) :
    (clock t).year = dt.year ∧ (clock t).month = dt.month ∧ (clock t).day = dt.day ∧
    (clock t).hour = dt.hour ∧ (clock t).minute = dt.minute := by
  have hm := hc.minute t
  rw [h] at hm
  have hv' := hc.valid t
  obtain ⟨-, -, a1, a2⟩ := hv'
  have hv'' := hv
  obtain ⟨-, -, b1, b2⟩ := hv''
  unfold minuteNumber at hm
  have hd : dayNumber (clock t) = dayNumber dt := by omega
  obtain ⟨h1, h2, h3⟩ := dayNumber_inj (hc.valid t) hv hd
  exact ⟨h1, h2, h3, by omega, by omega⟩

/-- Within eight years there is a year of the same length. -/
theorem same_length (y z : Int) : ∃ k : Int, 1 ≤ k ∧ k ≤ 8 ∧ (isLeap (y + k) ↔ isLeap z) := by
  by_cases hz : isLeap z
  · have : isLeap (y + (4 - y % 4)) ∨ isLeap (y + (8 - y % 4)) := by
      rw [isLeap_iff, isLeap_iff]; omega
    rcases this with h | h
    · exact ⟨4 - y % 4, by omega, by omega, ⟨fun _ => hz, fun _ => h⟩⟩
    · exact ⟨8 - y % 4, by omega, by omega, ⟨fun _ => hz, fun _ => h⟩⟩
  · have : ¬ isLeap (y + 1) ∨ ¬ isLeap (y + 2) := by
      rw [isLeap_iff, isLeap_iff]; omega
    rcases this with h | h
    · exact ⟨1, by omega, by omega, ⟨fun h' => absurd h' h, fun h' => absurd h' hz⟩⟩
    · exact ⟨2, by omega, by omega, ⟨fun h' => absurd h' h, fun h' => absurd h' hz⟩⟩

end OniComb.Crond
