import Verif.Props.Crond
import Mathlib.Tactic.IntervalCases

/-!
# C38, C39, C42: evaluation of cron expressions
-/

namespace OniComb.Crond
open OniComb

/-! ## C42: days of a month -/

/-- `get_days_from_month` is the Gregorian length of the month, for every year and month chrono can
represent together with the following month. -/
theorem c42_days (maxYear y : Int) (m : Nat) (h1 : 1 ≤ m) (h2 : m ≤ 12) (hy : y ≤ maxYear)
    (hm : m = 12 → y < maxYear) : getDaysFromMonth maxYear y m = some (monthLength y m : Int) := by
  unfold getDaysFromMonth fromYmd monthLength
  by_cases h12 : m = 12
  · subst h12
    have hy' : ¬ maxYear < y + 1 := by have := hm rfl; omega
    have hy'' : ¬ maxYear < y := by omega
    simp only [if_true, hy', hy'', if_false]
    simp
  · have hy' : ¬ maxYear < y := by omega
    simp only [h12, if_false, hy']
    have hm11 : m ≤ 11 := by omega
    interval_cases m <;> simp
    by_cases hl : isLeap y
    · simp only [hl, if_true]
      unfold isLeap at hl
      omega
    · simp only [hl, if_false]
      unfold isLeap at hl
      omega

/-- December of the last year chrono supports: the call panics. -/
theorem c42_last_december (maxYear : Int) : getDaysFromMonth maxYear maxYear 12 = none := by
  have : maxYear < maxYear + 1 := by omega
  simp [getDaysFromMonth, fromYmd, this]

example : getDaysFromMonth 262142 2024 2 = some 29 ∧ getDaysFromMonth 262142 1900 2 = some 28 ∧
    getDaysFromMonth 262142 2000 2 = some 29 ∧ getDaysFromMonth 262142 2023 12 = some 31 := by decide

/-! ## C38, C39: evaluation -/

/-- Every number range step, and every range end, is a number and steps are not zero. -/
def Plain : CronExpr → Prop
  | .range a b k => (∃ x, a = .value x) ∧ (∃ y, b = .value y) ∧
      (k = .noOp ∨ ∃ s, k = .value s ∧ s ≠ 0)
  | .per _ k => ∃ s, k = .value s ∧ s ≠ 0
  | .list es => ∀ e ∈ es, match e with
    | .range a b k => (∃ x, a = .value x) ∧ (∃ y, b = .value y) ∧
        (k = .noOp ∨ ∃ s, k = .value s ∧ s ≠ 0)
    | _ => True
  | _ => True

/-- A step that is written as the number 0. -/
def ZeroStep : CronExpr → Prop
  | .range _ _ (.value 0) => True
  | .per _ (.value 0) => True
  | .list es => ∃ e ∈ es, match e with
    | .range _ _ (.value 0) => True
    | _ => False
  | _ => False

theorem stepBy_some {a b p : Nat} (hp : p ≠ 0) : ∃ l, stepBy a b p = some l ∧
    ∀ now, l.any (· == now) = true ↔ a ≤ now ∧ now ≤ b ∧ p ∣ now - a := by
  refine ⟨_, by simp only [stepBy, hp, if_false]; rfl, ?_⟩
  intro now
  simp only [List.any_map, List.any_eq_true, List.mem_range, Function.comp, beq_iff_eq]
  have hpos : 0 < p := by omega
  constructor
  · rintro ⟨k, hk, rfl⟩
    have hk' : (k + 1) * p ≤ b + 1 - a + (p - 1) := by
      have := (Nat.le_div_iff_mul_le hpos).1 (Nat.succ_le_of_lt hk)
      exact this
    rw [Nat.add_mul, Nat.one_mul] at hk'
    refine ⟨by omega, by omega, ?_⟩
    rw [Nat.add_sub_cancel_left]
    exact Nat.dvd_mul_left p k
  · rintro ⟨h1, h2, k, hk⟩
    refine ⟨k, ?_, ?_⟩
    · refine Nat.lt_of_succ_le ((Nat.le_div_iff_mul_le hpos).2 ?_)
      rw [Nat.succ_mul, Nat.mul_comm k p, ← hk]
      omega
    · rw [Nat.mul_comm k p, ← hk]; omega

theorem visit_value {f : Field} {now hi : Nat} {e : CronExpr} (h : WFValue f e) :
    ∃ b, visit ⟨now, hi⟩ e = some b ∧ (b = true ↔ valueOf hi e = some now) := by
  cases h with
  | @value n h1 h2 =>
    refine ⟨now == n, by simp only [visit], ?_⟩
    simp only [valueOf, beq_iff_eq, Option.some.injEq]
    exact eq_comm
  | last h =>
    refine ⟨now == hi, by simp only [visit], ?_⟩
    simp only [valueOf, beq_iff_eq, Option.some.injEq]
    exact eq_comm

theorem visit_item {f : Field} {now hi : Nat} {e : CronExpr} (h : WFItem f e)
    (hp : Plain e) : ∃ b, visit ⟨now, hi⟩ e = some b ∧ (b = true ↔ ItemMatches hi now e) := by
  cases h with
  | value h =>
    obtain ⟨b, h1, h2⟩ := visit_value (now := now) (hi := hi) h
    refine ⟨b, h1, h2.trans ?_⟩
    cases h <;> simp only [ItemMatches]
  | @range a b ha hb =>
    obtain ⟨⟨x, rfl⟩, ⟨y, rfl⟩, -⟩ := hp
    refine ⟨_, by simp only [visit]; rfl, ?_⟩
    simp only [ItemMatches, valueOf, Bool.and_eq_true, decide_eq_true_eq, Option.some.injEq]
    exact ⟨fun h => ⟨x, y, rfl, rfl, h⟩, by rintro ⟨_, _, rfl, rfl, h⟩; exact h⟩
  | @step a b k ha hb hk =>
    obtain ⟨⟨x, rfl⟩, ⟨y, rfl⟩, h | ⟨s, rfl, hs⟩⟩ := hp
    · subst h; cases hk
    · obtain ⟨l, h1, h2⟩ := stepBy_some (a := x) (b := y) hs
      refine ⟨l.any (· == now), by simp only [visit, h1, Option.map_some], ?_⟩
      rw [h2]
      simp only [ItemMatches, valueOf, Option.some.injEq]
      exact ⟨fun h => ⟨x, y, s, rfl, rfl, rfl, h⟩, by rintro ⟨_, _, _, rfl, rfl, rfl, h⟩; exact h⟩

theorem visitAny_items {now hi : Nat} {es : List CronExpr}
    (h : ∀ e ∈ es, ∃ b, visit ⟨now, hi⟩ e = some b ∧ (b = true ↔ ItemMatches hi now e)) :
    ∃ b, visitAny ⟨now, hi⟩ es = some b ∧ (b = true ↔ ∃ e ∈ es, ItemMatches hi now e) := by
  induction es with
  | nil => exact ⟨false, by simp only [visitAny], by simp⟩
  | cons e es ih =>
    obtain ⟨b, h1, h2⟩ := h e (by simp)
    obtain ⟨b', h3, h4⟩ := ih fun x hx => h x (List.mem_cons_of_mem _ hx)
    cases b with
    | true => exact ⟨true, by simp only [visitAny, h1], by simp [h2.1 rfl]⟩
    | false =>
      have hn : ¬ ItemMatches hi now e := fun h => by simpa using h2.2 h
      exact ⟨b', by simp only [visitAny, h1, h3], by rw [h4]; simp [hn]⟩

theorem visit_field {f : Field} {now hi : Nat} {e : CronExpr} (h : WFField f e)
    (hp : Plain e) : ∃ b, visit ⟨now, hi⟩ e = some b ∧ (b = true ↔ FieldMatches 0 hi now e) := by
  cases h with
  | any => exact ⟨true, by simp only [visit], by simp only [FieldMatches]⟩
  | @per k hk =>
    obtain ⟨s, rfl, hs⟩ := hp
    obtain ⟨l, h1, h2⟩ := stepBy_some (a := 0) (b := hi) hs
    refine ⟨l.any (· == now), by simp only [visit, h1, Option.map_some], ?_⟩
    rw [h2]
    simp only [FieldMatches, valueOf, Option.some.injEq]
    exact ⟨fun h => ⟨s, rfl, h⟩, by rintro ⟨_, rfl, h⟩; exact h⟩
  | item h =>
    obtain ⟨b, h1, h2⟩ := visit_item (now := now) (hi := hi) h hp
    refine ⟨b, h1, h2.trans ?_⟩
    cases h with
    | value h => cases h <;> simp only [FieldMatches]
    | range _ _ => simp only [FieldMatches]
    | step _ _ _ => simp only [FieldMatches]
  | @list es h1 h2 =>
    have : ∀ e ∈ es, ∃ b, visit ⟨now, hi⟩ e = some b ∧ (b = true ↔ ItemMatches hi now e) := by
      intro e he
      refine visit_item (h2 e he) ?_
      have := hp e he
      cases h2 e he with
      | value hv => cases hv <;> simp only [Plain]
      | range _ _ => exact this
      | step _ _ _ => exact this
    obtain ⟨b, h3, h4⟩ := visitAny_items this
    exact ⟨b, by simp only [visit]; exact h3, by rw [h4]; simp only [FieldMatches]⟩

/-- What evaluation computes, for accepted expressions with numeric range ends and non zero steps: all
five conditions, but steps after `*` count from 0, and the weekday field is compared with the minute.
(Full claim: `CronMatches`; see the witnesses below and `c38_standard_partial`.) -/
theorem c38_eval_partial (maxYear : Int) (dt : DateTime) (input : List Char)
    (mins hours days months dows : CronExpr)
    (h : cronParse input = .ok (.cron mins hours days months dows))
    (hp : Plain mins ∧ Plain hours ∧ Plain days ∧ Plain months ∧ Plain dows)
    (hm : 1 ≤ dt.month ∧ dt.month ≤ 12) (hy : dt.year < maxYear) :
    ∃ b, eval maxYear dt (.cron mins hours days months dows) = some b ∧
      (b = true ↔ FieldMatches 0 59 dt.minute mins ∧ FieldMatches 0 23 dt.hour hours ∧
        FieldMatches 0 (monthLength dt.year dt.month) dt.day days ∧ FieldMatches 0 12 dt.month months ∧
        FieldMatches 0 7 dt.minute dows) := by
  cases c36_in_range input _ h with
  | mk ha hb hc hd he =>
    obtain ⟨pa, pb, pc, pd, pe⟩ := hp
    obtain ⟨a, a1, a2⟩ := visit_field (now := dt.minute) (hi := 59) ha pa
    obtain ⟨b, b1, b2⟩ := visit_field (now := dt.hour) (hi := 23) hb pb
    obtain ⟨c, c1, c2⟩ := visit_field (now := dt.day) (hi := monthLength dt.year dt.month) hc pc
    obtain ⟨d, d1, d2⟩ := visit_field (now := dt.month) (hi := 12) hd pd
    obtain ⟨e, e1, e2⟩ := visit_field (now := dt.minute) (hi := 7) he pe
    have hday := c42_days maxYear dt.year dt.month hm.1 hm.2 (by omega) (by omega)
    refine ⟨a && b && c && d && e, ?_, ?_⟩
    · simp only [eval, hday, Int.toNat_natCast, a1, b1, c1, d1, e1]
    · simp only [Bool.and_eq_true, a2, b2, c2, d2, e2, and_assoc]

/-- Not of the form `*/k`. -/
def NoStar : CronExpr → Prop
  | .per _ _ => False
  | _ => True

/-- Evaluation is standard cron semantics for expressions with `*` as weekday, no `*/k` in the day and
month fields, numeric range ends and non zero steps. -/
theorem c38_standard_partial (maxYear : Int) (dt : DateTime) (input : List Char)
    (mins hours days months : CronExpr)
    (h : cronParse input = .ok (.cron mins hours days months .any))
    (hp : Plain mins ∧ Plain hours ∧ Plain days ∧ Plain months)
    (hn : NoStar days ∧ NoStar months)
    (hm : 1 ≤ dt.month ∧ dt.month ≤ 12) (hy : dt.year < maxYear) :
    ∃ b, eval maxYear dt (.cron mins hours days months .any) = some b ∧
      (b = true ↔ CronMatches dt (.cron mins hours days months .any)) := by
  obtain ⟨b, h1, h2⟩ := c38_eval_partial maxYear dt input mins hours days months .any h
    ⟨hp.1, hp.2.1, hp.2.2.1, hp.2.2.2, trivial⟩ hm hy
  refine ⟨b, h1, h2.trans ?_⟩
  have key : ∀ {hi now e}, NoStar e → (FieldMatches 0 hi now e ↔ FieldMatches 1 hi now e) := by
    intro hi now e hn
    cases e <;> first | exact hn.elim | simp only [FieldMatches]
  simp only [CronMatches, key hn.1, key hn.2]
  simp only [FieldMatches]

/-- The weekday field is ignored: a Monday at 10:30 satisfies `* * * * MON`, but evaluates to false. -/
theorem c38_weekday_violated : ∃ input e dt, cronParse input = .ok e ∧ CronMatches dt e ∧
    eval 262142 dt e = some false := by
  refine ⟨"* * * * MON".toList, .cron .any .any .any .any (.value 2), ⟨2024, 1, 1, 10, 30, 2⟩, rfl, ?_, by decide +kernel⟩
  simp [CronMatches, FieldMatches, ItemMatches, valueOf]

/-- A minute can be taken for a weekday: Monday at 10:07 is not a Saturday, but evaluates to true. -/
theorem c38_weekday_unsound_violated : ∃ input e dt, cronParse input = .ok e ∧ ¬ CronMatches dt e ∧
    eval 262142 dt e = some true := by
  refine ⟨"* * * * SAT".toList, .cron .any .any .any .any (.value 7), ⟨2024, 1, 1, 10, 7, 2⟩, rfl, ?_, by decide +kernel⟩
  simp [CronMatches, FieldMatches, ItemMatches, valueOf]

/-- `*/2` in the day field means the days 1, 3, 5, …, but day 1 evaluates to false. -/
theorem c38_step_violated : ∃ input e dt, cronParse input = .ok e ∧ CronMatches dt e ∧
    eval 262142 dt e = some false := by
  refine ⟨"* * */2 * *".toList, .cron .any .any (.per .any (.value 2)) .any .any, ⟨2024, 1, 1, 10, 30, 2⟩, rfl, ?_, by decide +kernel⟩
  simp [CronMatches, FieldMatches, valueOf, monthLength]

/-- A range that ends with `L` is never satisfied (the minute is chosen equal to the weekday here, so
this is not the previous defect). -/
theorem c38_last_violated : ∃ input e dt, cronParse input = .ok e ∧ CronMatches dt e ∧
    eval 262142 dt e = some false := by
  refine ⟨"* * * * 2-L".toList, .cron .any .any .any .any (.range (.value 2) .last .noOp), ⟨2024, 1, 2, 10, 3, 3⟩, rfl, ?_, by decide +kernel⟩
  simp [CronMatches, FieldMatches, ItemMatches, valueOf]

/-- The day of the week is never looked at: date-times that differ in it evaluate equally, for every tree. -/
theorem c38_weekday_general_violated (maxYear : Int) (dt : DateTime) (w : Nat) (e : CronExpr) :
    eval maxYear { dt with weekday := w } e = eval maxYear dt e := by
  cases e <;> rfl

private theorem visit_step_one {hi k : Nat} (hk : 2 ≤ k) :
    visit ⟨1, hi⟩ (.per .any (.value k)) ≠ some true := by
  obtain ⟨l, h1, h2⟩ := stepBy_some (a := 0) (b := hi) (p := k) (by omega)
  simp only [visit, h1, Option.map_some, ne_eq, Option.some.injEq]
  rw [h2]
  rintro ⟨-, -, h⟩
  have := Nat.le_of_dvd (by decide) h
  omega

private theorem eval_true {maxYear : Int} {dt : DateTime} {a b c d e : CronExpr}
    (h : eval maxYear dt (.cron a b c d e) = some true) :
    ∃ last, getDaysFromMonth maxYear dt.year dt.month = some last ∧
      visit ⟨dt.minute, 59⟩ a = some true ∧ visit ⟨dt.hour, 23⟩ b = some true ∧
      visit ⟨dt.day, last.toNat⟩ c = some true ∧ visit ⟨dt.month, 12⟩ d = some true ∧
      visit ⟨dt.minute, 7⟩ e = some true := by
  simp only [eval] at h
  split at h
  · cases h
  · split at h
    · rename_i h1 h2 h3 h4 h5
      simp only [Option.some.injEq, Bool.and_eq_true] at h
      obtain ⟨⟨⟨⟨rfl, rfl⟩, rfl⟩, rfl⟩, rfl⟩ := h
      exact ⟨_, by assumption, h1, h2, h3, h4, h5⟩
    · cases h

/-- With a step of at least 2 after `*` in the day or month field, the first day or month never evaluates to
true, although it is the first of the values denoted. -/
theorem c38_step_general_violated (maxYear : Int) (dt : DateTime) (k : Nat) (hk : 2 ≤ k)
    (mins hours days months dows : CronExpr) :
    (dt.day = 1 → FieldMatches 1 (monthLength dt.year dt.month) dt.day (.per .any (.value k)) ∧
      eval maxYear dt (.cron mins hours (.per .any (.value k)) months dows) ≠ some true) ∧
    (dt.month = 1 → FieldMatches 1 12 dt.month (.per .any (.value k)) ∧
      eval maxYear dt (.cron mins hours days (.per .any (.value k)) dows) ≠ some true) := by
  refine ⟨fun h1 => ⟨?_, fun h => ?_⟩, fun h1 => ⟨?_, fun h => ?_⟩⟩
  · refine ⟨k, rfl, by omega, ?_, by simp [h1]⟩
    rw [h1]; unfold monthLength; split
    · split <;> decide
    · split <;> decide
  · obtain ⟨_, -, -, -, h3, -⟩ := eval_true h
    rw [h1] at h3
    exact visit_step_one hk h3
  · exact ⟨k, rfl, by omega, by omega, by simp [h1]⟩
  · obtain ⟨_, -, -, -, -, h4, -⟩ := eval_true h
    rw [h1] at h4
    exact visit_step_one hk h4

/-- A weekday range that begins or ends with `L` is never satisfied, whatever the rest of the expression. -/
theorem c38_last_general_violated (maxYear : Int) (dt : DateTime) (a b k mins hours days months : CronExpr)
    (hab : a = .last ∨ b = .last) :
    eval maxYear dt (.cron mins hours days months (.range a b k)) ≠ some true := by
  intro h
  obtain ⟨_, -, -, -, -, -, h5⟩ := eval_true h
  rcases hab with rfl | rfl
  · simp [visit] at h5
  · cases a <;> simp [visit] at h5

/-- `c38_standard_partial` applies to `0-59/30 0-23/2 1,15 * *`. -/
example : ∃ mins hours days months, cronParse "0-59/30 0-23/2 1,15 * *".toList =
    .ok (.cron mins hours days months .any) ∧ (Plain mins ∧ Plain hours ∧ Plain days ∧ Plain months) ∧
    NoStar days ∧ NoStar months := by
  refine ⟨.range (.value 0) (.value 59) (.value 30), .range (.value 0) (.value 23) (.value 2),
    .list [.value 1, .value 15], .any, rfl, ?_, ?_⟩ <;> simp [Plain, NoStar]

/-! ### C39 -/

private theorem visit_value_noPanic {f : Field} {env : Env} {e : CronExpr} (h : WFValue f e) :
    visit env e ≠ none := by
  cases h <;> simp [visit]

theorem visit_item_noPanic {f : Field} {env : Env} {e : CronExpr} (h : WFItem f e)
    (hz : ¬ ZeroStep e) : visit env e ≠ none := by
  cases h with
  | value h => exact visit_value_noPanic h
  | range ha hb => cases ha <;> cases hb <;> simp [visit]
  | step ha hb hk =>
    cases hk with
    | last _ => cases ha <;> cases hb <;> simp [visit]
    | @value s _ _ =>
      have hs : s ≠ 0 := by rintro rfl; exact hz (by simp [ZeroStep])
      cases ha <;> cases hb <;> simp [visit, stepBy, hs]

theorem visitAny_noPanic {env : Env} {es : List CronExpr} (h : ∀ e ∈ es, visit env e ≠ none) :
    visitAny env es ≠ none := by
  induction es with
  | nil => simp [visitAny]
  | cons e es ih =>
    simp only [visitAny]
    cases hve : visit env e with
    | none => exact absurd hve (h e (by simp))
    | some b =>
      cases b
      · exact ih fun x hx => h x (List.mem_cons_of_mem _ hx)
      · simp

theorem visit_noPanic {f : Field} {env : Env} {e : CronExpr} (h : WFField f e)
    (hz : ¬ ZeroStep e) : visit env e ≠ none := by
  cases h with
  | any => simp [visit]
  | per hk =>
    cases hk with
    | @value s _ _ =>
      have hs : s ≠ 0 := by rintro rfl; exact hz (by simp [ZeroStep])
      simp [visit, stepBy, hs]
    | last _ => simp [visit]
  | item h => exact visit_item_noPanic h hz
  | @list es _ h =>
    simp only [visit]
    refine visitAny_noPanic fun e he => visit_item_noPanic (h e he) fun hze => hz ⟨e, he, ?_⟩
    cases h e he with
    | value hv => cases hv <;> simp [ZeroStep] at hze
    | range _ _ => simp [ZeroStep] at hze
    | @step a b k _ _ hk =>
      cases hk with
      | @value n _ _ =>
        cases n with
        | zero => trivial
        | succ n => simp [ZeroStep] at hze
      | last _ => simp [ZeroStep] at hze

theorem zeroStep_lo {f : Field} {e : CronExpr} (h : WFField f e) (hf : 1 ≤ f.lo) :
    ¬ ZeroStep e := by
  have hv : ¬ WFValue f (.value 0) := by
    intro h; cases h with | value h1 _ => omega
  cases h with
  | any => simp [ZeroStep]
  | per hk =>
    cases hk with
    | @value s h1 _ => cases s with | zero => omega | succ s => simp [ZeroStep]
    | last _ => simp [ZeroStep]
  | item h =>
    cases h with
    | value h => cases h <;> simp [ZeroStep]
    | range _ _ => simp [ZeroStep]
    | step _ _ hk =>
      cases hk with
      | @value s h1 _ => cases s with | zero => omega | succ s => simp [ZeroStep]
      | last _ => simp [ZeroStep]
  | @list es _ h =>
    rintro ⟨e, he, hz⟩
    cases h e he with
    | value hv => cases hv <;> simp at hz
    | range _ _ => simp at hz
    | @step a b k _ _ hk =>
      cases hk with
      | @value n h1 _ => cases n with | zero => omega | succ n => simp at hz
      | last _ => simp at hz

/-- Evaluation of an accepted expression panics only because of a step 0 in the minute or hour field, or
in the last year chrono supports. -/
theorem c39_no_panic_partial (maxYear : Int) (dt : DateTime) (input : List Char)
    (mins hours days months dows : CronExpr)
    (h : cronParse input = .ok (.cron mins hours days months dows))
    (hz : ¬ ZeroStep mins ∧ ¬ ZeroStep hours)
    (hm : 1 ≤ dt.month ∧ dt.month ≤ 12) (hy : dt.year < maxYear) :
    eval maxYear dt (.cron mins hours days months dows) ≠ none := by
  cases c36_in_range input _ h with
  | mk ha hb hc hd he =>
    have hday := c42_days maxYear dt.year dt.month hm.1 hm.2 (by omega) (by omega)
    have a := visit_noPanic (env := ⟨dt.minute, 59⟩) ha hz.1
    have b := visit_noPanic (env := ⟨dt.hour, 23⟩) hb hz.2
    have c := visit_noPanic (env := ⟨dt.day, (monthLength dt.year dt.month : Int).toNat⟩) hc
      (zeroStep_lo hc (by decide))
    have d := visit_noPanic (env := ⟨dt.month, 12⟩) hd (zeroStep_lo hd (by decide))
    have e := visit_noPanic (env := ⟨dt.minute, 7⟩) he (zeroStep_lo he (by decide))
    obtain ⟨a', a⟩ := Option.ne_none_iff_exists'.1 a
    obtain ⟨b', b⟩ := Option.ne_none_iff_exists'.1 b
    obtain ⟨c', c⟩ := Option.ne_none_iff_exists'.1 c
    obtain ⟨d', d⟩ := Option.ne_none_iff_exists'.1 d
    obtain ⟨e', e⟩ := Option.ne_none_iff_exists'.1 e
    simp only [eval, hday, a, b, c, d, e]
    simp

/-- A step 0 is accepted by the parser; evaluation then panics for every date and time. -/
theorem c39_zero_step_violated (maxYear : Int) (dt : DateTime) :
    cronParse "*/0 * * * *".toList = .ok (.cron (.per .any (.value 0)) .any .any .any .any) ∧
    eval maxYear dt (.cron (.per .any (.value 0)) .any .any .any .any) = none := by
  refine ⟨rfl, ?_⟩
  simp only [eval]
  cases getDaysFromMonth maxYear dt.year dt.month <;> simp [visit, stepBy]

/-- A step of zero: `*/0`, `a-b/0`, or a list that begins with such a range. -/
inductive LeadingZeroStep : CronExpr → Prop where
  | per : LeadingZeroStep (.per .any (.value 0))
  | range (a b : Nat) : LeadingZeroStep (.range (.value a) (.value b) (.value 0))
  | list {e : CronExpr} (es : List CronExpr) : LeadingZeroStep e → LeadingZeroStep (.list (e :: es))

theorem visit_leadingZeroStep {e : CronExpr} (h : LeadingZeroStep e) (env : Env) : visit env e = none := by
  induction h with
  | per => simp [visit, stepBy]
  | range a b => simp [visit, stepBy]
  | list es _ ih => simp [visit, visitAny, ih]

/-- A step of zero for minutes or hours panics at every time, whatever the other fields are. -/
theorem c39_zero_steps_violated (maxYear : Int) (dt : DateTime) (mins hours days months dows : CronExpr)
    (h : LeadingZeroStep mins ∨ LeadingZeroStep hours) : eval maxYear dt (.cron mins hours days months dows) = none := by
  simp only [eval]
  cases getDaysFromMonth maxYear dt.year dt.month with
  | none => rfl
  | some d =>
    dsimp only
    rcases h with h | h
    · rw [visit_leadingZeroStep h]
    · rw [visit_leadingZeroStep h]
      cases visit ⟨dt.minute, 59⟩ mins <;> rfl

/-- `5 1-9/0,12 * * *` is accepted and meets the hypothesis. -/
example : cronParse "5 1-9/0,12 * * *".toList =
    .ok (.cron (.value 5) (.list [.range (.value 1) (.value 9) (.value 0), .value 12]) .any .any .any) ∧
    LeadingZeroStep (.list [.range (.value 1) (.value 9) (.value 0), .value 12]) := ⟨rfl, .list _ (.range 1 9)⟩

/-- In December of the last year chrono supports, evaluation of any cron expression panics. -/
theorem c39_last_december_violated (maxYear : Int) (dt : DateTime) (hy : dt.year = maxYear)
    (hm : dt.month = 12) (a b c d e : CronExpr) : eval maxYear dt (.cron a b c d e) = none := by
  simp only [eval, hy, hm, c42_last_december]

example : ∃ mins hours days months dows, cronParse "0-59/30 0-23/2 1,15 */2 2-L/3".toList =
    .ok (.cron mins hours days months dows) ∧ ¬ ZeroStep mins ∧ ¬ ZeroStep hours := by
  refine ⟨.range (.value 0) (.value 59) (.value 30), .range (.value 0) (.value 23) (.value 2),
    .list [.value 1, .value 15], .per .any (.value 2), .range (.value 2) .last (.value 3), rfl, ?_⟩
  simp [ZeroStep]

end OniComb.Crond
