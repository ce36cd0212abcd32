import Verif.Model.CrondSteps
import Verif.Lemmas.Fair

/-!
# C146: a cron expression is read in a number of steps proportional to its length

`Counting.cron` counts the runs of parsers without parts and the elements of the names of the weekdays that are compared. Caches
are left out, as in `Model/Crond`.
-/

namespace OniComb.Crond.Counting
open OniComb OniComb.Crond OniComb.Steps
open OniComb.Counted (prim unary)

section
variable {I A B : Type} {a w w' lo : Nat} {p : Counted I A} {q : Counted I B}

/-- Items of constant cost, separated by something of constant cost. -/
theorem fair_many1Sep (hp : Fair 0 w 0 Never Never p) (hq : Fair 0 w' 1 Never Never q) :
    Fair (w + w') (w + w') 0 Never Never (.many1Sep p q) := by
  have h0 : Fair (w + w') (w + w') 0 Never Never (.many0Sep p q) :=
    Fair.many0Sep (hp.mono (Nat.zero_le _) (Nat.le_refl _) (Nat.le_refl _) (fun _ h => h) fun _ h => h) hq
      (fun _ _ _ _ _ _ _ h => h) (by omega)
  have hsteps : ∀ s, (Counted.many1Sep p q).steps s = (Counted.many0Sep p q).steps s := fun _ => rfl
  have hrun : ∀ s v n, (Counted.many1Sep p q).run s = .success v n → (Counted.many0Sep p q).run s = .success v n := by
    intro s v n h
    have h : OniComb.repeatSep p.run (.from_ 1) (some q.run) s = _ := h
    show OniComb.repeatSep p.run (.from_ 0) (some q.run) s = _
    simp only [OniComb.repeatSep, Range.from_] at h ⊢
    cases hp' : p.run s with
    | success v' n' =>
      simp only [hp'] at h ⊢
      cases hlp : repLoop p.run (some q.run) .unbounded (repFuel .unbounded s) ⟨s.advanceBy n', [v'], n'⟩ with
      | exit items len =>
        simp only [hlp, repFinish, Nat.not_lt_zero, if_false] at h ⊢
        split at h
        · simp only [State.withInput] at h
          split at h <;> cases h
        · exact h
      | _ => simp [hlp] at h
    | failure e c =>
      simp only [hp', repFinish] at h
      simp only [State.withInput] at h
      split at h
      · split at h <;> cases h
      · rename_i h1
        exact absurd (Nat.lt_succ_self 0) (by simpa using h1)
    | _ => simp [hp'] at h
  refine ⟨fun s v n hs hr => ?_, fun s hs _ => ?_, fun s e st hs hr _ => ?_⟩
  · rw [hsteps]
    exact h0.ok s v n hs (hrun s v n hr)
  · rw [hsteps]
    by_cases h : ∃ v n, (Counted.many0Sep p q).run s = .success v n
    · obtain ⟨v, n, h⟩ := h
      obtain ⟨-, h2, h3⟩ := h0.ok s v n hs h
      rcases h3 with h3 | ⟨-, x, -, hx⟩
      · exact Nat.le_trans h3 (Nat.add_le_add_right (Nat.mul_le_mul_left _ h2) _)
      · exact hx.elim
    · exact h0.other s hs fun v n h' => h ⟨v, n, h'⟩
  · have hst : (Counted.many1Sep p q).steps s = p.steps s +
      (p.run s).onSuccess fun v n => Counted.repSteps p (some q) .unbounded (repFuel .unbounded s) ⟨s.advanceBy n, [v], n⟩ := rfl
    rw [hst]
    have hr : OniComb.repeatSep p.run (.from_ 1) (some q.run) s = _ := hr
    simp only [OniComb.repeatSep, Range.from_] at hr
    cases hp' : p.run s with
    | success v' n' =>
      exfalso
      simp only [hp'] at hr
      cases hlp : repLoop p.run (some q.run) .unbounded (repFuel .unbounded s) ⟨s.advanceBy n', [v'], n'⟩ with
      | exit items len =>
        obtain ⟨ws, m, j, -, -, rfl, -, -, -⟩ := (repLoop_exit_iff _ _ _ _ _ _ _).1 hlp
        simp [hlp, repFinish] at hr
      | _ => simp [hlp] at hr
    | failure e c =>
      have := hp.other s hs (by rw [hp']; simp)
      simp only [Res.onSuccess]
      omega
    | _ => simp [hp'] at hr

end

/-! ### Values -/

theorem fair_elm (c : Char) : Fair 0 1 1 Never Never (prim (elm c)) := fair_elmPred _

theorem fair_digit : Fair 0 1 1 Never Never (prim (elmDigit : Parser Char Char)) := fair_elmPred _

theorem fair_pair {p q : Parser Char Char} (hp : Fair 0 1 1 Never Never (prim p)) (hq : Fair 0 1 1 Never Never (prim q)) :
    Fair 0 2 1 Never Never (pair p q) :=
  (((Fair.both_const (both_andThen _ _) hp hq).unary (same_map _)).unary same_attempt).mono (Nat.le_refl _) (Nat.le_refl _) (by omega)
    (fun _ h => h) fun _ h => h

theorem fair_zeroed {q : Parser Char Char} (hq : Fair 0 1 1 Never Never (prim q)) : Fair 0 2 1 Never Never (zeroed q) :=
  (((Fair.both_const (both_skipLeft _ _) (fair_elm '0') hq).unary (same_map _)).unary same_attempt).mono (Nat.le_refl _) (Nat.le_refl _)
    (by omega) (fun _ h => h) fun _ h => h

theorem fair_single {q : Parser Char Char} (hq : Fair 0 1 1 Never Never (prim q)) : Fair 0 1 1 Never Never (single q) :=
  hq.unary (same_map _)

/-- A value takes at most 30 steps. -/
abbrev Value (x : Counted Char CronExpr) : Prop := Fair 0 30 1 Never Never x

theorem Fair.upTo {w w' : Nat} {x : Counted Char CronExpr} (h : Fair 0 w 1 Never Never x) (hw : w ≤ w' := by omega) :
    Fair 0 w' 1 Never Never x :=
  h.mono (Nat.le_refl _) hw (Nat.le_refl _) (fun _ h => h) fun _ h => h

theorem value_min : Value minDigit :=
  Fair.upTo (((fair_pair (fair_elmOfSet _) fair_digit).or_const (fair_zeroed fair_digit)).or_const (fair_single fair_digit))

theorem same_logMap {A : Type} (l : String) : Same (I := Char) (A := A) (fun p => logMap p l) where
  ok := fun _ _ v _ h => ⟨v, h⟩
  done := fun _ _ v _ _ _ h => ⟨v, h⟩
  fail := fun _ _ e st _ h => ⟨e, st, h⟩

theorem value_hour : Value hourDigit :=
  Fair.upTo ((((fair_pair (fair_elm _) (fair_elmOfSet _)).or_const (fair_pair (fair_elm _) fair_digit)).or_const
    (fair_zeroed fair_digit)).or_const ((fair_single fair_digit).unary (same_logMap _)))

theorem value_day : Value dayDigit :=
  Fair.upTo ((((fair_pair (fair_elm _) (fair_elmOfSet _)).or_const (fair_pair (fair_elmOfSet _) fair_digit)).or_const
    (fair_zeroed fair_digit19)).or_const (fair_single fair_digit19))

theorem value_month : Value monthDigit :=
  Fair.upTo (((fair_pair (fair_elm _) (fair_elmOfSet _)).or_const (fair_zeroed fair_digit19)).or_const (fair_single fair_digit19))

theorem fair_dow (n : Nat) (a b c : Char) : Fair 0 4 1 Never Never (dowName n [a, b, c]) :=
  (((fair_seq [a, b, c]).unary (same_map _)).unary same_attempt).mono (Nat.le_refl _) (Nat.le_refl _) (by simp) (fun _ h => h) fun _ h => h

theorem value_dow : Value (.or dayOfWeekText dayOfWeekDigit) :=
  Fair.upTo ((fair_single (fair_elmOfSet _)).or_const ((((((((fair_dow _ _ _ _).or_const (fair_dow _ _ _ _)).or_const (fair_dow _ _ _ _)).or_const
    (fair_dow _ _ _ _)).or_const (fair_dow _ _ _ _)).or_const (fair_dow _ _ _ _)).or_const (fair_dow _ _ _ _)).or_const
    ((fair_elm 'L').unary (same_map _))))

/-! ### Fields -/

section
variable {x : Counted Char CronExpr}

theorem fair_asterisk : Fair 0 1 1 Never Never asterisk := (fair_elm '*').unary (same_map _)

theorem fair_perP (h : Value x) : Fair 0 31 1 Never Never (perP x) :=
  (Fair.both_const (both_skipLeft _ _) (fair_elm '/') h).mono (Nat.le_refl _) (Nat.le_refl _) (by omega) (fun _ h => h) fun _ h => h

theorem fair_rangeP (h : Value x) : Fair 0 93 1 Never Never (rangeP x) := by
  have h1 := Fair.both_const (both_skipRight _ _) h (fair_elm '-')
  have h2 := Fair.both_const (both_andThen _ _) h1 h
  have h3 := Fair.both_const (both_andThen _ _) h2 ((fair_perP h).opt.unary (same_map fun e : Option CronExpr =>
    match e with
    | none => CronExpr.noOp
    | some s => s))
  exact ((h3.unary (same_map _)).unary same_attempt).mono (Nat.le_refl _) (Nat.le_refl _) (by omega) (fun _ h => h) fun _ h => h

/-- A field takes at most 124 steps for every element, and 157. -/
theorem fair_field (h : Value x) : Fair 124 157 0 Never Never (digitInstruction x) := by
  have h1 : Fair 0 123 0 Never Never (.or (rangeP x) x) :=
    ((fair_rangeP h).or_const h).mono (Nat.le_refl _) (Nat.le_refl _) (Nat.zero_le _) (fun _ h => h) fun _ h => h
  have h2 : Fair 124 124 0 Never Never (listP (.or (rangeP x) x)) :=
    ((fair_many1Sep h1 (fair_elm ',')).unary (same_map _)).unary same_attempt
  have h3 : Fair 0 32 2 Never Never (asteriskPer x) :=
    ((Fair.both_const (both_andThen _ _) fair_asterisk (fair_perP h)).unary (same_map _)).unary same_attempt
  have h4 := h2.or (h3.mono (Nat.zero_le _) (Nat.le_refl _) (Nat.zero_le _) (fun _ h => h) fun _ h => h) (misses_never _)
  have h5 := h4.or (w' := 1) (S' := Never) (q := asterisk)
    (fair_asterisk.mono (Nat.zero_le _) (Nat.le_refl _) (Nat.zero_le _) (fun _ h => h) fun _ h => h)
    ((misses_never _).mono (Nat.le_refl _) fun _ h => h.elim id id)
  exact h5.mono (Nat.le_refl _) (Nat.le_refl _) (Nat.le_refl _) (fun _ h => h) fun _ h => h.elim (fun h => h.elim id id) id

end

/-- Something and a blank. -/
theorem fair_blank {A : Type} {w lo : Nat} {S : Char → Prop} {p : Counted Char A} (h : Fair 124 w lo Never S p) :
    Fair 124 (w + 1) 0 Never (fun _ => True) (.skipRight p (prim (elm ' '))) :=
  (Fair.both (both_skipRight _ _) h (starts_any _)
    ((fair_elm ' ').mono (Nat.zero_le _) (Nat.le_refl _) (Nat.le_refl _) (fun _ h => h) fun _ h => h) (misses_never _)).mono
    (Nat.le_refl _) (Nat.le_refl _) (Nat.zero_le _) (fun _ h => h) fun _ _ => trivial

/-- Something and a field. -/
theorem fair_andField {A : Type} {w lo : Nat} {S : Char → Prop} {p : Counted Char A} {x : Counted Char CronExpr} (h : Fair 124 w lo Never S p)
    (hx : Value x) : Fair 124 (w + 157) 0 Never (fun _ => True) (.andThen p (digitInstruction x)) :=
  (Fair.both (both_andThen _ _) h (starts_any _) (fair_field hx) (misses_never _)).mono
    (Nat.le_refl _) (Nat.le_refl _) (Nat.zero_le _) (fun _ h => h) fun _ _ => trivial

theorem fair_instruction : Fair 124 789 0 Never (fun _ => True) instruction :=
  (fair_andField (fair_blank (fair_andField (fair_blank (fair_andField (fair_blank (fair_andField (fair_blank (fair_field value_min))
    value_hour)) value_day)) value_month)) value_dow).unary (same_map _)

theorem field_run (x : Counted Char CronExpr) : (digitInstruction x).run = Crond.digitInstruction x.run := rfl

theorem cron_run : cron.run = skipRight Crond.instruction end_ := by
  have h1 : minDigit.run = Crond.minDigit := rfl
  have h2 : hourDigit.run = Crond.hourDigit := rfl
  have h3 : dayDigit.run = Crond.dayDigit := rfl
  have h4 : monthDigit.run = Crond.monthDigit := rfl
  have h5 : (Counted.or dayOfWeekText dayOfWeekDigit).run = or Crond.dayOfWeekText Crond.dayOfWeekDigit := rfl
  show skipRight (map (andThen (skipRight (andThen (skipRight (andThen (skipRight (andThen
      (skipRight (digitInstruction minDigit).run (elm ' ')) (digitInstruction hourDigit).run) (elm ' '))
      (digitInstruction dayDigit).run) (elm ' ')) (digitInstruction monthDigit).run) (elm ' '))
      (digitInstruction (.or dayOfWeekText dayOfWeekDigit)).run) _) end_ = _
  rw [field_run, field_run, field_run, field_run, field_run, h1, h2, h3, h4, h5]
  rfl

/-- The counted parser is the parser of `CronParser::parse`. -/
theorem c146_counts (t : List Char) : cronParse t = parse cron.run t := by rw [cron_run]; rfl

/-- **C146**: every text, accepted or rejected, takes at most 124 steps for each of its characters, and 790. -/
theorem c146_linear (t : List Char) : cron.steps ⟨t, 0⟩ ≤ 124 * t.length + 790 := by
  have h0 : (⟨t, 0⟩ : State Char).offset ≤ (⟨t, 0⟩ : State Char).input.length := Nat.zero_le _
  have hin : Both cron instruction (prim end_) := both_skipRight _ _
  have hl : left (⟨t, 0⟩ : State Char) = t.length := Nat.sub_zero _
  by_cases h : ∃ v n, instruction.run ⟨t, 0⟩ = .success v n
  · obtain ⟨v, n, h⟩ := h
    obtain ⟨-, h2, h3⟩ := fair_instruction.ok _ _ _ h0 h
    rw [hl] at h2
    have h3 : instruction.steps ⟨t, 0⟩ ≤ 124 * n + 789 := h3.elim id fun ⟨_, _, _, hx⟩ => hx.elim
    rw [hin.steps_ok h]
    have h4 : (prim end_ : Counted Char Unit).steps (State.advanceBy ⟨t, 0⟩ n) = 1 := rfl
    omega
  · have h : ∀ v n, instruction.run ⟨t, 0⟩ ≠ .success v n := fun v n h' => h ⟨v, n, h'⟩
    have := fair_instruction.other _ h0 h
    rw [hl] at this
    rw [hin.steps_other h]
    omega

/-! ### At least one step for every character -/

theorem reads_elm (c : Char) : Steps.Reads (prim (elm c)) := reads_elmPred _

theorem reads_pair {p q : Parser Char Char} (hp : Steps.Reads (prim p)) (hq : Steps.Reads (prim q)) : Steps.Reads (pair p q) :=
  ((Reads.both (both_andThen _ _) hp hq).unary (same_map _)).unary same_attempt

theorem reads_zeroed {q : Parser Char Char} (hq : Steps.Reads (prim q)) : Steps.Reads (zeroed q) :=
  ((Reads.both (both_skipLeft _ _) (reads_elm '0') hq).unary (same_map _)).unary same_attempt

theorem reads_single {q : Parser Char Char} (hq : Steps.Reads (prim q)) : Steps.Reads (single q) := hq.unary (same_map _)

theorem reads_min : Steps.Reads minDigit :=
  ((reads_pair (reads_elmOfSet _) (reads_elmPred _)).or (reads_zeroed (reads_elmPred _))).or (reads_single (reads_elmPred _))

theorem reads_hour : Steps.Reads hourDigit :=
  (((reads_pair (reads_elm _) (reads_elmOfSet _)).or (reads_pair (reads_elm _) (reads_elmPred _))).or (reads_zeroed (reads_elmPred _))).or
    ((reads_single (reads_elmPred _)).unary (same_logMap _))

theorem reads_day : Steps.Reads dayDigit :=
  (((reads_pair (reads_elm _) (reads_elmOfSet _)).or (reads_pair (reads_elmOfSet _) (reads_elmPred _))).or (reads_zeroed reads_digit19)).or
    (reads_single reads_digit19)

theorem reads_month : Steps.Reads monthDigit :=
  ((reads_pair (reads_elm _) (reads_elmOfSet _)).or (reads_zeroed reads_digit19)).or (reads_single reads_digit19)

theorem reads_dow (n : Nat) (t : List Char) : Steps.Reads (dowName n t) := ((reads_seq t).unary (same_map _)).unary same_attempt

theorem reads_weekday : Steps.Reads (.or dayOfWeekText dayOfWeekDigit) :=
  (reads_single (reads_elmOfSet _)).or ((((((((reads_dow _ _).or (reads_dow _ _)).or (reads_dow _ _)).or (reads_dow _ _)).or
    (reads_dow _ _)).or (reads_dow _ _)).or (reads_dow _ _)).or ((reads_elm 'L').unary (same_map _)))

theorem reads_field {x : Counted Char CronExpr} (h : Steps.Reads x) : Steps.Reads (digitInstruction x) := by
  have ha : Steps.Reads asterisk := (reads_elm '*').unary (same_map _)
  have hper : Steps.Reads (perP x) := Reads.both (both_skipLeft _ _) (reads_elm '/') h
  have hr : Steps.Reads (rangeP x) := ((Reads.both (both_andThen _ _) (Reads.both (both_andThen _ _)
    (Reads.both (both_skipRight _ _) h (reads_elm '-')) h) (hper.opt.unary (same_map _))).unary (same_map _)).unary same_attempt
  exact (((((hr.or h).repeatSep _ fun q hq => by cases hq; exact reads_elm ',').unary (same_map _)).unary same_attempt).or
    (((Reads.both (both_andThen _ _) ha hper).unary (same_map _)).unary same_attempt)).or ha

theorem Reads.blank {A : Type} {p : Counted Char A} (h : Steps.Reads p) : Steps.Reads (.skipRight p (prim (elm ' '))) :=
  Reads.both (both_skipRight _ _) h (reads_elm ' ')

theorem Reads.field {A : Type} {p : Counted Char A} {x : Counted Char CronExpr} (h : Steps.Reads p) (hx : Steps.Reads x) :
    Steps.Reads (.andThen p (digitInstruction x)) := Reads.both (both_andThen _ _) h (reads_field hx)

theorem reads_instruction : Steps.Reads instruction :=
  (Reads.field (Reads.blank (Reads.field (Reads.blank (Reads.field (Reads.blank (Reads.field (Reads.blank (reads_field reads_min)) reads_hour))
    reads_day)) reads_month)) reads_weekday).unary (same_map _)

/-- **C146**: an accepted text takes at least one step for every character. -/
theorem c146_least (t : List Char) (e : CronExpr) (h : cronParse t = .ok e) : t.length ≤ cron.steps ⟨t, 0⟩ := by
  have hin : Both cron instruction (prim end_) := both_skipRight _ _
  unfold cronParse parse at h
  rw [← cron_run] at h
  cases hr : cron.run ⟨t, 0⟩ with
  | success v m =>
    obtain ⟨v1, n1, v2, n2, h1, h2, rfl⟩ := hin.ok _ _ _ hr
    have h3 := reads_instruction _ _ _ h1
    rw [hin.steps_ok h1]
    have h4 : (end_ : Parser Char Unit) (State.advanceBy ⟨t, 0⟩ n1) = .success v2 n2 := h2
    have h5 : t.length ≤ n1 := by
      simp only [end_, State.withInput, State.advanceBy, Nat.zero_add] at h4
      split at h4
      · split at h4
        · cases h4
        · rename_i h6
          exact List.drop_eq_nil_iff.1 h6
      · cases h4
    omega
  | _ => rw [hr] at h; cases h

example : cronParse "0 0 1 1 *".toList = .ok (.cron (.value 0) (.value 0) (.value 1) (.value 1) .any) := by rfl

/-- 9 characters, accepted after 112 steps. -/
example : cron.steps ⟨"0 0 1 1 *".toList, 0⟩ = 112 := by decide +kernel

/-- A list of `k` minutes that is never finished. -/
example (k : Nat) : cron.steps ⟨(List.replicate k ['1', ',']).flatten, 0⟩ ≤ 248 * k + 790 := by
  refine Nat.le_trans (c146_linear _) ?_
  simp
  omega

end OniComb.Crond.Counting
