import Verif.Lemmas.Termination
import Verif.Props.Repeat

/-!
# C14: when repetition terminates

The model of the loop uses fuel. `c14_diverge_iff` states the exact, fuel free condition under which
`repeat_sep` without upper bound does not return, so the fuel is not an approximation.
-/

namespace OniComb
variable {I A B : Type}

/-- Exactly when an unbounded repetition does not return: a called parser does not return, or
arbitrarily many pairs can be read. -/
theorem c14_diverge_iff (p : Parser I A) (sep : Option (Parser I B)) (hp : Tame p) (hsep : TameSep sep)
    (range : Range) (hr : range.stop = .unbounded) (s : State I) :
    repeatSep p range sep s = .diverge ↔
      p s = .diverge ∨
      ∃ v l, p s = .success v l ∧
        (Endless p sep ⟨s.input, s.offset + l⟩ ∨
         ∃ vs m, SepRun p sep ⟨s.input, s.offset + l⟩ vs m ∧
           DivergesAt p sep ⟨s.input, s.offset + l + m⟩) := by
  have hfin : ∀ (items : List A) (len : Nat), repFinish range s items len ≠ .diverge := by
    intro items len h
    unfold repFinish at h
    split at h
    · split at h
      · simp only [State.withInput] at h; split at h <;> cases h
      · cases h
    · cases h
  unfold repeatSep
  cases hps : p s with
  | success v l =>
    simp only [reduceCtorEq, false_or]
    have key := repLoop_diverge_iff p sep range.stop (repFuel range.stop s) ⟨s.advanceBy l, [v], l⟩
    constructor
    · intro h
      refine ⟨v, l, rfl, ?_⟩
      have hd : repLoop p sep range.stop (repFuel range.stop s) ⟨s.advanceBy l, [v], l⟩ = .diverge := by
        cases hl : repLoop p sep range.stop (repFuel range.stop s) ⟨s.advanceBy l, [v], l⟩ with
        | exit items len => rw [hl] at h; exact absurd h (hfin _ _)
        | panic => rw [hl] at h; cases h
        | diverge => rfl
      rcases key.1 hd with ⟨vs, m, h1, h2, -⟩ | ⟨vs, m, h1, -, -, h3⟩
      · refine .inl (endless_of_long hp hsep h1 ?_)
        simp only [h2, hr, repFuel]; omega
      · exact .inr ⟨vs, m, h1, h3⟩
    · rintro ⟨v', l', hv, h⟩
      cases hv
      have hd : repLoop p sep range.stop (repFuel range.stop s) ⟨s.advanceBy l, [v], l⟩ = .diverge := by
        refine key.2 ?_
        rcases h with he | ⟨vs, m, h1, h2⟩
        · obtain ⟨vs, m, h1, h2⟩ := he (repFuel range.stop s)
          exact .inl ⟨vs, m, h1, h2, by simp [hr, boundReached]⟩
        · by_cases hlt : vs.length < repFuel range.stop s
          · exact .inr ⟨vs, m, h1, hlt, by simp [hr, boundReached], h2⟩
          · obtain ⟨ws, r, h3, h4⟩ := sepRun_take h1 (repFuel range.stop s) (by omega)
            exact .inl ⟨ws, r, h3, h4, by simp [hr, boundReached]⟩
      rw [hd]
  | failure e c => simp [hfin]
  | _ => simp

/-- Progress implies termination: if neither parser diverges and the item (or the separator) never
succeeds without consuming, unbounded repetition returns on every input. -/
theorem c14_terminates (p : Parser I A) (sep : Option (Parser I B)) (hp : Tame p) (hsep : TameSep sep)
    (hprog : Progress p ∨ ∃ q, sep = some q ∧ Progress q)
    (hpd : ∀ s, p s ≠ .diverge) (hsd : ∀ q, sep = some q → ∀ s, q s ≠ .diverge)
    (range : Range) (hr : range.stop = .unbounded) (s : State I) :
    repeatSep p range sep s ≠ .diverge := by
  rw [Ne, c14_diverge_iff p sep hp hsep range hr]
  rintro (h | ⟨v, l, -, he | ⟨vs, m, -, ⟨q, hq, h⟩ | ⟨k, -, h⟩⟩⟩)
  · exact hpd _ h
  · -- every pair consumes something, so runs are no longer than the input
    have bound : ∀ {t : State I} {vs : List A} {m : Nat}, SepRun p sep t vs m →
        vs.length ≤ t.input.length - t.offset + 1 := by
      intro t vs m h
      induction h with
      | nil s => simp
      | @cons t k n m v vs h1 h2 hr ih =>
        simp only [List.length_cons] at *
        have hpos : 0 < k + n := by
          rcases hprog with h | ⟨q, rfl, h⟩
          · have := h _ _ _ h2; omega
          · obtain ⟨b, hb⟩ := h1; have := h _ _ _ hb; omega
        have hin : t.offset ≤ t.input.length := by
          by_cases hs : t.input.length < t.offset
          · exfalso
            have hk := sepAt_tame hsep hs h1
            subst hk
            have := hp _ _ _ (by simpa using hs) h2
            omega
          · omega
        by_cases hlt : t.offset < t.input.length
        · omega
        · cases hr with
          | nil => simp
          | @cons _ k2 n2 m2 v2 vs2 h1' h2' hr' =>
            exfalso
            have hout : t.input.length < t.offset + k + n := by omega
            have hk2 := sepAt_tame hsep (by simpa using hout) h1'
            subst hk2
            have hn2 := hp _ _ _ (by simpa using hout) h2'
            subst hn2
            rcases hprog with h | ⟨q, rfl, h⟩
            · have := h _ _ _ h2'; omega
            · obtain ⟨b, hb⟩ := h1'; have := h _ _ _ hb; omega
    obtain ⟨vs, m, h1, h2⟩ := he (s.input.length - (s.offset + l) + 2)
    have := bound h1
    simp only at this; omega
  · exact hsd q hq _ h
  · exact hpd _ h

/-- No progress implies non-termination: if at some reached position separator and item succeed
without consuming, unbounded repetition does not return. -/
theorem c14_no_progress (p : Parser I A) (sep : Option (Parser I B)) (range : Range)
    (hr : range.stop = .unbounded) (s : State I) {v w : A} {l m : Nat} {vs : List A}
    (h1 : p s = .success v l) (h2 : SepRun p sep ⟨s.input, s.offset + l⟩ vs m)
    (h3 : SepAt sep ⟨s.input, s.offset + l + m⟩ 0)
    (h4 : p ⟨s.input, s.offset + l + m⟩ = .success w 0) :
    repeatSep p range sep s = .diverge := by
  have append : ∀ {t : State I} {vs : List A} {m : Nat}, SepRun p sep t vs m →
      Endless p sep ⟨t.input, t.offset + m⟩ → Endless p sep t := by
    intro t vs m h
    induction h with
    | nil s => intro h; exact h
    | @cons t k n m v vs h1 h2 hr ih =>
      intro h; exact endless_cons h1 h2 (ih (by simpa [Nat.add_assoc] using h))
  have hend : Endless p sep ⟨s.input, s.offset + l⟩ := append h2 (endless_of_stuck h3 h4)
  unfold repeatSep
  rw [h1]
  simp only
  obtain ⟨ws, r, h5, h6⟩ := hend (repFuel range.stop s)
  rw [(repLoop_diverge_iff p sep range.stop (repFuel range.stop s) ⟨s.advanceBy l, [v], l⟩).2
    (.inl ⟨ws, r, h5, h6, by simp [hr, boundReached]⟩)]

/-- A repetition with an upper bound returns if the parsers it calls do, whether or not they make
progress. -/
theorem c14_bounded (p : Parser I A) (sep : Option (Parser I B)) (range : Range)
    (hr : range.stop ≠ .unbounded)
    (hpd : ∀ s, p s ≠ .diverge) (hsd : ∀ q, sep = some q → ∀ s, q s ≠ .diverge) (s : State I) :
    repeatSep p range sep s ≠ .diverge := by
  have hfin : ∀ (items : List A) (len : Nat), repFinish range s items len ≠ .diverge := by
    intro items len h
    unfold repFinish at h
    split at h
    · split at h
      · simp only [State.withInput] at h; split at h <;> cases h
      · cases h
    · cases h
  unfold repeatSep
  cases hps : p s with
  | success v l =>
    simp only
    cases hl : repLoop p sep range.stop (repFuel range.stop s) ⟨s.advanceBy l, [v], l⟩ with
    | exit items len => exact hfin _ _
    | panic => simp
    | diverge =>
      exfalso
      rcases (repLoop_diverge_iff _ _ _ _ _).1 hl with ⟨vs, m, -, -, hb⟩ | ⟨vs, m, -, -, -, hd⟩
      · cases hst : range.stop with
        | included j =>
          have := hb j (by simp [hst, repFuel])
          simp [hst, boundReached] at this
        | excluded j =>
          have := hb j (by simp [hst, repFuel])
          simp [hst, boundReached] at this
          omega
        | unbounded => exact hr hst
      · rcases hd with ⟨q, hq, h⟩ | ⟨k, -, h⟩
        · exact hsd q hq _ h
        · exact hpd _ h
  | failure e c => exact hfin _ _
  | panic => simp
  | diverge => exact absurd hps (hpd s)

/-- `of_many0` of a parser that can succeed without consuming never returns: `opt` under `of_many0`. -/
example : many0 (opt (elm 'a')) ⟨['a', 'b'], 0⟩ = .diverge := by decide
/-- `elm` meets the hypotheses of `c14_terminates`. -/
example : Progress (elm 'a') ∧ Tame (elm 'a') ∧ ∀ s, elm 'a' s ≠ .diverge := by
  have key : ∀ s : State Char, elm 'a' s = .panic ∨ (∃ v, elm 'a' s = .success v 1) ∨
      ∃ e c, elm 'a' s = .failure e c := by
    intro s
    simp only [elm, elmPred, State.withInput]
    repeat' split
    all_goals simp
  refine ⟨?_, ?_, ?_⟩
  · intro s v n h
    rcases key s with h' | ⟨v', h'⟩ | ⟨e, c, h'⟩ <;> rw [h'] at h <;> cases h
    omega
  · intro s v n hs h
    have hd : ¬ s.offset ≤ s.input.length := by omega
    simp [elm, elmPred, State.withInput, hd] at h
  · intro s h
    rcases key s with h' | ⟨v', h'⟩ | ⟨e, c, h'⟩ <;> rw [h'] at h <;> cases h

end OniComb
