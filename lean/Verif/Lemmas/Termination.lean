import Verif.Lemmas.Repeat

/-!
# Helper lemmas: when the loop of `repeat_sep` does not end
-/

namespace OniComb
variable {I A B : Type}

theorem repTurn_diverge_iff (p : Parser I A) (sep : Option (Parser I B)) (stop : Bound)
    (st : LoopState I A) :
    repTurn p sep stop st = .diverge ↔
      boundReached stop st.items.length = false ∧ DivergesAt p sep st.cur := by
  unfold repTurn DivergesAt
  by_cases hb : boundReached stop st.items.length = true
  · simp [hb]
  · have hb' : boundReached stop st.items.length = false := by simpa using hb
    simp only [hb', Bool.false_eq_true, if_false, true_and]
    cases sep with
    | none =>
      simp only [reduceCtorEq, false_and, exists_false, false_or, SepAt, exists_eq_left, Nat.add_zero,
        repItem, state_eta]
      cases hp : p st.cur <;> simp
    | some q =>
      simp only [Option.some.injEq, exists_eq_left', SepAt]
      cases hq : q st.cur with
      | success b k =>
        simp only [repItem, State.advanceBy, reduceCtorEq, false_or, Res.success.injEq]
        constructor
        · intro h
          refine ⟨k, ⟨b, rfl, rfl⟩, ?_⟩
          cases hp : p ⟨st.cur.input, st.cur.offset + k⟩ <;> simp [hp] at h ⊢
        · rintro ⟨k', ⟨b', rfl, rfl⟩, h⟩; rw [h]
      | _ => simp

/-- Prefixes of runs are runs. -/
theorem sepRun_take {p : Parser I A} {sep : Option (Parser I B)} {s : State I} {vs : List A}
    {m : Nat} (h : SepRun p sep s vs m) : ∀ n ≤ vs.length, ∃ ws r, SepRun p sep s ws r ∧ ws.length = n := by
  induction h with
  | nil s => intro n hn; exact ⟨[], 0, .nil s, by simp at hn; simp [hn]⟩
  | @cons s k l m v vs h1 h2 hr ih =>
    intro n hn
    cases n with
    | zero => exact ⟨[], 0, .nil s, rfl⟩
    | succ n =>
      obtain ⟨ws, r, h3, h4⟩ := ih n (by simpa using hn)
      exact ⟨v :: ws, _, .cons h1 h2 h3, by simp [h4]⟩

theorem repLoop_diverge_iff (p : Parser I A) (sep : Option (Parser I B)) (stop : Bound) :
    ∀ (fuel : Nat) (st : LoopState I A),
      repLoop p sep stop fuel st = .diverge ↔
        (∃ vs m, SepRun p sep st.cur vs m ∧ vs.length = fuel ∧
          ∀ i < fuel, boundReached stop (st.items.length + i) = false) ∨
        (∃ vs m, SepRun p sep st.cur vs m ∧ vs.length < fuel ∧
          (∀ i ≤ vs.length, boundReached stop (st.items.length + i) = false) ∧
          DivergesAt p sep ⟨st.cur.input, st.cur.offset + m⟩) := by
  intro fuel
  induction fuel with
  | zero =>
    intro st
    simp only [repLoop, true_iff]
    exact .inl ⟨[], 0, .nil _, rfl, by simp⟩
  | succ fuel ih =>
    intro st
    simp only [repLoop]
    cases ht : repTurn p sep stop st with
    | again st' =>
      obtain ⟨hb, k, v, l, h1, h2, rfl⟩ := (repTurn_again_iff p sep stop st st').1 ht
      simp only [ih]
      constructor
      · rintro (⟨vs, m, hr, hl, hbs⟩ | ⟨vs, m, hr, hl, hbs, hd⟩)
        · refine .inl ⟨v :: vs, _, .cons h1 h2 hr, by simp [hl], ?_⟩
          intro i hi
          cases i with
          | zero => simpa using hb
          | succ i =>
            have := hbs i (by omega)
            simpa [Nat.add_assoc, Nat.add_comm 1 i] using this
        · refine .inr ⟨v :: vs, _, .cons h1 h2 hr, by simp; omega, ?_, by simpa [Nat.add_assoc] using hd⟩
          intro i hi
          cases i with
          | zero => simpa using hb
          | succ i =>
            have := hbs i (by simpa using hi)
            simpa [Nat.add_assoc, Nat.add_comm 1 i] using this
      · rintro (⟨vs, m, hr, hl, hbs⟩ | ⟨vs, m, hr, hl, hbs, hd⟩)
        · cases hr with
          | nil => simp at hl
          | @cons _ k2 n2 m2 v2 vs2 h1' h2' hr' =>
            have := sepAt_unique h1 h1'; subst this
            rw [h2] at h2'; cases h2'
            refine .inl ⟨vs2, m2, hr', by simpa using hl, ?_⟩
            intro i hi
            have := hbs (i + 1) (by omega)
            simpa [Nat.add_assoc, Nat.add_comm 1 i] using this
        · cases hr with
          | nil =>
            exfalso
            have := (repTurn_diverge_iff p sep stop st).2 ⟨hb, by simpa using hd⟩
            rw [ht] at this; cases this
          | @cons _ k2 n2 m2 v2 vs2 h1' h2' hr' =>
            have := sepAt_unique h1 h1'; subst this
            rw [h2] at h2'; cases h2'
            refine .inr ⟨vs2, m2, hr', by simpa using hl, ?_, by simpa [Nat.add_assoc] using hd⟩
            intro i hi
            have := hbs (i + 1) (by simpa using hi)
            simpa [Nat.add_assoc, Nat.add_comm 1 i] using this
    | diverge =>
      simp only [true_iff]
      obtain ⟨hb, hd⟩ := (repTurn_diverge_iff p sep stop st).1 ht
      exact .inr ⟨[], 0, .nil _, by simp, by simpa using hb, by simpa using hd⟩
    | _ =>
      simp only [reduceCtorEq, false_iff]
      have hna : ∀ st', repTurn p sep stop st ≠ .again st' := by simp [ht]
      rintro (⟨vs, m, hr, hl, hbs⟩ | ⟨vs, m, hr, hl, hbs, hd⟩)
      · cases hr with
        | nil => simp at hl
        | cons h1' h2' hr' =>
          exact hna _ ((repTurn_again_iff _ _ _ _ _).2
            ⟨by simpa using hbs 0 (by omega), _, _, _, h1', h2', rfl⟩)
      · have hb0 : boundReached stop st.items.length = false := by simpa using hbs 0 (by omega)
        cases hr with
        | nil =>
          have := (repTurn_diverge_iff p sep stop st).2 ⟨hb0, by simpa using hd⟩
          rw [ht] at this; cases this
        | cons h1' h2' hr' =>
          exact hna _ ((repTurn_again_iff _ _ _ _ _).2 ⟨hb0, _, _, _, h1', h2', rfl⟩)

theorem endless_of_stuck {p : Parser I A} {sep : Option (Parser I B)} {s : State I} {v : A}
    (h1 : SepAt sep s 0) (h2 : p s = .success v 0) : Endless p sep s := by
  intro n
  induction n with
  | zero => exact ⟨[], 0, .nil s, rfl⟩
  | succ n ih =>
    obtain ⟨vs, m, hr, hl⟩ := ih
    exact ⟨v :: vs, _, SepRun.cons (k := 0) (n := 0) h1 h2 hr, by simp [hl]⟩

theorem endless_cons {p : Parser I A} {sep : Option (Parser I B)} {s : State I} {v : A}
    {k n : Nat} (h1 : SepAt sep s k) (h2 : p ⟨s.input, s.offset + k⟩ = .success v n)
    (h : Endless p sep ⟨s.input, s.offset + k + n⟩) : Endless p sep s := by
  intro j
  cases j with
  | zero => exact ⟨[], 0, .nil s, rfl⟩
  | succ j =>
    obtain ⟨vs, m, hr, hl⟩ := h j
    exact ⟨v :: vs, _, .cons h1 h2 hr, by simp [hl]⟩

/-- A run of tame parsers that is longer than the rest of the input can be continued forever. -/
theorem endless_of_long {p : Parser I A} {sep : Option (Parser I B)} (hp : Tame p)
    (hsep : TameSep sep) {s : State I} {vs : List A} {m : Nat} (h : SepRun p sep s vs m)
    (hl : s.input.length - s.offset + 1 < vs.length) : Endless p sep s := by
  induction h with
  | nil s => simp at hl
  | @cons s k n m v vs h1 h2 hr ih =>
    simp only [List.length_cons] at hl ih
    by_cases h0 : k + n = 0
    · have hk : k = 0 := by omega
      have hn : n = 0 := by omega
      subst hk hn
      exact endless_of_stuck h1 h2
    · refine endless_cons h1 h2 ?_
      have hin : s.offset ≤ s.input.length := by
        by_cases hs : s.input.length < s.offset
        · exfalso
          have hk := sepAt_tame hsep hs h1
          subst hk
          have := hp _ _ _ (by simpa using hs) h2
          omega
        · omega
      by_cases hlt : s.offset < s.input.length
      · exact ih (by omega)
      · -- the pair left the input; the next pair consumes nothing
        cases hr with
        | nil => simp at hl
        | @cons _ k2 n2 m2 v2 vs2 h1' h2' hr' =>
          have hout : s.input.length < s.offset + k + n := by omega
          have hk2 := sepAt_tame hsep (by simpa using hout) h1'
          subst hk2
          have hn2 := hp _ _ _ (by simpa using hout) h2'
          subst hn2
          exact endless_of_stuck h1' h2'

end OniComb
