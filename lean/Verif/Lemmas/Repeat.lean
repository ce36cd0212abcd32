import Verif.Model.Repeat
import Verif.Spec.Repeat

/-!
# Helper lemmas: the loop of `repeat_sep` against the specification
-/

namespace OniComb
variable {I A B : Type}

/-- A run of an optional separator is tame. -/
def TameSep (sep : Option (Parser I B)) : Prop := ∀ q, sep = some q → Tame q

theorem sepAt_unique {sep : Option (Parser I B)} {s : State I} {k k' : Nat}
    (h : SepAt sep s k) (h' : SepAt sep s k') : k = k' := by
  cases sep with
  | none => simp only [SepAt] at h h'; omega
  | some q =>
    obtain ⟨b, hb⟩ := h
    obtain ⟨b', hb'⟩ := h'
    rw [hb] at hb'; cases hb'; rfl

theorem sepAt_tame {sep : Option (Parser I B)} (ht : TameSep sep) {s : State I} {k : Nat}
    (hs : s.input.length < s.offset) (h : SepAt sep s k) : k = 0 := by
  cases sep with
  | none => exact h
  | some q => obtain ⟨b, hb⟩ := h; exact ht q rfl s b k hs hb

/-- A separator that matches does not fail. -/
theorem not_noMore {p : Parser I A} {sep : Option (Parser I B)} {s : State I} {k n k' : Nat} {v : A}
    (h1 : SepAt sep s k) (h2 : p ⟨s.input, s.offset + k⟩ = .success v n) : ¬ NoMore p sep s k' := by
  rintro (⟨-, q, rfl, e, c, he⟩ | ⟨h3, e, c, he⟩)
  · obtain ⟨b, hb⟩ := h1; rw [hb] at he; cases he
  · rw [sepAt_unique h3 h1, h2] at he; cases he

theorem state_eta (s : State I) : (⟨s.input, s.offset⟩ : State I) = s := rfl

/-- One turn of the loop is `again` exactly if a separator/item pair can be read. -/
theorem repTurn_again_iff (p : Parser I A) (sep : Option (Parser I B)) (stop : Bound)
    (st st' : LoopState I A) :
    repTurn p sep stop st = .again st' ↔
      boundReached stop st.items.length = false ∧
      ∃ k v n, SepAt sep st.cur k ∧ p ⟨st.cur.input, st.cur.offset + k⟩ = .success v n ∧
        st' = ⟨⟨st.cur.input, st.cur.offset + k + n⟩, st.items ++ [v], st.length + k + n⟩ := by
  unfold repTurn
  by_cases hb : boundReached stop st.items.length = true
  · simp [hb]
  · have hb' : boundReached stop st.items.length = false := by simpa using hb
    simp only [hb', Bool.false_eq_true, if_false, true_and]
    cases sep with
    | none =>
      simp only [SepAt, repItem]
      cases hp : p st.cur with
      | success v n =>
        simp only [State.advanceBy, Turn.again.injEq]
        constructor
        · rintro rfl; exact ⟨0, v, n, rfl, by simpa using hp, by simp⟩
        · rintro ⟨k, v', n', rfl, h1, rfl⟩
          simp only [Nat.add_zero, state_eta] at h1
          rw [hp] at h1; cases h1; simp
      | _ =>
        simp only [reduceCtorEq, false_iff]
        rintro ⟨k, v', n', rfl, h1, -⟩
        simp only [Nat.add_zero, state_eta] at h1
        rw [hp] at h1; cases h1
    | some q =>
      simp only [SepAt]
      cases hq : q st.cur with
      | success b k =>
        simp only [repItem, State.advanceBy]
        cases hp : p ⟨st.cur.input, st.cur.offset + k⟩ with
        | success v n =>
          simp only [Turn.again.injEq]
          constructor
          · rintro rfl; exact ⟨k, v, n, ⟨b, rfl⟩, hp, rfl⟩
          · rintro ⟨k', v', n', ⟨b', hb'⟩, h1, rfl⟩
            cases hb'; rw [hp] at h1; cases h1; rfl
        | _ =>
          simp only [reduceCtorEq, false_iff]
          rintro ⟨k', v', n', ⟨b', hb'⟩, h1, -⟩
          cases hb'; rw [hp] at h1; cases h1
      | _ => simp

/-- One turn leaves the loop exactly at the bound or if no further pair can be read. -/
theorem repTurn_exit_iff (p : Parser I A) (sep : Option (Parser I B)) (stop : Bound)
    (st : LoopState I A) (items : List A) (n : Nat) :
    repTurn p sep stop st = .exit items n ↔
      items = st.items ∧
        ((boundReached stop st.items.length = true ∧ n = st.length) ∨
         (boundReached stop st.items.length = false ∧
           ∃ k, NoMore p sep st.cur k ∧ n = st.length + k)) := by
  unfold repTurn
  by_cases hb : boundReached stop st.items.length = true
  · simp only [hb, if_true, Turn.exit.injEq, true_and, Bool.true_eq_false, false_and, or_false]
    constructor
    · rintro ⟨rfl, rfl⟩; exact ⟨rfl, rfl⟩
    · rintro ⟨rfl, rfl⟩; exact ⟨rfl, rfl⟩
  · have hb' : boundReached stop st.items.length = false := by simpa using hb
    simp only [hb', Bool.false_eq_true, if_false, true_and, false_and, false_or]
    cases sep with
    | none =>
      simp only [NoMore, SepAt, repItem, reduceCtorEq, false_and, exists_false, and_false, false_or]
      cases hp : p st.cur with
      | failure e c =>
        simp only [Turn.exit.injEq]
        constructor
        · rintro ⟨rfl, rfl⟩; exact ⟨rfl, 0, ⟨rfl, e, c, hp⟩, rfl⟩
        · rintro ⟨rfl, k, ⟨rfl, -⟩, rfl⟩; exact ⟨rfl, rfl⟩
      | _ =>
        simp only [reduceCtorEq, false_iff]
        rintro ⟨-, k, ⟨rfl, e, c, h1⟩, -⟩
        simp only [Nat.add_zero, state_eta] at h1
        rw [hp] at h1; cases h1
    | some q =>
      simp only [NoMore, SepAt, Option.some.injEq, exists_eq_left']
      cases hq : q st.cur with
      | success b k =>
        simp only [repItem, State.advanceBy]
        cases hp : p ⟨st.cur.input, st.cur.offset + k⟩ with
        | failure e c =>
          simp only [Turn.exit.injEq]
          constructor
          · rintro ⟨rfl, rfl⟩; exact ⟨rfl, k, .inr ⟨⟨b, rfl⟩, e, c, hp⟩, rfl⟩
          · rintro ⟨rfl, k', (⟨-, e', c', h⟩ | ⟨⟨b', hb'⟩, -⟩), rfl⟩
            · rw [hq] at h; cases h
            · cases hb'; exact ⟨rfl, rfl⟩
        | _ =>
          simp only [reduceCtorEq, false_iff]
          rintro ⟨-, k', (⟨-, e', c', h⟩ | ⟨⟨b', hb'⟩, e, c, h1⟩), -⟩
          · rw [hq] at h; cases h
          · cases hb'; rw [hp] at h1; cases h1
      | failure e c =>
        simp only [Turn.exit.injEq, reduceCtorEq, exists_false, false_and, or_false]
        constructor
        · rintro ⟨rfl, rfl⟩; exact ⟨rfl, 0, ⟨rfl, e, c, hq⟩, rfl⟩
        · rintro ⟨rfl, k', ⟨rfl, -⟩, rfl⟩; exact ⟨rfl, rfl⟩
      | _ =>
        simp only [reduceCtorEq, exists_false, false_and, or_false, false_iff]
        rintro ⟨-, k', ⟨-, e', c', h⟩, -⟩
        rw [hq] at h; cases h

/-- Where the run stopped and how much the loop additionally consumed. -/
def StopsAt (p : Parser I A) (sep : Option (Parser I B)) (stop : Bound) (count : Nat) (s : State I)
    (k : Nat) : Prop :=
  (boundReached stop count = true ∧ k = 0) ∨ (boundReached stop count = false ∧ NoMore p sep s k)

/-- The loop against the specification, with the exact amount of fuel needed. -/
theorem repLoop_exit_iff (p : Parser I A) (sep : Option (Parser I B)) (stop : Bound) :
    ∀ (fuel : Nat) (st : LoopState I A) (items : List A) (n : Nat),
      repLoop p sep stop fuel st = .exit items n ↔
        ∃ vs m k, SepRun p sep st.cur vs m ∧ vs.length < fuel ∧ items = st.items ++ vs ∧
          n = st.length + m + k ∧
          (∀ i < vs.length, boundReached stop (st.items.length + i) = false) ∧
          StopsAt p sep stop (st.items.length + vs.length) ⟨st.cur.input, st.cur.offset + m⟩ k := by
  intro fuel
  induction fuel with
  | zero => intro st items n; simp [repLoop]
  | succ fuel ih =>
    intro st items n
    simp only [repLoop]
    cases ht : repTurn p sep stop st with
    | again st' =>
      obtain ⟨hb, k, v, l, h1, h2, rfl⟩ := (repTurn_again_iff p sep stop st st').1 ht
      simp only [ih]
      constructor
      · rintro ⟨vs, m, k', hr, hl, rfl, rfl, hbs, hst⟩
        refine ⟨v :: vs, k + l + m, k', .cons h1 h2 hr, by simp; omega, by simp, by omega, ?_, ?_⟩
        · intro i hi
          cases i with
          | zero => simpa using hb
          | succ i =>
            have := hbs i (by simpa using hi)
            simpa [Nat.add_assoc, Nat.add_comm 1 i] using this
        · simpa [Nat.add_assoc, Nat.add_comm 1 vs.length] using hst
      · rintro ⟨vs, m, k', hr, hl, rfl, rfl, hbs, hst⟩
        cases hr with
        | nil =>
          exfalso
          rcases hst with ⟨hb', -⟩ | ⟨-, hnm⟩
          · simp only [List.length_nil, Nat.add_zero] at hb'; rw [hb] at hb'; cases hb'
          · exact not_noMore h1 h2 hnm
        | @cons _ k2 n2 m2 v2 vs2 h1' h2' hr' =>
          have := sepAt_unique h1 h1'; subst this
          rw [h2] at h2'; cases h2'
          refine ⟨vs2, m2, k', hr', by simpa using hl, by simp, by omega, ?_, ?_⟩
          · intro i hi
            have := hbs (i + 1) (by simpa using hi)
            simpa [Nat.add_assoc, Nat.add_comm 1 i] using this
          · simpa [Nat.add_assoc, Nat.add_comm 1 vs2.length] using hst
    | exit items' n' =>
      simp only [LoopOut.exit.injEq]
      obtain ⟨rfl, hx⟩ := (repTurn_exit_iff p sep stop st items' n').1 ht
      constructor
      · rintro ⟨rfl, rfl⟩
        rcases hx with ⟨hb, rfl⟩ | ⟨hb, k, hnm, rfl⟩
        · exact ⟨[], 0, 0, .nil _, by simp, by simp, by simp, by simp, .inl ⟨by simpa using hb, rfl⟩⟩
        · exact ⟨[], 0, k, .nil _, by simp, by simp, by simp, by simp,
            .inr ⟨by simpa using hb, by simpa using hnm⟩⟩
      · rintro ⟨vs, m, k', hr, hl, rfl, rfl, hbs, hst⟩
        cases hr with
        | nil =>
          simp only [List.length_nil, Nat.add_zero, state_eta] at hst
          refine ⟨by simp, ?_⟩
          rcases hx with ⟨hb, rfl⟩ | ⟨hb, k, hnm, rfl⟩
          · rcases hst with ⟨-, rfl⟩ | ⟨hb', -⟩
            · simp
            · rw [hb] at hb'; cases hb'
          · rcases hst with ⟨hb', -⟩ | ⟨-, hnm'⟩
            · rw [hb] at hb'; cases hb'
            · have : k = k' := by
                rcases hnm with ⟨rfl, q, rfl, e, c, hq⟩ | ⟨h1, -⟩ <;>
                  rcases hnm' with ⟨rfl, q', hq', e', c', hq''⟩ | ⟨h1', -⟩
                · rfl
                · obtain ⟨b, hb⟩ := h1'; rw [hb] at hq; cases hq
                · subst hq'; obtain ⟨b, hb⟩ := h1; rw [hb] at hq''; cases hq''
                · exact sepAt_unique h1 h1'
              omega
        | cons h1 h2 hr' =>
          exfalso
          rcases hx with ⟨hb, rfl⟩ | ⟨hb, k, hnm, rfl⟩
          · have := hbs 0 (by simp); simp only [Nat.add_zero] at this; rw [hb] at this; cases this
          · exact not_noMore h1 h2 hnm
    | _ =>
      simp only [reduceCtorEq, false_iff]
      rintro ⟨vs, m, k', hr, hl, rfl, rfl, hbs, hst⟩
      have hnotAgain : ∀ st', repTurn p sep stop st ≠ .again st' := by simp [ht]
      have hnotExit : ∀ i n, repTurn p sep stop st ≠ .exit i n := by simp [ht]
      cases hr with
      | nil =>
        simp only [List.length_nil, Nat.add_zero, state_eta] at hst
        rcases hst with ⟨hb, rfl⟩ | ⟨hb, hnm⟩
        · exact hnotExit _ _ ((repTurn_exit_iff _ _ _ _ _ _).2 ⟨rfl, .inl ⟨hb, rfl⟩⟩)
        · exact hnotExit _ _ ((repTurn_exit_iff _ _ _ _ _ _).2 ⟨rfl, .inr ⟨hb, _, hnm, rfl⟩⟩)
      | cons h1 h2 hr' =>
        have hb := hbs 0 (by simp)
        simp only [Nat.add_zero] at hb
        exact hnotAgain _ ((repTurn_again_iff _ _ _ _ _).2 ⟨hb, _, _, _, h1, h2, rfl⟩)

/-- If a pair can be read at `s` without consuming, every run from `s` stays at `s`. -/
theorem sepRun_stuck {p : Parser I A} {sep : Option (Parser I B)} {s : State I} {v : A}
    (h1 : SepAt sep s 0) (h2 : p s = .success v 0) :
    ∀ {vs : List A} {m : Nat}, SepRun p sep s vs m → m = 0 := by
  intro vs
  induction vs with
  | nil => intro m h; cases h; rfl
  | cons w ws ih =>
    intro m h
    cases h with
    | @cons _ k n m' _ _ h1' h2' hr =>
      have := sepAt_unique h1' h1; subst this
      simp only [Nat.add_zero, state_eta] at h2' hr
      rw [h2] at h2'; cases h2'
      have := ih hr
      omega

/-- A run of tame parsers that ends where no more can be read is at most as long as the rest. -/
theorem sepRun_length {p : Parser I A} {sep : Option (Parser I B)} (hp : Tame p) (hsep : TameSep sep)
    {s : State I} {vs : List A} {m k : Nat} (hr : SepRun p sep s vs m)
    (hn : NoMore p sep ⟨s.input, s.offset + m⟩ k) : vs.length ≤ s.input.length - s.offset + 1 := by
  induction hr with
  | nil s => simp
  | @cons s k' n m v vs h1 h2 hr ih =>
    have ih := ih (by simpa [Nat.add_assoc] using hn)
    simp only [List.length_cons] at *
    by_cases h0 : k' + n = 0
    · have hk : k' = 0 := by omega
      have hn0 : n = 0 := by omega
      subst hk hn0
      simp only [Nat.add_zero, state_eta] at h2 hr
      have hm := sepRun_stuck h1 h2 hr
      subst hm
      exact absurd (by simpa using hn) (not_noMore (k' := k) h1 (by simpa using h2))
    · by_cases hs : s.input.length < s.offset
      · exfalso
        have hk := sepAt_tame hsep hs h1
        subst hk
        have := hp _ _ _ (by simpa using hs) h2
        omega
      · by_cases hs2 : s.offset + k' + n ≤ s.input.length
        · omega
        · -- the pair left the input: the rest of the run consumes nothing, so it is empty
          have : vs = [] := by
            cases hr with
            | nil => rfl
            | @cons _ k2 n2 m2 v2 vs2 h1' h2' hr' =>
              exfalso
              have hlt : s.input.length < s.offset + k' + n := by omega
              have hk2 := sepAt_tame hsep (by simpa using hlt) h1'
              subst hk2
              have hn2 := hp _ _ _ (by simpa using hlt) h2'
              subst hn2
              simp only [Nat.add_zero] at h2' hr'
              have hm2 := sepRun_stuck (s := ⟨s.input, s.offset + k' + n⟩) h1' h2' hr'
              subst hm2
              refine absurd hn (not_noMore (k' := k) (k := 0) (n := 0) (v := v2) ?_ ?_)
              · simpa [Nat.add_assoc] using h1'
              · simpa [Nat.add_assoc] using h2'
          subst this; simp

theorem boundReached_mono {stop : Bound} {a b : Nat} (h : boundReached stop a = true) (hab : a ≤ b) :
    boundReached stop b = true := by
  cases stop <;> simp [boundReached] at * <;> omega

end OniComb
