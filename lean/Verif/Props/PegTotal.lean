import Verif.Props.Peg

/-!
# Grammars that always answer (C130)
-/

namespace OniComb.Peg
open OniComb
variable {I N : Type} {G : N → Exp I N} [DecidableEq I]

theorem reads_le {e : Exp I N} {t : List I} {n : Nat} (h : Reads G e t (some n)) : n ≤ t.length := by
  obtain ⟨k, h⟩ := parserOf_complete h ⟨t, 0⟩ (Nat.zero_le _) rfl
  simpa using parserOf_bounds (G := G) (s := ⟨t, 0⟩) (Nat.zero_le _) (h k (Nat.le_refl _))

omit [DecidableEq I] in
theorem mayEmpty_of_reads {e : Exp I N} {t : List I} {r : Option Nat} (h : Reads G e t r) (hr : r = some 0) :
    MayEmpty G e := by
  induction h with
  | empty => exact .empty
  | @text w t h =>
    simp only [Option.some.injEq, List.length_eq_zero_iff] at hr
    subst hr
    exact .text
  | elem | elemOther | elemEnd | textOther | seqLeft | seqRight | notFound | lookMissing => simp at hr
  | seq _ _ iha ihb =>
    simp only [Option.some.injEq, Nat.add_eq_zero_iff] at hr
    exact .seq (iha (by rw [hr.1])) (ihb (by rw [hr.2]))
  | altLeft _ ih => exact .altLeft _ (ih hr)
  | altRight _ _ _ ih => exact .altRight _ (ih hr)
  | starEnd | starMore => exact .star _
  | plus _ ih =>
    cases ih hr with
    | seq ha _ => exact .plus ha
  | opt => exact .opt _
  | notMissing => exact .not _
  | lookFound => exact .look _
  | rule _ ih => exact .rule (ih hr)

/-- An expression answers if the rules do which it calls first, and everything does on shorter texts. -/
theorem answers_of_rules (t : List I)
    (short : ∀ (e : Exp I N) (u : List I), u.length < t.length → e.NoIdleLoop G → ∃ r, Reads G e u r) :
    ∀ e : Exp I N, e.NoIdleLoop G → (∀ x, e.CallsFirst G x → ∃ r, Reads G (.rule x) t r) → ∃ r, Reads G e t r
  | .empty, _, _ => ⟨_, .empty t⟩
  | .elem f, _, _ => by
    cases t with
    | nil => exact ⟨_, .elemEnd f⟩
    | cons c t =>
      cases h : f c with
      | true => exact ⟨_, .elem h⟩
      | false => exact ⟨_, .elemOther h⟩
  | .text w, _, _ => by
    by_cases h : w <+: t
    · exact ⟨_, .text h⟩
    · exact ⟨_, .textOther h⟩
  | .seq a b, hi, hx => by
    obtain ⟨r, ha⟩ := answers_of_rules t short a hi.1 fun x h => hx x (.inl h)
    cases r with
    | none => exact ⟨_, .seqLeft ha⟩
    | some n =>
      have : ∃ r, Reads G b (t.drop n) r := by
        cases n with
        | zero =>
          rw [List.drop_zero]
          exact answers_of_rules t short b hi.2 fun x h => hx x (.inr ⟨mayEmpty_of_reads ha rfl, h⟩)
        | succ n =>
          have := reads_le ha
          exact short b _ (by rw [List.length_drop]; omega) hi.2
      obtain ⟨r, hb⟩ := this
      cases r with
      | none => exact ⟨_, .seqRight ha hb⟩
      | some m => exact ⟨_, .seq ha hb⟩
  | .alt a b, hi, hx => by
    obtain ⟨r, ha⟩ := answers_of_rules t short a hi.1 fun x h => hx x (.inl h)
    cases r with
    | some n => exact ⟨_, .altLeft ha⟩
    | none =>
      obtain ⟨r, hb⟩ := answers_of_rules t short b hi.2 fun x h => hx x (.inr h)
      exact ⟨_, .altRight ha hb⟩
  | .star a, hi, hx => by
    obtain ⟨r, ha⟩ := answers_of_rules t short a hi.1 hx
    cases r with
    | none => exact ⟨_, .starEnd ha⟩
    | some n =>
      obtain ⟨m, hm⟩ := again a hi n ha
      exact ⟨_, .starMore ha hm⟩
  | .plus a, hi, hx => by
    obtain ⟨r, ha⟩ := answers_of_rules t short a hi.1 hx
    cases r with
    | none => exact ⟨_, .plus (.seqLeft ha)⟩
    | some n =>
      obtain ⟨m, hm⟩ := again a hi n ha
      exact ⟨_, .plus (.seq ha hm)⟩
  | .opt a, hi, hx => by
    obtain ⟨r, ha⟩ := answers_of_rules t short a hi hx
    cases r with
    | none => exact ⟨_, .opt (.altRight ha (.empty t))⟩
    | some n => exact ⟨_, .opt (.altLeft ha)⟩
  | .not a, hi, hx => by
    obtain ⟨r, ha⟩ := answers_of_rules t short a hi hx
    cases r with
    | none => exact ⟨_, .notMissing ha⟩
    | some n => exact ⟨_, .notFound ha⟩
  | .look a, hi, hx => by
    obtain ⟨r, ha⟩ := answers_of_rules t short a hi hx
    cases r with
    | none => exact ⟨_, .lookMissing ha⟩
    | some n => exact ⟨_, .lookFound ha⟩
  | .rule x, _, hx => hx x rfl
where
  again (a : Exp I N) (hi : a.NoIdleLoop G ∧ ¬MayEmpty G a) (n : Nat) (ha : Reads G a t (some n)) :
      ∃ m, Reads G (.star a) (t.drop n) (some m) := by
    have hn : n ≠ 0 := fun h => hi.2 (mayEmpty_of_reads ha (by rw [h]))
    have hl := reads_le ha
    obtain ⟨r, hr⟩ := short (.star a) (t.drop n) (by rw [List.length_drop]; omega) hi
    cases r with
    | some m => exact ⟨m, hr⟩
    | none => cases hr

theorem answers (hG : ∀ x, (G x).NoIdleLoop G) (hl : NoLeftRecursion G) : ∀ (k : Nat) (t : List I), t.length < k →
    ∀ e : Exp I N, e.NoIdleLoop G → ∃ r, Reads G e t r
  | 0, _, hk, _, _ => absurd hk (Nat.not_lt_zero _)
  | k + 1, t, hk, e, he => by
    have short : ∀ (e : Exp I N) (u : List I), u.length < t.length → e.NoIdleLoop G → ∃ r, Reads G e u r :=
      fun e u hu he => answers hG hl k u (by omega) e he
    have rule : ∀ x, ∃ r, Reads G (.rule x) t r := by
      intro x
      induction hl.apply x with
      | intro x _ ih =>
        obtain ⟨r, h⟩ := answers_of_rules t short (G x) (hG x) ih
        exact ⟨r, .rule h⟩
    exact answers_of_rules t short e he fun x _ => rule x

/-- A grammar without left recursion that repeats nothing that may read nothing always answers: the parser of every
expression succeeds or fails on every text, at every position. -/
theorem c130_answers (G : N → Exp I N) (hG : ∀ x, (G x).NoIdleLoop G) (hl : NoLeftRecursion G) (e : Exp I N)
    (he : e.NoIdleLoop G) (s : State I) (hs : s.offset ≤ s.input.length) :
    ∃ r k, ∀ n, k ≤ n → Gives (parserOf G n e) s r := by
  obtain ⟨r, h⟩ := answers hG hl _ _ (Nat.lt_succ_self _) e he
  exact ⟨r, (c129_stable G e s hs r).1 h⟩

/-- So the grammar says for every text what is to be done. -/
theorem c130_total (G : N → Exp I N) (hG : ∀ x, (G x).NoIdleLoop G) (hl : NoLeftRecursion G) (e : Exp I N)
    (he : e.NoIdleLoop G) (t : List I) : ∃ r, Reads G e t r :=
  answers hG hl _ _ (Nat.lt_succ_self _) e he

/-- A repetition of something that reads nothing at some place runs forever there: the condition cannot be left out. -/
theorem c130_idle (G : N → Exp I N) (a : Exp I N) (s : State I) (hs : s.offset ≤ s.input.length)
    (ha : Reads G a (s.input.drop s.offset) (some 0)) (n : Nat) :
    parserOf G n (.star a) s = .diverge := by
  refine (c129_endless G _ s hs).2 ?_ n
  generalize s.input.drop s.offset = t at ha
  have key : ∀ {e : Exp I N} {u : List I} {r : Option Nat}, Reads G e u r → e = .star a → u ≠ t := by
    intro e u r h
    induction h with
    | starEnd h =>
      rintro he rfl
      cases he
      cases c129_unique G _ _ _ _ ha h
    | starMore h _ _ ih =>
      rintro he rfl
      cases he
      cases c129_unique G _ _ _ _ ha h
      exact ih rfl (List.drop_zero)
    | _ => intro h; cases h
  rintro ⟨r, h⟩
  exact key h rfl rfl

/-- Balanced parentheses have no left recursion and no loops. -/
example (s : State Char) (hs : s.offset ≤ s.input.length) :
    ∃ r k, ∀ n, k ≤ n → Gives (parserOf parens n (.rule ())) s r := by
  have paren : ∀ c, ¬MayEmpty parens (.elem (· == c)) := fun c h => nomatch h
  refine c130_answers parens (fun _ => by simp [parens, Exp.NoIdleLoop]) ⟨fun _ => ⟨_, fun y h => ?_⟩⟩ (.rule ())
    trivial s hs
  simp [parens, Exp.CallsFirst, paren] at h

/-- Lists of numbers, with the rules `number = digit+` and `list = number ("," number)*`. -/
def numbers : Bool → Exp Char Bool
  | true => .plus (.elem Chr.isDigit)
  | false => .seq (.rule true) (.star (.seq (.elem (· == ',')) (.rule true)))

example (t : List Char) : ∃ r, Reads numbers (.rule false) t r := by
  have comma : ¬MayEmpty numbers (.elem (· == ',')) := nofun
  have digit : ¬MayEmpty numbers (.elem Chr.isDigit) := nofun
  have item : ¬MayEmpty numbers (.seq (.elem (· == ',')) (.rule true)) := fun h => by
    cases h with
    | seq ha _ => exact comma ha
  have number : Acc (fun x y => (numbers y).CallsFirst numbers x) true := ⟨_, fun y h => h.elim⟩
  refine c130_total numbers (fun x => ?_) ⟨fun x => ?_⟩ (.rule false) trivial t
  · cases x
    · exact ⟨trivial, ⟨trivial, trivial⟩, item⟩
    · exact ⟨trivial, digit⟩
  · cases x
    · refine ⟨_, fun y h => ?_⟩
      rcases h with rfl | ⟨_, h | ⟨h, _⟩⟩
      · exact number
      · exact h.elim
      · exact (comma h).elim
    · exact number

/-- A repetition of an option runs forever at the end of the text. -/
example (n : Nat) : parserOf numbers n (.star (.opt (.rule true))) ⟨[], 0⟩ = .diverge :=
  c130_idle numbers _ _ (Nat.le_refl _) (.opt (.altRight (.rule (.plus (.seqLeft (.elemEnd _)))) (.empty _))) n

end OniComb.Peg
