import Verif.Props.Laws
import Verif.Model.ParserParsers

/-!
# C103: the two implementations of `Parsers`
-/

namespace OniComb
variable {I A : Type}

/-- `parse` of both gives the same values, and both fail, panic or never return on the same texts. -/
theorem c103_parse_partial (p : Parser I A) (t : List I) :
    (∀ v, ParserParsers.parse p t = .ok v ↔ parse p t = .ok v) ∧
    ((∃ e, ParserParsers.parse p t = .err e) ↔ ∃ e, parse p t = .err e) ∧
    (ParserParsers.parse p t = .panic ↔ parse p t = .panic) ∧
    (ParserParsers.parse p t = .diverge ↔ parse p t = .diverge) := by
  unfold ParserParsers.parse
  cases parse p t <;> simp

/-- `ParserParsers::parse` forgets the error: all errors of all grammars are the same. -/
theorem c103_error_violated {B : Type} (p : Parser I A) (q : Parser I B) (t u : List I) (e e' : PError I)
    (h : ParserParsers.parse p t = .err e) (h' : ParserParsers.parse q u = .err e') :
    e = e' ∧ e.inputExcerpt = some none := by
  unfold ParserParsers.parse at h h'
  cases hp : parse p t <;> rw [hp] at h <;> cases h
  cases hq : parse q u <;> rw [hq] at h' <;> cases h'
  exact ⟨rfl, rfl⟩

example : ParserParsers.parse (elm 'a') ['a'] = .ok 'a' ∧
    ParserParsers.parse (elm 'a') ['b'] = .err (.custom 0 (.text "Parse failed")) ∧
    ParserParsers.parse (take 3) ['a', 'b'] = .err (.custom 0 (.text "Parse failed")) ∧
    parse (elm 'a') ['b'] ≠ parse (elm 'a') ['c'] := by decide

/-- `filter` of both accepts the same, and passes on the failures of the parser. -/
theorem c103_filter_partial (p : Parser I A) (f : A → Bool) (s : State I) :
    (∀ v n, ParserParsers.filter p f s = .success v n ↔ filter p f s = .success v n) ∧
    (∀ e c, p s = .failure e c → ParserParsers.filter p f s = filter p f s) ∧
    ((∃ e c, ParserParsers.filter p f s = .failure e c) ↔ ∃ e c, filter p f s = .failure e c) := by
  unfold ParserParsers.filter filter flatMap
  cases hp : p s with
  | success v n =>
    by_cases hf : f v = true
    · simp [hf, successful, Res.addCommit, Res.advanceSuccess]
    · simp [hf, failed, Res.addCommit, Res.advanceSuccess]
  | _ => simp

/-- `filter` of `ParserParsers` commits when it rejects a value for which something was read, so that an
alternative that `ParsersImpl` takes is not tried. -/
theorem c103_filter_violated (p q : Parser I A) (f : A → Bool) (s : State I) (v w : A) (n m : Nat)
    (hp : p s = .success v n) (hn : n ≠ 0) (hf : f v = false) (hq : q s = .success w m) :
    or (filter p f) q s = .success w m ∧ ∃ e, or (ParserParsers.filter p f) q s = .failure e .committed := by
  have hn' : (n != 0) = true := by simp [hn]
  constructor
  · unfold or filter
    simp [hp, hf, hq]
  · refine ⟨.custom 0 (.text "Filter predicate failed"), ?_⟩
    unfold or ParserParsers.filter flatMap failed
    simp [hp, hf, hn', Res.addCommit, Res.advanceSuccess, Committed.or, Committed.ofBool]

example : or (filter elmAny (· == 'a')) elmAny ⟨['b'], 0⟩ = .success 'b' 1 ∧
    ∃ e, or (ParserParsers.filter elmAny (· == 'a')) elmAny ⟨['b'], 0⟩ = .failure e .committed :=
  c103_filter_violated _ _ _ _ 'b' 'b' 1 1 (by decide) (by decide) (by decide) (by decide)

end OniComb
