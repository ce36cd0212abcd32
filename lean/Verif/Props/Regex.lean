import Verif.Lemmas.Regex
import Verif.Model.ToysParse
import Verif.Model.Calculator

/-!
# `regex` (C33)

`Rx.Span t r i j` (Spec/Regex.lean): the expression `r` matches the part of the text `t` from `i` to `j`.  The text is
what is left of the input, so the current position is 0.
-/

namespace OniComb
open Rx

/-! ## The engine -/

/-- For patterns without alternatives outside parentheses, the parser is the one used in the models of toys and of
the calculator, for the engine `go`. -/
theorem regexOf_one {r : Rx} (h1 : OneBranch r) (h2 : PlainBol r) : regexOf r = regex fun t => go t r 0 some := by
  funext s
  unfold regexOf regex
  congr 1
  funext inp
  rw [search_one h1 h2]
  dsimp only
  cases go inp r 0 some <;> rfl

/-- The pattern matches at the current position exactly if the parser succeeds. -/
theorem c33_succeeds {r : Rx} (h1 : OneBranch r) (h2 : PlainBol r) (s : State Char) (hs : s.offset ≤ s.input.length) :
    (∃ v n, regexOf r s = .success v n) ↔ ∃ j, Span (s.input.drop s.offset) r 0 j := by
  rw [regexOf_one h1 h2]
  simp only [regex, State.withInput, if_pos hs]
  cases hg : go (s.input.drop s.offset) r 0 some with
  | none =>
    constructor
    · rintro ⟨v, n, h⟩; cases h
    · rintro ⟨j, hj⟩
      have := go_complete r 0 j some (Nat.zero_le _) hj rfl
      rw [hg] at this; cases this
  | some e =>
    obtain ⟨q, hq, -⟩ := go_sound _ _ _ _ hg
    exact ⟨fun _ => ⟨q, hq⟩, fun _ => ⟨_, _, rfl⟩⟩

/-- Otherwise it fails without being committed. -/
theorem c33_fails {r : Rx} (h1 : OneBranch r) (h2 : PlainBol r) (s : State Char) (hs : s.offset ≤ s.input.length)
    (h : ¬ ∃ j, Span (s.input.drop s.offset) r 0 j) : regexOf r s = .failure .incomplete .uncommitted := by
  have := mt (c33_succeeds h1 h2 s hs).1 h
  unfold regexOf State.withInput at this ⊢
  rw [if_pos hs] at this ⊢
  dsimp only at this ⊢
  split
  · rename_i a b he; rw [he] at this; exact absurd ⟨_, _, rfl⟩ this
  · rfl

/-- The value is a text at the current position that the pattern matches. -/
theorem c33_value {r : Rx} (h1 : OneBranch r) (h2 : PlainBol r) (s : State Char) (v : List Char) (n : Nat)
    (h : regexOf r s = .success v n) :
    ∃ j, Span (s.input.drop s.offset) r 0 j ∧ v = (s.input.drop s.offset).take j := by
  rw [regexOf_one h1 h2] at h
  unfold regex State.withInput at h
  split at h
  · dsimp only at h
    split at h
    · rename_i e he
      cases h
      obtain ⟨q, hq, hqe⟩ := go_sound _ _ _ _ he
      cases hqe
      exact ⟨e, hq, rfl⟩
    · cases h
  · cases h

/-- `(a|b)c*` -/
def exampleRx : Rx := .cat (.group (.alt (.set (· == 'a')) (.set (· == 'b')))) (.star (.set (· == 'c')))

example : OneBranch exampleRx ∧ PlainBol exampleRx ∧ regexOf exampleRx ⟨"xbccx".toList, 1⟩ = .success "bcc".toList 3 ∧
    regexOf exampleRx ⟨"xbccx".toList, 2⟩ = .failure .incomplete .uncommitted :=
  ⟨trivial, rfl, by decide, by decide⟩

/-! ## Alternatives

The `^` that the parser puts in front of the pattern binds tighter than `|`. -/

/-- If the pattern has alternatives outside parentheses, a match of a later one anywhere in the rest of the text is
enough for success. -/
theorem c33_alternatives_violated (a b : Rx) (s : State Char) (hs : s.offset ≤ s.input.length)
    (i j : Nat) (hi : i ≤ (s.input.drop s.offset).length) (h : Span (s.input.drop s.offset) b i j) :
    ∃ v n, regexOf (.alt a b) s = .success v n := by
  unfold regexOf State.withInput
  rw [if_pos hs]
  dsimp only
  cases hf : (Rx.alt a b).compiled.search (s.input.drop s.offset) with
  | none => exact absurd (span_alt a b i j h) (search_none hf i j hi)
  | some x => exact ⟨_, _, rfl⟩

/-- In particular where the pattern does not match at the current position.  The text returned is then not the text
at this position, which is skipped up to the length of the match. -/
theorem c33_elsewhere_violated (a b : Rx) (s : State Char) (hs : s.offset ≤ s.input.length)
    (hno : ¬ ∃ j, Span (s.input.drop s.offset) (.alt a b) 0 j)
    (i j : Nat) (hi : i ≤ (s.input.drop s.offset).length) (h : Span (s.input.drop s.offset) b i j) :
    ∃ v n i' j', regexOf (.alt a b) s = .success v n ∧ 0 < i' ∧ i' ≤ i ∧
      Span (s.input.drop s.offset) (.alt a b) i' j' ∧ v = ((s.input.drop s.offset).drop i').take (j' - i') := by
  unfold regexOf State.withInput
  rw [if_pos hs]
  dsimp only
  cases hf : (Rx.alt a b).compiled.search (s.input.drop s.offset) with
  | none => exact absurd (span_alt a b i j h) (search_none hf i j hi)
  | some x =>
    obtain ⟨i', j'⟩ := x
    have h1 := search_sound hf
    have h2 := span_of_compiled h1.1
    refine ⟨_, _, i', j', rfl, Nat.pos_of_ne_zero ?_, Nat.le_of_not_lt fun hlt => ?_, h2, rfl⟩
    · rintro rfl; exact hno ⟨j', h2⟩
    · exact search_leftmost hf i j hlt (span_alt a b i j h)

/-- `regex("a|b")` on `xb`: returns `b`, consumes `x`. -/
example : regexOf (.alt (.set (· == 'a')) (.set (· == 'b'))) ⟨"xb".toList, 0⟩ = .success "b".toList 1 := by decide

/-- A pattern that begins with an optional `^` is not anchored either: `regex("^?b")`. -/
theorem c33_optional_violated : regexOf (.cat (.optional .bol) (.set (· == 'b'))) ⟨"xb".toList, 0⟩ =
    .success "b".toList 1 := by decide

/-! ## Consumption -/

theorem utf8Len_pos (c : Char) : 1 ≤ utf8Len c := by unfold utf8Len; split <;> (try split) <;> (try split) <;> omega

theorem utf8Len_ascii (c : Char) : utf8Len c = 1 ↔ c.toNat < 0x80 := by
  unfold utf8Len
  split
  · simp_all
  · split <;> (try split) <;> simp_all

theorem bytes_eq_length (l : List Char) : l.length ≤ (l.map utf8Len).sum ∧
    ((l.map utf8Len).sum = l.length ↔ ∀ c ∈ l, c.toNat < 0x80) := by
  induction l with
  | nil => exact ⟨Nat.le_refl _, by simp⟩
  | cons c l ih =>
    have h1 := utf8Len_pos c
    have h2 := utf8Len_ascii c
    simp only [List.map_cons, List.sum_cons, List.length_cons, List.mem_cons, forall_eq_or_imp]
    refine ⟨by omega, ?_⟩
    rw [← h2, ← ih.2]
    omega

theorem utf8Len_eq (c : Char) : utf8Len c = c.utf8Size := by
  unfold utf8Len Char.utf8Size
  simp only [UInt32.le_iff_toNat_le, Char.toNat]
  simp only [UInt32.toNat_ofNatLT]
  repeat' split
  all_goals omega

/-- What is consumed is the number of bytes of the match in UTF-8. -/
theorem c33_bytes_violated (r : Rx) (s : State Char) (v : List Char) (n : Nat) (h : regexOf r s = .success v n) :
    n = (v.map Char.utf8Size).sum := by
  rw [← (funext utf8Len_eq : utf8Len = Char.utf8Size)]
  unfold regexOf State.withInput at h
  split at h
  · dsimp only at h
    split at h
    · cases h; rfl
    · cases h
  · cases h

/-- As many characters as are returned are consumed exactly if all of them are ASCII, otherwise more.  Any pattern. -/
theorem c33_consumption_violated (r : Rx) (s : State Char) (v : List Char) (n : Nat) (h : regexOf r s = .success v n) :
    v.length ≤ n ∧ (n = v.length ↔ ∀ c ∈ v, c.toNat < 0x80) := by
  unfold regexOf State.withInput at h
  split at h
  · dsimp only at h
    split at h
    · cases h; exact bytes_eq_length _
    · cases h
  · cases h

/-- `regex("é")` on `éx` consumes both characters. -/
example : regexOf (.set (· == 'é')) ⟨"éx".toList, 0⟩ = .success "é".toList 2 := by decide

/-! ## The patterns of the repository -/

section
open Toys.Parse

/-- `[a-zA-Z_][a-zA-Z0-9_]*`, toys/src/parsers.rs:9. -/
def identRx : Rx := .cat (.set identStart) (.star (.set identPart))

/-- `^-?\d+`, toys/src/parsers.rs:167. -/
def integerRx (S : Std) : Rx := .cat .bol (.cat (.optional (.set (· == '-'))) (.plus (.set (isDigit S))))

/-- The names of toys: the engine finds what the model of the parser says. -/
theorem c33_ident : regexOf identRx = regex matchIdent := by
  rw [regexOf_one (r := identRx) trivial rfl]
  congr 1
  funext t
  unfold identRx
  rw [go, go_set]
  cases t with
  | nil => rfl
  | cons c r =>
    rw [List.drop_zero]
    dsimp only
    rw [go_star_set identPart _ some rfl, matchIdent]
    rfl

/-- The numbers of toys. -/
theorem c33_integer (S : Std) : regexOf (integerRx S) = regex (matchInteger S) := by
  rw [regexOf_one (r := integerRx S) trivial trivial]
  congr 1
  funext t
  have hd : ∀ p, go t (.plus (.set (isDigit S))) p some = (matchDigits S (t.drop p)).map (p + ·) := by
    intro p
    rw [go_plus_set (isDigit S) p some rfl, matchDigits]
    split <;> rfl
  have hm : isDigit S '-' = false := rfl
  unfold integerRx
  rw [go, go, if_pos rfl, go, go, go_set, List.drop_zero, hd 0, List.drop_zero]
  cases t with
  | nil => rfl
  | cons c r =>
    dsimp only
    by_cases hc : c = '-'
    · subst hc
      rw [if_pos (by decide), hd, List.drop_one, List.tail_cons, matchInteger]
      cases hr : matchDigits S r with
      | none =>
        have : matchDigits S ('-' :: r) = none := by
          unfold matchDigits
          rw [List.takeWhile_cons, hm]
          rfl
        rw [this]
        rfl
      | some n => simp only [Option.map_some]; rw [Nat.add_comm]
    · have h1 : ¬ ((c == '-') = true) := by simpa using hc
      rw [if_neg h1]
      have h2 : matchInteger S (c :: r) = matchDigits S (c :: r) := by
        unfold matchInteger
        split
        · rename_i h; cases h; exact absurd rfl hc
        · rfl
      rw [h2]
      cases matchDigits S (c :: r) <;> simp
end

section
open Calc
variable {D : Type}

/-- `^\d+([.]\d+)?`, parser/examples/calculator.rs:143. -/
def numberRx (S : Calc.Std D) : Rx :=
  .cat .bol (.cat (.plus (.set (isDigit S))) (.optional (.group (.cat (.set (· == '.')) (.plus (.set (isDigit S)))))))

/-- The numbers of the calculator. -/
theorem c33_number (S : Calc.Std D) : regexOf (numberRx S) = regex (matchNumber S) := by
  rw [regexOf_one (r := numberRx S) trivial trivial]
  congr 1
  funext t
  have hopt : ∀ p, go t (.optional (.group (.cat (.set (· == '.')) (.plus (.set (isDigit S)))))) p some =
      match t.drop p with
      | '.' :: r => if (r.takeWhile (isDigit S)).length = 0 then some p
        else some (p + 1 + (r.takeWhile (isDigit S)).length)
      | _ => some p := by
    intro p
    rw [go, go, go, go_set]
    cases h : t.drop p with
    | nil => rfl
    | cons c r =>
      have hr : t.drop (p + 1) = r := by
        rw [← List.drop_drop, h]; rfl
      dsimp only
      by_cases hc : c = '.'
      · subst hc
        rw [if_pos (by decide), go_plus_set (isDigit S) (p + 1) some rfl, hr]
        split
        · rename_i e he
          split at he
          · cases he
          · rename_i h0; cases he; exact (if_neg h0).symm
        · rename_i he
          split at he
          · rename_i h0; exact (if_pos h0).symm
          · cases he
      · rw [if_neg (by simpa using hc)]
        dsimp only
        split
        · rename_i h2; cases h2; exact absurd rfl hc
        · rfl
  unfold numberRx matchNumber
  rw [go, go, if_pos rfl, go, go_plus_set (isDigit S) 0 _ (by rw [hopt]; split <;> (try split) <;> rfl), List.drop_zero]
  dsimp only
  split
  · rfl
  · rw [Nat.zero_add, hopt]
    rfl
end

/-- `-12x`, `-x` and `3.x` with ASCII digits only. -/
example : regexOf (integerRx ⟨fun _ => false⟩) ⟨"-12x".toList, 0⟩ = .success "-12".toList 3 ∧
    regexOf (integerRx ⟨fun _ => false⟩) ⟨"-x".toList, 0⟩ = .failure .incomplete .uncommitted ∧
    regexOf identRx ⟨"a_1+b".toList, 0⟩ = .success "a_1".toList 3 := by decide

end OniComb
