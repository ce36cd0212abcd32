import Verif.Props.Laws
import Verif.Model.Repeat
import Mathlib.Data.List.Forall2

/-!
# Element, sequence and taken parsers (C21–C26, C32, C33)

`s.input.drop s.offset` is the remaining input; theorems are stated for positions inside the input
(`s.offset ≤ s.input.length`), which C04 shows to be the only ones an assembled parser reaches.
-/

namespace OniComb
variable {I A : Type}

/-! ## C25 element parsers -/

/-- Specification: a parser that reads exactly one element of the set `S` and otherwise fails without
committing. -/
def ReadsOneOf (p : Parser I I) (S : I → Prop) : Prop :=
  ∀ s : State I, s.offset ≤ s.input.length →
    (∀ x n, p s = .success x n ↔ n = 1 ∧ S x ∧ (s.input.drop s.offset).head? = some x) ∧
    ((∃ e, p s = .failure e .uncommitted) ↔ ∀ x, (s.input.drop s.offset).head? = some x → ¬ S x) ∧
    (∀ e, p s ≠ .failure e .committed) ∧ p s ≠ .panic ∧ p s ≠ .diverge

theorem c25_elmPred (f : I → Bool) : ReadsOneOf (elmPred f) (fun x => f x = true) := by
  intro s hs
  simp only [elmPred, State.withInput, hs, if_true]
  cases hd : s.input.drop s.offset with
  | nil => simp
  | cons y ys =>
    by_cases hy : f y = true
    · simp only [hy, if_true, Res.success.injEq, List.head?_cons, Option.some.injEq]
      refine ⟨fun x n => ⟨?_, ?_⟩, by simp [hy], by simp, by simp, by simp⟩
      · rintro ⟨rfl, rfl⟩; exact ⟨rfl, hy, rfl⟩
      · rintro ⟨rfl, -, rfl⟩; exact ⟨rfl, rfl⟩
    · simp only [hy, Bool.false_eq_true, if_false, reduceCtorEq, false_iff, List.head?_cons,
        Option.some.injEq]
      refine ⟨fun x n => ?_, by simp [hy], by simp, by simp, by simp⟩
      rintro ⟨-, h, rfl⟩; exact hy h

theorem c25_elmOfSet (f : I → Bool) : ReadsOneOf (elmOfSet f) (fun x => f x = true) := by
  intro s hs
  simp only [elmOfSet, State.withInput, hs, if_true]
  cases hd : s.input.drop s.offset with
  | nil => simp
  | cons y ys =>
    by_cases hy : f y = true
    · simp only [hy, if_true, Res.success.injEq, List.head?_cons, Option.some.injEq]
      refine ⟨fun x n => ⟨?_, ?_⟩, by simp [hy], by simp, by simp, by simp⟩
      · rintro ⟨rfl, rfl⟩; exact ⟨rfl, hy, rfl⟩
      · rintro ⟨rfl, -, rfl⟩; exact ⟨rfl, rfl⟩
    · simp only [hy, Bool.false_eq_true, if_false, reduceCtorEq, false_iff, List.head?_cons,
        Option.some.injEq]
      refine ⟨fun x n => ?_, by simp [hy], by simp, by simp, by simp⟩
      rintro ⟨-, h, rfl⟩; exact hy h

theorem c25_noneOfSet (f : I → Bool) : ReadsOneOf (noneOfSet f) (fun x => ¬ f x = true) := by
  intro s hs
  simp only [noneOfSet, State.withInput, hs, if_true]
  cases hd : s.input.drop s.offset with
  | nil => simp
  | cons y ys =>
    by_cases hy : f y = true
    · simp only [hy, Bool.not_true, Bool.false_eq_true, if_false, reduceCtorEq, false_iff,
        List.head?_cons, Option.some.injEq]
      refine ⟨fun x n => ?_, by simp [hy], by simp, by simp, by simp⟩
      rintro ⟨-, h, rfl⟩; exact h hy
    · simp only [hy, Bool.not_false, if_true, Res.success.injEq, List.head?_cons, Option.some.injEq]
      refine ⟨fun x n => ⟨?_, ?_⟩, by simp [hy], by simp, by simp, by simp⟩
      · rintro ⟨rfl, rfl⟩; exact ⟨rfl, hy, rfl⟩
      · rintro ⟨rfl, -, rfl⟩; exact ⟨rfl, rfl⟩

private theorem readsOneOf_congr {p : Parser I I} {S T : I → Prop} (h : ReadsOneOf p S)
    (hst : ∀ x, S x ↔ T x) : ReadsOneOf p T := by
  have : S = T := by funext x; exact propext (hst x)
  exact this ▸ h

theorem c25_elm [DecidableEq I] (a : I) : ReadsOneOf (elm a) (fun x => x = a) :=
  readsOneOf_congr (c25_elmPred _) (by simp)

theorem c25_elmAny : ReadsOneOf (elmAny (I := I)) (fun _ => True) :=
  readsOneOf_congr (c25_elmPred _) (by simp)

theorem c25_elmOf [DecidableEq I] (l : List I) : ReadsOneOf (elmOf l) (fun x => x ∈ l) :=
  readsOneOf_congr (c25_elmOfSet _) (by simp [setOfList])

theorem c25_noneOf [DecidableEq I] (l : List I) : ReadsOneOf (noneOf l) (fun x => x ∉ l) :=
  readsOneOf_congr (c25_noneOfSet _) (by simp [setOfList])

/-- `elm_in(a, b)` includes both ends. -/
theorem c25_elmIn_char (a b : Char) :
    ReadsOneOf (elmIn a b) (fun x => a.toNat ≤ x.toNat ∧ x.toNat ≤ b.toNat) :=
  readsOneOf_congr (c25_elmOfSet _) (by simp [setIncl, Element.code])

/-- `elm_from_until(a, b)` excludes the upper end. -/
theorem c25_elmFromUntil_char (a b : Char) :
    ReadsOneOf (elmFromUntil a b) (fun x => a.toNat ≤ x.toNat ∧ x.toNat < b.toNat) :=
  readsOneOf_congr (c25_elmOfSet _) (by simp [setExcl, Element.code])

theorem c25_elmIn_byte (a b : UInt8) : ReadsOneOf (elmIn a b) (fun x => a ≤ x ∧ x ≤ b) :=
  readsOneOf_congr (c25_elmOfSet _) (by simp [setIncl, Element.code, UInt8.le_iff_toNat_le])

theorem c25_elmFromUntil_byte (a b : UInt8) : ReadsOneOf (elmFromUntil a b) (fun x => a ≤ x ∧ x < b) :=
  readsOneOf_congr (c25_elmOfSet _)
    (by simp [setExcl, Element.code, UInt8.le_iff_toNat_le, UInt8.lt_iff_toNat_lt])

/-- `elm_of` with the half open and open ranges `a..`, `..b`, `..=b` and `..`, for characters. -/
theorem c25_ranges_char (a : Char) :
    ReadsOneOf (elmOfSet (setFrom a)) (fun x => a.toNat ≤ x.toNat) ∧
    ReadsOneOf (elmOfSet (setTo a)) (fun x => x.toNat < a.toNat) ∧
    ReadsOneOf (elmOfSet (setToIncl a)) (fun x => x.toNat ≤ a.toNat) ∧
    ReadsOneOf (elmOfSet (setFull : Char → Bool)) (fun _ => True) :=
  ⟨readsOneOf_congr (c25_elmOfSet _) (by simp [setFrom, Element.code]),
    readsOneOf_congr (c25_elmOfSet _) (by simp [setTo, Element.code]),
    readsOneOf_congr (c25_elmOfSet _) (by simp [setToIncl, Element.code]),
    readsOneOf_congr (c25_elmOfSet _) (by simp [setFull])⟩

/-- The same for bytes. -/
theorem c25_ranges_byte (a : UInt8) :
    ReadsOneOf (elmOfSet (setFrom a)) (fun x => a ≤ x) ∧
    ReadsOneOf (elmOfSet (setTo a)) (fun x => x < a) ∧
    ReadsOneOf (elmOfSet (setToIncl a)) (fun x => x ≤ a) ∧
    ReadsOneOf (elmOfSet (setFull : UInt8 → Bool)) (fun _ => True) :=
  ⟨readsOneOf_congr (c25_elmOfSet _) (by simp [setFrom, Element.code, UInt8.le_iff_toNat_le]),
    readsOneOf_congr (c25_elmOfSet _) (by simp [setTo, Element.code, UInt8.lt_iff_toNat_lt]),
    readsOneOf_congr (c25_elmOfSet _) (by simp [setToIncl, Element.code, UInt8.le_iff_toNat_le]),
    readsOneOf_congr (c25_elmOfSet _) (by simp [setFull])⟩

/-- `none_of` with such a range reads the other elements. -/
theorem c25_noneOf_ranges (a b : Char) :
    ReadsOneOf (noneOfSet (setIncl a b)) (fun x => x.toNat < a.toNat ∨ b.toNat < x.toNat) ∧
    ReadsOneOf (noneOfSet (setExcl a b)) (fun x => x.toNat < a.toNat ∨ b.toNat ≤ x.toNat) ∧
    ReadsOneOf (noneOfSet (setFrom a)) (fun x => x.toNat < a.toNat) ∧
    ReadsOneOf (noneOfSet (setTo a)) (fun x => a.toNat ≤ x.toNat) ∧
    ReadsOneOf (noneOfSet (setToIncl a)) (fun x => a.toNat < x.toNat) ∧
    ReadsOneOf (noneOfSet (setFull : Char → Bool)) (fun _ => False) :=
  ⟨readsOneOf_congr (c25_noneOfSet _) (by intro x; simp [setIncl, Element.code]; omega),
    readsOneOf_congr (c25_noneOfSet _) (by intro x; simp [setExcl, Element.code]; omega),
    readsOneOf_congr (c25_noneOfSet _) (by simp [setFrom, Element.code]),
    readsOneOf_congr (c25_noneOfSet _) (by simp [setTo, Element.code]),
    readsOneOf_congr (c25_noneOfSet _) (by simp [setToIncl, Element.code]),
    readsOneOf_congr (c25_noneOfSet _) (by simp [setFull])⟩

example : elmOfSet (setFrom 'b') ⟨['b', 'a'], 0⟩ = .success 'b' 1 ∧
    elmOfSet (setTo 'b') ⟨['b', 'a'], 0⟩ = .failure (.mismatch ['b', 'a'] 1 1) .uncommitted ∧
    elmOfSet (setToIncl 'b') ⟨['b', 'a'], 0⟩ = .success 'b' 1 ∧
    elmOfSet setFull ⟨['b', 'a'], 2⟩ = .failure .incomplete .uncommitted := by decide

example : elmIn 'a' 'c' ⟨['x', 'c'], 1⟩ = .success 'c' 1 ∧
    elmFromUntil 'a' 'c' ⟨['x', 'c'], 1⟩ = .failure (.mismatch ['c'] 2 1) .uncommitted ∧
    noneOf ['a', 'b'] ⟨['c'], 0⟩ = .success 'c' 1 ∧
    noneOf ['a', 'b'] ⟨['c'], 1⟩ = .failure .incomplete .uncommitted := by decide

/-! ## C26 character classes

The specification lists the members of each class as code points, independently of the `matches!`
patterns of the model. -/

/-- The code points from `a` to `b`. -/
def codes (a b : Nat) : List Nat := (List.range (b + 1 - a)).map (· + a)

private theorem mem_codes (a b n : Nat) : n ∈ codes a b ↔ a ≤ n ∧ n ≤ b := by
  simp only [codes, List.mem_map, List.mem_range]
  constructor
  · rintro ⟨k, hk, rfl⟩; omega
  · intro h; exact ⟨n - a, by omega, by omega⟩

private theorem char_eq_iff (c d : Char) : c = d ↔ c.toNat = d.toNat :=
  ⟨fun h => h ▸ rfl, fun h => Char.ext (UInt32.toNat_inj.1 h)⟩

theorem c26_char_alpha (c : Char) : Chr.isAlpha c = true ↔ c.toNat ∈ codes 65 90 ++ codes 97 122 := by
  simp [Chr.isAlpha, Chr.between, mem_codes]

theorem c26_char_digit (c : Char) : Chr.isDigit c = true ↔ c.toNat ∈ codes 48 57 := by
  simp [Chr.isDigit, Chr.between, mem_codes]

theorem c26_char_alpha_digit (c : Char) :
    Chr.isAlphaDigit c = true ↔ Chr.isAlpha c = true ∨ Chr.isDigit c = true := by
  simp [Chr.isAlphaDigit, Chr.isAlpha, Chr.isDigit, Chr.between]; omega

theorem c26_char_hex (c : Char) :
    Chr.isHexDigit c = true ↔ c.toNat ∈ codes 48 57 ++ codes 65 70 ++ codes 97 102 := by
  simp [Chr.isHexDigit, Chr.between, mem_codes]; omega

theorem c26_char_space (c : Char) : Chr.isSpace c = true ↔ c.toNat ∈ [32, 9] := by
  simp [Chr.isSpace, char_eq_iff]

theorem c26_char_multi_space (c : Char) : Chr.isMultiSpace c = true ↔ c.toNat ∈ [32, 9, 10, 13] := by
  simp [Chr.isMultiSpace, Chr.isSpace, char_eq_iff, or_assoc]

theorem c26_char_whitespace (c : Char) :
    Chr.isWhitespace c = true ↔ c.toNat ∈ [32, 9, 10, 13, 12] := by
  simp [Chr.isWhitespace, Chr.isMultiSpace, Chr.isSpace, char_eq_iff, or_assoc]

theorem c26_char_case (c : Char) :
    (Chr.isAlpha c = true ↔ Chr.isUpper c = true ∨ Chr.isLower c = true) ∧
    ¬ (Chr.isUpper c = true ∧ Chr.isLower c = true) := by
  simp [Chr.isAlpha, Chr.isUpper, Chr.isLower, Chr.between]; omega

theorem c26_char_punctuation (c : Char) :
    Chr.isPunctuation c = true ↔ Chr.isGraphic c = true ∧ ¬ Chr.isAlphaDigit c = true := by
  simp [Chr.isPunctuation, Chr.isGraphic, Chr.isAlphaDigit, Chr.between]; omega

/-- ASCII is partitioned into control characters, the space and graphic characters. -/
theorem c26_char_partition (c : Char) :
    Chr.isAscii c = true ↔ Chr.isControl c = true ∨ c = ' ' ∨ Chr.isGraphic c = true := by
  simp [Chr.isAscii, Chr.isControl, Chr.isGraphic, Chr.between, char_eq_iff]; omega

/-- `elm_digit_1_9` reads exactly one of '1'..'9'. -/
theorem c26_digit_1_9 (s : State Char) (hs : s.offset ≤ s.input.length) (x : Char) (n : Nat) :
    elmDigit19 s = .success x n ↔
      n = 1 ∧ x.toNat ∈ codes 49 57 ∧ (s.input.drop s.offset).head? = some x := by
  rw [elmDigit19, filterNot, c27_filter_success_iff, elmDigit, (c25_elmPred _ s hs).1]
  simp [Element.isDigit, Element.isDigitZero, Chr.isDigit, Chr.isDigitZero, Chr.between, mem_codes,
    char_eq_iff]
  constructor
  · rintro ⟨⟨rfl, h, h'⟩, h0⟩; exact ⟨rfl, by omega, h'⟩
  · rintro ⟨rfl, h, h'⟩; exact ⟨⟨rfl, by omega, h'⟩, by omega⟩

example : elmDigit19 ⟨['9'], 0⟩ = .success '9' 1 ∧
    (elmDigit19 ⟨['0'], 0⟩).isSuccess = false := by decide

/-- A byte and the character with the same code are in the same classes. -/
theorem c26_byte_char_agree (b : UInt8) (c : Char) (h : b.toNat = c.toNat) :
    Byte.isSpace b = Chr.isSpace c ∧ Byte.isMultiSpace b = Chr.isMultiSpace c ∧
    Byte.isWhitespace b = Chr.isWhitespace c ∧
    Byte.isUpper b = Chr.isUpper c ∧ Byte.isLower b = Chr.isLower c ∧
    Byte.isAlpha b = Chr.isAlpha c ∧ Byte.isDigit b = Chr.isDigit c ∧
    Byte.isDigitZero b = Chr.isDigitZero c ∧ Byte.isAlphaDigit b = Chr.isAlphaDigit c ∧
    Byte.isHexDigit b = Chr.isHexDigit c ∧ Byte.isOctDigit b = Chr.isOctDigit c ∧
    Byte.isPunctuation b = Chr.isPunctuation c ∧ Byte.isGraphic b = Chr.isGraphic c ∧
    Byte.isControl b = Chr.isControl c := by
  have e : ∀ d : Char, Byte.is d b = (c == d) := by
    intro d
    rw [Bool.eq_iff_iff]; simp [Byte.is, char_eq_iff, h]
  have bt : ∀ x y : Char, Byte.between x y b = Chr.between x y c := by
    intro x y; simp [Byte.between, Chr.between, h]
  simp [Byte.isSpace, Chr.isSpace, Byte.isMultiSpace, Chr.isMultiSpace, Byte.isWhitespace,
    Chr.isWhitespace, Byte.isUpper, Chr.isUpper, Byte.isLower, Chr.isLower, Byte.isAlpha, Chr.isAlpha,
    Byte.isDigit, Chr.isDigit, Byte.isDigitZero, Chr.isDigitZero, Byte.isAlphaDigit, Chr.isAlphaDigit,
    Byte.isHexDigit, Chr.isHexDigit, Byte.isOctDigit, Chr.isOctDigit, Byte.isPunctuation,
    Chr.isPunctuation, Byte.isGraphic, Chr.isGraphic, Byte.isControl, Chr.isControl, e, bt]

/-- `is_ascii` for bytes is written with a bit mask; it agrees with the numeric test used for `char`. -/
theorem c26_byte_ascii (b : UInt8) : Byte.isAscii b = decide (b.toNat ≤ 0x7F) := by
  have h : ∀ n : Fin 256, (UInt8.ofNat n.val &&& 128 == 0) = decide ((UInt8.ofNat n.val).toNat ≤ 0x7F) := by
    decide +kernel
  have := h ⟨b.toNat, b.toNat_lt⟩
  simpa [Byte.isAscii] using this

/-- The octal class is not the set of octal digits: it contains '8'. -/
theorem c26_oct_violated : ¬ ∀ c : Char, Chr.isOctDigit c = true ↔ c.toNat ∈ codes 48 55 := by
  intro h
  exact absurd ((h '8').1 (by decide)) (by decide)

/-- Apart from '8' it is. -/
theorem c26_oct_partial (c : Char) :
    Chr.isOctDigit c = true ↔ c.toNat ∈ codes 48 55 ∨ c = '8' := by
  simp [Chr.isOctDigit, Chr.between, mem_codes, char_eq_iff]; omega

/-- `is_ascii_digit_non_zero` accepts characters that are no digits. -/
theorem c26_digit_non_zero_violated :
    ¬ ∀ c : Char, Chr.isDigitNonZero c = true ↔ c.toNat ∈ codes 49 57 := by
  intro h
  exact absurd ((h 'x').1 (by decide)) (by decide)

/-- On digits it is right. -/
theorem c26_digit_non_zero_partial (c : Char) (hc : Chr.isDigit c = true) :
    Chr.isDigitNonZero c = true ↔ c.toNat ∈ codes 49 57 := by
  simp [Chr.isDigit, Chr.isDigitNonZero, Chr.isDigitZero, Chr.between, mem_codes, char_eq_iff] at *
  omega

/-- It accepts everything but the digit zero, for characters and for bytes. -/
theorem c26_digit_non_zero_general_violated (c : Char) (b : UInt8) :
    (Chr.isDigitNonZero c = true ↔ c ≠ '0') ∧ (Byte.isDigitNonZero b = true ↔ b ≠ 48) := by
  have : (48 : UInt8).toNat = 48 := rfl
  simp [Chr.isDigitNonZero, Chr.isDigitZero, Byte.isDigitNonZero, Byte.isDigitZero, Byte.is, ← UInt8.toNat_inj, this]

/-! ## C24 literals -/

private theorem seqLoop_success (eq : I → I → Bool) (s : State I) (inp lit : List I) :
    ∀ (index : Nat) (pat rest : List I) (v : List I) (n : Nat),
      seqLoop eq s inp lit index pat rest = .success v n ↔
        v = lit ∧ n = index + pat.length ∧
          ∃ m suf, rest = m ++ suf ∧ List.Forall₂ (fun c x => eq c x = true) pat m := by
  intro index pat
  induction pat generalizing index with
  | nil =>
    intro rest v n
    simp only [seqLoop, Res.success.injEq, List.length_nil, Nat.add_zero]
    constructor
    · rintro ⟨rfl, rfl⟩; exact ⟨rfl, rfl, [], rest, rfl, .nil⟩
    · rintro ⟨rfl, rfl, -⟩; exact ⟨rfl, rfl⟩
  | cons c pat ih =>
    intro rest v n
    cases rest with
    | nil =>
      simp only [seqLoop, reduceCtorEq, false_iff]
      rintro ⟨-, -, m, suf, h, hf⟩
      cases hf with
      | cons _ _ => simp at h
    | cons x rest =>
      simp only [seqLoop]
      by_cases hx : eq c x = true
      · simp only [hx, if_true, ih, List.length_cons]
        constructor
        · rintro ⟨rfl, rfl, m, suf, rfl, hf⟩
          exact ⟨rfl, by omega, x :: m, suf, rfl, .cons hx hf⟩
        · rintro ⟨rfl, rfl, m, suf, h, hf⟩
          cases hf with
          | cons h1 h2 =>
            simp only [List.cons_append, List.cons.injEq] at h
            exact ⟨rfl, by omega, _, suf, h.2, h2⟩
      · simp only [hx, Bool.false_eq_true, if_false, reduceCtorEq, false_iff]
        rintro ⟨-, -, m, suf, h, hf⟩
        cases hf with
        | cons h1 h2 =>
          simp only [List.cons_append, List.cons.injEq] at h
          exact hx (h.1 ▸ h1)

private theorem forall₂_eq (l m : List I) : List.Forall₂ (fun c x => c = x) l m ↔ l = m := by
  rw [List.forall₂_eq_eq_eq]

/-- `seq(lit)` succeeds exactly if `lit` is a prefix of the remaining input; it returns `lit` and
consumes exactly its length. -/
theorem c24_seq_success_iff [DecidableEq I] (lit : List I) (s : State I)
    (hs : s.offset ≤ s.input.length) (v : List I) (n : Nat) :
    seq lit s = .success v n ↔ v = lit ∧ n = lit.length ∧ lit <+: s.input.drop s.offset := by
  simp only [seq, State.withInput, hs, if_true, seqLoop_success, decide_eq_true_eq, forall₂_eq,
    Nat.zero_add]
  refine and_congr_right fun _ => and_congr_right fun _ => ?_
  constructor
  · rintro ⟨m, suf, h, rfl⟩; exact ⟨suf, h.symm⟩
  · rintro ⟨suf, h⟩; exact ⟨lit, suf, h.symm, rfl⟩

theorem c24_tag_success_iff (lit : List Char) (s : State Char) (hs : s.offset ≤ s.input.length)
    (v : List Char) (n : Nat) :
    tag lit s = .success v n ↔ v = lit ∧ n = lit.length ∧ lit <+: s.input.drop s.offset :=
  c24_seq_success_iff lit s hs v n

private theorem seqLoop_failure (eq : I → I → Bool) (s : State I) (inp lit : List I) :
    ∀ (index : Nat) (pat rest : List I) (c : Committed),
      (∃ e, seqLoop eq s inp lit index pat rest = .failure e c) ↔
        (c = .uncommitted ∧ rest.length < pat.length ∧
          List.Forall₂ (fun c x => eq c x = true) (pat.take rest.length) rest) ∨
        (∃ k a x, pat[k]? = some a ∧ rest[k]? = some x ∧ eq a x = false ∧
          List.Forall₂ (fun c x => eq c x = true) (pat.take k) (rest.take k) ∧
          (c = .committed ↔ index + k ≠ 0)) := by
  intro index pat
  induction pat generalizing index with
  | nil => intro rest c; simp [seqLoop]
  | cons a pat ih =>
    intro rest c
    cases rest with
    | nil => cases c <;> simp [seqLoop]
    | cons x rest =>
      simp only [seqLoop]
      by_cases hx : eq a x = true
      · simp only [hx, if_true, ih, List.length_cons, Nat.add_lt_add_iff_right, List.take_succ_cons,
          List.forall₂_cons, true_and]
        refine or_congr Iff.rfl ?_
        constructor
        · rintro ⟨k, b, y, h1, h2, h3, h4, h5⟩
          exact ⟨k + 1, b, y, by simpa using h1, by simpa using h2, h3, by simpa [hx] using h4,
            by rw [h5]; omega⟩
        · rintro ⟨k, b, y, h1, h2, h3, h4, h5⟩
          cases k with
          | zero => simp at h1 h2; subst h1 h2; rw [hx] at h3; cases h3
          | succ k =>
            simp [hx] at h4
            exact ⟨k, b, y, by simpa using h1, by simpa using h2, h3, h4, by rw [h5]; omega⟩
      · simp only [hx, Bool.false_eq_true, if_false, Res.failure.injEq, List.length_cons,
          List.take_succ_cons, List.forall₂_cons, false_and, and_false, false_or]
        constructor
        · rintro ⟨e, -, rfl⟩
          refine ⟨0, a, x, rfl, rfl, by simpa using hx, by simp, ?_⟩
          by_cases h0 : index = 0
          · simp [h0, Committed.ofBool]
          · have : (index != 0) = true := by simpa using h0
            simp [this, Committed.ofBool, h0]
        · rintro ⟨k, b, y, h1, h2, h3, h4, h5⟩
          cases k with
          | zero =>
            refine ⟨_, rfl, ?_⟩
            by_cases h0 : index = 0
            · simp [h0, Committed.ofBool] at *; cases c <;> simp_all
            · have : (index != 0) = true := by simpa using h0
              simp [this, Committed.ofBool]; exact (h5.2 (by omega)).symm
          | succ k => simp [hx] at h4

/-- Failures of `seq(lit)`: committed exactly if a non-empty proper part of `lit` matched before an
element that differs. -/
theorem c24_seq_committed_iff [DecidableEq I] (lit : List I) (s : State I)
    (hs : s.offset ≤ s.input.length) :
    (∃ e, seq lit s = .failure e .committed) ↔
      ∃ k, 0 < k ∧ (∃ a x, lit[k]? = some a ∧ (s.input.drop s.offset)[k]? = some x ∧ a ≠ x) ∧
        lit.take k = (s.input.drop s.offset).take k := by
  simp only [seq, State.withInput, hs, if_true, seqLoop_failure, decide_eq_true_eq, forall₂_eq,
    decide_eq_false_iff_not, reduceCtorEq, false_and, false_or, Nat.zero_add, true_iff]
  constructor
  · rintro ⟨k, a, x, h1, h2, h3, h4, h5⟩; exact ⟨k, by omega, ⟨a, x, h1, h2, h3⟩, h4⟩
  · rintro ⟨k, h0, ⟨a, x, h1, h2, h3⟩, h4⟩; exact ⟨k, a, x, h1, h2, h3, h4, by omega⟩

/-- Running out of input while matching is an uncommitted failure, a differing first element too. -/
theorem c24_seq_uncommitted_iff [DecidableEq I] (lit : List I) (s : State I)
    (hs : s.offset ≤ s.input.length) :
    (∃ e, seq lit s = .failure e .uncommitted) ↔
      ((s.input.drop s.offset).length < lit.length ∧ s.input.drop s.offset <+: lit) ∨
      ∃ a x, lit.head? = some a ∧ (s.input.drop s.offset).head? = some x ∧ a ≠ x := by
  simp only [seq, State.withInput, hs, if_true, seqLoop_failure, decide_eq_true_eq, forall₂_eq,
    decide_eq_false_iff_not, reduceCtorEq, Nat.zero_add, false_iff, true_and]
  refine or_congr (and_congr_right fun _ => ?_) ?_
  · rw [List.prefix_iff_eq_take]; exact eq_comm
  · constructor
    · rintro ⟨k, a, x, h1, h2, h3, -, h5⟩
      have : k = 0 := by omega
      subst this
      exact ⟨a, x, by simpa [List.head?_eq_getElem?] using h1,
        by rw [List.head?_eq_getElem?]; exact h2, h3⟩
    · rintro ⟨a, x, h1, h2, h3⟩
      exact ⟨0, a, x, by simpa [List.head?_eq_getElem?] using h1,
        by rw [← List.head?_eq_getElem?]; exact h2, h3, by simp, by omega⟩

/-- Letters with the same lower-case form; the specification of ASCII case-insensitivity on codes. -/
def SameLetter (a b : Char) : Prop :=
  a = b ∨ (65 ≤ a.toNat ∧ a.toNat ≤ 90 ∧ b.toNat = a.toNat + 32) ∨
    (65 ≤ b.toNat ∧ b.toNat ≤ 90 ∧ a.toNat = b.toNat + 32)

private theorem toNat_ofNat_small (n : Nat) (h : n < 0xd800) : (Char.ofNat n).toNat = n := by
  have hv : n.isValidChar := Or.inl h
  simp [Char.ofNat, hv, Char.ofNatAux, Char.toNat]

theorem c24_eqIgnoreAsciiCase_iff (a b : Char) : eqIgnoreAsciiCase a b = true ↔ SameLetter a b := by
  simp only [eqIgnoreAsciiCase, decide_eq_true_eq, char_eq_iff, SameLetter, asciiLower, Chr.isUpper,
    Chr.between, Bool.and_eq_true]
  have e1 : ('A' : Char).toNat = 65 := rfl
  have e2 : ('Z' : Char).toNat = 90 := rfl
  rw [e1, e2]
  by_cases ha : 65 ≤ a.toNat ∧ a.toNat ≤ 90 <;> by_cases hb : 65 ≤ b.toNat ∧ b.toNat ≤ 90
  · rw [if_pos ha, if_pos hb, toNat_ofNat_small _ (by omega), toNat_ofNat_small _ (by omega)]; omega
  · rw [if_pos ha, if_neg hb, toNat_ofNat_small _ (by omega)]; omega
  · rw [if_neg ha, if_pos hb, toNat_ofNat_small _ (by omega)]; omega
  · rw [if_neg ha, if_neg hb]; omega

/-- `tag_no_case(lit)` succeeds exactly if the remaining input starts with `lit` up to ASCII case; the
value is `lit` itself. -/
theorem c24_tagNoCase_success_iff (lit : List Char) (s : State Char) (hs : s.offset ≤ s.input.length)
    (v : List Char) (n : Nat) :
    tagNoCase lit s = .success v n ↔ v = lit ∧ n = lit.length ∧
      ∃ m suf, s.input.drop s.offset = m ++ suf ∧ List.Forall₂ SameLetter lit m := by
  simp only [tagNoCase, State.withInput, hs, if_true, seqLoop_success, c24_eqIgnoreAsciiCase_iff,
    Nat.zero_add]

example : seq ['a', 'b'] ⟨['x', 'a', 'b', 'c'], 1⟩ = .success ['a', 'b'] 2 ∧
    seq ['a', 'b'] ⟨['a', 'c'], 0⟩ = .failure (.mismatch ['a', 'c'] 1 1) .committed ∧
    seq ['a', 'b'] ⟨['a'], 0⟩ = .failure .incomplete .uncommitted ∧
    tagNoCase ['S', 'u', 'n'] ⟨['s', 'U', 'N'], 0⟩ = .success ['S', 'u', 'n'] 3 := by decide

/-! ## C23 take and skip -/

theorem c23_take_success_iff (n : Nat) (s : State I) (hs : s.offset ≤ s.input.length) (v : List I)
    (m : Nat) :
    take n s = .success v m ↔
      m = n ∧ n ≤ (s.input.drop s.offset).length ∧ v = (s.input.drop s.offset).take n := by
  simp only [take, State.withInput, hs, if_true, State.withSlice, List.length_drop, ge_iff_le]
  by_cases h : n ≤ s.input.length - s.offset
  · have : s.offset + n ≤ s.input.length := by omega
    simp only [h, this, if_true, Res.success.injEq, true_and]
    exact ⟨fun ⟨a, b⟩ => ⟨b.symm, a.symm⟩, fun ⟨a, b⟩ => ⟨b.symm, a.symm⟩⟩
  · simp [h]

/-- Otherwise `take` fails uncommitted with `Incomplete`. -/
theorem c23_take_incomplete (n : Nat) (s : State I) (hs : s.offset ≤ s.input.length)
    (h : (s.input.drop s.offset).length < n) : take n s = .failure .incomplete .uncommitted := by
  simp only [take, State.withInput, hs, if_true, ge_iff_le]
  rw [if_neg (by omega)]

theorem c23_skip_iff_take (n : Nat) (s : State I) (hs : s.offset ≤ s.input.length) (m : Nat) :
    skip n s = .success () m ↔ ∃ v, take n s = .success v m := by
  simp only [c23_take_success_iff n s hs, skip, State.withInput, hs, if_true, ge_iff_le]
  by_cases h : n ≤ (s.input.drop s.offset).length
  · simp only [h, if_true, Res.success.injEq, true_and]
    exact ⟨fun e => ⟨_, e.symm, rfl⟩, fun ⟨_, e, _⟩ => e.symm⟩
  · simp only [h, if_false, reduceCtorEq, false_iff]
    rintro ⟨_, _, h', _⟩; exact h'

/-- Reading `n` and then `m` elements reads the same text as reading `n + m`. -/
theorem c23_take_add (n m : Nat) (s : State I) (hs : s.offset ≤ s.input.length) (v w : List I) :
    andThen (take n) (take m) s = .success (v, w) (n + m) →
      take (n + m) s = .success (v ++ w) (n + m) := by
  rw [c07_andThen_success_iff]
  rintro ⟨n1, n2, hn, h1, h2⟩
  obtain ⟨rfl, l1, e1⟩ := (c23_take_success_iff _ _ hs _ _).1 h1
  rw [List.length_drop] at l1
  obtain ⟨rfl, l2, e2⟩ := (c23_take_success_iff _ _ (by simp; omega) _ _).1 h2
  rw [List.length_drop] at l2
  simp only at e1 e2 l2
  subst e1 e2
  rw [c23_take_success_iff _ _ hs]
  refine ⟨rfl, by simp; omega, ?_⟩
  simp only [List.take_add, List.drop_drop]

theorem c23_take_add_conv (n m : Nat) (s : State I) (hs : s.offset ≤ s.input.length) (u : List I)
    (h : take (n + m) s = .success u (n + m)) :
    andThen (take n) (take m) s = .success (u.take n, u.drop n) (n + m) := by
  obtain ⟨-, h1, rfl⟩ := (c23_take_success_iff _ _ hs _ _).1 h
  simp only [List.length_drop] at h1
  rw [c07_andThen_success_iff]
  refine ⟨n, m, rfl, (c23_take_success_iff _ _ hs _ _).2 ⟨rfl, by simp; omega, ?_⟩,
    (c23_take_success_iff _ _ (by simp; omega) _ _).2 ⟨rfl, by simp; omega, ?_⟩⟩
  · simp [List.take_take]
  · simp [List.drop_take, List.drop_drop]

example : take 2 ⟨['x', 'a', 'b', 'c'], 1⟩ = .success ['a', 'b'] 2 ∧
    take 4 ⟨['x', 'a', 'b', 'c'], 1⟩ = .failure .incomplete .uncommitted := by decide

/-! ## C22 take_till -/

private theorem findTill_spec (f : I → Bool) (index : Nat) (l : List I) :
    (∃ a x b, l = a ++ x :: b ∧ f x = true ∧ (∀ y ∈ a, f y = false) ∧
      findTill f index l = some (index + a.length)) ∨
    ((∀ y ∈ l, f y = false) ∧ findTill f index l = none) := by
  induction l generalizing index with
  | nil => right; simp [findTill]
  | cons c l ih =>
    by_cases hc : f c = true
    · left; exact ⟨[], c, l, rfl, hc, by simp, by simp [findTill, hc]⟩
    · rcases ih (index + 1) with ⟨a, x, b, rfl, hx, ha, h⟩ | ⟨hl, h⟩
      · left
        refine ⟨c :: a, x, b, rfl, hx, ?_, ?_⟩
        · intro y hy; rcases List.mem_cons.1 hy with rfl | hy
          · simpa using hc
          · exact ha y hy
        · simp only [findTill, hc, Bool.false_eq_true, if_false, h, List.length_cons]
          congr 1; omega
      · right
        refine ⟨?_, by simp [findTill, hc, h]⟩
        intro y hy; rcases List.mem_cons.1 hy with rfl | hy
        · simpa using hc
        · exact hl y hy

/-- If the rest is `a ++ x :: b` with `x` the first match, `take_till0` and `take_till1` return
`a ++ [x]` and stop right after it. -/
theorem c22_takeTill_match (f : I → Bool) (s : State I) (hs : s.offset ≤ s.input.length)
    (a : List I) (x : I) (b : List I) (h : s.input.drop s.offset = a ++ x :: b) (hx : f x = true)
    (ha : ∀ y ∈ a, f y = false) :
    takeTill0 f s = .success (a ++ [x]) (a.length + 1) ∧
    takeTill1 f s = .success (a ++ [x]) (a.length + 1) := by
  have hf : findTill f 0 (s.input.drop s.offset) = some a.length := by
    rcases findTill_spec f 0 (s.input.drop s.offset) with ⟨a', x', b', h', hx', ha', hr⟩ | ⟨hl, -⟩
    · rw [hr, Nat.zero_add]
      congr 1
      rw [h] at h'
      rcases Nat.lt_trichotomy a.length a'.length with hlt | heq | hlt
      · exfalso
        have : (a ++ x :: b)[a.length]? = some x := by simp
        rw [h', List.getElem?_append_left hlt] at this
        exact absurd (ha' x (List.mem_of_getElem? this)) (by simp [hx])
      · exact heq.symm
      · exfalso
        have : (a' ++ x' :: b')[a'.length]? = some x' := by simp
        rw [← h', List.getElem?_append_left hlt] at this
        exact absurd (ha x' (List.mem_of_getElem? this)) (by simp [hx'])
    · exfalso
      have := hl x (by rw [h]; simp)
      rw [hx] at this; cases this
  have hlen : s.offset + (a.length + 1) ≤ s.input.length := by
    have := congrArg List.length h
    simp at this; omega
  have ht : (s.input.drop s.offset).take (a.length + 1) = a ++ [x] := by
    rw [h, List.take_append]; simp [List.take_of_length_le]
  simp only [takeTill0, takeTill1, State.withInput, hs, if_true, hf, State.withSlice, hlen, ht, and_self]

/-- Without a match `take_till0` returns everything and `take_till1` fails uncommitted. -/
theorem c22_takeTill_no_match (f : I → Bool) (s : State I) (hs : s.offset ≤ s.input.length)
    (h : ∀ y ∈ s.input.drop s.offset, f y = false) :
    takeTill0 f s = .success (s.input.drop s.offset) (s.input.drop s.offset).length ∧
    takeTill1 f s = .failure .incomplete .uncommitted := by
  have hf : findTill f 0 (s.input.drop s.offset) = none := by
    rcases findTill_spec f 0 (s.input.drop s.offset) with ⟨a', x', b', h', hx', ha', hr⟩ | ⟨-, hr⟩
    · have := h x' (by rw [h']; simp)
      rw [hx'] at this; cases this
    · exact hr
  simp only [takeTill0, takeTill1, State.withInput, hs, if_true, hf, and_self]

example : takeTill0 (· == ';') ⟨['x', 'a', ';', ';'], 1⟩ = .success ['a', ';'] 2 ∧
    takeTill0 (· == ';') ⟨['x', 'a', 'b'], 1⟩ = .success ['a', 'b'] 2 ∧
    takeTill1 (· == ';') ⟨['x', 'a', 'b'], 1⟩ = .failure .incomplete .uncommitted := by decide

/-! ## C21 take_while -/

/-- The claim of the documentation: the longest matching prefix is returned and consumed. -/
def TakesLongestPrefix (p : Parser I (List I)) (f : I → Bool) : Prop :=
  ∀ s : State I, s.offset ≤ s.input.length → ∀ v n, p s = .success v n →
    v = (s.input.drop s.offset).takeWhile f ∧ n = v.length

/-- `take_while0` on "ab1c" with "is a letter" returns "ab1" instead of "ab". -/
theorem c21_takeWhile_violated :
    ¬ TakesLongestPrefix (takeWhile0 Chr.isAlpha) Chr.isAlpha ∧
    ¬ TakesLongestPrefix (takeWhile1 Chr.isAlpha) Chr.isAlpha ∧
    ¬ TakesLongestPrefix (takeWhileNM 1 5 Chr.isAlpha) Chr.isAlpha := by
  refine ⟨fun h => ?_, fun h => ?_, fun h => ?_⟩ <;>
    exact absurd (h ⟨['a', 'b', '1', 'c'], 0⟩ (by decide) ['a', 'b', '1'] 3 (by decide)).1 (by decide)

/-- Worse: if the first match is not the first element the value is not even the consumed text. -/
theorem c21_takeWhile_misaligned :
    takeWhile0 Chr.isAlpha ⟨['1', 'a'], 0⟩ = .success ['a'] 1 ∧
    andThen (takeWhile0 Chr.isAlpha) elmAny ⟨['1', 'a'], 0⟩ = .success (['a'], 'a') 2 := by decide

private theorem scanWhile_none (f : I → Bool) (index len : Nat) (st : Option Nat) (l : List I)
    (h : ∀ y ∈ l, f y = false) : scanWhile f index st len l = (st, len) := by
  induction l generalizing index with
  | nil => rfl
  | cons c l ih =>
    have hc := h c (by simp)
    simp only [scanWhile, hc, Bool.false_eq_true, if_false]
    exact ih _ fun y hy => h y (by simp [hy])

private theorem scanWhile_some (f : I → Bool) (index len i : Nat) (l : List I) :
    scanWhile f index (some i) len l = (some i, len + (l.filter f).length) := by
  induction l generalizing index len with
  | nil => rfl
  | cons c l ih =>
    by_cases hc : f c = true
    · simp [scanWhile, hc, ih]; omega
    · simp [scanWhile, hc, ih]

private theorem scanWhile_spec (f : I → Bool) (index : Nat) (l : List I) :
    scanWhile f index none 0 l =
      if l.any f then (some (index + (l.takeWhile (fun y => !f y)).length), (l.filter f).length)
      else (none, 0) := by
  induction l generalizing index with
  | nil => rfl
  | cons c l ih =>
    by_cases hc : f c = true
    · simp [scanWhile, hc, scanWhile_some]; omega
    · simp only [scanWhile, hc, Bool.false_eq_true, if_false, ih, List.any_cons, Bool.false_or,
        List.takeWhile_cons, Bool.not_false, if_true, List.length_cons, List.filter_cons]
      split
      · simp; omega
      · simp

/-- When the matching elements of the rest are exactly a prefix (no match after the first mismatch),
`take_while0/1/n_m` do take that prefix. -/
theorem c21_takeWhile_partial (f : I → Bool) (s : State I) (hs : s.offset ≤ s.input.length)
    (a b : List I) (h : s.input.drop s.offset = a ++ b) (ha : ∀ y ∈ a, f y = true)
    (hb : ∀ y ∈ b, f y = false) :
    takeWhile0 f s = .success a a.length ∧
    (takeWhile1 f s = if a = [] then .failure .incomplete .uncommitted else .success a a.length) ∧
    (∀ n m, takeWhileNM n m f s =
      if a ≠ [] ∧ n ≤ a.length ∧ a.length ≤ m then .success a a.length
      else .failure .incomplete .uncommitted) := by
  have hlen : s.input.length = s.offset + a.length + b.length := by
    have := congrArg List.length h; simp at this; omega
  cases a with
  | nil =>
    simp only [List.nil_append] at h
    have hsc : scanWhile f 0 none 0 b = (none, 0) := scanWhile_none f 0 0 none b hb
    simp [takeWhile0, takeWhile1, takeWhileNM, State.withInput, hs, h, hsc, State.withSlice]
  | cons c a =>
    have hc := ha c (by simp)
    have hfil : (c :: a).filter f = c :: a := List.filter_eq_self.2 ha
    have hfb : b.filter f = [] := List.filter_eq_nil_iff.2 (by intro y hy; simp [hb y hy])
    have hsc : scanWhile f 0 none 0 (c :: a ++ b) = (some 0, a.length + 1) := by
      rw [scanWhile_spec]
      rw [if_pos (by simp [hc])]
      simp only [List.filter_append, hfil, hfb]
      simp [hc]
    have hw : ∀ k : List I → Res I (List I),
        withSub (c :: a ++ b) 0 (0 + (a.length + 1)) k = k (c :: a) := by
      intro k
      simp [withSub]
    have h' : s.input.drop s.offset = c :: (a ++ b) := by simpa using h
    refine ⟨?_, ?_, ?_⟩
    · simp only [takeWhile0, State.withInput, hs, if_true, h, hsc, hw, List.length_cons]
    · simp only [takeWhile1, State.withInput, hs, if_true, h, hsc, hw, List.length_cons]; simp
    · intro n m
      simp only [takeWhileNM, State.withInput, hs, if_true, h, hsc, hw, List.length_cons]; simp

example : takeWhile0 Chr.isAlpha ⟨['x', 'a', 'b', '1', '2'], 1⟩ = .success ['a', 'b'] 2 := by decide

/-- What `take_while0` computes for every input: as many elements as there are matches anywhere in
the rest, starting at the first match. It never panics. -/
theorem c21_takeWhile0_actual (f : I → Bool) (s : State I) (hs : s.offset ≤ s.input.length) :
    takeWhile0 f s =
      .success ((((s.input.drop s.offset).dropWhile (fun y => !f y))).take
        ((s.input.drop s.offset).filter f).length) ((s.input.drop s.offset).filter f).length := by
  generalize hr : s.input.drop s.offset = r
  simp only [takeWhile0, State.withInput, hs, if_true, hr, scanWhile_spec]
  by_cases hany : r.any f = true
  · simp only [hany, if_true, Nat.zero_add, withSub]
    have key : ∀ l : List I, l.drop (l.takeWhile (fun y => !f y)).length =
        l.dropWhile (fun y => !f y) := by
      intro l
      induction l with
      | nil => rfl
      | cons c l ih => by_cases hc : f c = true <;> simp [hc, ih]
    have hle : ∀ l : List I, (l.takeWhile (fun y => !f y)).length + (l.filter f).length ≤ l.length := by
      intro l
      induction l with
      | nil => simp
      | cons c l ih =>
        by_cases hc : f c = true
        · simp [hc]; exact List.length_filter_le _ _
        · simp [hc]; omega
    rw [if_pos ⟨by omega, hle r⟩, key, Nat.add_sub_cancel_left]
  · have hnone : ∀ y ∈ r, ¬ f y = true := by simpa using hany
    have : r.filter f = [] := List.filter_eq_nil_iff.2 hnone
    simp only [hany, Bool.false_eq_true, if_false, this, State.withSlice, Nat.add_zero, hs, if_true,
      List.length_nil, List.take_zero]

private theorem scanWhile_sub (f : I → Bool) (r : List I) (k : List I → Res I (List I)) :
    withSub r (0 + (r.takeWhile fun y => !f y).length) (0 + (r.takeWhile fun y => !f y).length + (r.filter f).length) k =
      k ((r.dropWhile fun y => !f y).take (r.filter f).length) := by
  have key : ∀ l : List I, l.drop (l.takeWhile (fun y => !f y)).length = l.dropWhile (fun y => !f y) := by
    intro l
    induction l with
    | nil => rfl
    | cons c l ih => by_cases hc : f c = true <;> simp [hc, ih]
  have hle : ∀ l : List I, (l.takeWhile (fun y => !f y)).length + (l.filter f).length ≤ l.length := by
    intro l
    induction l with
    | nil => simp
    | cons c l ih =>
      by_cases hc : f c = true
      · simp [hc]; exact List.length_filter_le _ _
      · simp [hc]; omega
  simp only [Nat.zero_add, withSub]
  rw [if_pos ⟨by omega, hle r⟩, key, Nat.add_sub_cancel_left]

private theorem dropWhile_long (f : I → Bool) (l : List I) :
    (l.filter f).length ≤ (l.dropWhile fun y => !f y).length := by
  induction l with
  | nil => simp
  | cons c l ih =>
    by_cases hc : f c = true
    · simp [hc]; exact List.length_filter_le _ _
    · simp [hc]; exact ih

/-- `take_while1` does the same where there is a match anywhere, and fails otherwise; `take_while_n_m` does so where
the number of matches in the whole rest is in the range. -/
theorem c21_takeWhile1_actual (f : I → Bool) (s : State I) (hs : s.offset ≤ s.input.length) :
    (takeWhile1 f s = if (s.input.drop s.offset).any f then takeWhile0 f s
      else .failure .incomplete .uncommitted) ∧
    (∀ n m, takeWhileNM n m f s =
      if (s.input.drop s.offset).any f = true ∧ n ≤ ((s.input.drop s.offset).filter f).length ∧
        ((s.input.drop s.offset).filter f).length ≤ m then takeWhile0 f s
      else .failure .incomplete .uncommitted) := by
  generalize hr : s.input.drop s.offset = r
  by_cases hany : r.any f = true
  · have hlen : ((r.dropWhile fun y => !f y).take (r.filter f).length).length = (r.filter f).length := by
      rw [List.length_take]
      exact Nat.min_eq_left (dropWhile_long f r)
    simp only [takeWhile0, takeWhile1, takeWhileNM, State.withInput, hs, if_true, hr, scanWhile_spec, hany,
      scanWhile_sub f r, hlen, true_and, implies_true, and_self]
  · simp only [takeWhile1, takeWhileNM, State.withInput, hs, if_true, hr, scanWhile_spec, hany, if_false, false_and,
      Bool.false_eq_true, implies_true, and_self]

/-- So the violation is exact: the longest matching prefix is taken if and only if nothing behind the first
mismatch matches. -/
theorem c21_takeWhile_general_violated (f : I → Bool) (s : State I) (hs : s.offset ≤ s.input.length) :
    takeWhile0 f s = .success ((s.input.drop s.offset).takeWhile f) ((s.input.drop s.offset).takeWhile f).length ↔
      ∀ y ∈ (s.input.drop s.offset).dropWhile f, f y = false := by
  constructor
  · intro h
    rw [c21_takeWhile0_actual f s hs] at h
    generalize s.input.drop s.offset = r at h
    have hn := (Res.success.inj h).2
    clear h
    have : ∀ l : List I, (l.filter f).length = (l.takeWhile f).length + ((l.dropWhile f).filter f).length := by
      intro l
      induction l with
      | nil => rfl
      | cons c l ih =>
        by_cases hc : f c = true
        · simp [hc, ih]; omega
        · simp [hc]
    rw [this r] at hn
    have h0 : ((r.dropWhile f).filter f).length = 0 := by omega
    intro y hy
    have := List.filter_eq_nil_iff.1 (List.length_eq_zero_iff.1 h0) y hy
    simpa using this
  · intro h
    refine (c21_takeWhile_partial f s hs ((s.input.drop s.offset).takeWhile f) ((s.input.drop s.offset).dropWhile f)
      (List.takeWhile_append_dropWhile).symm ?_ h).1
    intro y hy
    generalize s.input.drop s.offset = r at hy
    induction r with
    | nil => cases hy
    | cons c r ih =>
      by_cases hc : f c = true
      · simp only [List.takeWhile_cons, hc, if_true, List.mem_cons] at hy
        rcases hy with rfl | hy
        · exact hc
        · exact ih hy
      · simp [hc] at hy

/-! ## C32 error excerpts -/

/-- Asking the error of `elm('a').parse("b")` for its excerpt panics. -/
theorem c32_excerpt_violated :
    ¬ ∀ (input : List Char) (e : PError Char), parse (elm 'a') input = .err e → e.inputExcerpt.isSome := by
  intro h
  exact absurd (h ['b'] (.mismatch ['b'] 1 1) (by decide)) (by decide)

/-- Exactly when the excerpt of an element parser's mismatch exists: only if the rest is longer than
the absolute offset plus one. (Even then it shows the element `offset + 1` places after the
mismatching one.) -/
theorem c32_excerpt_partial (f : I → Bool) (s : State I) (hs : s.offset ≤ s.input.length) (e : PError I)
    (c : Committed) (h : elmPred f s = .failure e c) :
    e.inputExcerpt.isSome ↔ 2 * s.offset + 2 ≤ s.input.length := by
  have he : e = .mismatch (s.input.drop s.offset) (s.offset + 1) 1 := by
    simp only [elmPred, State.withInput, hs, if_true] at h
    split at h
    · split at h
      · cases h
      · rename_i h2 _; simp only [Res.failure.injEq] at h; exact h.1.symm
    · simp only [Res.failure.injEq] at h; exact h.1.symm
  subst he
  simp only [PError.inputExcerpt, List.length_drop]
  split <;> (simp; omega)

example : elmPred (· == 'a') ⟨['b', 'c'], 0⟩ = .failure (.mismatch ['b', 'c'] 1 1) .uncommitted ∧
    (PError.mismatch ['b', 'c'] 1 1).inputExcerpt = some (some ['c']) := by decide

/-! ## C33 regex -/

/-- `regex` returns the matched text; its consumption is the byte length of that text. -/
theorem c33_regex_value (m : List Char → Option Nat) (s : State Char) (v : List Char) (n : Nat)
    (h : regex m s = .success v n) :
    ∃ k, m (s.input.drop s.offset) = some k ∧ v = (s.input.drop s.offset).take k := by
  simp only [regex, State.withInput] at h
  split at h
  · split at h
    · rename_i k hk; simp only [Res.success.injEq] at h; exact ⟨k, hk, h.1.symm⟩
    · cases h
  · cases h

/-- The claim: consumption is the number of matched elements. -/
def ConsumesWhatItReturns (p : Parser I (List I)) : Prop :=
  ∀ s v n, p s = .success v n → n = v.length

/-- Violated by an expression matching 'é' (two bytes): the next character is skipped too. -/
theorem c33_regex_violated :
    ¬ ConsumesWhatItReturns (regex fun l => if l.head? = some 'é' then some 1 else none) := by
  intro h
  exact absurd (h ⟨['é', 'x'], 0⟩ ['é'] 2 (by decide)) (by decide)

/-- Holds when the matched text is ASCII. -/
theorem c33_regex_partial (m : List Char → Option Nat) (s : State Char) (v : List Char) (n : Nat)
    (h : regex m s = .success v n) (hv : ∀ c ∈ v, c.toNat < 0x80) : n = v.length := by
  have hsum : ∀ l : List Char, (∀ c ∈ l, c.toNat < 0x80) → (l.map utf8Len).sum = l.length := by
    intro l hl
    induction l with
    | nil => rfl
    | cons c l ih =>
      have hc := hl c (by simp)
      simp only [List.map_cons, List.sum_cons, List.length_cons, utf8Len, hc, if_true]
      rw [ih fun c hc => hl c (by simp [hc])]; omega
  simp only [regex, State.withInput] at h
  split at h
  · split at h
    · simp only [Res.success.injEq] at h
      rw [← h.2, ← h.1]; exact hsum _ (by rw [h.1]; exact hv)
    · cases h
  · cases h

/-- Two digits in front of a letter of two bytes: what is read is ASCII. -/
example : regex (fun l => some (l.takeWhile fun c => '0' ≤ c && c ≤ '9').length) ⟨['x', '1', '2', 'é'], 1⟩ = .success ['1', '2'] 2 ∧
    ∀ c ∈ ['1', '2'], c.toNat < 0x80 := by decide

/-- With a match ending in the last character the over-consumption leaves the input: the next read
panics. -/
theorem c33_regex_out_of_bounds :
    andThen (regex fun l => if l.head? = some 'é' then some 1 else none) (elmAny (I := Char))
      ⟨['é'], 0⟩ = .panic := by decide

end OniComb
