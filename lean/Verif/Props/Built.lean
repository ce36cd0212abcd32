import Verif.Lemmas.BuiltTame
import Verif.Lemmas.BuiltPos

/-!
# C04–C06: bounds, absence of panics and position independence of every assembled parser

`Built P obs p` (Spec/Built.lean) says that `p` is assembled from the primitives and combinators of the
library, with arbitrary closures, plus additional primitives of the family `P`.
-/

namespace OniComb
variable {I A : Type}

/-- No additional primitives. -/
def NoPrim : (A : Type) → Parser I A → Prop := fun _ _ => False

/-! ### A grammar used to show that the hypotheses can be met -/

/-- Nested parentheses around digits, e.g. `((7))`: recursive through `lazy`. -/
def nestF (rec : Parser Char Char) : Parser Char Char :=
  or (elmPred fun c => c.isDigit)
    (skipRight (skipLeft (elmPred fun c => c == '(') (lazy fun _ => rec)) (elmPred fun c => c == ')'))

theorem nestF_built (n : Nat) : Built NoPrim false (fixN nestF n) := by
  induction n with
  | zero => exact .diverging
  | succ n ih => exact .or _ _ (.elmPred _) (.skipRight _ _ (.skipLeft _ _ (.elmPred _) (.lazy _ ih)) (.elmPred _))

/-- A list of `key` tags separated by commas, read with `tag_no_case`. -/
def keyList : Parser Char (List (List Char)) :=
  skipRight (many1Sep (attempt (tagNoCase ['k', 'e', 'y'])) (elmPred fun c => c == ',')) end_

theorem keyList_built : Built TextPrim true keyList :=
  .skipRight _ _ (.repeatSep _ _ _ (.attempt _ (.prim _ (.tagNoCase _))) (.elmPred _)) .end_

/-! ### C04 -/

/-- C04.  Every assembled parser, started inside the input, ends inside the input, for all inputs, if
the additional primitives do and do not panic. -/
theorem c04_in_bounds {P : (A : Type) → Parser I A → Prop} {obs : Bool}
    (hP : ∀ A (p : Parser I A), P A p → InBounds p ∧ NoPanic p) {p : Parser I A} (h : Built P obs p) :
    InBounds p :=
  ((safe_iff p).1 (built_safe (fun A p hp => (safe_iff p).2 (hP A p hp)) h)).1

theorem textPrim_safe (A : Type) (p : Parser Char A) (h : TextPrim A p) : Safe p := by
  cases h with
  | tag lit => exact safe_seqLike _ lit
  | tagNoCase lit => exact safe_seqLike _ lit

/-- C04 for everything assembled from the library over characters, without any hypothesis. -/
theorem c04_text {obs : Bool} {p : Parser Char A} (h : Built TextPrim obs p) : InBounds p :=
  c04_in_bounds (fun A p hp => (safe_iff p).1 (textPrim_safe A p hp)) h

/-- The length reported by a top level run never exceeds the length of the input. -/
theorem c04_parse_length {obs : Bool} {p : Parser Char A} (h : Built TextPrim obs p) (input : List Char)
    (v : A) (n : Nat) (hr : p ⟨input, 0⟩ = .success v n) : n ≤ input.length := by
  simpa using c04_text h ⟨input, 0⟩ v n (Nat.zero_le _) hr

example : keyList ⟨['K', 'e', 'Y', ',', 'k', 'E', 'y'], 0⟩ =
    .success [['k', 'e', 'y'], ['k', 'e', 'y']] 7 := by decide +kernel
example : InBounds keyList := c04_text keyList_built

/-! ### C05 -/

/-- C05.  Every assembled parser, started inside the input, does not panic, for all inputs. -/
theorem c05_no_panic {P : (A : Type) → Parser I A → Prop} {obs : Bool}
    (hP : ∀ A (p : Parser I A), P A p → InBounds p ∧ NoPanic p) {p : Parser I A} (h : Built P obs p) :
    NoPanic p :=
  ((safe_iff p).1 (built_safe (fun A p hp => (safe_iff p).2 (hP A p hp)) h)).2

/-- C05 for everything assembled from the library over characters: `parse` never panics. -/
theorem c05_text {obs : Bool} {p : Parser Char A} (h : Built TextPrim obs p) (input : List Char) :
    parse p input ≠ .panic := by
  have := c05_no_panic (fun A p hp => (safe_iff p).1 (textPrim_safe A p hp)) h ⟨input, 0⟩ (Nat.zero_le _)
  unfold parse
  cases hr : p ⟨input, 0⟩ <;> simp_all [Res.toOut]

/-- C05 for elements of any type. -/
theorem c05_any {obs : Bool} {p : Parser I A} (h : Built NoPrim obs p) (input : List I) :
    parse p input ≠ .panic := by
  have := c05_no_panic (fun A p hp => False.elim hp) h ⟨input, 0⟩ (Nat.zero_le _)
  unfold parse
  cases hr : p ⟨input, 0⟩ <;> simp_all [Res.toOut]

/-- Recursive grammars: no unrolling of a recursive grammar panics, so a run that returns does not. -/
theorem c05_recursive {obs : Bool} (F : Parser Char A → Parser Char A)
    (hF : ∀ p, Built TextPrim obs p → Built TextPrim obs (F p)) (n : Nat) (input : List Char) :
    parse (fixN F n) input ≠ .panic := by
  refine c05_text (obs := obs) ?_ input
  induction n with
  | zero => exact .diverging
  | succ n ih => exact hF _ ih

example (input : List Char) (n : Nat) : parse (fixN nestF n) input ≠ .panic := c05_any (nestF_built n) input
example : parse (fixN nestF 4) ['(', '(', '7', ')', ')'] = .ok '7' := by decide +kernel
/-- The contract is needed: a hand written parser reporting more than it read makes its successor
panic. -/
example : parse (andThen (fun _ => .success () 9) (elmPred fun c => c == 'a')) ['a'] = .panic := by
  decide +kernel

/-! ### C06 -/

/-- C06.  The outcome of an assembled parser at a position (value, consumed length, failure, commit
status) only depends on the text from there on, for all texts and positions, if it does not use
`last_offset`/`next_offset`. -/
theorem c06_position_independent {P : (A : Type) → Parser I A → Prop}
    (hP : ∀ A (p : Parser I A), P A p → InBounds p ∧ NoPanic p ∧ PosIndep p) {p : Parser I A}
    (h : Built P false p) (input : List I) (k : Nat) (hk : k ≤ input.length) :
    SameOutcome (p ⟨input, k⟩) (p ⟨input.drop k, 0⟩) := by
  have hn := built_nice (fun A p hp => ⟨(safe_iff p).2 ⟨(hP A p hp).1, (hP A p hp).2.1⟩, (hP A p hp).2.2⟩) h
  have := hn.2 (input.take k) (input.drop k) 0 (Nat.zero_le _)
  rwa [List.take_append_drop, List.length_take, Nat.min_eq_left hk] at this

/-- C06 for everything assembled from the library over characters. -/
theorem c06_text {p : Parser Char A} (h : Built TextPrim false p) (input : List Char) (k : Nat)
    (hk : k ≤ input.length) : SameOutcome (p ⟨input, k⟩) (p ⟨input.drop k, 0⟩) := by
  refine c06_position_independent (fun A p hp => ?_) h input k hk
  have hs := (safe_iff p).1 (textPrim_safe A p hp)
  refine ⟨hs.1, hs.2, ?_⟩
  cases hp with
  | tag lit => exact pos_seqLike _ lit
  | tagNoCase lit => exact pos_seqLike _ lit

/-- C06, as a user sees it: whatever text is put in front, skipping it first gives the value that the
parser gives for the text alone. -/
theorem c06_prefix {p : Parser Char A} (h : Built TextPrim false p) (pre input : List Char) (v : A) :
    parse (skipLeft (skip pre.length) p) (pre ++ input) = .ok v ↔ parse p input = .ok v := by
  have hs := c06_text h (pre ++ input) pre.length (by simp)
  rw [List.drop_left] at hs
  have hskip : skip pre.length ⟨pre ++ input, 0⟩ = .success () pre.length := by
    simp [skip, State.withInput]
  unfold parse skipLeft
  rw [hskip]
  simp only [State.advanceBy, Nat.zero_add]
  revert hs
  cases p ⟨pre ++ input, pre.length⟩ <;> cases p ⟨input, 0⟩ <;> simp only [SameOutcome, Res.toOut, reduceCtorEq,
    imp_self, Res.Out.ok.injEq, implies_true, iff_self, false_imp_iff]
  rintro ⟨rfl, -⟩; exact Iff.rfl

example : parse (skipLeft (skip 2) (fixN nestF 3)) ['x', 'y', '(', '7', ')'] = .ok '7' :=
  (c06_prefix (p := fixN nestF 3) (by
    have : ∀ n, Built TextPrim false (fixN nestF n) := fun n => by
      induction n with
      | zero => exact .diverging
      | succ n ih =>
        exact .or _ _ (.elmPred _)
          (.skipRight _ _ (.skipLeft _ _ (.elmPred _) (.lazy _ ih)) (.elmPred _))
    exact this 3) ['x', 'y'] ['(', '7', ')'] '7').2 (by decide +kernel)

/-- `next_offset` is the reason for `obs = false`: it shows the position. -/
example : parse (nextOffset (skip 1)) ['a', 'b'] ≠
    parse (skipLeft (skip 1) (nextOffset (skip 1))) ['a', 'b'] := by decide +kernel

/-! ### The contract of the termination properties -/

/-- C14, contract: every assembled parser consumes nothing when started behind the end of the input, so
the theorems about repetition and operator chains apply to all of them. -/
theorem c14_built_tame {P : (A : Type) → Parser I A → Prop} {obs : Bool}
    (hP : ∀ A (p : Parser I A), P A p → Tame p) {p : Parser I A} (h : Built P obs p) : Tame p :=
  built_tame hP h

/-- C14, contract, for everything assembled from the library over characters. -/
theorem c14_text_tame {obs : Bool} {p : Parser Char A} (h : Built TextPrim obs p) : Tame p := by
  refine built_tame (fun A p hp => ?_) h
  cases hp with
  | tag lit => exact tame_withInput fun s inp => seqLoop (· == ·) s inp lit 0 lit inp
  | tagNoCase lit => exact tame_withInput fun s inp => seqLoop _ s inp lit 0 lit inp

example : Tame keyList := c14_text_tame keyList_built

end OniComb
