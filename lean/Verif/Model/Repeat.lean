import Verif.Model.Combinators

/-!
# Repetition

Models `/repo/parser/src/internal/parsers_impl/repeat_parsers_impl.rs`,
`internal/parser_impl/repeat_parser_impl.rs` and `utils/range.rs`.
-/

namespace OniComb
variable {I A B : Type}

/-- `Bound`, utils/range.rs:3-7. -/
inductive Bound where
  | excluded (n : Nat)
  | included (n : Nat)
  | unbounded
deriving DecidableEq, Repr

/-- A `RangeArgument<usize>`, utils/range.rs:9-12, given by its two bounds. -/
structure Range where
  start : Bound
  stop : Bound
deriving DecidableEq, Repr

/-- `..`, range.rs:15-23. -/
def Range.full : Range := ⟨.unbounded, .unbounded⟩
/-- `a..b`, range.rs:26-34. -/
def Range.halfOpen (a b : Nat) : Range := ⟨.included a, .excluded b⟩
/-- `a..=b`, range.rs:37-45. -/
def Range.closed (a b : Nat) : Range := ⟨.included a, .included b⟩
/-- `a..`, range.rs:48-56. -/
def Range.from_ (a : Nat) : Range := ⟨.included a, .unbounded⟩
/-- `..b`, range.rs:59-67. -/
def Range.to (b : Nat) : Range := ⟨.unbounded, .excluded b⟩
/-- `..=b`, range.rs:70-78. -/
def Range.toIncl (b : Nat) : Range := ⟨.unbounded, .included b⟩
/-- `n : usize`, range.rs:80-88. -/
def Range.exactly (n : Nat) : Range := ⟨.included n, .included n⟩

/-- The test at the head of the loop, repeat_parsers_impl.rs:82-94 (`true`: break). -/
def boundReached (stop : Bound) (count : Nat) : Bool :=
  match stop with
  | .included m => decide (count ≥ m)
  | .excluded m => decide (count + 1 ≥ m)
  | .unbounded => false

/-- Variables of the loop: `current_parse_state`, `items`, `all_length`. -/
structure LoopState (I A : Type) where
  cur : State I
  items : List A
  length : Nat

/-- Result of one turn of the loop. -/
inductive Turn (I A : Type) where
  | again (st : LoopState I A)
  | exit (items : List A) (length : Nat)
  | panic
  | diverge

/-- The item part of one turn, repeat_parsers_impl.rs:104-110. -/
def repItem (p : Parser I A) (st : LoopState I A) : Turn I A :=
  match p st.cur with
  | .success v n => .again ⟨st.cur.advanceBy n, st.items ++ [v], st.length + n⟩
  | .failure _ _ => .exit st.items st.length
  | .panic => .panic
  | .diverge => .diverge

/-- One turn of the loop, repeat_parsers_impl.rs:81-111. A separator that matched stays consumed even
if no item follows. -/
def repTurn (p : Parser I A) (sep : Option (Parser I B)) (stop : Bound) (st : LoopState I A) :
    Turn I A :=
  if boundReached stop st.items.length then .exit st.items st.length
  else
    match sep with
    | none => repItem p st
    | some q =>
      match q st.cur with
      | .success _ n => repItem p ⟨st.cur.advanceBy n, st.items, st.length + n⟩
      | .failure _ _ => .exit st.items st.length
      | .panic => .panic
      | .diverge => .diverge

/-- Final result of the loop. -/
inductive LoopOut (A : Type) where
  | exit (items : List A) (length : Nat)
  | panic
  | diverge

/-- The loop with fuel: out of fuel is `diverge`; `Props/Termination.lean` proves that this is exact
for the fuel used in `repeatSep`. -/
def repLoop (p : Parser I A) (sep : Option (Parser I B)) (stop : Bound) :
    Nat → LoopState I A → LoopOut A
  | 0, _ => .diverge
  | k + 1, st =>
    match repTurn p sep stop st with
    | .again st' => repLoop p sep stop k st'
    | .exit items n => .exit items n
    | .panic => .panic
    | .diverge => .diverge

/-- Enough turns for the loop to end if it ends at all. -/
def repFuel (stop : Bound) (s : State I) : Nat :=
  match stop with
  | .included m => m + 1
  | .excluded m => m + 1
  | .unbounded => s.input.length - s.offset + 2

/-- The check of the lower bound and the result, repeat_parsers_impl.rs:114-130. -/
def repFinish (range : Range) (s : State I) (items : List A) (length : Nat) : Res I (List A) :=
  match range.start with
  | .included m =>
    if items.length < m then
      (s.advanceBy length).withInput fun inp =>
        .failure (.mismatch inp (s.advanceBy length).lastOffset length) .uncommitted
    else .success items length
  | _ => .success items length

/-- `repeat_sep`, repeat_parsers_impl.rs:60-132. -/
def repeatSep (p : Parser I A) (range : Range) (sep : Option (Parser I B)) : Parser I (List A) :=
  fun s =>
    match p s with
    | .success v n =>
      match repLoop p sep range.stop (repFuel range.stop s) ⟨s.advanceBy n, [v], n⟩ with
      | .exit items len => repFinish range s items len
      | .panic => .panic
      | .diverge => .diverge
    | .failure _ _ => repFinish range s [] 0
    | .panic => .panic
    | .diverge => .diverge

/-- `repeat`, repeat_parsers_impl.rs:9-15. -/
def repeat_ (p : Parser I A) (range : Range) : Parser I (List A) :=
  repeatSep p range (none : Option (Parser I Unit))

/-- `many0`/`of_many0`, repeat_parsers_impl.rs:18-23. -/
def many0 (p : Parser I A) : Parser I (List A) :=
  repeatSep p (.from_ 0) (none : Option (Parser I Unit))

/-- `many1`/`of_many1`, repeat_parsers_impl.rs:26-31. -/
def many1 (p : Parser I A) : Parser I (List A) :=
  repeatSep p (.from_ 1) (none : Option (Parser I Unit))

/-- `count`/`of_count`, repeat_parsers_impl.rs:34-39. -/
def count (p : Parser I A) (n : Nat) : Parser I (List A) :=
  repeatSep p (.closed n n) (none : Option (Parser I Unit))

/-- `of_many_n_m`, repeat_parser_impl.rs:31-36. -/
def manyNM (p : Parser I A) (n m : Nat) : Parser I (List A) := repeat_ p (.closed n m)

/-- `many0_sep`/`of_many0_sep`, repeat_parsers_impl.rs:42-48. -/
def many0Sep (p : Parser I A) (sep : Parser I B) : Parser I (List A) :=
  repeatSep p (.from_ 0) (some sep)

/-- `many1_sep`/`of_many1_sep`, repeat_parsers_impl.rs:51-57. -/
def many1Sep (p : Parser I A) (sep : Parser I B) : Parser I (List A) :=
  repeatSep p (.from_ 1) (some sep)

/-- `of_many_n_m_sep`, repeat_parser_impl.rs:81-91. -/
def manyNMSep (p : Parser I A) (n m : Nat) (sep : Parser I B) : Parser I (List A) :=
  repeatSep p (.closed n m) (some sep)

/-- `of_count_sep`, repeat_parser_impl.rs:93-102. -/
def countSep (p : Parser I A) (n : Nat) (sep : Parser I B) : Parser I (List A) :=
  repeatSep p (.closed n n) (some sep)

end OniComb
