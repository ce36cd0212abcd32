/-!
# Core data types of the parser crate

Models `/repo/parser/src/core/{committed_status,parse_error,parse_result,parse_state,parser}.rs`.
-/

namespace OniComb

/-- `CommittedStatus`, parser/src/core/committed_status.rs:4-11. -/
inductive Committed where
  | committed
  | uncommitted
deriving DecidableEq, Repr

/-- `From<bool> for CommittedStatus`, committed_status.rs:13-21. -/
def Committed.ofBool : Bool → Committed
  | true => .committed
  | false => .uncommitted

/-- `CommittedStatus::or`, committed_status.rs:35-42: committed if either is. -/
def Committed.or : Committed → Committed → Committed
  | .committed, _ => .committed
  | _, .committed => .committed
  | _, _ => .uncommitted

/-- Text of a label stored in a `Custom`/`Expect` error.  The literal prefixes added with `format!`
are represented by constructors (logging_parsers_impl.rs:44 and :67). -/
inductive Label where
  | text (s : String)
  | failedToParse (name : String)
  | expect (name : String)
deriving DecidableEq, Repr

/-- `ParseError`, parser/src/core/parse_error.rs:8-35.  Simplified: the message text of `Mismatch`
and `Conversion` is omitted; `Custom { inner: Option<Box<..>> }` is split in two constructors. -/
inductive PError (I : Type) where
  | mismatch (input : List I) (offset length : Nat)
  | conversion (input : List I) (offset length : Nat)
  | incomplete
  | expect (offset : Nat) (inner : PError I) (label : Label)
  | custom (offset : Nat) (label : Label)
  | customInner (offset : Nat) (inner : PError I) (label : Label)
deriving DecidableEq, Repr

/-- `ParseError::is_custom`-like match used by `name`, logging_parsers_impl.rs:38-39. -/
def PError.isCustom {I : Type} : PError I → Bool
  | .custom .. => true
  | .customInner .. => true
  | _ => false

/-- `ParseError::input()` (and `input_string()` for `char`), parse_error.rs:70-74 and :89-104.  The
outer `none` is the panic of the slice `input[offset..offset + length]`. -/
def PError.inputExcerpt {I : Type} : PError I → Option (Option (List I))
  | .incomplete => some none
  | .mismatch inp off len =>
    if off + len ≤ inp.length then some (some ((inp.drop off).take len)) else none
  | .conversion inp off len =>
    if off + len ≤ inp.length then some (some ((inp.drop off).take len)) else none
  | .expect _ inner _ => inner.inputExcerpt
  | .customInner _ inner _ => inner.inputExcerpt
  | .custom _ _ => some none

/-- `ParseState { input, offset }`, parser/src/core/parse_state.rs:3-13. -/
structure State (I : Type) where
  input : List I
  offset : Nat
deriving DecidableEq, Repr

/-- Outcome of running a parser.  `success`/`failure` are `ParseResult`
(parser/src/core/parse_result.rs:6-21).  `panic`: the Rust call unwinds.  `diverge`: it never
returns. -/
inductive Res (I A : Type) where
  | success (value : A) (length : Nat)
  | failure (error : PError I) (status : Committed)
  | panic
  | diverge
deriving DecidableEq, Repr

/-- `Parser<'a, I, A>`, parser/src/core/parser.rs:10-20: a shared function from states to results. -/
abbrev Parser (I A : Type) := State I → Res I A

namespace State
variable {I A : Type}

/-- `last_offset().unwrap_or(0)`, parse_state.rs:15-21.  Every caller in the repository that does not
return it uses `.unwrap_or(0)`. -/
def lastOffset (s : State I) : Nat := if s.offset > 0 then s.offset - 1 else 0

/-- `advance_by`, parse_state.rs:29-31 (no bounds check). -/
def advanceBy (s : State I) (n : Nat) : State I := ⟨s.input, s.offset + n⟩

/-- `input()`, parse_state.rs:34-36: `&self.input[self.offset..]`, panics when `offset > len`.
Continuation style: `k` receives the slice. -/
def withInput (s : State I) (k : List I → Res I A) : Res I A :=
  if s.offset ≤ s.input.length then k (s.input.drop s.offset) else .panic

/-- `slice_with_len(n)`, parse_state.rs:39-41: `&self.input[offset..offset + n]`, panics out of range. -/
def withSlice (s : State I) (n : Nat) (k : List I → Res I A) : Res I A :=
  if s.offset + n ≤ s.input.length then k ((s.input.drop s.offset).take n) else .panic

end State

namespace Res
variable {I A B : Type}

/-- `ParseResult::with_uncommitted`, parse_result.rs:106-117. -/
def withUncommitted : Res I A → Res I A
  | .failure e .committed => .failure e .uncommitted
  | r => r

/-- `ParseResult::add_commit`, parse_result.rs:120-131. -/
def addCommit (r : Res I A) (b : Bool) : Res I A :=
  match r with
  | .failure e c => .failure e (c.or (Committed.ofBool b))
  | r => r

/-- `ParseResult::advance_success`, parse_result.rs:177-182. -/
def advanceSuccess (r : Res I A) (n : Nat) : Res I A :=
  match r with
  | .success v l => .success v (l + n)
  | r => r

/-- What the caller of `Parser::parse` sees: `ParseResult::to_result`, parse_result.rs:55-60, plus the
two non-value outcomes. -/
inductive Out (I A : Type) where
  | ok (value : A)
  | err (error : PError I)
  | panic
  | diverge
deriving DecidableEq, Repr

/-- `ParseResult::to_result`, parse_result.rs:55-60. -/
def toOut : Res I A → Out I A
  | .success v _ => .ok v
  | .failure e _ => .err e
  | .panic => .panic
  | .diverge => .diverge

/-- `ParseResult::is_success`, parse_result.rs:63-68. -/
def isSuccess : Res I A → Bool
  | .success .. => true
  | _ => false

end Res

/-- `Parser::parse`, parser/src/internal/parsers_impl.rs:28-34 and
internal/parser_impl/parser_runner_impl.rs: run at offset 0. -/
def parse {I A : Type} (p : Parser I A) (input : List I) : Res.Out I A :=
  (p ⟨input, 0⟩).toOut

end OniComb
