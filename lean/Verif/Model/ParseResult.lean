import Verif.Model.Combinators
import Verif.Model.Uri

/-!
# The methods of `ParseResult` and `ParseError`

Models the public methods of `/repo/parser/src/core/parse_result.rs`, `parse_error.rs` and
`parser_runner.rs` that the combinators themselves do not call, see `Core.lean` for the others.

`panic` and `diverge` are not values of `ParseResult`; a method is never called on them.  The functions here pass
them on where a result is asked for and say "nothing" where an `Option` is asked for.
-/

namespace OniComb

/-- `CommittedStatus::is_committed`, committed_status.rs:25-30. -/
def Committed.isCommitted : Committed → Bool
  | .committed => true
  | .uncommitted => false

/-- `CommittedStatus::is_uncommitted`, committed_status.rs:33-35. -/
def Committed.isUncommitted (c : Committed) : Bool := !c.isCommitted

namespace Res
variable {I A B : Type}

/-- `ParseResult::successful`, parse_result.rs:28-30. -/
def successful (value : A) (length : Nat) : Res I A := .success value length

/-- `ParseResult::failed`, parse_result.rs:36-41. -/
def failed (error : PError I) (status : Committed) : Res I A := .failure error status

/-- `ParseResult::failed_with_uncommitted`, parse_result.rs:46-48. -/
def failedWithUncommitted (error : PError I) : Res I A := failed error .uncommitted

/-- `ParseResult::failed_with_commit`, parse_result.rs:50-52. -/
def failedWithCommit (error : PError I) : Res I A := failed error .committed

/-- `ParseResult::success`, parse_result.rs:71-76. -/
def success? : Res I A → Option A
  | .success v _ => some v
  | _ => none

/-- `ParseResult::is_failure`, parse_result.rs:79-84. -/
def isFailure : Res I A → Bool
  | .failure .. => true
  | _ => false

/-- `ParseResult::failure`, parse_result.rs:87-92. -/
def failure? : Res I A → Option (PError I)
  | .failure e _ => some e
  | _ => none

/-- `ParseResult::committed_status`, parse_result.rs:95-103. -/
def committedStatus : Res I A → Option Committed
  | .failure _ c => some c
  | _ => none

/-- `ParseResult::flat_map`, parse_result.rs:133-146. -/
def flatMap (r : Res I A) (f : A → Nat → Res I B) : Res I B :=
  match r with
  | .success v n => f v n
  | .failure e c => .failure e c
  | .panic => .panic
  | .diverge => .diverge

/-- `ParseResult::map`, parse_result.rs:148-155. -/
def map (r : Res I A) (f : A → Nat → B × Nat) : Res I B :=
  r.flatMap fun v n => successful (f v n).1 (f v n).2

/-- `ParseResult::map_err`, parse_result.rs:157-163. -/
def mapErr (r : Res I A) (f : PError I → PError I) : Res I A :=
  match r with
  | .failure e c => .failure (f e) c
  | r => r

end Res

/-- `ParserRunner::parse`, parser_runner_impl.rs:11-14: the whole `ParseResult`. -/
def parseResult {I A : Type} (p : Parser I A) (input : List I) : Res I A := p ⟨input, 0⟩

/-- `ParserRunner::parse_as_result`, parser_runner.rs:17-19. -/
def parseAsResult {I A : Type} (p : Parser I A) (input : List I) : Res.Out I A := (parseResult p input).toOut

/-- `Parsers::successful_lazy`, parsers_impl.rs:42-47; the closure is assumed pure. -/
def successfulLazy {I A : Type} (f : Unit → A) : Parser I A := fun _ => .success (f ()) 0

/-- `Parsers::failed_lazy`, parsers_impl.rs:56-66; the closure is assumed pure. -/
def failedLazy {I A : Type} (f : Unit → PError I × Committed) : Parser I A := fun _ => .failure (f ()).1 (f ()).2

namespace PError
variable {I : Type}

/-- `ParseError::is_expect`, parse_error.rs:106-111. -/
def isExpect : PError I → Bool
  | .expect .. => true
  | _ => false

/-- `ParseError::is_mismatch`, parse_error.rs:120-125. -/
def isMismatch : PError I → Bool
  | .mismatch .. => true
  | _ => false

/-- `ParseError::is_conversion`, parse_error.rs:127-132. -/
def isConversion : PError I → Bool
  | .conversion .. => true
  | _ => false

/-- `ParseError::is_in_complete`, parse_error.rs:134-139. -/
def isInComplete : PError I → Bool
  | .incomplete => true
  | _ => false

/-- The `message` of an error, parse_error.rs:8-35.  The texts that `format!` makes are those of
logging_parsers_impl.rs:44 and :67. -/
def _root_.OniComb.Label.message : Label → List Char
  | .text s => s.toList
  | .failedToParse n => "failed to parse ".toList ++ n.toList
  | .expect n => "Expect ".toList ++ n.toList

/-- A `usize` with `{}`. -/
def decimal (n : Nat) : List Char := Nat.toDigits 10 n

/-- `Display for ParseError`, parse_error.rs:37-67, as the list of the characters written.  The messages of `Mismatch`
and `Conversion`, which the model of errors omits, are given by `msg`. -/
def display (msg : PError I → List Char) : PError I → List Char
  | .incomplete => "Incomplete".toList
  | .mismatch i o l => "Mismatch at ".toList ++ decimal o ++ ": ".toList ++ msg (.mismatch i o l)
  | .conversion i o l => "Conversion failed at ".toList ++ decimal o ++ ": ".toList ++ msg (.conversion i o l)
  | .expect o inner m => m.message ++ " at ".toList ++ decimal o ++ ": ".toList ++ inner.display msg
  | .customInner o inner m =>
    m.message ++ " at ".toList ++ decimal o ++ ", (inner: ".toList ++ inner.display msg ++ ")".toList
  | .custom o m => m.message ++ " at ".toList ++ decimal o

/-- `ParseError<u8>::input_string`, parse_error.rs:76-86.  The result is the bytes of the `String`; the outer `none`
is a panic. -/
def inputString (e : PError UInt8) : Option (Option (List UInt8)) :=
  e.inputExcerpt.map fun x => x.map fun bs => if Uri.validUtf8 bs then bs else []

end PError

end OniComb
