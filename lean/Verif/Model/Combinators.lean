import Verif.Model.Core

/-!
# Combinators without loops

Models `/repo/parser/src/internal/parsers_impl.rs` and, under `internal/parsers_impl/`,
`operator_parsers_impl.rs` (without `rest_left1`, see `Chain.lean`), `skip_parser_impl.rs`,
`conversion_parsers_impl.rs`, `peek_parsers_impl.rs`, `logging_parsers_impl.rs`,
`offset_parsers_impl.rs`, `collect_parsers_impl.rs`, `discard_parsers_impl.rs`,
`primitive_parsers_impl.rs`, `lazy_parsers_impl.rs`.

Every `match` on a sub-result has two additional branches: `panic` and `diverge` propagate, because in
Rust the enclosing call unwinds / does not return either.
-/

namespace OniComb
variable {I A B C : Type}

/-- `successful`, parsers_impl.rs:36-40 (and `successful_lazy`, :42-47, whose thunk is pure). -/
def successful (a : A) : Parser I A := fun _ => .success a 0

/-- `failed`, parsers_impl.rs:49-54 (and `failed_lazy`, :56-65). -/
def failed (e : PError I) (c : Committed) : Parser I A := fun _ => .failure e c

/-- `unit` (extension default, `successful(())`) and `empty`, primitive_parsers_impl.rs:25-27. -/
def unit : Parser I Unit := successful ()

/-- `filter`, parsers_impl.rs:67-88. -/
def filter (p : Parser I A) (f : A → Bool) : Parser I A := fun s =>
  match p s with
  | .success v n =>
    if f v then .success v n
    else .failure (.custom (s.offset + n) (.text "filter: predicate returned false")) .uncommitted
  | .failure e c => .failure e c
  | .panic => .panic
  | .diverge => .diverge

/-- `with_filter_not`, core/parser_filter.rs:12-17. -/
def filterNot (p : Parser I A) (f : A → Bool) : Parser I A := filter p (fun a => !f a)

/-- `flat_map`, parsers_impl.rs:90-106. -/
def flatMap (p : Parser I A) (f : A → Parser I B) : Parser I B := fun s =>
  match p s with
  | .success v n => ((f v (s.advanceBy n)).addCommit (n != 0)).advanceSuccess n
  | .failure e c => .failure e c
  | .panic => .panic
  | .diverge => .diverge

/-- `map`, parsers_impl.rs:108-120. -/
def map (p : Parser I A) (f : A → B) : Parser I B := fun s =>
  match p s with
  | .success v n => .success (f v) n
  | .failure e c => .failure e c
  | .panic => .panic
  | .diverge => .diverge

/-- `exists`, operator_parsers_impl.rs:10-17. -/
def exists_ (p : Parser I A) : Parser I Bool := fun s =>
  match p s with
  | .success _ _ => .success true 0
  | .failure _ _ => .success false 0
  | .panic => .panic
  | .diverge => .diverge

/-- `not`, operator_parsers_impl.rs:20-36. -/
def not_ (p : Parser I A) : Parser I Unit := fun s =>
  match p s with
  | .success _ _ =>
    (s.advanceBy 0).withInput fun inp =>
      .failure (.mismatch inp (s.advanceBy 0).lastOffset 0) .uncommitted
  | .failure _ _ => .success () 0
  | .panic => .panic
  | .diverge => .diverge

/-- `or`, operator_parsers_impl.rs:39-51. -/
def or (p q : Parser I A) : Parser I A := fun s =>
  match p s with
  | .failure _ .uncommitted => q s
  | r => r

/-- `and_then`, operator_parsers_impl.rs:54-76 (the `advance_success`/commit of the failure branch is
commented out in the source). -/
def andThen (p : Parser I A) (q : Parser I B) : Parser I (A × B) := fun s =>
  match p s with
  | .success a n1 =>
    match q (s.advanceBy n1) with
    | .success b n2 => .success (a, b) (n1 + n2)
    | .failure e c => .failure e c
    | .panic => .panic
    | .diverge => .diverge
  | .failure e c => .failure e c
  | .panic => .panic
  | .diverge => .diverge

/-- `attempt`, operator_parsers_impl.rs:79-83. -/
def attempt (p : Parser I A) : Parser I A := fun s => (p s).withUncommitted

/-- `opt`, extension/parsers/operator_parsers.rs:14-18. -/
def opt (p : Parser I A) : Parser I (Option A) := or (map (attempt p) some) (successful none)

/-- `skip`, skip_parser_impl.rs:9-18. -/
def skip (n : Nat) : Parser I Unit := fun s =>
  s.withInput fun inp =>
    if inp.length ≥ n then .success () n else .failure .incomplete .uncommitted

/-- `skip_left`, skip_parser_impl.rs:21-43. -/
def skipLeft (p : Parser I A) (q : Parser I B) : Parser I B := fun s =>
  match p s with
  | .success _ n1 =>
    match q (s.advanceBy n1) with
    | .success b n2 => .success b (n1 + n2)
    | .failure e c => .failure e c
    | .panic => .panic
    | .diverge => .diverge
  | .failure e c => .failure e c
  | .panic => .panic
  | .diverge => .diverge

/-- `skip_right`, skip_parser_impl.rs:46-69 (`advance_success` on the failure has no effect). -/
def skipRight (p : Parser I A) (q : Parser I B) : Parser I A := fun s =>
  match p s with
  | .success a n1 =>
    match q (s.advanceBy n1) with
    | .success _ n2 => .success a (n1 + n2)
    | .failure e c => (Res.failure e c).advanceSuccess n1
    | .panic => .panic
    | .diverge => .diverge
  | .failure e c => .failure e c
  | .panic => .panic
  | .diverge => .diverge

/-- `surround`, skip_parser_impl.rs:71-81: `left.skip_left(p.skip_right(right))`. -/
def surround (l : Parser I A) (p : Parser I B) (r : Parser I C) : Parser I B :=
  skipLeft l (skipRight p r)

/-- `map_res`, conversion_parsers_impl.rs:8-30.  `Result<B, E>` is `Option B`: the error value only
appears in the message text. -/
def mapRes (p : Parser I A) (f : A → Option B) : Parser I B := fun s =>
  match p s with
  | .success a n =>
    match f a with
    | some b => .success b n
    | none => s.withInput fun inp => .failure (.conversion inp s.lastOffset 0) .uncommitted
  | .failure e c => .failure e c
  | .panic => .panic
  | .diverge => .diverge

/-- `map_opt`, conversion_parsers_impl.rs:32-56 (same code as `map_res` up to the message). -/
def mapOpt (p : Parser I A) (f : A → Option B) : Parser I B := mapRes p f

/-- `peek`, peek_parsers_impl.rs:8-19. -/
def peek (p : Parser I A) : Parser I A := fun s =>
  match p s with
  | .success v _ => .success v 0
  | .failure e c => .failure e c
  | .panic => .panic
  | .diverge => .diverge

/-- `log_map` (also `log`, `debug`), logging_parsers_impl.rs:8-25.  Printing is not modelled; the
formatting function is assumed pure. -/
def logMap (p : Parser I A) (_name : String) : Parser I A := fun s => p s

/-- `name`, logging_parsers_impl.rs:28-50. -/
def name (p : Parser I A) (label : String) : Parser I A := fun s =>
  match p s with
  | .failure e c =>
    if e.isCustom then .failure e c
    else .failure (.customInner s.lastOffset e (.failedToParse label)) c
  | r => r

/-- `expect`, logging_parsers_impl.rs:53-72. -/
def expect (p : Parser I A) (label : String) : Parser I A := fun s =>
  match p s with
  | .failure e c => .failure (.expect s.lastOffset e (.expect label)) c
  | r => r

/-- `last_offset`, offset_parsers_impl.rs:7-21. -/
def lastOffset (p : Parser I A) : Parser I Nat := fun s =>
  match p s with
  | .success _ n => .success (s.advanceBy n).lastOffset n
  | .failure e c => .failure e c
  | .panic => .panic
  | .diverge => .diverge

/-- `next_offset`, offset_parsers_impl.rs:24-38. -/
def nextOffset (p : Parser I A) : Parser I Nat := fun s =>
  match p s with
  | .success _ n => .success (s.advanceBy n).offset n
  | .failure e c => .failure e c
  | .panic => .panic
  | .diverge => .diverge

/-- `collect`, collect_parsers_impl.rs:7-21. -/
def collect (p : Parser I A) : Parser I (List I) := fun s =>
  match p s with
  | .success _ n => s.withSlice n fun sl => .success sl n
  | .failure e c => .failure e c
  | .panic => .panic
  | .diverge => .diverge

/-- `discard`, discard_parsers_impl.rs:8-19. -/
def discard (p : Parser I A) : Parser I Unit := fun s =>
  match p s with
  | .success _ n => .success () n
  | .failure e c => .failure e c
  | .panic => .panic
  | .diverge => .diverge

/-- `end`, primitive_parsers_impl.rs:8-22. -/
def end_ : Parser I Unit := fun s =>
  s.withInput fun inp =>
    match inp with
    | _ :: _ => .failure (.mismatch inp (s.advanceBy 1).offset 1) .uncommitted
    | [] => .success () 0

/-- `lazy`, lazy_parsers_impl.rs:8-16: the parser is rebuilt at every run. -/
def lazy (f : Unit → Parser I A) : Parser I A := fun s => f () s

/-- A parser that never returns; stands for the not yet unrolled part of a grammar that refers to
itself through `lazy` (see `fixN`). Not a function of the repository. -/
def diverging : Parser I A := fun _ => .diverge

/-- `n`-fold unrolling of a grammar `p = F(lazy(|| p))`.  Rust unrolls on demand without bound. -/
def fixN (F : Parser I A → Parser I A) : Nat → Parser I A
  | 0 => diverging
  | n + 1 => F (lazy fun _ => fixN F n)

end OniComb
