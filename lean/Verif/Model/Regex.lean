import Verif.Model.Elements

/-!
# Regular expressions

`regex` (`/repo/parser/src/internal/parsers_impl/elements_parsers_impl.rs:83-107`) hands its pattern to the crate
`regex`.  This file models the part of that crate's language that the patterns in the repository and in the
documentation use, by backtracking in the documented order of preference (leftmost position first, then the first
alternative, then as many repetitions as possible), and the treatment of the pattern by the parser.

Not modelled: the syntax of patterns (a pattern is its tree; `group` records parentheses, which decide what a `^`
put in front applies to), invalid patterns (`Regex::new(..).unwrap()` panics when the parser is built), lazy
quantifiers, counted repetition, word boundaries, flags.  Repetition of an expression that matches the empty text: a
round that consumes nothing is not taken; the crate orders such matches differently, the theorems that name no
particular pattern do not depend on the order.
-/

namespace OniComb

/-- The tree of a pattern. -/
inductive Rx where
  /-- the empty pattern -/
  | eps
  /-- a character, `.`, `\d`, `[..]` -/
  | set (f : Char → Bool)
  /-- `^` -/
  | bol
  /-- `$` -/
  | eol
  /-- `ab` -/
  | cat (a b : Rx)
  /-- `a|b` -/
  | alt (a b : Rx)
  /-- `a*` -/
  | star (a : Rx)
  /-- `a+` -/
  | plus (a : Rx)
  /-- `a?` -/
  | optional (a : Rx)
  /-- `(a)` -/
  | group (a : Rx)

namespace Rx

/-- Rounds of a greedy repetition of `m` from `p`, at most `n` of them. -/
def rounds (m : Nat → (Nat → Option Nat) → Option Nat) : Nat → Nat → (Nat → Option Nat) → Option Nat
  | 0, p, k => k p
  | n + 1, p, k =>
    match m p fun q => if p < q then rounds m n q k else none with
    | some e => some e
    | none => k p

/-- The end of the preferred match of the expression in the text `t` from position `p`, among those from whose end
`k` goes on. -/
def go (t : List Char) : Rx → Nat → (Nat → Option Nat) → Option Nat
  | .eps, p, k => k p
  | .set f, p, k =>
    match t[p]? with
    | some c => if f c then k (p + 1) else none
    | none => none
  | .bol, p, k => if p = 0 then k p else none
  | .eol, p, k => if p = t.length then k p else none
  | .cat a b, p, k => go t a p fun q => go t b q k
  | .alt a b, p, k =>
    match go t a p k with
    | some e => some e
    | none => go t b p k
  | .star a, p, k => rounds (go t a) (t.length - p) p k
  | .plus a, p, k => go t a p fun q => rounds (go t a) (t.length - q) q k
  | .optional a, p, k =>
    match go t a p k with
    | some e => some e
    | none => k p
  | .group a, p, k => go t a p k

/-- `Regex::captures(text)`, group 0: start and end of the preferred match at the first position with a match. -/
def search (r : Rx) (t : List Char) : Option (Nat × Nat) :=
  (List.range (t.length + 1)).findSome? fun p => (go t r p some).map fun e => (p, e)

/-- `pattern.starts_with("^")`, elements_parsers_impl.rs:84. -/
def startsBol : Rx → Bool
  | .bol => true
  | .cat a _ => a.startsBol
  | .alt a _ => a.startsBol
  | .star a => a.startsBol
  | .plus a => a.startsBol
  | .optional a => a.startsBol
  | _ => false

/-- The tree of `format!("^{}", pattern)`, :85: alternatives bind weaker than the `^`. -/
def anchor : Rx → Rx
  | .alt a b => .alt a.anchor b
  | r => .cat .bol r

/-- The expression that is compiled, :84-89. -/
def compiled (r : Rx) : Rx := if r.startsBol then r else r.anchor

end Rx

/-- `regex`, elements_parsers_impl.rs:83-107.  The text searched is the rest of the input; the consumed length is
`str.len()` of the match, its number of bytes.  `captures.get(0)` is never `None`. -/
def regexOf (r : Rx) : Parser Char (List Char) := fun s =>
  s.withInput fun inp =>
    match r.compiled.search inp with
    | some (a, b) =>
      let v := (inp.drop a).take (b - a)
      .success v (v.map utf8Len).sum
    | none => .failure .incomplete .uncommitted

end OniComb
