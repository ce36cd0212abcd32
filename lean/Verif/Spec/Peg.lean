import Verif.Model.Elements
import Verif.Model.Repeat

/-!
# Parsing expression grammars

The grammars of B. Ford, "Parsing Expression Grammars", POPL 2004, their meaning, and how they are written with the
library.
-/

namespace OniComb.Peg
open OniComb
variable {I N : Type}

/-- Parsing expressions over elements `I` and nonterminals `N`. -/
inductive Exp (I N : Type) where
  | empty
  | elem (f : I → Bool)
  | text (w : List I)
  | seq (a b : Exp I N)
  | alt (a b : Exp I N)
  | star (a : Exp I N)
  | plus (a : Exp I N)
  | opt (a : Exp I N)
  | not (a : Exp I N)
  | look (a : Exp I N)
  | rule (x : N)

/-- What an expression does with a text: it reads the first `n` elements (`some n`) or fails (`none`). No derivation at
all means that it does neither. -/
inductive Reads (G : N → Exp I N) : Exp I N → List I → Option Nat → Prop where
  | empty (t : List I) : Reads G .empty t (some 0)
  | elem {f : I → Bool} {c : I} {t : List I} (h : f c = true) : Reads G (.elem f) (c :: t) (some 1)
  | elemOther {f : I → Bool} {c : I} {t : List I} (h : f c = false) : Reads G (.elem f) (c :: t) none
  | elemEnd (f : I → Bool) : Reads G (.elem f) [] none
  | text {w t : List I} (h : w <+: t) : Reads G (.text w) t (some w.length)
  | textOther {w t : List I} (h : ¬w <+: t) : Reads G (.text w) t none
  | seq {a b : Exp I N} {t : List I} {n m : Nat} (ha : Reads G a t (some n)) (hb : Reads G b (t.drop n) (some m)) :
      Reads G (.seq a b) t (some (n + m))
  | seqLeft {a b : Exp I N} {t : List I} (ha : Reads G a t none) : Reads G (.seq a b) t none
  | seqRight {a b : Exp I N} {t : List I} {n : Nat} (ha : Reads G a t (some n)) (hb : Reads G b (t.drop n) none) :
      Reads G (.seq a b) t none
  | altLeft {a b : Exp I N} {t : List I} {n : Nat} (ha : Reads G a t (some n)) : Reads G (.alt a b) t (some n)
  | altRight {a b : Exp I N} {t : List I} {r : Option Nat} (ha : Reads G a t none) (hb : Reads G b t r) :
      Reads G (.alt a b) t r
  | starEnd {a : Exp I N} {t : List I} (ha : Reads G a t none) : Reads G (.star a) t (some 0)
  | starMore {a : Exp I N} {t : List I} {n m : Nat} (ha : Reads G a t (some n))
      (hs : Reads G (.star a) (t.drop n) (some m)) : Reads G (.star a) t (some (n + m))
  | plus {a : Exp I N} {t : List I} {r : Option Nat} (h : Reads G (.seq a (.star a)) t r) : Reads G (.plus a) t r
  | opt {a : Exp I N} {t : List I} {r : Option Nat} (h : Reads G (.alt a .empty) t r) : Reads G (.opt a) t r
  | notFound {a : Exp I N} {t : List I} {n : Nat} (ha : Reads G a t (some n)) : Reads G (.not a) t none
  | notMissing {a : Exp I N} {t : List I} (ha : Reads G a t none) : Reads G (.not a) t (some 0)
  | lookFound {a : Exp I N} {t : List I} {n : Nat} (ha : Reads G a t (some n)) : Reads G (.look a) t (some 0)
  | lookMissing {a : Exp I N} {t : List I} (ha : Reads G a t none) : Reads G (.look a) t none
  | rule {x : N} {t : List I} {r : Option Nat} (h : Reads G (G x) t r) : Reads G (.rule x) t r

/-- An expression written with the library. `rules` are the parsers of the nonterminals. -/
def Exp.parser [DecidableEq I] (rules : N → Parser I Unit) : Exp I N → Parser I Unit
  | .empty => unit
  | .elem f => discard (elmPred f)
  | .text w => discard (OniComb.seq w)
  | .seq a b => discard (andThen (a.parser rules) (b.parser rules))
  | .alt a b => or (attempt (a.parser rules)) (b.parser rules)
  | .star a => discard (many0 (a.parser rules))
  | .plus a => discard (many1 (a.parser rules))
  | .opt a => discard (OniComb.opt (a.parser rules))
  | .not a => not_ (a.parser rules)
  | .look a => discard (peek (a.parser rules))
  | .rule x => rules x

/-- The nonterminals as lazy parsers, unrolled `n` times (see `fixN`). -/
def rules [DecidableEq I] (G : N → Exp I N) : Nat → N → Parser I Unit
  | 0, _ => diverging
  | n + 1, x => lazy fun _ => (G x).parser (rules G n)

/-- The parser of an expression in a grammar, its rules unrolled `n` times. -/
def parserOf [DecidableEq I] (G : N → Exp I N) (n : Nat) (e : Exp I N) : Parser I Unit := e.parser (rules G n)

/-! ## Grammars that always answer -/

/-- The expression may succeed without reading anything (as far as one can see without looking at the text). -/
inductive MayEmpty (G : N → Exp I N) : Exp I N → Prop where
  | empty : MayEmpty G .empty
  | text : MayEmpty G (.text [])
  | seq {a b : Exp I N} (ha : MayEmpty G a) (hb : MayEmpty G b) : MayEmpty G (.seq a b)
  | altLeft {a : Exp I N} (b : Exp I N) (ha : MayEmpty G a) : MayEmpty G (.alt a b)
  | altRight (a : Exp I N) {b : Exp I N} (hb : MayEmpty G b) : MayEmpty G (.alt a b)
  | star (a : Exp I N) : MayEmpty G (.star a)
  | plus {a : Exp I N} (ha : MayEmpty G a) : MayEmpty G (.plus a)
  | opt (a : Exp I N) : MayEmpty G (.opt a)
  | not (a : Exp I N) : MayEmpty G (.not a)
  | look (a : Exp I N) : MayEmpty G (.look a)
  | rule {x : N} (h : MayEmpty G (G x)) : MayEmpty G (.rule x)

/-- Nothing is repeated that may read nothing. -/
def Exp.NoIdleLoop (G : N → Exp I N) : Exp I N → Prop
  | .empty => True
  | .elem _ => True
  | .text _ => True
  | .seq a b => a.NoIdleLoop G ∧ b.NoIdleLoop G
  | .alt a b => a.NoIdleLoop G ∧ b.NoIdleLoop G
  | .star a => a.NoIdleLoop G ∧ ¬MayEmpty G a
  | .plus a => a.NoIdleLoop G ∧ ¬MayEmpty G a
  | .opt a => a.NoIdleLoop G
  | .not a => a.NoIdleLoop G
  | .look a => a.NoIdleLoop G
  | .rule _ => True

/-- The nonterminal may be called before anything is read. -/
def Exp.CallsFirst (G : N → Exp I N) (x : N) : Exp I N → Prop
  | .empty => False
  | .elem _ => False
  | .text _ => False
  | .seq a b => a.CallsFirst G x ∨ (MayEmpty G a ∧ b.CallsFirst G x)
  | .alt a b => a.CallsFirst G x ∨ b.CallsFirst G x
  | .star a => a.CallsFirst G x
  | .plus a => a.CallsFirst G x
  | .opt a => a.CallsFirst G x
  | .not a => a.CallsFirst G x
  | .look a => a.CallsFirst G x
  | .rule y => y = x

/-- No left recursion: there is no infinite sequence of rules each of which calls the next one before it has read
anything. -/
def NoLeftRecursion (G : N → Exp I N) : Prop := WellFounded fun x y => (G y).CallsFirst G x

/-! ## Grammars that need no `attempt` -/

/-- The expression written with `|` alone for alternatives and, if `flat`, with `flat_map` for sequences. -/
def Exp.bare [DecidableEq I] (flat : Bool) (rules : N → Parser I Unit) : Exp I N → Parser I Unit
  | .empty => unit
  | .elem f => discard (elmPred f)
  | .text w => discard (OniComb.seq w)
  | .seq a b =>
    if flat then flatMap (a.bare flat rules) fun _ => b.bare flat rules
    else discard (andThen (a.bare flat rules) (b.bare flat rules))
  | .alt a b => or (a.bare flat rules) (b.bare flat rules)
  | .star a => discard (many0 (a.bare flat rules))
  | .plus a => discard (many1 (a.bare flat rules))
  | .opt a => discard (OniComb.opt (a.bare flat rules))
  | .not a => not_ (a.bare flat rules)
  | .look a => discard (peek (a.bare flat rules))
  | .rule x => rules x

/-- The nonterminals in this writing, unrolled `n` times. -/
def bareRules [DecidableEq I] (flat : Bool) (G : N → Exp I N) : Nat → N → Parser I Unit
  | 0, _ => diverging
  | n + 1, x => lazy fun _ => (G x).bare flat (bareRules flat G n)

/-- The parser of an expression in this writing. -/
def bareOf [DecidableEq I] (flat : Bool) (G : N → Exp I N) (n : Nat) (e : Exp I N) : Parser I Unit :=
  e.bare flat (bareRules flat G n)

/-- What the expression reads may start with the element (as far as one can see without looking at the text). -/
inductive Starts (G : N → Exp I N) (c : I) : Exp I N → Prop where
  | elem {f : I → Bool} (h : f c = true) : Starts G c (.elem f)
  | text (w : List I) : Starts G c (.text (c :: w))
  | seqLeft {a : Exp I N} (b : Exp I N) (ha : Starts G c a) : Starts G c (.seq a b)
  | seqRight {a b : Exp I N} (ha : MayEmpty G a) (hb : Starts G c b) : Starts G c (.seq a b)
  | altLeft {a : Exp I N} (b : Exp I N) (ha : Starts G c a) : Starts G c (.alt a b)
  | altRight (a : Exp I N) {b : Exp I N} (hb : Starts G c b) : Starts G c (.alt a b)
  | star {a : Exp I N} (ha : Starts G c a) : Starts G c (.star a)
  | plus {a : Exp I N} (ha : Starts G c a) : Starts G c (.plus a)
  | opt {a : Exp I N} (ha : Starts G c a) : Starts G c (.opt a)
  | rule {x : N} (h : Starts G c (G x)) : Starts G c (.rule x)

/-- The expression may have read the element, and know it, when it fails: it begins with a text of at least two
elements or, with `flat_map`, with a sequence whose first part may start with the element. -/
inductive Commits (flat : Bool) (G : N → Exp I N) : I → Exp I N → Prop where
  | text (c d : I) (w : List I) : Commits flat G c (.text (c :: d :: w))
  | seq {c : I} {a : Exp I N} (b : Exp I N) (h : flat = true) (ha : Starts G c a) : Commits flat G c (.seq a b)
  | seqLeft {c : I} {a : Exp I N} (b : Exp I N) (ha : Commits flat G c a) : Commits flat G c (.seq a b)
  | seqRight {c : I} {a b : Exp I N} (ha : MayEmpty G a) (hb : Commits flat G c b) : Commits flat G c (.seq a b)
  | seqLater {a b : Exp I N} {c d : I} (ha : Starts G c a) (hb : Commits flat G d b) : Commits flat G c (.seq a b)
  | altLeft {c : I} {a : Exp I N} (b : Exp I N) (ha : Commits flat G c a) : Commits flat G c (.alt a b)
  | altRight {c : I} (a : Exp I N) {b : Exp I N} (hb : Commits flat G c b) : Commits flat G c (.alt a b)
  | look {c : I} {a : Exp I N} (ha : Commits flat G c a) : Commits flat G c (.look a)
  | rule {c : I} {x : N} (h : Commits flat G c (G x)) : Commits flat G c (.rule x)

/-- The next element decides between alternatives: where the first one may have read an element when it fails, the second
one reads something and does not start with it. -/
def Exp.Predictive (flat : Bool) (G : N → Exp I N) : Exp I N → Prop
  | .empty => True
  | .elem _ => True
  | .text _ => True
  | .seq a b => a.Predictive flat G ∧ b.Predictive flat G
  | .alt a b =>
    a.Predictive flat G ∧ b.Predictive flat G ∧ ∀ c, Commits flat G c a → ¬MayEmpty G b ∧ ¬Starts G c b
  | .star a => a.Predictive flat G
  | .plus a => a.Predictive flat G
  | .opt a => a.Predictive flat G
  | .not a => a.Predictive flat G
  | .look a => a.Predictive flat G
  | .rule _ => True

/-- No texts of more than one element. -/
def Exp.Short : Exp I N → Prop
  | .empty => True
  | .elem _ => True
  | .text w => w.length ≤ 1
  | .seq a b => a.Short ∧ b.Short
  | .alt a b => a.Short ∧ b.Short
  | .star a => a.Short
  | .plus a => a.Short
  | .opt a => a.Short
  | .not a => a.Short
  | .look a => a.Short
  | .rule _ => True

end OniComb.Peg
