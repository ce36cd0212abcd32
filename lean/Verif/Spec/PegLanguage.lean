import Verif.Spec.Peg

/-!
# Context-free languages and LL(1) grammars

The same expressions read as a context-free grammar in extended Backus-Naur form: alternatives without priority,
repetitions of any length.
-/

namespace OniComb.Peg
open OniComb
variable {I N : Type}

/-- The texts that an expression describes. -/
inductive Lang (G : N → Exp I N) : Exp I N → List I → Prop where
  | empty : Lang G .empty []
  | elem {f : I → Bool} {c : I} (h : f c = true) : Lang G (.elem f) [c]
  | text (w : List I) : Lang G (.text w) w
  | seq {a b : Exp I N} {v w : List I} (ha : Lang G a v) (hb : Lang G b w) : Lang G (.seq a b) (v ++ w)
  | altLeft {a : Exp I N} (b : Exp I N) {w : List I} (ha : Lang G a w) : Lang G (.alt a b) w
  | altRight (a : Exp I N) {b : Exp I N} {w : List I} (hb : Lang G b w) : Lang G (.alt a b) w
  | starNone (a : Exp I N) : Lang G (.star a) []
  | starMore {a : Exp I N} {v w : List I} (ha : Lang G a v) (hs : Lang G (.star a) w) : Lang G (.star a) (v ++ w)
  | plus {a : Exp I N} {v w : List I} (ha : Lang G a v) (hs : Lang G (.star a) w) : Lang G (.plus a) (v ++ w)
  | optNone (a : Exp I N) : Lang G (.opt a) []
  | optSome {a : Exp I N} {w : List I} (ha : Lang G a w) : Lang G (.opt a) w
  | rule {x : N} {w : List I} (h : Lang G (G x) w) : Lang G (.rule x) w

/-- No lookahead predicates, which context-free grammars do not have. -/
def Exp.Blind : Exp I N → Prop
  | .empty => True
  | .elem _ => True
  | .text _ => True
  | .seq a b => a.Blind ∧ b.Blind
  | .alt a b => a.Blind ∧ b.Blind
  | .star a => a.Blind
  | .plus a => a.Blind
  | .opt a => a.Blind
  | .not _ => False
  | .look _ => False
  | .rule _ => True

/-- LL(1): the next element decides. `F` are the elements that may follow the expression, `follow x` those that may
follow the nonterminal `x`. Alternatives start with different elements, only the last one may be empty; where
something may be left out, it does not start with an element that may follow. -/
def Exp.LL1 (G : N → Exp I N) (follow : N → I → Prop) : (I → Prop) → Exp I N → Prop
  | _, .empty => True
  | _, .elem _ => True
  | _, .text _ => True
  | F, .seq a b => a.LL1 G follow (fun c => Starts G c b ∨ (MayEmpty G b ∧ F c)) ∧ b.LL1 G follow F
  | F, .alt a b => a.LL1 G follow F ∧ b.LL1 G follow F ∧ ¬MayEmpty G a ∧ (∀ c, Starts G c a → ¬Starts G c b) ∧
      (MayEmpty G b → ∀ c, Starts G c a → ¬F c)
  | F, .star a => a.LL1 G follow (fun c => Starts G c a ∨ F c) ∧ ¬MayEmpty G a ∧ ∀ c, Starts G c a → ¬F c
  | F, .plus a => a.LL1 G follow (fun c => Starts G c a ∨ F c) ∧ ¬MayEmpty G a ∧ ∀ c, Starts G c a → ¬F c
  | F, .opt a => a.LL1 G follow F ∧ ∀ c, Starts G c a → ¬F c
  | _, .not _ => False
  | _, .look _ => False
  | F, .rule x => ∀ c, F c → follow x c

/-- All rules of the grammar are LL(1), and there is no left recursion. -/
structure GrammarLL1 (G : N → Exp I N) (follow : N → I → Prop) : Prop where
  rules : ∀ x, (G x).LL1 G follow (follow x)
  noLeftRecursion : NoLeftRecursion G

end OniComb.Peg
