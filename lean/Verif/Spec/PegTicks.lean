import Verif.Model.CacheGrammar
import Verif.Spec.PegSteps

/-!
# Grammars with a clock

The writings of `Spec/PegSteps` with the combinators of `Model/CacheGrammar`, whose parsers change a store. The store is
here a clock, which the parsers without parts advance.
-/

namespace OniComb.Peg
open OniComb
variable {I N A : Type} [DecidableEq I]

/-- A parser that advances the clock by `k`. -/
def tick (k : Nat) (p : Parser I A) : Stateful.SParser Nat I A := fun s σ r σ' => r = p s ∧ σ' = σ + k

/-- `opt`, extension/parsers/operator_parsers.rs:14-18. -/
def optTicked (p : Stateful.SParser Nat I A) : Stateful.SParser Nat I (Option A) :=
  Stateful.or (Stateful.unary (fun p => map p some) (Stateful.unary attempt p)) (tick 1 (successful none))

/-- The parser of an expression: one step for a parser without parts, and at most all comparisons of a literal. -/
def Exp.ticked (wr : Writing) (rules : N → Stateful.SParser Nat I Unit) : Exp I N → Stateful.SParser Nat I Unit
  | .empty => tick 1 unit
  | .elem f => Stateful.unary discard (tick 1 (elmPred f))
  | .text w => Stateful.unary discard (tick (w.length + 1) (OniComb.seq w))
  | .seq a b =>
    match wr with
    | .flat => Stateful.flatMap (a.ticked wr rules) fun _ => b.ticked wr rules
    | _ => Stateful.unary discard (Stateful.andThen (a.ticked wr rules) (b.ticked wr rules))
  | .alt a b =>
    match wr with
    | .attempt => Stateful.or (Stateful.unary OniComb.attempt (a.ticked wr rules)) (b.ticked wr rules)
    | _ => Stateful.or (a.ticked wr rules) (b.ticked wr rules)
  | .star a => Stateful.unary discard (Stateful.repeatSep (a.ticked wr rules) (.from_ 0) (none : Option (Stateful.SParser Nat I Unit)))
  | .plus a => Stateful.unary discard (Stateful.repeatSep (a.ticked wr rules) (.from_ 1) (none : Option (Stateful.SParser Nat I Unit)))
  | .opt a => Stateful.unary discard (optTicked (a.ticked wr rules))
  | .not a => Stateful.unary not_ (a.ticked wr rules)
  | .look a => Stateful.unary discard (Stateful.unary peek (a.ticked wr rules))
  | .rule x => rules x

/-- The rules, one step for a run of a lazy parser. -/
def rulesTicked (wr : Writing) (G : N → Exp I N) : Nat → N → Stateful.SParser Nat I Unit
  | 0, _ => tick 1 diverging
  | n + 1, x => fun s => .bind (tick 1 unit s) fun _ => (G x).ticked wr (rulesTicked wr G n) s

/-- The whole parser, `p.skip_right(end)`, started on a text when the clock shows `σ`, answers when it shows `σ'`. -/
def Takes (wr : Writing) (G : N → Exp I N) (n : Nat) (e : Exp I N) (t : List I) (σ : Nat) (r : Res I Unit) (σ' : Nat) : Prop :=
  Stateful.skipRight (e.ticked wr (rulesTicked wr G n)) (tick 1 end_) ⟨t, 0⟩ σ r σ'

end OniComb.Peg
