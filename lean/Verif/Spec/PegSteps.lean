import Verif.Model.Steps
import Verif.Spec.PegLanguage

/-!
# Grammars whose steps are counted

The writings of `Spec/Peg` and `Spec/PegLanguage`, with `attempt` (`Exp.parser`) and without it (`Exp.bare`), once more.
-/

namespace OniComb.Peg
open OniComb
variable {I N : Type} [DecidableEq I]

/-- How a grammar is written: sequences with `flat_map` or with `and_then`, alternatives with `|`; or `and_then`, and
every alternative but the last one with `attempt`. -/
inductive Writing
  | flat
  | plain
  | attempt

/-- The parser of an expression in a grammar, its rules unrolled `n` times. -/
def Writing.parserOf (G : N → Exp I N) (n : Nat) (e : Exp I N) : Writing → Parser I Unit
  | .flat => bareOf true G n e
  | .plain => bareOf false G n e
  | .attempt => Peg.parserOf G n e

/-- `Exp.bare` and `Exp.parser`, counted. -/
def Exp.counted (wr : Writing) (rules : N → Counted I Unit) : Exp I N → Counted I Unit
  | .empty => .prim unit
  | .elem f => .unary discard (.prim (elmPred f))
  | .text w => .unary discard (.seq w)
  | .seq a b =>
    match wr with
    | .flat => .flatMap (a.counted wr rules) fun _ => b.counted wr rules
    | _ => .unary discard (.andThen (a.counted wr rules) (b.counted wr rules))
  | .alt a b =>
    match wr with
    | .attempt => .or (.unary OniComb.attempt (a.counted wr rules)) (b.counted wr rules)
    | _ => .or (a.counted wr rules) (b.counted wr rules)
  | .star a => .unary discard (.many0 (a.counted wr rules))
  | .plus a => .unary discard (.many1 (a.counted wr rules))
  | .opt a => .unary discard (.opt (a.counted wr rules))
  | .not a => .unary not_ (a.counted wr rules)
  | .look a => .unary (fun p => discard (peek p)) (a.counted wr rules)
  | .rule x => rules x

/-- `bareRules` and `rules`, counted. -/
def rulesCounted (wr : Writing) (G : N → Exp I N) : Nat → N → Counted I Unit
  | 0, _ => .prim diverging
  | n + 1, x => .lazy fun _ => (G x).counted wr (rulesCounted wr G n)

/-- `Writing.parserOf`, counted. -/
def countedOf (wr : Writing) (G : N → Exp I N) (n : Nat) (e : Exp I N) : Counted I Unit := e.counted wr (rulesCounted wr G n)

/-- The steps of the whole parser, `p.skip_right(end)`, on a text. -/
def wholeSteps (p : Counted I Unit) (t : List I) : Nat := (Counted.skipRight p (.prim end_)).steps ⟨t, 0⟩

end OniComb.Peg
