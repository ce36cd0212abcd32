import Verif.Spec.PegLanguage
import Verif.Spec.Errors

/-!
# The first element that cannot be right
-/

namespace OniComb.Peg
open OniComb
variable {I N : Type}

/-- Some text that the expression describes begins like this. -/
def Viable (G : N → Exp I N) (e : Exp I N) (p : List I) : Prop := ∃ u, Lang G e (p ++ u)

/-- The first `k` elements of `t` are all right, the next one is not (or `t` ends too early). -/
def FirstWrong (G : N → Exp I N) (e : Exp I N) (t : List I) (k : Nat) : Prop :=
  k ≤ t.length ∧ Viable G e (t.take k) ∧ (k < t.length → ¬Viable G e (t.take (k + 1)))

/-- The expression is written with single elements, sequences, alternatives and rules; only single elements are
repeated or left out. Everything in it describes some text. -/
def Exp.Direct (G : N → Exp I N) : Exp I N → Prop
  | .empty => True
  | .elem f => ∃ c, f c = true
  | .seq a b => a.Direct G ∧ b.Direct G
  | .alt a b => a.Direct G ∧ b.Direct G
  | .star (.elem _) => True
  | .opt (.elem _) => True
  | .rule x => ∃ w, Lang G (G x) w
  | _ => False

/-- Everything that has to be there describes some text. No lookahead predicates. -/
def Exp.Productive (G : N → Exp I N) : Exp I N → Prop
  | .empty => True
  | .elem f => ∃ c, f c = true
  | .text _ => True
  | .seq a b => a.Productive G ∧ b.Productive G
  | .alt a b => a.Productive G ∧ b.Productive G
  | .star a => a.Blind
  | .plus a => a.Productive G
  | .opt a => a.Blind
  | .not _ => False
  | .look _ => False
  | .rule x => ∃ w, Lang G (G x) w

end OniComb.Peg
