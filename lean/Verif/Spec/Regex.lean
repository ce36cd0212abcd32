import Verif.Model.Regex
import Mathlib.Logic.Relation

/-!
# What a regular expression matches

Independent of any order of preference.
-/

namespace OniComb.Rx

/-- The expression matches the part of the text from `i` to `j`. -/
def Span (t : List Char) : Rx → Nat → Nat → Prop
  | .eps, i, j => j = i
  | .set f, i, j => j = i + 1 ∧ ∃ c, t[i]? = some c ∧ f c = true
  | .bol, i, j => i = 0 ∧ j = 0
  | .eol, i, j => i = t.length ∧ j = i
  | .cat a b, i, j => ∃ m, Span t a i m ∧ Span t b m j
  | .alt a b, i, j => Span t a i j ∨ Span t b i j
  | .star a, i, j => Relation.ReflTransGen (Span t a) i j
  | .plus a, i, j => ∃ m, Span t a i m ∧ Relation.ReflTransGen (Span t a) m j
  | .optional a, i, j => Span t a i j ∨ j = i
  | .group a, i, j => Span t a i j

/-- No alternatives outside parentheses. -/
def OneBranch : Rx → Prop
  | .alt _ _ => False
  | _ => True

/-- If the pattern begins with `^`, then the `^` is not in an alternative and not repeated or optional. -/
def PlainBol : Rx → Prop
  | .cat a _ => PlainBol a
  | .bol => True
  | r => r.startsBol = false

end OniComb.Rx
