import Verif.Model.Calculator

/-!
# Specification of the calculator

The usual grammar of arithmetic, written with left recursion, as relations between expressions and texts, and
the usual meaning of expressions.
-/

namespace OniComb.Calc.Spec
variable {D : Type} (S : Std D)

/-- Blanks. -/
def Blank (t : List Char) : Prop := ∀ c ∈ t, c = ' ' ∨ c = '\t' ∨ c = '\r' ∨ c = '\n'

/-- One or more decimal digits. -/
def Digits (t : List Char) : Prop := t ≠ [] ∧ ∀ c ∈ t, '0' ≤ c ∧ c ≤ '9'

/-- Decimal numbers: digits, possibly with a fraction. -/
inductive Numeral : List Char → Prop where
  | whole {a : List Char} : Digits a → Numeral a
  | frac {a b : List Char} : Digits a → Digits b → Numeral (a ++ '.' :: b)

mutual
/-- Operands: a number, a signed operand, or an expression in parentheses, which may stand between blanks. -/
inductive Prim : Expr D → List Char → Prop where
  | num {t : List Char} {d : D} : Numeral t → S.dec t = some d → Prim (.value d) t
  | neg {e : Expr D} {t : List Char} : Prim e t → Prim (.minus e) ('-' :: t)
  | pos {e : Expr D} {t : List Char} : Prim e t → Prim (.plus e) ('+' :: t)
  | paren {e : Expr D} {a b t c d : List Char} : Blank a → Blank b → Sum e t → Blank c → Blank d →
      Prim (.parenthesized e) (a ++ '(' :: (b ++ (t ++ (c ++ ')' :: d))))
/-- Products and quotients, associating to the left. -/
inductive Term : Expr D → List Char → Prop where
  | one {e : Expr D} {t : List Char} : Prim e t → Term e t
  | mul {l r : Expr D} {t a b u : List Char} : Term l t → Blank a → Blank b → Prim r u →
      Term (.multiply l r) (t ++ (a ++ '*' :: (b ++ u)))
  | div {l r : Expr D} {t a b u : List Char} : Term l t → Blank a → Blank b → Prim r u →
      Term (.divide l r) (t ++ (a ++ '/' :: (b ++ u)))
/-- Sums and differences, associating to the left. -/
inductive Sum : Expr D → List Char → Prop where
  | one {e : Expr D} {t : List Char} : Term e t → Sum e t
  | add {l r : Expr D} {t a b u : List Char} : Sum l t → Blank a → Blank b → Term r u →
      Sum (.add l r) (t ++ (a ++ '+' :: (b ++ u)))
  | sub {l r : Expr D} {t a b u : List Char} : Sum l t → Blank a → Blank b → Term r u →
      Sum (.sub l r) (t ++ (a ++ '-' :: (b ++ u)))
end

/-! ## Arithmetic -/

/-- Binary operations. -/
inductive Op where
  | add | sub | mul | div

/-- Arithmetic as it is written on paper: no parentheses in the syntax.  Numbers are given by their digits. -/
inductive Arith where
  | num (t : List Char)
  | neg (a : Arith)
  | bin (o : Op) (a b : Arith)

/-- What an operation computes; `none` if there is no result. -/
def Op.run : Op → D → D → Option D
  | .add => S.add | .sub => S.sub | .mul => S.mul | .div => S.div

/-- The value of arithmetic; `none` if some operation has no result. -/
def Arith.value (neg : D → D) : Arith → Option D
  | .num t => S.dec t
  | .neg a => (a.value neg).map neg
  | .bin o a b => (a.value neg).bind fun x => (b.value neg).bind fun y => o.run S x y

/-- How tightly an operation binds. -/
def Op.level : Op → Nat
  | .add | .sub => 0
  | .mul | .div => 1

def Op.sign : Op → Char
  | .add => '+' | .sub => '-' | .mul => '*' | .div => '/'

def Arith.level : Arith → Nat
  | .bin o _ _ => o.level
  | _ => 2

def wrap (b : Bool) (t : List Char) : List Char := if b then '(' :: (t ++ [')']) else t

/-- The text of arithmetic with as few parentheses as the conventions allow: around an operand that binds less
tightly than its operation, and around a right operand that binds equally. -/
def Arith.text : Arith → List Char
  | .num t => t
  | .neg a => '-' :: wrap (a.level < 2) a.text
  | .bin o a b => wrap (a.level < o.level) a.text ++ o.sign :: wrap (b.level ≤ o.level) b.text

/-- A text, or if wanted a text in parentheses with blanks inside and outside of them. -/
def Wrapped (b : Bool) (P : List Char → Prop) (t : List Char) : Prop :=
  if b then ∃ w x u y z, Blank w ∧ Blank x ∧ P u ∧ Blank y ∧ Blank z ∧ t = w ++ '(' :: (x ++ (u ++ (y ++ ')' :: z)))
  else P t

/-- The texts of arithmetic with blanks around operations and parentheses. -/
def Arith.Layout : Arith → List Char → Prop
  | .num s, t => t = s
  | .neg a, t => ∃ u, t = '-' :: u ∧ Wrapped (a.level < 2) a.Layout u
  | .bin o a b, t => ∃ u x y v, t = u ++ (x ++ o.sign :: (y ++ v)) ∧ Blank x ∧ Blank y ∧
      Wrapped (a.level < o.level) a.Layout u ∧ Wrapped (b.level ≤ o.level) b.Layout v

/-- All numbers are numerals the decimal type can represent. -/
def Arith.Readable : Arith → Prop
  | .num t => Numeral t ∧ S.dec t ≠ none
  | .neg a => a.Readable
  | .bin _ a b => a.Readable ∧ b.Readable

end OniComb.Calc.Spec
