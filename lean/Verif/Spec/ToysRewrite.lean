import Verif.Spec.Toys
import Mathlib.Data.List.Forall2

/-!
# Programs in which parts are replaced
-/

namespace OniComb.Toys

/-- Two expressions do the same in every situation: the same value with the same effects, a panic, or no end. The
functions, the build, the variables and what has been printed are arbitrary. -/
def Same (e e' : Expr) : Prop :=
  ∀ cfg st, (∀ v st', Runs cfg e st v st' ↔ Runs cfg e' st v st') ∧ (Panics cfg e st ↔ Panics cfg e' st)

/-- The same construct, with parts that are related. -/
inductive Layer (Q : Expr → Expr → Prop) : Expr → Expr → Prop where
  | binary {op l r l' r'} : Q l l' → Q r r' → Layer Q (.binary op l r) (.binary op l' r')
  | functionCall {f args args'} : List.Forall₂ Q args args' → Layer Q (.functionCall f args) (.functionCall f args')
  | labelledCall {f} {args args' : List (Name × Expr)} : args.map (·.1) = args'.map (·.1) →
      List.Forall₂ Q (args.map (·.2)) (args'.map (·.2)) → Layer Q (.labelledCall f args) (.labelledCall f args')
  | println {e e'} : Q e e' → Layer Q (.println e) (.println e')
  | while {c b c' b'} : Q c c' → Q b b' → Layer Q (.while c b) (.while c' b')
  | if {c b c' b'} : Q c c' → Q b b' → Layer Q (.if c b none) (.if c' b' none)
  | ifElse {c b e c' b' e'} : Q c c' → Q b b' → Q e e' → Layer Q (.if c b (some e)) (.if c' b' (some e'))
  | block {es es'} : List.Forall₂ Q es es' → Layer Q (.block es) (.block es')
  | assignment {x e e'} : Q e e' → Layer Q (.assignment x e) (.assignment x e')
  | parenthesized {e e'} : Q e e' → Layer Q (.parenthesized e) (.parenthesized e')

/-- The second expression is the first one with some parts, at any depth, replaced by parts that do the same. -/
inductive Replaced : Expr → Expr → Prop where
  | here {e e'} : Same e e' → Replaced e e'
  | inside {e e'} {Q : Expr → Expr → Prop} : (∀ a b, Q a b → Replaced a b) → Layer Q e e' → Replaced e e'

/-- Definitions in whose right hand sides and bodies parts are replaced. -/
inductive ReplacedIn : List Expr → List Expr → Prop where
  | nil : ReplacedIn [] []
  | function {f ps b b' ds ds'} : Replaced b b' → ReplacedIn ds ds' →
      ReplacedIn (.functionDefinition f ps b :: ds) (.functionDefinition f ps b' :: ds')
  | global {x e e' ds ds'} : Replaced e e' → ReplacedIn ds ds' →
      ReplacedIn (.globalVariableDefinition x e :: ds) (.globalVariableDefinition x e' :: ds')

/-- An expression that is evaluated without effects, and at once. -/
inductive Still : Expr → Prop where
  | stringLiteral (s) : Still (.stringLiteral s)
  | integerLiteral (i) : Still (.integerLiteral i)

/-- A variable or a literal. -/
inductive Atom : Expr → Prop where
  | stringLiteral (s) : Atom (.stringLiteral s)
  | integerLiteral (i) : Atom (.integerLiteral i)
  | symbol (x) : Atom (.symbol x)

end OniComb.Toys
