import Verif.Lemmas.Toys

/-!
# Specifications for the toys interpreter

`Runs cfg e st v st'` and `Panics cfg e st` (some amount of fuel gives that outcome) are defined in
`Lemmas/Toys`; everything else here is independent of the interpreter.
-/

namespace OniComb.Toys

/-- The integer fits in 64 bits. -/
def Fits (i : Int) : Prop := -(2 ^ 63) ≤ i ∧ i < 2 ^ 63

/-- The mathematical value of an arithmetic expression, all intermediate results fitting in 64 bits.
Division truncates towards zero and the remainder has the sign of the dividend. -/
inductive Num : Expr → Int → Prop where
  | lit (i : Int) : Fits i → Num (.integerLiteral i) i
  | paren {e : Expr} {i : Int} : Num e i → Num (.parenthesized e) i
  | add {l r : Expr} {a b : Int} : Num l a → Num r b → Fits (a + b) → Num (.binary .add l r) (a + b)
  | sub {l r : Expr} {a b : Int} : Num l a → Num r b → Fits (a - b) → Num (.binary .subtract l r) (a - b)
  | mul {l r : Expr} {a b : Int} : Num l a → Num r b → Fits (a * b) → Num (.binary .multiply l r) (a * b)
  | div {l r : Expr} {a b : Int} : Num l a → Num r b → b ≠ 0 → Fits (a.tdiv b) →
      Num (.binary .divide l r) (a.tdiv b)
  | mod {l r : Expr} {a b : Int} : Num l a → Num r b → b ≠ 0 → Fits (a.tdiv b) →
      Num (.binary .mod l r) (a.tmod b)

/-- The truth of a condition. -/
inductive Truth : Expr → Prop → Prop where
  | paren {e : Expr} {p : Prop} : Truth e p → Truth (.parenthesized e) p
  | lt {l r : Expr} {a b : Int} : Num l a → Num r b → Truth (.binary .lessThan l r) (a < b)
  | le {l r : Expr} {a b : Int} : Num l a → Num r b → Truth (.binary .lessOrEqual l r) (a ≤ b)
  | gt {l r : Expr} {a b : Int} : Num l a → Num r b → Truth (.binary .greaterThan l r) (a > b)
  | ge {l r : Expr} {a b : Int} : Num l a → Num r b → Truth (.binary .greaterOrEqual l r) (a ≥ b)
  | eq {l r : Expr} {a b : Int} : Num l a → Num r b → Truth (.binary .equalEqual l r) (a = b)
  | ne {l r : Expr} {a b : Int} : Num l a → Num r b → Truth (.binary .notEqual l r) (a ≠ b)
  | and {l r : Expr} {p q : Prop} : Truth l p → Truth r q → Truth (.binary .and l r) (p ∧ q)
  | or {l r : Expr} {p q : Prop} : Truth l p → Truth r q → Truth (.binary .or l r) (p ∨ q)

/-- An expression built from 64 bit literals, parentheses and arithmetic operators. -/
inductive IsArith : Expr → Prop where
  | lit (i : Int) : Fits i → IsArith (.integerLiteral i)
  | paren {e : Expr} : IsArith e → IsArith (.parenthesized e)
  | bin {op : Operator} {l r : Expr} : op ∈ [Operator.add, .subtract, .multiply, .divide, .mod] →
      IsArith l → IsArith r → IsArith (.binary op l r)

/-- No assignment in the expression has a target that satisfies `P`. (Bodies of called functions are
not part of the expression; the last constructs cannot be evaluated.) -/
inductive Avoids (P : Name → Prop) : Expr → Prop where
  | stringLiteral (s) : Avoids P (.stringLiteral s)
  | integerLiteral (i) : Avoids P (.integerLiteral i)
  | boolLiteral (b) : Avoids P (.boolLiteral b)
  | arrayLiteral (es) : Avoids P (.arrayLiteral es)
  | symbol (x) : Avoids P (.symbol x)
  | binary {op l r} : Avoids P l → Avoids P r → Avoids P (.binary op l r)
  | functionCall {f args} : (∀ a ∈ args, Avoids P a) → Avoids P (.functionCall f args)
  | labelledCall {f args} : (∀ a ∈ args.map Prod.snd, Avoids P a) → Avoids P (.labelledCall f args)
  | println {e} : Avoids P e → Avoids P (.println e)
  | while {c b} : Avoids P c → Avoids P b → Avoids P (.while c b)
  | ifElse {c b e} : Avoids P c → Avoids P b → Avoids P e → Avoids P (.if c b (some e))
  | if {c b} : Avoids P c → Avoids P b → Avoids P (.if c b none)
  | block {es} : (∀ e ∈ es, Avoids P e) → Avoids P (.block es)
  | assignment {x e} : ¬ P x → Avoids P e → Avoids P (.assignment x e)
  | parenthesized {e} : Avoids P e → Avoids P (.parenthesized e)
  | identifier (x) : Avoids P (.identifier x)
  | plus (e) : Avoids P (.plus e)
  | minus (e) : Avoids P (.minus e)
  | globalVariableDefinition (x e) : Avoids P (.globalVariableDefinition x e)
  | functionDefinition (f ps b) : Avoids P (.functionDefinition f ps b)
  | program (ds) : Avoids P (.program ds)

/-- `n` rounds of a `while` loop and the final test. -/
inductive Loop (cfg : Cfg) (c b : Expr) : Nat → St → St → Prop where
  | stop {st st' : St} : Runs cfg c st (.bool false) st' → Loop cfg c b 0 st st'
  | round {n : Nat} {st st1 st2 st' : St} {w : Value} : Runs cfg c st (.bool true) st1 →
      Runs cfg b st1 w st2 → Loop cfg c b n st2 st' → Loop cfg c b (n + 1) st st'

/-- The body is run once for each integer of the list in turn, the variable being set to it before. -/
inductive Each (cfg : Cfg) (x : Name) (body : Expr) : List Int → St → St → Prop where
  | nil {st : St} : Each cfg x body [] st st
  | cons {k : Int} {ks : List Int} {st st1 st' : St} {w : Value} :
      Runs cfg body (st.set x (.int k)) w st1 → Each cfg x body ks st1 st' →
      Each cfg x body (k :: ks) st st'

/-- The integers `a, a + 1, …, b - 1`. -/
def intRange (a b : Int) : List Int := (List.range (b - a).toNat).map fun k : Nat => a + (k : Int)

end OniComb.Toys
