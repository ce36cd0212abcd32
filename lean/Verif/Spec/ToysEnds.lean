import Verif.Spec.ToysMeaning

/-!
# Toys programs whose loops count

The only loops are `for (x in a to b)` whose body changes neither `x` nor the variables of `b`.
-/

namespace OniComb.Toys

/-- Integers, variables, operators and parentheses. Integers have 64 bits, as the parser guarantees. -/
inductive Simple : Expr → Prop where
  | integer (i : Int) (h : Fits i) : Simple (.integerLiteral i)
  | symbol (x : Name) : Simple (.symbol x)
  | parenthesized {e : Expr} (h : Simple e) : Simple (.parenthesized e)
  | binary (op : Operator) {l r : Expr} (hl : Simple l) (hr : Simple r) : Simple (.binary op l r)

/-- The only loops are counting loops. -/
inductive Counting : Expr → Prop where
  | integer (i : Int) (h : Fits i) : Counting (.integerLiteral i)
  | string (t : String) : Counting (.stringLiteral t)
  | bool (q : Bool) : Counting (.boolLiteral q)
  | array (es : List Expr) : Counting (.arrayLiteral es)
  | symbol (x : Name) : Counting (.symbol x)
  | parenthesized {e : Expr} (h : Counting e) : Counting (.parenthesized e)
  | assignment (x : Name) {e : Expr} (h : Counting e) : Counting (.assignment x e)
  | println {e : Expr} (h : Counting e) : Counting (.println e)
  | binary (op : Operator) {l r : Expr} (hl : Counting l) (hr : Counting r) : Counting (.binary op l r)
  | block {es : List Expr} (h : ∀ e ∈ es, Counting e) : Counting (.block es)
  | if {c b : Expr} (hc : Counting c) (hb : Counting b) : Counting (.if c b none)
  | ifElse {c b e : Expr} (hc : Counting c) (hb : Counting b) (he : Counting e) : Counting (.if c b (some e))
  | call (f : Name) {es : List Expr} (h : ∀ e ∈ es, Counting e) : Counting (.functionCall f es)
  | labelledCall (f : Name) {es : List (Name × Expr)} (h : ∀ e ∈ es.map (·.2), Counting e) : Counting (.labelledCall f es)
  | for (x : Name) {start bound body : Expr} (hs : Counting start) (hb : Simple bound) (hx : x ∉ bound.vars)
      (h : Counting body) (ha : Avoids (fun y => y = x ∨ y ∈ bound.vars) body) : Counting (forLoop x start bound body)

/-- No function calls itself, directly or through others. -/
def NoRecursion (fns : Map (List Name × Expr)) : Prop := ∀ f ps b, fns f = some (ps, b) → ¬Reached fns b f

end OniComb.Toys
