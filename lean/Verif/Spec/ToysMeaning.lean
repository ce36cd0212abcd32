import Verif.Spec.ToysFunctions
import Verif.Spec.ToysNames

/-!
# A meaning for toys programs

The usual semantics of a small imperative language: a store with the variables of the function that is executed and the
output so far. Functions have variables of their own. Functions have no parameters here, for toys loses parameters
(C44); `&&` and `||` look at their right operand only if it matters, but it is executed always (C65).
-/

namespace OniComb.Toys

/-- The variables of the function that is executed, and the output so far, oldest first. -/
structure Store where
  vars : Map Value
  out : List Value

/-- The results of the operators. Integers have 64 bits. -/
inductive Operates : Operator → Value → Value → Value → Prop where
  | add {a b : Int} (h : Fits (a + b)) : Operates .add (.int a) (.int b) (.int (a + b))
  | subtract {a b : Int} (h : Fits (a - b)) : Operates .subtract (.int a) (.int b) (.int (a - b))
  | multiply {a b : Int} (h : Fits (a * b)) : Operates .multiply (.int a) (.int b) (.int (a * b))
  | divide {a b : Int} (hb : b ≠ 0) (h : Fits (a.tdiv b)) : Operates .divide (.int a) (.int b) (.int (a.tdiv b))
  | mod {a b : Int} (hb : b ≠ 0) (h : Fits (a.tdiv b)) : Operates .mod (.int a) (.int b) (.int (a.tmod b))
  | lessThan (a b : Int) : Operates .lessThan (.int a) (.int b) (.bool (decide (a < b)))
  | lessOrEqual (a b : Int) : Operates .lessOrEqual (.int a) (.int b) (.bool (decide (a ≤ b)))
  | greaterThan (a b : Int) : Operates .greaterThan (.int a) (.int b) (.bool (decide (a > b)))
  | greaterOrEqual (a b : Int) : Operates .greaterOrEqual (.int a) (.int b) (.bool (decide (a ≥ b)))
  | equalEqual (a b : Int) : Operates .equalEqual (.int a) (.int b) (.bool (decide (a = b)))
  | notEqual (a b : Int) : Operates .notEqual (.int a) (.int b) (.bool (decide (a ≠ b)))
  | andFalse (v : Value) : Operates .and (.bool false) v (.bool false)
  | andTrue (q : Bool) : Operates .and (.bool true) (.bool q) (.bool q)
  | orTrue (v : Value) : Operates .or (.bool true) v (.bool true)
  | orFalse (q : Bool) : Operates .or (.bool false) (.bool q) (.bool q)

/-- Execution: `some (v, s)` is the value and the store afterwards, `none` an error that ends the program. There is no
derivation for a program that runs forever. -/
inductive Exec (fns : Map (List Name × Expr)) : Expr → Store → Option (Value × Store) → Prop where
  | integer (i : Int) (s : Store) : Exec fns (.integerLiteral i) s (some (.int i, s))
  | string (t : String) (s : Store) : Exec fns (.stringLiteral t) s (some (.string t, s))
  | parenthesized {e : Expr} {s : Store} {r : Option (Value × Store)} (h : Exec fns e s r) :
      Exec fns (.parenthesized e) s r
  | symbol {x : Name} {s : Store} {v : Value} (h : s.vars x = some v) : Exec fns (.symbol x) s (some (v, s))
  | symbolUnset {x : Name} {s : Store} (h : s.vars x = none) : Exec fns (.symbol x) s none
  | assignment {x : Name} {e : Expr} {s t : Store} {v : Value} (h : Exec fns e s (some (v, t))) :
      Exec fns (.assignment x e) s (some (v, ⟨fun y => if y = x then some v else t.vars y, t.out⟩))
  | assignmentWrong {x : Name} {e : Expr} {s : Store} (h : Exec fns e s none) : Exec fns (.assignment x e) s none
  | println {e : Expr} {s t : Store} {v : Value} (h : Exec fns e s (some (v, t))) :
      Exec fns (.println e) s (some (v, ⟨t.vars, t.out ++ [v]⟩))
  | printlnWrong {e : Expr} {s : Store} (h : Exec fns e s none) : Exec fns (.println e) s none
  | binary {op : Operator} {l r : Expr} {s t u : Store} {a b v : Value} (hl : Exec fns l s (some (a, t)))
      (hr : Exec fns r t (some (b, u))) (h : Operates op a b v) : Exec fns (.binary op l r) s (some (v, u))
  | binaryWrong {op : Operator} {l r : Expr} {s t u : Store} {a b : Value} (hl : Exec fns l s (some (a, t)))
      (hr : Exec fns r t (some (b, u))) (h : ¬∃ v, Operates op a b v) : Exec fns (.binary op l r) s none
  | binaryLeft {op : Operator} {l r : Expr} {s : Store} (hl : Exec fns l s none) : Exec fns (.binary op l r) s none
  | binaryRight {op : Operator} {l r : Expr} {s t : Store} {a : Value} (hl : Exec fns l s (some (a, t)))
      (hr : Exec fns r t none) : Exec fns (.binary op l r) s none
  | blockEmpty (s : Store) : Exec fns (.block []) s none
  | blockOne {e : Expr} {s : Store} {r : Option (Value × Store)} (h : Exec fns e s r) : Exec fns (.block [e]) s r
  | blockMore {e e' : Expr} {es : List Expr} {s t : Store} {v : Value} {r : Option (Value × Store)}
      (h : Exec fns e s (some (v, t))) (hs : Exec fns (.block (e' :: es)) t r) : Exec fns (.block (e :: e' :: es)) s r
  | blockWrong {e e' : Expr} {es : List Expr} {s : Store} (h : Exec fns e s none) :
      Exec fns (.block (e :: e' :: es)) s none
  | ifTrue {c b : Expr} {eb : Option Expr} {s t : Store} {r : Option (Value × Store)}
      (hc : Exec fns c s (some (.bool true, t))) (hb : Exec fns b t r) : Exec fns (.if c b eb) s r
  | ifElse {c b e : Expr} {s t : Store} {r : Option (Value × Store)} (hc : Exec fns c s (some (.bool false, t)))
      (he : Exec fns e t r) : Exec fns (.if c b (some e)) s r
  | ifFalse {c b : Expr} {s t : Store} (hc : Exec fns c s (some (.bool false, t))) :
      Exec fns (.if c b none) s (some (.bool true, t))
  | ifWrong {c b : Expr} {eb : Option Expr} {s : Store} (hc : Exec fns c s none) : Exec fns (.if c b eb) s none
  | ifOther {c b : Expr} {eb : Option Expr} {s t : Store} {v : Value} (hc : Exec fns c s (some (v, t)))
      (hv : ∀ q, v ≠ .bool q) : Exec fns (.if c b eb) s none
  | whileStop {c b : Expr} {s t : Store} (hc : Exec fns c s (some (.bool false, t))) :
      Exec fns (.while c b) s (some (.bool true, t))
  | whileRound {c b : Expr} {s t u : Store} {v : Value} {r : Option (Value × Store)}
      (hc : Exec fns c s (some (.bool true, t))) (hb : Exec fns b t (some (v, u))) (hw : Exec fns (.while c b) u r) :
      Exec fns (.while c b) s r
  | whileBody {c b : Expr} {s t : Store} (hc : Exec fns c s (some (.bool true, t))) (hb : Exec fns b t none) :
      Exec fns (.while c b) s none
  | whileWrong {c b : Expr} {s : Store} (hc : Exec fns c s none) : Exec fns (.while c b) s none
  | whileOther {c b : Expr} {s t : Store} {v : Value} (hc : Exec fns c s (some (v, t))) (hv : ∀ q, v ≠ .bool q) :
      Exec fns (.while c b) s none
  | call {f : Name} {b : Expr} {s t : Store} {v : Value} (hf : fns f = some ([], b))
      (hb : Exec fns b ⟨fun _ => none, s.out⟩ (some (v, t))) :
      Exec fns (.functionCall f []) s (some (v, ⟨s.vars, t.out⟩))
  | callWrong {f : Name} {b : Expr} {s : Store} (hf : fns f = some ([], b)) (hb : Exec fns b ⟨fun _ => none, s.out⟩ none) :
      Exec fns (.functionCall f []) s none
  | callMissing {f : Name} {s : Store} (hf : fns f = none) : Exec fns (.functionCall f []) s none

/-- The expressions of the language: integers, strings, variables, operators, assignments, output, blocks, conditionals,
loops, and calls without arguments. -/
inductive Plain : Expr → Prop where
  | integer (i : Int) : Plain (.integerLiteral i)
  | string (t : String) : Plain (.stringLiteral t)
  | parenthesized {e : Expr} (h : Plain e) : Plain (.parenthesized e)
  | symbol (x : Name) : Plain (.symbol x)
  | assignment (x : Name) {e : Expr} (h : Plain e) : Plain (.assignment x e)
  | println {e : Expr} (h : Plain e) : Plain (.println e)
  | binary (op : Operator) {l r : Expr} (hl : Plain l) (hr : Plain r) : Plain (.binary op l r)
  | block {es : List Expr} (h : ∀ e ∈ es, Plain e) : Plain (.block es)
  | if {c b : Expr} (hc : Plain c) (hb : Plain b) : Plain (.if c b none)
  | ifElse {c b e : Expr} (hc : Plain c) (hb : Plain b) (he : Plain e) : Plain (.if c b (some e))
  | while {c b : Expr} (hc : Plain c) (hb : Plain b) : Plain (.while c b)
  | call (f : Name) : Plain (.functionCall f [])

/-- Functions without parameters. No function uses a variable that a function uses which it calls, directly or through
others; in particular recursive functions use no variables. -/
def Tidy (fns : Map (List Name × Expr)) : Prop :=
  ∀ g ps b, fns g = some (ps, b) → ps = [] ∧ Plain b ∧
    ∀ h qs c, Reached fns b h → fns h = some (qs, c) → ∀ x ∈ c.vars, x ∉ b.vars

/-- The functions that are defined; of several definitions of a name the last one counts. -/
def bodies : List Expr → Map (List Name × Expr)
  | .functionDefinition f ps b :: ds => fun g => match bodies ds g with
    | some d => some d
    | none => if g = f then some (ps, b) else none
  | _ :: ds => bodies ds
  | [] => fun _ => none

/-- A main function is executed with no variables and no output. -/
def Store.start : Store := ⟨fun _ => none, []⟩

end OniComb.Toys
