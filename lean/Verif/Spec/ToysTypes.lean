import Verif.Spec.ToysMeaning

/-!
# Types for toys programs

A type system for the language of `Spec/ToysMeaning`. A context has the types of the variables that are set for sure.
-/

namespace OniComb.Toys

/-- Types. Of a value of type `any` nothing is known; it can be kept and printed. -/
inductive Ty where
  | int
  | bool
  | string
  | any

/-- The values of a type. -/
inductive Value.Has : Value → Ty → Prop where
  | int (i : Int) : Has (.int i) .int
  | bool (q : Bool) : Has (.bool q) .bool
  | string (t : String) : Has (.string t) .string
  | any (v : Value) : Has v .any

/-- A type for less knowledge. -/
inductive Ty.Below : Ty → Ty → Prop where
  | same (τ : Ty) : Below τ τ
  | any (τ : Ty) : Below τ .any

/-- The types of the variables that are set. -/
abbrev Context := Name → Option Ty

/-- Less is known. -/
def Context.Below (Γ Γ' : Context) : Prop := ∀ x τ, Γ x = some τ → Γ' x = some τ

/-- The types of operators. -/
inductive OpTyped : Operator → Ty → Ty → Ty → Prop where
  | add : OpTyped .add .int .int .int
  | subtract : OpTyped .subtract .int .int .int
  | multiply : OpTyped .multiply .int .int .int
  | divide : OpTyped .divide .int .int .int
  | mod : OpTyped .mod .int .int .int
  | lessThan : OpTyped .lessThan .int .int .bool
  | lessOrEqual : OpTyped .lessOrEqual .int .int .bool
  | greaterThan : OpTyped .greaterThan .int .int .bool
  | greaterOrEqual : OpTyped .greaterOrEqual .int .int .bool
  | equalEqual : OpTyped .equalEqual .int .int .bool
  | notEqual : OpTyped .notEqual .int .int .bool
  | and : OpTyped .and .bool .bool .bool
  | or : OpTyped .or .bool .bool .bool

/-- `Typed F Γ e τ Γ'`: with these types of the functions and variables, the expression has type `τ` and leaves the
variables with the types `Γ'`. -/
inductive Typed (F : Name → Option Ty) : Context → Expr → Ty → Context → Prop where
  | integer (Γ : Context) (i : Int) : Typed F Γ (.integerLiteral i) .int Γ
  | string (Γ : Context) (t : String) : Typed F Γ (.stringLiteral t) .string Γ
  | parenthesized {Γ Γ' : Context} {e : Expr} {τ : Ty} (h : Typed F Γ e τ Γ') : Typed F Γ (.parenthesized e) τ Γ'
  | symbol {Γ : Context} {x : Name} {τ : Ty} (h : Γ x = some τ) : Typed F Γ (.symbol x) τ Γ
  | assignment {Γ Γ' : Context} {x : Name} {e : Expr} {τ : Ty} (h : Typed F Γ e τ Γ') :
      Typed F Γ (.assignment x e) τ (fun y => if y = x then some τ else Γ' y)
  | println {Γ Γ' : Context} {e : Expr} {τ : Ty} (h : Typed F Γ e τ Γ') : Typed F Γ (.println e) τ Γ'
  | binary {Γ Γ₁ Γ₂ : Context} {op : Operator} {l r : Expr} {τ₁ τ₂ τ : Ty} (hl : Typed F Γ l τ₁ Γ₁)
      (hr : Typed F Γ₁ r τ₂ Γ₂) (h : OpTyped op τ₁ τ₂ τ) : Typed F Γ (.binary op l r) τ Γ₂
  | blockOne {Γ Γ' : Context} {e : Expr} {τ : Ty} (h : Typed F Γ e τ Γ') : Typed F Γ (.block [e]) τ Γ'
  | blockMore {Γ Γ₁ Γ₂ : Context} {e e' : Expr} {es : List Expr} {τ τ' : Ty} (h : Typed F Γ e τ Γ₁)
      (hs : Typed F Γ₁ (.block (e' :: es)) τ' Γ₂) : Typed F Γ (.block (e :: e' :: es)) τ' Γ₂
  | if {Γ Γ₁ Γ₂ Γ' : Context} {c b : Expr} {τ τ' : Ty} (hc : Typed F Γ c .bool Γ₁) (hb : Typed F Γ₁ b τ Γ₂)
      (h₁ : Γ'.Below Γ₁) (h₂ : Γ'.Below Γ₂) (ht : τ.Below τ') (hf : Ty.Below .bool τ') : Typed F Γ (.if c b none) τ' Γ'
  | ifElse {Γ Γ₁ Γ₂ Γ₃ Γ' : Context} {c b e : Expr} {τ₂ τ₃ τ' : Ty} (hc : Typed F Γ c .bool Γ₁)
      (hb : Typed F Γ₁ b τ₂ Γ₂) (he : Typed F Γ₁ e τ₃ Γ₃) (h₂ : Γ'.Below Γ₂) (h₃ : Γ'.Below Γ₃) (ht : τ₂.Below τ')
      (hf : τ₃.Below τ') : Typed F Γ (.if c b (some e)) τ' Γ'
  | while {Γ Γ₀ Γ₁ Γ₂ : Context} {c b : Expr} {τ : Ty} (h₀ : Γ₀.Below Γ) (hc : Typed F Γ₀ c .bool Γ₁)
      (hb : Typed F Γ₁ b τ Γ₂) (h₂ : Γ₀.Below Γ₂) : Typed F Γ (.while c b) .bool Γ₁
  | call {Γ : Context} {f : Name} {τ : Ty} (h : F f = some τ) : Typed F Γ (.functionCall f []) τ Γ

/-- The bodies of the functions have the types of the functions. They start without variables. -/
def FunctionsTyped (fns : Map (List Name × Expr)) (F : Name → Option Ty) : Prop :=
  ∀ f τ, F f = some τ → ∃ b Γ, fns f = some ([], b) ∧ Typed F (fun _ => none) b τ Γ

/-- The variables have values of these types. -/
def Store.Fulfils (s : Store) (Γ : Context) : Prop := ∀ x τ, Γ x = some τ → ∃ v, s.vars x = some v ∧ v.Has τ

/-- The execution of an expression with a store comes directly to a part with a store. -/
inductive Next (fns : Map (List Name × Expr)) : Expr × Store → Expr × Store → Prop where
  | parenthesized (e : Expr) (s : Store) : Next fns (.parenthesized e, s) (e, s)
  | assignment (x : Name) (e : Expr) (s : Store) : Next fns (.assignment x e, s) (e, s)
  | println (e : Expr) (s : Store) : Next fns (.println e, s) (e, s)
  | left (op : Operator) (l r : Expr) (s : Store) : Next fns (.binary op l r, s) (l, s)
  | right {op : Operator} {l r : Expr} {s t : Store} {a : Value} (hl : Exec fns l s (some (a, t))) :
      Next fns (.binary op l r, s) (r, t)
  | first (e : Expr) (es : List Expr) (s : Store) : Next fns (.block (e :: es), s) (e, s)
  | rest {e e' : Expr} {es : List Expr} {s t : Store} {v : Value} (h : Exec fns e s (some (v, t))) :
      Next fns (.block (e :: e' :: es), s) (.block (e' :: es), t)
  | condition (c b : Expr) (eb : Option Expr) (s : Store) : Next fns (.if c b eb, s) (c, s)
  | then {c b : Expr} {eb : Option Expr} {s t : Store} (hc : Exec fns c s (some (.bool true, t))) :
      Next fns (.if c b eb, s) (b, t)
  | else {c b e : Expr} {s t : Store} (hc : Exec fns c s (some (.bool false, t))) : Next fns (.if c b (some e), s) (e, t)
  | test (c b : Expr) (s : Store) : Next fns (.while c b, s) (c, s)
  | body {c b : Expr} {s t : Store} (hc : Exec fns c s (some (.bool true, t))) : Next fns (.while c b, s) (b, t)
  | again {c b : Expr} {s t u : Store} {v : Value} (hc : Exec fns c s (some (.bool true, t)))
      (hb : Exec fns b t (some (v, u))) : Next fns (.while c b, s) (.while c b, u)
  | call {f : Name} {b : Expr} {s : Store} (hf : fns f = some ([], b)) :
      Next fns (.functionCall f [], s) (b, ⟨fun _ => none, s.out⟩)

/-- The execution comes to a part, perhaps in several steps. -/
inductive Comes (fns : Map (List Name × Expr)) : Expr × Store → Expr × Store → Prop where
  | here (p : Expr × Store) : Comes fns p p
  | step {p q r : Expr × Store} (h : Next fns p q) (hr : Comes fns q r) : Comes fns p r

/-- An operation of two integers that has no result: the exact result has more than 64 bits, or the divisor is zero. -/
def NoResult (fns : Map (List Name × Expr)) : Expr × Store → Prop
  | (.binary op l r, s) => ∃ a b t u, Exec fns l s (some (.int a, t)) ∧ Exec fns r t (some (.int b, u)) ∧
      ¬∃ v, Operates op (.int a) (.int b) v
  | _ => False

end OniComb.Toys
