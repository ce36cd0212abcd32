/-!
# The toys interpreter

Models `/repo/toys/src/{values,environment,expr,operator,labelled_parameter,interpreter}.rs` and the
desugaring of `for` in `/repo/toys/src/parsers.rs`.
-/

namespace OniComb.Toys

/-- Variable and function names (`String`). -/
abbrev Name := String

/-- `Value`, values.rs:3-11. `i64` is `Int`; which integers arise is decided by `checked` below. -/
inductive Value where
  | int (i : Int)
  | bool (b : Bool)
  | string (s : String)
  | array (vs : List Value)

/-- `Operator`, operator.rs:1-16. -/
inductive Operator where
  | mod | add | subtract | multiply | divide
  | lessThan | lessOrEqual | greaterThan | greaterOrEqual | equalEqual | notEqual
  | and | or
deriving DecidableEq, Repr

/-- `Expr`, expr.rs:6-28; `LabelledParameter` (labelled_parameter.rs:4-8) is a pair. -/
inductive Expr where
  | stringLiteral (s : String)
  | integerLiteral (i : Int)
  | boolLiteral (b : Bool)
  | arrayLiteral (es : List Expr)
  | binary (op : Operator) (lhs rhs : Expr)
  | symbol (name : Name)
  | functionCall (name : Name) (args : List Expr)
  | labelledCall (name : Name) (args : List (Name × Expr))
  | identifier (name : Name)
  | plus (e : Expr)
  | minus (e : Expr)
  | println (e : Expr)
  | while (cond body : Expr)
  | if (cond body : Expr) (elseBody : Option Expr)
  | block (es : List Expr)
  | assignment (name : Name) (e : Expr)
  | parenthesized (e : Expr)
  | globalVariableDefinition (name : Name) (e : Expr)
  | functionDefinition (name : Name) (params : List Name) (body : Expr)
  | program (es : List Expr)

/-- `HashMap<String, V>`: only `get`, `insert` and `clone` are used, so a finite map is its lookup
function. -/
abbrev Map (V : Type) := Name → Option V

/-- `HashMap::new`. -/
def Map.empty {V : Type} : Map V := fun _ => none

/-- `HashMap::insert`. -/
def Map.insert {V : Type} (m : Map V) (k : Name) (v : V) : Map V := fun x => if x = k then some v else m x

/-- `Environment`, environment.rs:5-9: the bindings and the chain of enclosing environments. -/
structure Env where
  bindings : Map Value
  next : List (Map Value)

/-- The part of `find_binding` that follows `next`, environment.rs:23-29. -/
def findIn (name : Name) : List (Map Value) → Option (Map Value)
  | [] => none
  | m :: ms => match m name with
    | some _ => some m
    | none => findIn name ms

/-- `Environment::find_binding`, environment.rs:20-31. -/
def Env.findBinding (env : Env) (name : Name) : Option (Map Value) :=
  findIn name (env.bindings :: env.next)

/-- The mutable state of an interpreter run: `variable_environment` (interpreter.rs:9) and the values
printed so far, oldest first. -/
structure St where
  env : Env
  out : List Value

/-- What does not change while a function body runs: the functions (`function_environment`,
interpreter.rs:10, which holds only `FunctionDefinition`s because only `call_main` inserts, :41-43), and
whether the crate is compiled with overflow checks. -/
structure Cfg where
  fns : Map (List Name × Expr)
  overflowChecks : Bool

/-- Outcome of a run: a value and the new state, a panic, or not finished within the fuel. -/
inductive Out (A : Type) where
  | ok (a : A) (st : St)
  | panic
  | diverge

/-- Sequencing of effects. -/
def Out.bind {A B : Type} (o : Out A) (f : A → St → Out B) : Out B :=
  match o with
  | .ok a st => f a st
  | .panic => .panic
  | .diverge => .diverge

/-- Smallest `i64`. -/
def i64Min : Int := -9223372036854775808
/-- Largest `i64`. -/
def i64Max : Int := 9223372036854775807

/-- The integer is an `i64`. -/
def inI64 (i : Int) : Bool := decide (i64Min ≤ i) && decide (i ≤ i64Max)

/-- The `i64` congruent to an integer modulo 2^64. -/
def wrapI64 (i : Int) : Int := (i - i64Min) % 18446744073709551616 + i64Min

/-- Result of `+`, `-`, `*` on `i64` from the exact result: overflow panics with overflow checks and
wraps without. `none`: panic. -/
def checked (cfg : Cfg) (i : Int) : Option Int :=
  if inI64 i then some i else if cfg.overflowChecks then none else some (wrapI64 i)

/-- `i64 / i64`: truncated; panics for a zero divisor and for `i64::MIN / -1` in every build. -/
def divI64 (a b : Int) : Option Int :=
  if b = 0 then none else if inI64 (a.tdiv b) then some (a.tdiv b) else none

/-- `i64 % i64`: sign of the dividend; panics for a zero divisor and for `i64::MIN % -1`. -/
def modI64 (a b : Int) : Option Int :=
  if b = 0 then none else if inI64 (a.tdiv b) then some (a.tmod b) else none

/-- `Value::as_int`, values.rs:31-36; `none`: panic. -/
def Value.asInt : Value → Option Int
  | .int i => some i
  | _ => none

/-- `Value::as_bool`, values.rs:38-43; `none`: panic. -/
def Value.asBool : Value → Option Bool
  | .bool b => some b
  | _ => none

/-- Both operands as integers, left first. -/
def ints (l r : Value) (f : Int → Int → Option Value) : Option Value :=
  match l.asInt with
  | none => none
  | some a => match r.asInt with
    | none => none
    | some b => f a b

/-- The operators, interpreter.rs:63-77; `none`: panic. -/
def applyOp (cfg : Cfg) (op : Operator) (l r : Value) : Option Value :=
  match op with
  | .and => match l.asBool with
    | none => none
    | some false => some (.bool false)
    | some true => r.asBool.map .bool
  | .or => match l.asBool with
    | none => none
    | some true => some (.bool true)
    | some false => r.asBool.map .bool
  | .mod => ints l r fun a b => (modI64 a b).map .int
  | .add => ints l r fun a b => (checked cfg (a + b)).map .int
  | .subtract => ints l r fun a b => (checked cfg (a - b)).map .int
  | .multiply => ints l r fun a b => (checked cfg (a * b)).map .int
  | .divide => ints l r fun a b => (divI64 a b).map .int
  | .lessThan => ints l r fun a b => some (.bool (decide (a < b)))
  | .lessOrEqual => ints l r fun a b => some (.bool (decide (a ≤ b)))
  | .greaterThan => ints l r fun a b => some (.bool (decide (b < a)))
  | .greaterOrEqual => ints l r fun a b => some (.bool (decide (b ≤ a)))
  | .equalEqual => ints l r fun a b => some (.bool (decide (a = b)))
  | .notEqual => ints l r fun a b => some (.bool (decide (a ≠ b)))

/-- Evaluation of a list from left to right, the values collected (`map(..).collect()`,
interpreter.rs:141-144, and the loop of `Block`, :105-108). -/
def evalAll (ev : Expr → St → Out Value) : List Expr → St → Out (List Value)
  | [], st => .ok [] st
  | e :: es, st => (ev e st).bind fun v st => (evalAll ev es st).bind fun vs st => .ok (v :: vs) st

/-- The loop that inserts the parameters, interpreter.rs:147-152: each round inserts into a clone of the
bindings which is dropped, so that only the index `values[i]` can have an effect (a panic). -/
def bindParams : List Name → Nat → List Value → Map Value → Option (Map Value)
  | [], _, _, bindings => some bindings
  | _ :: params, i, values, bindings =>
    match values[i]? with
    | none => none
    | some _ => bindParams params (i + 1) values bindings

/-- `Interpreter::interpret`, interpreter.rs:58-186. `fuel` bounds the depth of recursion, one unit per
nested call and per round of a `while` loop. -/
def interpret (cfg : Cfg) : Nat → Expr → St → Out Value
  | 0, _, _ => .diverge
  | fuel + 1, e, st =>
    match e with
    | .binary op lhs rhs =>
      (interpret cfg fuel lhs st).bind fun l st =>
      (interpret cfg fuel rhs st).bind fun r st =>
      match applyOp cfg op l r with
      | some v => .ok v st
      | none => .panic
    | .stringLiteral s => .ok (.string s) st
    | .integerLiteral i => .ok (.int i) st
    | .parenthesized e => interpret cfg fuel e st
    | .symbol name =>
      match st.env.findBinding name with
      | none => .panic
      | some m => match m name with
        | none => .panic
        | some v => .ok v st
    | .assignment name e =>
      match st.env.findBinding name with
      | some _ =>
        (interpret cfg fuel e st).bind fun v st =>
        match st.env.bindings name with
        | none => .panic
        | some _ => .ok v { st with env := ⟨st.env.bindings.insert name v, st.env.next⟩ }
      | none =>
        (interpret cfg fuel e st).bind fun v st =>
        .ok v { st with env := ⟨st.env.bindings.insert name v, st.env.next⟩ }
    | .block es =>
      (evalAll (interpret cfg fuel) es st).bind fun vs st =>
      match vs.getLast? with
      | none => .panic
      | some v => .ok v st
    | .println e =>
      (interpret cfg fuel e st).bind fun v st => .ok v { st with out := st.out ++ [v] }
    | .if cond body elseBody =>
      (interpret cfg fuel cond st).bind fun c st =>
      match c.asBool with
      | none => .panic
      | some true => interpret cfg fuel body st
      | some false => match elseBody with
        | some e => interpret cfg fuel e st
        | none => .ok (.bool true) st
    | .while cond body =>
      (interpret cfg fuel cond st).bind fun c st =>
      match c.asBool with
      | none => .panic
      | some true => (interpret cfg fuel body st).bind fun _ st => interpret cfg fuel (.while cond body) st
      | some false => .ok (.bool true) st
    | .functionCall name args =>
      match cfg.fns name with
      | none => .panic
      | some (params, body) =>
        (evalAll (interpret cfg fuel) args st).bind fun values st =>
        match bindParams params 0 values Map.empty with
        | none => .panic
        | some bindings =>
          (interpret cfg fuel body { st with env := ⟨bindings, st.env.bindings :: st.env.next⟩ }).bind
            fun v st' => .ok v { st' with env := st.env }
    | .labelledCall name args =>
      match cfg.fns name with
      | none => .panic
      | some (_, body) =>
        (evalAll (interpret cfg fuel) (args.map (·.2)) st).bind fun _ st =>
        -- interpreter.rs:172-175: every insertion goes into a clone that is dropped
        (interpret cfg fuel body { st with env := ⟨Map.empty, st.env.bindings :: st.env.next⟩ }).bind
          fun v st' => .ok v { st' with env := st.env }
    | .boolLiteral _ | .arrayLiteral _ | .identifier _ | .plus _ | .minus _
    | .globalVariableDefinition _ _ | .functionDefinition _ _ _ | .program _ => .panic

/-- The loop over the definitions in `call_main`, interpreter.rs:33-46. The value of a global is computed
(effects and panics remain) and inserted into a clone that is dropped. -/
def define (fuel : Nat) : List Expr → Cfg → St → Out Cfg
  | [], cfg, st => .ok cfg st
  | .globalVariableDefinition _ e :: ds, cfg, st =>
    (interpret cfg fuel e st).bind fun _ st => define fuel ds cfg st
  | .functionDefinition name params body :: ds, cfg, st =>
    define fuel ds { cfg with fns := cfg.fns.insert name (params, body) } st
  | _ :: _, _, _ => .panic

/-- `Interpreter::call_main`, interpreter.rs:30-56. -/
def callMain (fuel : Nat) (cfg : Cfg) (st : St) : Expr → Out Value
  | .program ds =>
    (define fuel ds cfg st).bind fun cfg st =>
    match cfg.fns "main" with
    | none => .panic
    | some (_, body) => interpret cfg fuel body st
  | _ => .panic

/-- `Interpreter::new`, interpreter.rs:14-19. -/
def St.new : St := ⟨⟨Map.empty, []⟩, []⟩
/-- `Interpreter::new`, interpreter.rs:14-19. -/
def Cfg.new (overflowChecks : Bool) : Cfg := ⟨Map.empty, overflowChecks⟩

/-- `call_main` together with the functions that it leaves in `function_environment`, interpreter.rs:41-43. -/
def callMainKeep (fuel : Nat) (cfg : Cfg) (st : St) : Expr → Out (Value × Cfg)
  | .program ds =>
    (define fuel ds cfg st).bind fun cfg st =>
    match cfg.fns "main" with
    | none => .panic
    | some (_, body) => (interpret cfg fuel body st).bind fun v st => .ok (v, cfg) st
  | _ => .panic

/-- `Interpreter::reset`, interpreter.rs:21-24, the variables. -/
def St.reset (st : St) : St := { st with env := ⟨Map.empty, []⟩ }
/-- `Interpreter::reset`, interpreter.rs:21-24, the functions. -/
def Cfg.reset (cfg : Cfg) : Cfg := { cfg with fns := Map.empty }

/-- `Display for i64` of the standard library. -/
def showInt (i : Int) : List Char :=
  if i < 0 then '-' :: Nat.toDigits 10 i.natAbs else Nat.toDigits 10 i.natAbs

mutual
/-- `Display for Value`, values.rs:13-24. -/
def Value.show : Value → List Char
  | .int i => showInt i
  | .bool b => if b then "true".toList else "false".toList
  | .string s => s.toList
  | .array vs => '[' :: (showAll vs ++ [']'])

/-- The elements of an array joined with commas, values.rs:20. -/
def showAll : List Value → List Char
  | [] => []
  | [v] => v.show
  | v :: vs => v.show ++ ',' :: showAll vs
end

/-- What stands on the standard output: each `println!("{}", value)` (interpreter.rs:113) writes a line. -/
def St.printed (st : St) : List Char := (st.out.map fun v => v.show ++ ['\n']).flatten

/-- `Interpreter::get_value`, interpreter.rs:26-28; `none`: panic. -/
def getValue (st : St) (name : Name) : Option Value := st.env.bindings name

/-- What the parser makes of `for (name in from to bound) body`, parsers.rs:115-129. -/
def forLoop (name : Name) (start bound body : Expr) : Expr :=
  .block [.assignment name start,
    .while (.binary .lessThan (.symbol name) bound)
      (.block [body, .assignment name (.binary .add (.symbol name) (.integerLiteral 1))])]

end OniComb.Toys
