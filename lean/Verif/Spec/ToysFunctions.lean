import Verif.Spec.Toys

/-!
# The functions that a toys program calls
-/

namespace OniComb.Toys

mutual
/-- The functions that are called in an expression. -/
def Expr.calls : Expr → List Name
  | .stringLiteral _ => []
  | .integerLiteral _ => []
  | .boolLiteral _ => []
  | .arrayLiteral es => callsAll es
  | .binary _ l r => l.calls ++ r.calls
  | .symbol _ => []
  | .functionCall f args => f :: callsAll args
  | .labelledCall f args => f :: callsArgs args
  | .identifier _ => []
  | .plus e => e.calls
  | .minus e => e.calls
  | .println e => e.calls
  | .while c b => c.calls ++ b.calls
  | .if c b none => c.calls ++ b.calls
  | .if c b (some e) => c.calls ++ (b.calls ++ e.calls)
  | .block es => callsAll es
  | .assignment _ e => e.calls
  | .parenthesized e => e.calls
  | .globalVariableDefinition _ e => e.calls
  | .functionDefinition _ _ b => b.calls
  | .program ds => callsAll ds

/-- The functions called in a list of expressions. -/
def callsAll : List Expr → List Name
  | [] => []
  | e :: es => e.calls ++ callsAll es

/-- The functions called in the arguments of a labelled call. -/
def callsArgs : List (Name × Expr) → List Name
  | [] => []
  | (_, e) :: es => e.calls ++ callsArgs es
end

/-- The function is called in the expression, or in a function that is reached. -/
inductive Reached (fns : Map (List Name × Expr)) (e : Expr) : Name → Prop where
  | here {f : Name} (h : f ∈ e.calls) : Reached fns e f
  | through {f g : Name} {ps : List Name} {b : Expr} (hg : Reached fns e g) (hb : fns g = some (ps, b))
      (h : f ∈ b.calls) : Reached fns e f

/-- A definition of a function. -/
def IsFun : Expr → Prop
  | .functionDefinition _ _ _ => True
  | _ => False

/-- The name that is defined. -/
def defined : Expr → Name
  | .functionDefinition f _ _ => f
  | .globalVariableDefinition x _ => x
  | _ => ""

end OniComb.Toys
