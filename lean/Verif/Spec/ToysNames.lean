import Verif.Spec.Toys

/-!
# Names in toys programs
-/

namespace OniComb.Toys

mutual
/-- The variables that an expression reads or assigns. -/
def Expr.vars : Expr → List Name
  | .stringLiteral _ => []
  | .integerLiteral _ => []
  | .boolLiteral _ => []
  | .arrayLiteral es => varsAll es
  | .binary _ l r => l.vars ++ r.vars
  | .symbol x => [x]
  | .functionCall _ args => varsAll args
  | .labelledCall _ args => varsArgs args
  | .identifier x => [x]
  | .plus e => e.vars
  | .minus e => e.vars
  | .println e => e.vars
  | .while c b => c.vars ++ b.vars
  | .if c b none => c.vars ++ b.vars
  | .if c b (some e) => c.vars ++ (b.vars ++ e.vars)
  | .block es => varsAll es
  | .assignment x e => x :: e.vars
  | .parenthesized e => e.vars
  | .globalVariableDefinition x e => x :: e.vars
  | .functionDefinition _ _ b => b.vars
  | .program ds => varsAll ds

/-- The variables of a list of expressions. -/
def varsAll : List Expr → List Name
  | [] => []
  | e :: es => e.vars ++ varsAll es

/-- The variables of the arguments of a labelled call. -/
def varsArgs : List (Name × Expr) → List Name
  | [] => []
  | (_, e) :: es => e.vars ++ varsArgs es
end

mutual
/-- The expression with other names for its variables (`ρ`) and functions (`φ`). -/
def Expr.rename (ρ φ : Name → Name) : Expr → Expr
  | .stringLiteral s => .stringLiteral s
  | .integerLiteral i => .integerLiteral i
  | .boolLiteral b => .boolLiteral b
  | .arrayLiteral es => .arrayLiteral (renameAll ρ φ es)
  | .binary op l r => .binary op (l.rename ρ φ) (r.rename ρ φ)
  | .symbol x => .symbol (ρ x)
  | .functionCall f args => .functionCall (φ f) (renameAll ρ φ args)
  | .labelledCall f args => .labelledCall (φ f) (renameArgs ρ φ args)
  | .identifier x => .identifier (ρ x)
  | .plus e => .plus (e.rename ρ φ)
  | .minus e => .minus (e.rename ρ φ)
  | .println e => .println (e.rename ρ φ)
  | .while c b => .while (c.rename ρ φ) (b.rename ρ φ)
  | .if c b none => .if (c.rename ρ φ) (b.rename ρ φ) none
  | .if c b (some e) => .if (c.rename ρ φ) (b.rename ρ φ) (some (e.rename ρ φ))
  | .block es => .block (renameAll ρ φ es)
  | .assignment x e => .assignment (ρ x) (e.rename ρ φ)
  | .parenthesized e => .parenthesized (e.rename ρ φ)
  | .globalVariableDefinition x e => .globalVariableDefinition (ρ x) (e.rename ρ φ)
  | .functionDefinition f ps b => .functionDefinition (φ f) (ps.map ρ) (b.rename ρ φ)
  | .program ds => .program (renameAll ρ φ ds)

/-- All expressions of a list. -/
def renameAll (ρ φ : Name → Name) : List Expr → List Expr
  | [] => []
  | e :: es => e.rename ρ φ :: renameAll ρ φ es

/-- The arguments of a labelled call; the labels are parameters, that is variables. -/
def renameArgs (ρ φ : Name → Name) : List (Name × Expr) → List (Name × Expr)
  | [] => []
  | (x, e) :: es => (ρ x, e.rename ρ φ) :: renameArgs ρ φ es
end

/-- No variable is visible. -/
def St.bare (st : St) : St := ⟨⟨Map.empty, []⟩, st.out⟩

/-- The second configuration has the functions of the first one, renamed. -/
structure Renamed (ρ φ : Name → Name) (cfg cfg' : Cfg) : Prop where
  checks : cfg'.overflowChecks = cfg.overflowChecks
  fns : ∀ f, cfg'.fns (φ f) = (cfg.fns f).map fun pb => (pb.1.map ρ, pb.2.rename ρ φ)

end OniComb.Toys
