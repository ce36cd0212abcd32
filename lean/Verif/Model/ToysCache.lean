import Verif.Model.ToysParse
import Verif.Model.CacheGrammar

/-!
# The toys parser with its caches

Models `/repo/toys/src/parsers.rs` again, now with `.cache()`; line numbers are of that file.  Parts without caches are
those of `ToysParse.lean`.  Every function that builds a parser builds new caches, so that the store of a parser is
made of the stores of its parts; a part behind `lazy` has no store of its own, it is built when it is run.
-/

namespace OniComb.Toys.Parse
open OniComb.Stateful

/-- The contents of one cache. -/
abbrev M := CacheMap Char Expr

/-- The store of a parser whose only cache is the outermost one. -/
abbrev Leaf := M × Unit

section
variable {S A : Type}

/-- `space() * p - space()`. -/
def spacedC (p : SParser S Char A) : SParser S Char A :=
  Stateful.skipRight (Stateful.skipLeft (ofParser space) p) (ofParser space)

end

section
variable (S : Std) (ex : SParser Unit Char Expr)

/-- `function_call`, :243-247; `ex` is `lazy(expression)`. -/
def functionCallC : SParser Leaf Char Expr :=
  Stateful.cache (unary (fun p => name p "function_call") (unary attempt (spacedC
    (unary (fun p => map p fun x => .functionCall x.1 x.2)
      (Stateful.andThen (ofParser ident) (Stateful.surround (ofParser (punct '('))
        (Stateful.repeatSep ex (.from_ 0) (some (ofParser (punct ',')))) (ofParser (punct ')'))))))))

/-- `labelled_call`, :249-254. -/
def labelledCallC : SParser Leaf Char Expr :=
  Stateful.cache (unary (fun p => name p "labelled_call") (unary attempt (spacedC
    (unary (fun p => map p fun x => .labelledCall x.1 x.2)
      (Stateful.andThen (ofParser ident) (Stateful.surround (ofParser (punct '['))
        (Stateful.repeatSep (Stateful.andThen (ofParser (skipRight ident (elm '='))) ex) (.from_ 1)
          (some (ofParser (punct ',')))) (ofParser (punct ']'))))))))

/-- `array_literal`, :256-262. -/
def arrayLiteralC : SParser Leaf Char Expr :=
  Stateful.cache (unary (fun p => name p "array_literal") (spacedC (unary (fun p => map p .arrayLiteral)
    (Stateful.surround (ofParser (punct '[')) (Stateful.repeatSep ex (.from_ 0) (some (ofParser (punct ','))))
      (ofParser (punct ']'))))))

/-- The store of `primary`. -/
abbrev PrimaryStore := M × (M × (((((((Unit × Leaf) × Leaf) × Leaf) × Leaf) × Leaf) × Leaf) × Leaf))

/-- `primary`, :311-324; `integer` (:166-171), `string_literal` (:273-305), `bool_literal` (:264-271) and `identifier`
(:307-309) are cached as a whole. -/
def primaryC : SParser PrimaryStore Char Expr :=
  Stateful.cache (unary (fun p => name p "primary") (Stateful.cache
    (either (either (either (either (either (either (either
      (unary (fun p => map p .parenthesized)
        (Stateful.skipRight (Stateful.skipLeft (ofParser (punct '(')) ex) (ofParser (punct ')'))))
      (Stateful.cache (ofParser (integer S))))
      (Stateful.cache (ofParser stringLiteral)))
      (functionCallC ex))
      (labelledCallC ex))
      (arrayLiteralC ex))
      (Stateful.cache (ofParser boolLiteral)))
      (Stateful.cache (ofParser identifier)))))

/-- `multitive`, :173-182. -/
def multitiveC : SParser (M × PrimaryStore) Char Expr :=
  Stateful.cache (unary (fun p => name p "multitive") (Stateful.chainLeft1 (primaryC S ex) (ofParser mulOp)))

/-- `moditive`, :184-192. -/
def moditiveC : SParser (M × M × PrimaryStore) Char Expr :=
  Stateful.cache (unary (fun p => name p "moditive") (Stateful.chainLeft1 (multitiveC S ex) (ofParser modOp)))

/-- `additive`, :194-203. -/
def additiveC : SParser (M × M × M × PrimaryStore) Char Expr :=
  Stateful.cache (unary (fun p => name p "additive") (Stateful.chainLeft1 (moditiveC S ex) (ofParser addOp)))

/-- `comparative`, :205-241. -/
def comparativeC : SParser (M × M × M × M × PrimaryStore) Char Expr :=
  Stateful.cache (unary (fun p => name p "comparative") (Stateful.chainLeft1 (additiveC S ex) (ofParser cmpOp)))

/-- The store of `expression`. -/
abbrev ExprStore := M × M × M × M × M × PrimaryStore

/-- `expression`, :156-158, given what `lazy(expression)` runs. -/
def exprStepC : SParser ExprStore Char Expr :=
  Stateful.cache (unary (fun p => name p "expression") (comparativeC S ex))

/-- `expression`, unrolled. -/
def expressionC : Nat → SParser ExprStore Char Expr
  | 0 => ofParser diverging
  | n + 1 => exprStepC S (built (expressionC n))

end

/-- The store of `expression_line` and `assignment`. -/
abbrev SimpleStore := M × ExprStore

/-- The store of `line`. -/
abbrev LineStore := M × ((((((Leaf × Unit) × Unit) × Unit) × SimpleStore) × SimpleStore) × Leaf)

instance : New ExprStore := inferInstance

set_option synthInstance.maxSize 1000 in
instance : New LineStore := inferInstance

section
variable (ex : SParser ExprStore Char Expr) (ln : SParser LineStore Char Expr)

/-- `println`, :160-164. -/
def printlnC : SParser Leaf Char Expr :=
  Stateful.cache (unary (fun p => name p "println") (unary attempt (spacedC (unary (fun p => map p .println)
    (Stateful.skipRight (Stateful.skipLeft (ofParser (tag "println".toList))
      (Stateful.surround (ofParser (punct '(')) (built ex) (ofParser (punct ')')))) (ofParser (punct ';')))))))

/-- `r#while`, :102-107. -/
def whileLineC : SParser Leaf Char Expr :=
  Stateful.cache (unary (fun p => name p "while") (unary attempt (spacedC (unary (fun p => map p fun x => .while x.1 x.2)
    (Stateful.andThen (Stateful.skipLeft (ofParser (word "while"))
      (Stateful.surround (ofParser (punct '(')) (built ex) (ofParser (punct ')')))) (built ln))))))

/-- `params` of `r#for`, :113. -/
def forParamsC : SParser (ExprStore × ExprStore) Char ((Name × Expr) × Expr) :=
  Stateful.skipRight (Stateful.skipRight (Stateful.andThen (Stateful.skipRight (Stateful.andThen
    (ofParser (skipRight (skipLeft (punct '(') ident) (andThen (andThen space (tag "in".toList)) space)))
    (left ex)) (ofParser (word "to"))) (lift ex)) (ofParser space)) (ofParser (punct ')'))

/-- `r#for`, :109-131. -/
def forLineC : SParser (M × ExprStore × ExprStore) Char Expr :=
  Stateful.cache (unary (fun p => name p "for") (unary attempt (spacedC
    (unary (fun p => map p fun x => forLoop x.1.1.1 x.1.1.2 x.1.2 x.2)
      (Stateful.andThen (Stateful.skipLeft (ofParser (skipRight (tag "for".toList) space)) (forParamsC ex)) (built ln))))))

/-- `r#if`, :133-139. -/
def ifLineC : SParser (M × (ExprStore × LineStore) × LineStore) Char Expr :=
  Stateful.cache (unary (fun p => name p "if") (unary attempt (spacedC (unary (fun p => map p fun x => .if x.1.1 x.1.2 x.2)
    (Stateful.andThen (left (Stateful.andThen
      (left (Stateful.skipRight (Stateful.skipLeft (ofParser (skipLeft (skipRight (tag "if".toList) space) (punct '('))) ex)
        (ofParser (punct ')'))))
      (lift ln)))
      (lift (unary opt (Stateful.skipLeft (ofParser (word "else")) ln))))))))

/-- `block`, :141-144. -/
def blockC : SParser Leaf Char Expr :=
  Stateful.cache (unary (fun p => name p "block") (spacedC (unary (fun p => map p .block)
    (Stateful.surround (ofParser (punct '{')) (Stateful.repeatSep (built ln) (.from_ 0) (none : Option (SParser Unit Char Unit)))
      (ofParser (punct '}'))))))

/-- `assignment`, :146-150. -/
def assignmentC : SParser SimpleStore Char Expr :=
  Stateful.cache (unary (fun p => name p "assignment") (unary attempt (spacedC
    (unary (fun p => map p fun x => .assignment x.1 x.2)
      (Stateful.skipRight (Stateful.andThen (ofParser (skipRight ident (punct '='))) ex) (ofParser (punct ';')))))))

/-- `expression_line`, :152-154. -/
def expressionLineC : SParser SimpleStore Char Expr :=
  Stateful.cache (unary (fun p => name p "expression_line") (unary attempt (Stateful.skipRight ex (ofParser (punct ';')))))

/-- `line`, :97-100, given what `lazy(line)` runs. -/
def lineStepC : SParser LineStore Char Expr :=
  Stateful.cache (unary (fun p => name p "line") (spacedC
    (either (either (either (either (either (either (printlnC ex) (built (whileLineC ex ln))) (built (ifLineC ex ln)))
      (built (forLineC ex ln))) (assignmentC ex)) (expressionLineC ex)) (blockC ln))))

end

section
variable (S : Std) (n : Nat)

/-- `line`, unrolled. -/
def lineC : Nat → SParser LineStore Char Expr
  | 0 => ofParser diverging
  | k + 1 => lineStepC (expressionC S n) (lineC k)

/-- `lines`, :93-95, built for one run. -/
def linesC : SParser Unit Char (List Expr) :=
  built (Stateful.skipRight (Stateful.skipRight
    (Stateful.repeatSep (lineC S n n) (.from_ 1) (none : Option (SParser _ Char Unit))) (ofParser space)) (ofParser end_))

/-- `function_definition`, :76-82. -/
def functionDefinitionC : SParser (M × Leaf) Char Expr :=
  Stateful.cache (unary (fun p => name p "function definition") (spacedC
    (unary (fun p => map p fun x => .functionDefinition x.1.1 x.1.2 x.2)
      (Stateful.andThen (ofParser (andThen define (surround (punct '(') (many0Sep ident (punct ',')) (punct ')'))))
        (blockC (lineC S n n))))))

/-- `global_variable_definition`, :84-91. -/
def globalVariableDefinitionC : SParser SimpleStore Char Expr :=
  Stateful.cache (unary (fun p => name p "global variable definition") (spacedC
    (unary (fun p => map p fun x => .globalVariableDefinition x.1 x.2)
      (Stateful.skipRight (Stateful.andThen (ofParser (skipRight (skipLeft (word "global") ident) (punct '=')))
        (expressionC S n)) (ofParser (punct ';'))))))

/-- `top_level_definition`, :72-74. -/
def topLevelDefinitionC : SParser (SimpleStore × M × Leaf) Char Expr :=
  unary (fun p => name p "top level definition") (either (globalVariableDefinitionC S n) (functionDefinitionC S n))

/-- `program`, :68-70, built for one run. -/
def programC : SParser Unit Char Expr :=
  built (Stateful.skipLeft (ofParser space) (unary (fun p => map p .program)
    (Stateful.repeatSep (topLevelDefinitionC S n) (.from_ 0) (none : Option (SParser _ Char Unit)))))

end

end OniComb.Toys.Parse
