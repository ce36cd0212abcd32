import Verif.Model.ToysCache
import Verif.Spec.OperatorTicks

/-!
# The toys parser with a counter

The statements of `Model/ToysParse` with the combinators of `Model/CacheGrammar`; the store counts the calls of `r#if`, which `line`
makes through `lazy`. Nothing else is counted. The caches are left out: every call of `r#if` builds a parser with new ones.
-/

namespace OniComb.Toys.Calls
open OniComb OniComb.Stateful OniComb.Toys.Parse
open OniComb.Operators (later)

section
variable (ex : Parser Char Expr) (ln : SParser Nat Char Expr)

/-- `r#while`, parsers.rs:102-107. -/
def whileLine : SParser Nat Char Expr :=
  unary (fun p => name p "while") (unary attempt (spacedC (unary (fun p => map p fun x => .while x.1 x.2)
    (Stateful.andThen (ofParser (skipLeft (word "while") (surround (punct '(') ex (punct ')')))) ln))))

/-- `r#for`, :109-131. -/
def forLine : SParser Nat Char Expr :=
  unary (fun p => name p "for") (unary attempt (spacedC (unary (fun p => map p fun x => forLoop x.1.1.1 x.1.1.2 x.1.2 x.2)
    (Stateful.andThen (ofParser (skipLeft (skipRight (tag "for".toList) space) (forParams ex))) ln))))

/-- `r#if`, :133-139. -/
def ifLine : SParser Nat Char Expr :=
  unary (fun p => name p "if") (unary attempt (spacedC (unary (fun p => map p fun x => .if x.1.1 x.1.2 x.2)
    (Stateful.andThen (Stateful.andThen (ofParser (skipRight (skipLeft (skipLeft (skipRight (tag "if".toList) space) (punct '(')) ex)
      (punct ')'))) ln) (unary opt (Stateful.skipLeft (ofParser (word "else")) ln))))))

/-- `block`, :141-144. -/
def block : SParser Nat Char Expr :=
  unary (fun p => name p "block") (spacedC (unary (fun p => map p .block)
    (Stateful.surround (ofParser (punct '{')) (Stateful.repeatSep ln (.from_ 0) (none : Option (SParser Nat Char Unit)))
      (ofParser (punct '}')))))

/-- `line`, :97-100, given what `lazy(line)` runs; the call of `r#if` is counted. -/
def lineStep : SParser Nat Char Expr :=
  unary (fun p => name p "line") (spacedC
    (Stateful.or (Stateful.or (Stateful.or (Stateful.or (Stateful.or (Stateful.or (ofParser (println ex)) (whileLine ex ln))
      (later (ifLine ex ln))) (forLine ex ln)) (ofParser (assignment ex))) (ofParser (expressionLine ex))) (block ln)))

end

section
variable (S : Std) (n : Nat)

/-- `line`, unrolled. -/
def line : Nat → SParser Nat Char Expr
  | 0 => ofParser diverging
  | k + 1 => lineStep (expression S n) (line k)

/-- `function_definition`, :76-82. -/
def functionDefinition : SParser Nat Char Expr :=
  unary (fun p => name p "function definition") (spacedC (unary (fun p => map p fun x => .functionDefinition x.1.1 x.1.2 x.2)
    (Stateful.andThen (ofParser (OniComb.andThen Parse.define (OniComb.surround (punct '(') (many0Sep ident (punct ',')) (punct ')'))))
      (block (line S n n)))))

/-- `program`, :68-70, with `top_level_definition`, :72-74. -/
def program : SParser Nat Char Expr :=
  Stateful.skipLeft (ofParser space) (unary (fun p => map p .program) (Stateful.repeatSep (unary (fun p => name p "top level definition")
    (Stateful.or (ofParser (globalVariableDefinition S n)) (functionDefinition S n))) (.from_ 0) (none : Option (SParser Nat Char Unit))))

end

/-- Two `if`s with one `else` behind them, `d` times, each inside the `else` of the one before, and no brace closed:
`if(t)if(t')u else{ …`, where `t` and `t'` are conditions and `u` a statement. -/
def opened (t t' u : List Char) : Nat → List Char
  | 0 => []
  | d + 1 => "if(".toList ++ (t ++ (")if(".toList ++ (t' ++ (")".toList ++ (u ++ ("else{".toList ++ opened t t' u d))))))

end OniComb.Toys.Calls
