import Verif.Model.Chain
import Verif.Model.Json
import Verif.Model.Toys

/-!
# The toys parser

Models `/repo/toys/src/parsers.rs`; line numbers are of that file.

`.cache()` is left out: the grammar with its caches, `ToysCache.lean`, has the same results (`c106_program`,
`c106_lines`).  `.debug(..)` only prints.  A `String` that a parser returns inside an `Expr` is a
Lean `String`; while it is being read it is the list of its characters.

Two parsers are recursive, `expression` and `line`.  `lazy(expression)`, and `expression()` where it is called
inside `line`, is the parameter `ex`; `lazy(line)`, and `line()` where `r#if` calls it, is the parameter `ln`.
The knots are tied by `expression` and `line` below, unrolled as often as the number says.
-/

namespace OniComb.Toys.Parse

/-- What the `regex` crate adds: which characters beyond ASCII `\d` matches. -/
structure Std where
  digit : Char → Bool

/-- `[a-zA-Z_]` -/
def identStart (c : Char) : Bool := Chr.isAlpha c || c == '_'

/-- `[a-zA-Z0-9_]` -/
def identPart (c : Char) : Bool := Chr.isAlpha c || Chr.isDigit c || c == '_'

/-- The match of `[a-zA-Z_][a-zA-Z0-9_]*` (:9) at the start of a text. -/
def matchIdent : List Char → Option Nat
  | [] => none
  | c :: r => if identStart c then some (1 + (r.takeWhile identPart).length) else none

/-- `\d` -/
def isDigit (S : Std) (c : Char) : Bool := if c.toNat < 128 then Chr.isDigit c else S.digit c

/-- The match of `\d+`. -/
def matchDigits (S : Std) (t : List Char) : Option Nat :=
  if (t.takeWhile (isDigit S)).length = 0 then none else some (t.takeWhile (isDigit S)).length

/-- The match of `^-?\d+` (:167) at the start of a text. -/
def matchInteger (S : Std) : List Char → Option Nat
  | '-' :: r => (matchDigits S r).map (· + 1)
  | t => matchDigits S t

/-- The value of a run of ASCII digits, from the left. -/
def digitsValue : Nat → List Char → Option Nat
  | n, [] => some n
  | n, c :: r => if Chr.isDigit c then digitsValue (10 * n + (c.toNat - 48)) r else none

/-- `str::parse::<i64>` (:168), for a text without a leading `+`. -/
def parseI64 : List Char → Option Int
  | [] => none
  | '-' :: r => if r = [] then none else ((digitsValue 0 r).map fun n : Nat => -(n : Int)).filter inI64
  | t => ((digitsValue 0 t).map fun n : Nat => (n : Int)).filter inI64

/-- `space`, :64-66. -/
def space : Parser Char Unit := discard (many0 (elmOf " \t\r\n".toList))

/-- The shape `space() * p - space()`, with `*` binding tighter. -/
def spaced {A : Type} (p : Parser Char A) : Parser Char A := skipRight (skipLeft space p) space

/-- `ident`, :8-10. -/
def ident : Parser Char Name := map (spaced (regex matchIdent)) String.ofList

/-- `add`, `subtract`, `mod`, `mul`, `div`, :12-30. -/
def sign (c : Char) : Parser Char Char := spaced (elm c)

/-- `lbracket`, `rbracket`, `lbrace`, `rbrace`, `lparen`, `rparen`, `comma`, `semi_colon`, :32-62; also
`eq` of `global_variable_definition` (:87) and `assignment` (:147). -/
def punct (c : Char) : Parser Char (List Char) := spaced (tag [c])

/-- The keywords read as `space() * tag(k) - space()`: `global` (:85), `while` (:103), `to` (:112),
`else` (:136). -/
def word (k : String) : Parser Char (List Char) := spaced (tag k.toList)

section
variable (S : Std)

/-- `integer`, :166-171. -/
def integer : Parser Char Expr :=
  name (spaced (map (mapRes (regex (matchInteger S)) parseI64) .integerLiteral)) "integer"

/-- The string of `string_literal`, :274-299.  The parsers `special_char`, `escape_sequence`, `char_string`,
`utf16_char`, `utf16_string` and `string` are, token for token, those of `json_char.rs`:29-55, so they are modelled by
the same definition; the number type of JSON plays no role. -/
def stringText : Parser Char (List Char) := Json.string (Json.charKind (F := Unit) fun _ => none)

/-- `string_literal`, :273-305. -/
def stringLiteral : Parser Char Expr :=
  name (attempt (map stringText fun s => .stringLiteral (String.ofList s))) "string_literal"

/-- `bool_literal`, :264-271. -/
def boolLiteral : Parser Char Expr :=
  name (spaced (map (or (attempt (tag "true".toList)) (tag "false".toList))
    fun e => .boolLiteral (decide (e = "true".toList)))) "bool_literal"

/-- `identifier`, :307-309. -/
def identifier : Parser Char Expr := name (map ident .symbol) "identifier"

/-- `function_call`, :243-247. -/
def functionCall (ex : Parser Char Expr) : Parser Char Expr :=
  name (attempt (spaced (map
    (andThen ident (surround (punct '(') (many0Sep ex (punct ',')) (punct ')')))
    fun x => .functionCall x.1 x.2))) "function_call"

/-- `param` of `labelled_call`, :250. -/
def labelledParam (ex : Parser Char Expr) : Parser Char (Name × Expr) := andThen (skipRight ident (elm '=')) ex

/-- `labelled_call`, :249-254. -/
def labelledCall (ex : Parser Char Expr) : Parser Char Expr :=
  name (attempt (spaced (map
    (andThen ident (surround (punct '[') (many1Sep (labelledParam ex) (punct ',')) (punct ']')))
    fun x => .labelledCall x.1 x.2))) "labelled_call"

/-- `array_literal`, :256-262. -/
def arrayLiteral (ex : Parser Char Expr) : Parser Char Expr :=
  name (spaced (map (surround (punct '[') (many0Sep ex (punct ',')) (punct ']')) .arrayLiteral)) "array_literal"

/-- `primary`, :311-324. -/
def primary (ex : Parser Char Expr) : Parser Char Expr :=
  name (or (or (or (or (or (or (or
    (map (skipRight (skipLeft (punct '(') ex) (punct ')')) .parenthesized)
    (integer S)) stringLiteral) (functionCall ex)) (labelledCall ex)) (arrayLiteral ex)) boolLiteral) identifier)
    "primary"

/-- The operator of `multitive`, :175-179. -/
def mulOp : Parser Char (Expr → Expr → Expr) :=
  map (or (sign '*') (sign '/')) fun e => if e = '*' then .binary .multiply else .binary .divide

/-- `multitive`, :173-182. -/
def multitive (ex : Parser Char Expr) : Parser Char Expr := name (chainLeft1 (primary S ex) mulOp) "multitive"

/-- The operator of `moditive`, :186-189. -/
def modOp : Parser Char (Expr → Expr → Expr) := map (sign '%') fun _ => .binary .mod

/-- `moditive`, :184-192. -/
def moditive (ex : Parser Char Expr) : Parser Char Expr := name (chainLeft1 (multitive S ex) modOp) "moditive"

/-- The operator of `additive`, :196-200. -/
def addOp : Parser Char (Expr → Expr → Expr) :=
  map (or (sign '+') (sign '-')) fun e => if e = '+' then .binary .add else .binary .subtract

/-- `additive`, :194-203. -/
def additive (ex : Parser Char Expr) : Parser Char Expr := name (chainLeft1 (moditive S ex) addOp) "additive"

/-- The `match` of `comparative`, :227-236. -/
def cmpOperator (e : List Char) : Operator :=
  if e = "&&".toList then .and else if e = "||".toList then .or
  else if e = "<=".toList then .lessOrEqual else if e = ">=".toList then .greaterOrEqual
  else if e = "<".toList then .lessThan else if e = ">".toList then .greaterThan
  else if e = "==".toList then .equalEqual else .notEqual

/-- The operator of `comparative`, :217-237. -/
def cmpOp : Parser Char (Expr → Expr → Expr) :=
  map (spaced (or (or (or (or (or (or (or (attempt (tag "&&".toList)) (attempt (tag "||".toList)))
    (attempt (tag "<=".toList))) (attempt (tag ">=".toList))) (attempt (tag "<".toList)))
    (attempt (tag ">".toList))) (attempt (tag "!=".toList))) (tag "==".toList)))
    fun e => .binary (cmpOperator e)

/-- `comparative`, :205-241. -/
def comparative (ex : Parser Char Expr) : Parser Char Expr := name (chainLeft1 (additive S ex) cmpOp) "comparative"

/-- `expression`, :156-158, given what `lazy(expression)` runs. -/
def exprStep (ex : Parser Char Expr) : Parser Char Expr := name (comparative S ex) "expression"

/-- `expression`, unrolled. -/
def expression (n : Nat) : Parser Char Expr := fixN (exprStep S) n

end

section
variable (ex ln : Parser Char Expr)

/-- `println`, :160-164. -/
def println : Parser Char Expr :=
  name (attempt (spaced (map (skipRight (skipLeft (tag "println".toList) (surround (punct '(') ex (punct ')')))
    (punct ';')) .println))) "println"

/-- `r#while`, :102-107. -/
def whileLine : Parser Char Expr :=
  name (attempt (spaced (map (andThen (skipLeft (word "while") (surround (punct '(') ex (punct ')'))) ln)
    fun x => .while x.1 x.2))) "while"

/-- `params` of `r#for`, :113. -/
def forParams : Parser Char ((Name × Expr) × Expr) :=
  skipRight (skipRight (andThen (skipRight (andThen (skipRight (skipLeft (punct '(') ident)
    (andThen (andThen space (tag "in".toList)) space)) ex) (word "to")) ex) space) (punct ')')

/-- `r#for`, :109-131; `forLoop` is the expression of :115-129. -/
def forLine : Parser Char Expr :=
  name (attempt (spaced (map (andThen (skipLeft (skipRight (tag "for".toList) space) (forParams ex)) ln)
    fun x => forLoop x.1.1.1 x.1.1.2 x.1.2 x.2))) "for"

/-- `r#if`, :133-139. -/
def ifLine : Parser Char Expr :=
  name (attempt (spaced (map (andThen (andThen
    (skipRight (skipLeft (skipLeft (skipRight (tag "if".toList) space) (punct '(')) ex) (punct ')')) ln)
    (opt (skipLeft (word "else") ln))) fun x => .if x.1.1 x.1.2 x.2))) "if"

/-- `block`, :141-144. -/
def block : Parser Char Expr :=
  name (spaced (map (surround (punct '{') (many0 ln) (punct '}')) .block)) "block"

/-- `assignment`, :146-150. -/
def assignment : Parser Char Expr :=
  name (attempt (spaced (map (skipRight (andThen (skipRight ident (punct '=')) ex) (punct ';'))
    fun x => .assignment x.1 x.2))) "assignment"

/-- `expression_line`, :152-154. -/
def expressionLine : Parser Char Expr := name (attempt (skipRight ex (punct ';'))) "expression_line"

/-- `line`, :97-100, given what `lazy(line)` runs. -/
def lineStep : Parser Char Expr :=
  name (spaced (or (or (or (or (or (or (println ex) (whileLine ex ln)) (ifLine ex ln)) (forLine ex ln))
    (assignment ex)) (expressionLine ex)) (block ln))) "line"

end

section
variable (S : Std) (n : Nat)

/-- `line`, unrolled. -/
def line : Parser Char Expr := fixN (lineStep (expression S n)) n

/-- `lines`, :93-95. -/
def lines : Parser Char (List Expr) := skipRight (skipRight (many1 (line S n)) space) end_

/-- `define` of `function_definition`, :77. -/
def define : Parser Char Name :=
  skipRight (skipLeft (skipLeft (skipLeft space (tag "fn".toList)) space) ident) space

/-- `function_definition`, :76-82. -/
def functionDefinition : Parser Char Expr :=
  name (spaced (map (andThen (andThen define (surround (punct '(') (many0Sep ident (punct ',')) (punct ')')))
    (block (line S n))) fun x => .functionDefinition x.1.1 x.1.2 x.2)) "function definition"

/-- `global_variable_definition`, :84-91. -/
def globalVariableDefinition : Parser Char Expr :=
  name (spaced (map (skipRight (andThen (skipRight (skipLeft (word "global") ident) (punct '=')) (expression S n))
    (punct ';')) fun x => .globalVariableDefinition x.1 x.2)) "global variable definition"

/-- `top_level_definition`, :72-74. -/
def topLevelDefinition : Parser Char Expr :=
  name (or (globalVariableDefinition S n) (functionDefinition S n)) "top level definition"

/-- `program`, :68-70. -/
def program : Parser Char Expr := skipLeft space (map (many0 (topLevelDefinition S n)) .program)

end

end OniComb.Toys.Parse
