import Verif.Model.ToysParse
import Verif.Tests.Parser

/-!
# The unit tests of `toys`, run on the model

`/repo/toys/src/parsers.rs`:326-638.  The parsers of single constructs are given what their `lazy` parts run.
-/

namespace OniComb.Tests.Toys
open OniComb.Toys OniComb.Toys.Parse

/-- The name of an operator. -/
def opCode : Operator → String
  | .add => "+"
  | .subtract => "-"
  | .multiply => "*"
  | .divide => "/"
  | .mod => "%"
  | .and => "&&"
  | .or => "||"
  | .lessThan => "<"
  | .lessOrEqual => "<="
  | .greaterThan => ">"
  | .greaterOrEqual => ">="
  | .equalEqual => "=="
  | .notEqual => "!="

mutual
/-- The tree as a text in prefix notation, to compare trees. -/
def code (e : Expr) : String :=
  match e with
  | .stringLiteral s => "(str " ++ s ++ ")"
  | .integerLiteral i => "(int " ++ toString i ++ ")"
  | .boolLiteral b => "(bool " ++ toString b ++ ")"
  | .arrayLiteral es => "(array" ++ codes es ++ ")"
  | .binary op l r => "(" ++ opCode op ++ " " ++ code l ++ " " ++ code r ++ ")"
  | .symbol n => "(sym " ++ n ++ ")"
  | .functionCall n es => "(call " ++ n ++ codes es ++ ")"
  | .labelledCall n es => "(labelled " ++ n ++ codesL es ++ ")"
  | .identifier n => "(id " ++ n ++ ")"
  | .plus e => "(plus " ++ code e ++ ")"
  | .minus e => "(minus " ++ code e ++ ")"
  | .println e => "(println " ++ code e ++ ")"
  | .while a b => "(while " ++ code a ++ " " ++ code b ++ ")"
  | .if a b none => "(if " ++ code a ++ " " ++ code b ++ ")"
  | .if a b (some c) => "(if " ++ code a ++ " " ++ code b ++ " " ++ code c ++ ")"
  | .block es => "(block" ++ codes es ++ ")"
  | .assignment n e => "(= " ++ n ++ " " ++ code e ++ ")"
  | .parenthesized e => "(paren " ++ code e ++ ")"
  | .globalVariableDefinition n e => "(global " ++ n ++ " " ++ code e ++ ")"
  | .functionDefinition n ps b => "(fn " ++ n ++ String.join (ps.map (" " ++ ·)) ++ " " ++ code b ++ ")"
  | .program es => "(program" ++ codes es ++ ")"
def codes (es : List Expr) : String :=
  match es with
  | [] => ""
  | e :: es => " " ++ code e ++ codes es
def codesL (es : List (Name × Expr)) : String :=
  match es with
  | [] => ""
  | (n, e) :: es => " " ++ n ++ "=" ++ code e ++ codesL es
end

/-- No digits beyond ASCII. -/
def std : Std := ⟨fun _ => false⟩

/-- `p.parse_as_result(s)` gives the tree. -/
def gives (p : Parser Char Expr) (s : String) (e : String) : Bool := (ok (parse p s.toList)).map code == some e

/-- What the interpreter prints. -/
def prints (o : Out Value) : Option (List Int) :=
  match o with
  | .ok _ st => st.out.mapM Value.asInt
  | _ => none

/-- Parse with `line()` and interpret. -/
def run (s : String) : Option (List Int) :=
  (ok (parse (line std 6) s.toList)).bind fun e => prints (interpret (Cfg.new true) 30 e St.new)

-- test_example, test_println
example : run "\n    {\n      a = 1;\n      b = 2;\n      c = a + b;\n      println(c);\n    }\n    " = some [3] := by
  decide +kernel
example : run "println(1+2*3);" = some [7] := by decide +kernel
-- test_while
example : gives (line std 4) "while(1==2){1;}" "(while (== (int 1) (int 2)) (block (int 1)))" := by decide +kernel
-- test_for
example : gives (forLine (expression std 4) (line std 4)) "for(i in 1 to 10) a=1;"
    "(block (= i (int 1)) (while (< (sym i) (int 10)) (block (= a (int 1)) (= i (+ (sym i) (int 1))))))" := by decide +kernel
-- test_if
example : gives (ifLine (expression std 4) (line std 4)) "if(1==2){1;}" "(if (== (int 1) (int 2)) (block (int 1)))" := by
  decide +kernel
-- test_assignment
example : gives (line std 4) "i=1;" "(= i (int 1))" := by decide +kernel
-- test_primary_labelled_call_args_1
example : gives (labelledCall (expression std 4)) "\n    abc[n=5]\n    " "(labelled abc n=(int 5))" := by decide +kernel
-- test_primary_function_call_args_0 to 2
example : gives (functionCall (expression std 4)) "\n    abc();\n    " "(call abc)" := by decide +kernel
example : gives (functionCall (expression std 4)) "\n    abc(1);\n    " "(call abc (int 1))" := by decide +kernel
example : gives (functionCall (expression std 4)) "\n    abc(1,2);\n    " "(call abc (int 1) (int 2))" := by decide +kernel
-- test_primary_bool_true, test_primary_bool_false
example : gives boolLiteral "true" "(bool true)" := by decide +kernel
example : gives boolLiteral "false" "(bool false)" := by decide +kernel
-- test_primary_bool_array_0 to 2
example : gives (arrayLiteral (expression std 4)) "[]" "(array)" := by decide +kernel
example : gives (arrayLiteral (expression std 4)) "[1]" "(array (int 1))" := by decide +kernel
example : gives (arrayLiteral (expression std 4)) "\n    [1,2]\n    " "(array (int 1) (int 2))" := by decide +kernel
-- test_primary_integer, test_primary_identifier
example : gives (integer std) "\n    10\n    " "(int 10)" := by decide +kernel
example : gives identifier "abc" "(sym abc)" := by decide +kernel
-- test_multitive, test_moditive, test_additive
example : gives (expression std 4) "1/2" "(/ (int 1) (int 2))" := by decide +kernel
example : gives (moditive std (expression std 4)) "2%2" "(% (int 2) (int 2))" := by decide +kernel
example : gives (additive std (expression std 4)) "1+2" "(+ (int 1) (int 2))" := by decide +kernel
-- test_comparative, test_comparative_symbol_number
example : gives (expression std 4) "1>2" "(> (int 1) (int 2))" := by decide +kernel
example : gives (comparative std (expression std 4)) "a>2" "(> (sym a) (int 2))" := by decide +kernel

end OniComb.Tests.Toys
