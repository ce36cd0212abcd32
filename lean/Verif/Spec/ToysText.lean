import Verif.Model.ToysParse
import Verif.Spec.Calculator
import Verif.Spec.Json
import Verif.Spec.Toys

/-!
# The language of the toys parser

A grammar of the language as relations between expressions and texts.  The text of a construct begins and ends with
a character that is not blank; where blanks may stand is written out in the rules.

The flag `lax` selects one of two languages.  The lax language is what the parser can accept at all.  The strict
language is the part of it that a programmer can rely on; the rules say `lax = true ∨ …` where it is narrower:

* a variable that is read is not `f`, `fa`, `fal` or `fals`, which are read only at the very end of the input
  (other variables that begin with `f`, or with `true`, are never read: `Readable`),
* there are no blanks between the `=` of a labelled parameter and its expression,
* the words `in` and `to` of a `for` are separated by blanks from what stands before them,
* an expression statement does not look like `println (…`, `while (…`, `if (…` or `for (…`,
* a statement ending in an `if` without `else` is not followed by `else`.
-/

namespace OniComb.Toys.Text
open OniComb.Calc.Spec (Blank Digits)

/-- Letters and the underscore. -/
def Start (c : Char) : Prop := 'a' ≤ c ∧ c ≤ 'z' ∨ 'A' ≤ c ∧ c ≤ 'Z' ∨ c = '_'

/-- Letters, digits and the underscore. -/
def Part (c : Char) : Prop := Start c ∨ '0' ≤ c ∧ c ≤ '9'

/-- Names. -/
def Ident (n : Name) : Prop := ∃ c r, n.toList = c :: r ∧ Start c ∧ ∀ d ∈ r, Part d

/-- The number written by decimal digits. -/
def decimal (ds : List Char) : Nat := ds.foldl (fun n c => n * 10 + (c.toNat - 48)) 0

/-- Integer literals of 64 bits. -/
inductive IntText : Int → List Char → Prop where
  | pos {ds : List Char} : Digits ds → Fits (decimal ds) → IntText (decimal ds) ds
  | neg {ds : List Char} : Digits ds → Fits (-(decimal ds : Int)) → IntText (-(decimal ds : Int)) ('-' :: ds)

/-- String literals: those of JSON, except that control characters may be written as they are. -/
def StrText (s : String) (t : List Char) : Prop :=
  Json.Spec.StrText (Json.charKind (F := Unit) fun _ => none) true s.toList t

/-- `x , x , … , x` -/
inductive Commas {A : Type} (P : A → List Char → Prop) : List A → List Char → Prop where
  | one {x : A} {t : List Char} : P x t → Commas P [x] t
  | cons {x : A} {xs : List A} {t a b u : List Char} : P x t → Blank a → Blank b → Commas P xs u →
      Commas P (x :: xs) (t ++ (a ++ ',' :: (b ++ u)))

/-- What stands between brackets: nothing, or a list, possibly with a comma at its end. -/
inductive Listing {A : Type} (P : A → List Char → Prop) : List A → List Char → Prop where
  | empty {a : List Char} : Blank a → Listing P [] a
  | plain {xs : List A} {a u b : List Char} : Blank a → Commas P xs u → Blank b → Listing P xs (a ++ (u ++ b))
  | trailing {xs : List A} {a u b c : List Char} : Blank a → Commas P xs u → Blank b → Blank c →
      Listing P xs (a ++ (u ++ (b ++ ',' :: c)))

/-- Operands joined by binary operators, which associate to the left. -/
inductive Chain (P : Expr → List Char → Prop) (O : Operator → List Char → Prop) : Expr → List Char → Prop where
  | one {e : Expr} {t : List Char} : P e t → Chain P O e t
  | op {o : Operator} {l r : Expr} {t a w b u : List Char} : Chain P O l t → Blank a → O o w → Blank b → P r u →
      Chain P O (.binary o l r) (t ++ (a ++ (w ++ (b ++ u))))

/-- `*` and `/`, which bind tightest. -/
inductive MulOp : Operator → List Char → Prop where
  | mul : MulOp .multiply ['*']
  | div : MulOp .divide ['/']

/-- `%`. -/
inductive ModOp : Operator → List Char → Prop where
  | mod : ModOp .mod ['%']

/-- `+` and `-`. -/
inductive AddOp : Operator → List Char → Prop where
  | add : AddOp .add ['+']
  | sub : AddOp .subtract ['-']

/-- Comparisons and logical operators, all of which bind weakest. -/
inductive CmpOp : Operator → List Char → Prop where
  | lt : CmpOp .lessThan ['<']
  | le : CmpOp .lessOrEqual ['<', '=']
  | gt : CmpOp .greaterThan ['>']
  | ge : CmpOp .greaterOrEqual ['>', '=']
  | eq : CmpOp .equalEqual ['=', '=']
  | ne : CmpOp .notEqual ['!', '=']
  | and : CmpOp .and ['&', '&']
  | or : CmpOp .or ['|', '|']

section
variable (lax : Bool)

/-- The variables that can be read: those that begin neither with `f` nor with `true`. -/
def Readable (n : Name) : Prop := (∀ r, n.toList ≠ 'f' :: r) ∧ ¬ ['t', 'r', 'u', 'e'] <+: n.toList

/-- A labelled parameter, `E` being the expressions. -/
inductive Param (E : Expr → List Char → Prop) : Name × Expr → List Char → Prop where
  | mk {n : Name} {e : Expr} {a b t : List Char} : Ident n → Blank a → Blank b → (lax = true ∨ b = []) → E e t →
      Param E (n, e) (n.toList ++ (a ++ '=' :: (b ++ t)))

/-- Operands. -/
inductive Prim : Expr → List Char → Prop where
  | paren {e : Expr} {a t b : List Char} : Blank a →
      Chain (Chain (Chain (Chain Prim MulOp) ModOp) AddOp) CmpOp e t → Blank b →
      Prim (.parenthesized e) ('(' :: (a ++ (t ++ (b ++ [')']))))
  | int {i : Int} {t : List Char} : IntText i t → Prim (.integerLiteral i) t
  | str {s : String} {t : List Char} : StrText s t → Prim (.stringLiteral s) t
  | call {n : Name} {es : List Expr} {a u : List Char} : Ident n → Blank a →
      Listing (Chain (Chain (Chain (Chain Prim MulOp) ModOp) AddOp) CmpOp) es u →
      Prim (.functionCall n es) (n.toList ++ (a ++ '(' :: (u ++ [')'])))
  | labelled {n : Name} {ps : List (Name × Expr)} {a u : List Char} : Ident n → Blank a → ps ≠ [] →
      Listing (Param lax (Chain (Chain (Chain (Chain Prim MulOp) ModOp) AddOp) CmpOp)) ps u →
      Prim (.labelledCall n ps) (n.toList ++ (a ++ '[' :: (u ++ [']'])))
  | array {es : List Expr} {u : List Char} :
      Listing (Chain (Chain (Chain (Chain Prim MulOp) ModOp) AddOp) CmpOp) es u →
      Prim (.arrayLiteral es) ('[' :: (u ++ [']']))
  | tru : Prim (.boolLiteral true) "true".toList
  | fls : Prim (.boolLiteral false) "false".toList
  | var {n : Name} : Ident n → (Readable n ∨ lax = true ∧ n.toList <+: "fals".toList) → Prim (.symbol n) n.toList

/-- Expressions. -/
abbrev Ex : Expr → List Char → Prop := Chain (Chain (Chain (Chain (Prim lax) MulOp) ModOp) AddOp) CmpOp

/-- The text looks like a statement with the keyword. -/
def Keyword (k : String) (t : List Char) : Prop := ∃ b r, Blank b ∧ t = k.toList ++ (b ++ '(' :: r)

/-- The text looks like a statement with a keyword in front of a parenthesis. -/
def LooksReserved (t : List Char) : Prop := ∃ k ∈ ["println", "while", "if", "for"], Keyword k t

/-- The word `else` stands behind some blanks. -/
def ElseFollows (t : List Char) : Prop := ∃ b r, Blank b ∧ t = b ++ ("else".toList ++ r)

mutual
/-- Statements.  The flag tells whether the statement ends in an `if` without `else`. -/
inductive Line : Bool → Expr → List Char → Prop where
  | println {e : Expr} {a b t c d : List Char} : Blank a → Blank b → Ex lax e t → Blank c → Blank d →
      Line false (.println e) ("println".toList ++ (a ++ '(' :: (b ++ (t ++ (c ++ ')' :: (d ++ [';']))))))
  | whileDo {o : Bool} {e s : Expr} {a b t c d u : List Char} : Blank a → Blank b → Ex lax e t → Blank c → Blank d →
      Line o s u → Line o (.while e s) ("while".toList ++ (a ++ '(' :: (b ++ (t ++ (c ++ ')' :: (d ++ u))))))
  | ifThen {o : Bool} {e s : Expr} {a b t c d u : List Char} : Blank a → Blank b → Ex lax e t → Blank c → Blank d →
      Line o s u → Line true (.if e s none) ("if".toList ++ (a ++ '(' :: (b ++ (t ++ (c ++ ')' :: (d ++ u))))))
  | ifElse {o o' : Bool} {e s s' : Expr} {a b t c d u f g v : List Char} : Blank a → Blank b → Ex lax e t →
      Blank c → Blank d → Line o s u → (lax = true ∨ o = false) → Blank f → Blank g → Line o' s' v →
      Line o' (.if e s (some s')) ("if".toList ++ (a ++ '(' :: (b ++ (t ++ (c ++ ')' :: (d ++ (u ++
        (f ++ ("else".toList ++ (g ++ v))))))))))
  | forDo {o : Bool} {n : Name} {e e' s : Expr} {a b c d t f g u h i v : List Char} : Blank a → Blank b → Ident n →
      Blank c → (lax = true ∨ c ≠ []) → Blank d → Ex lax e t → Blank f → (lax = true ∨ f ≠ []) → Blank g →
      Ex lax e' u → Blank h → Blank i → Line o s v →
      Line o (forLoop n e e' s) ("for".toList ++ (a ++ '(' :: (b ++ (n.toList ++ (c ++ ("in".toList ++ (d ++
        (t ++ (f ++ ("to".toList ++ (g ++ (u ++ (h ++ ')' :: (i ++ v))))))))))))))
  | assign {n : Name} {e : Expr} {a b t c : List Char} : Ident n → Blank a → Blank b → Ex lax e t → Blank c →
      Line false (.assignment n e) (n.toList ++ (a ++ '=' :: (b ++ (t ++ (c ++ [';'])))))
  | expr {e : Expr} {t a : List Char} : Ex lax e t → Blank a →
      (lax = true ∨ ¬ LooksReserved (t ++ (a ++ [';']))) → Line false e (t ++ (a ++ [';']))
  | block {es : List Expr} {u : List Char} : Body es u → Line false (.block es) ('{' :: (u ++ ['}']))

/-- What stands between braces: statements with blanks around them. -/
inductive Body : List Expr → List Char → Prop where
  | nil {a : List Char} : Blank a → Body [] a
  | cons {o : Bool} {e : Expr} {es : List Expr} {a t u : List Char} : Blank a → Line o e t → Body es u →
      (lax = true ∨ o = false ∨ ¬ ElseFollows u) → Body (e :: es) (a ++ (t ++ u))
end

/-- A parameter of a function. -/
def IsName (n : Name) (t : List Char) : Prop := Ident n ∧ t = n.toList

/-- Definitions. -/
inductive Def : Expr → List Char → Prop where
  | glob {n : Name} {e : Expr} {a b c t d : List Char} : Blank a → Ident n → Blank b → Blank c → Ex lax e t →
      Blank d → Def (.globalVariableDefinition n e)
        ("global".toList ++ (a ++ (n.toList ++ (b ++ '=' :: (c ++ (t ++ (d ++ [';'])))))))
  | func {n : Name} {ns : List Name} {es : List Expr} {a b u c v : List Char} : Blank a → Ident n → Blank b →
      Listing IsName ns u → Blank c → Body lax es v → Def (.functionDefinition n ns (.block es))
        ("fn".toList ++ (a ++ (n.toList ++ (b ++ '(' :: (u ++ ')' :: (c ++ '{' :: (v ++ ['}'])))))))

/-- Programs: definitions with blanks around them. -/
inductive Prog : List Expr → List Char → Prop where
  | nil {a : List Char} : Blank a → Prog [] a
  | cons {e : Expr} {es : List Expr} {a t u : List Char} : Blank a → Def lax e t → Prog es u →
      Prog (e :: es) (a ++ (t ++ u))

end

/-- The variable is read somewhere in the expression. -/
inductive Mentions (n : Name) : Expr → Prop where
  | here : Mentions n (.symbol n)
  | left {o : Operator} {l r : Expr} : Mentions n l → Mentions n (.binary o l r)
  | right {o : Operator} {l r : Expr} : Mentions n r → Mentions n (.binary o l r)
  | paren {e : Expr} : Mentions n e → Mentions n (.parenthesized e)
  | array {e : Expr} {es : List Expr} : e ∈ es → Mentions n e → Mentions n (.arrayLiteral es)
  | call {f : Name} {e : Expr} {es : List Expr} : e ∈ es → Mentions n e → Mentions n (.functionCall f es)
  | labelled {f l : Name} {e : Expr} {ps : List (Name × Expr)} : (l, e) ∈ ps → Mentions n e →
      Mentions n (.labelledCall f ps)

/-- Conventional integer arithmetic and its value: level 0 are the sums, level 1 the products and level 2 the
operands; operations of the same level associate to the left.  All results fit in 64 bits. -/
inductive Arith : Nat → Int → List Char → Prop where
  | lit {i : Int} {t : List Char} : IntText i t → Arith 2 i t
  | paren {i : Int} {a t b : List Char} : Blank a → Arith 0 i t → Blank b → Arith 2 i ('(' :: (a ++ (t ++ (b ++ [')']))))
  | product {i : Int} {t : List Char} : Arith 2 i t → Arith 1 i t
  | sum {i : Int} {t : List Char} : Arith 1 i t → Arith 0 i t
  | add {i j : Int} {t a b u : List Char} : Arith 0 i t → Blank a → Blank b → Arith 1 j u → Fits (i + j) →
      Arith 0 (i + j) (t ++ (a ++ '+' :: (b ++ u)))
  | sub {i j : Int} {t a b u : List Char} : Arith 0 i t → Blank a → Blank b → Arith 1 j u → Fits (i - j) →
      Arith 0 (i - j) (t ++ (a ++ '-' :: (b ++ u)))
  | mul {i j : Int} {t a b u : List Char} : Arith 1 i t → Blank a → Blank b → Arith 2 j u → Fits (i * j) →
      Arith 1 (i * j) (t ++ (a ++ '*' :: (b ++ u)))
  | div {i j : Int} {t a b u : List Char} : Arith 1 i t → Blank a → Blank b → Arith 2 j u → j ≠ 0 → Fits (i.tdiv j) →
      Arith 1 (i.tdiv j) (t ++ (a ++ '/' :: (b ++ u)))

end OniComb.Toys.Text
