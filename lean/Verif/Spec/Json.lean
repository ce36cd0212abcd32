import Verif.Model.Json

/-!
# Specification: JSON texts

The grammar of RFC 8259, as relations between texts and values.  With `lax = true` the relations also
allow the two deviations of the examples: a comma after the last element of a non-empty array or object,
and control characters inside strings.
-/

namespace OniComb.Json.Spec
open OniComb.Json (Kind Value)

section
variable {I F : Type} [Element I] (K : Kind I F) (lax : Bool)

/-- ws -/
def Ws (t : List I) : Prop := ∀ b ∈ t, b = K.lit ' ' ∨ b = K.lit '\t' ∨ b = K.lit '\r' ∨ b = K.lit '\n'

/-- DIGIT -/
def Digit (b : I) : Prop := b ∈ K.lits "0123456789"

/-- 1*DIGIT -/
def Digits (t : List I) : Prop := t ≠ [] ∧ ∀ b ∈ t, Digit K b

/-- int = zero / ( digit1-9 *DIGIT ) -/
inductive IntText : List I → Prop where
  | zero : IntText [K.lit '0']
  | pos {d : I} {ds : List I} : Digit K d → d ≠ K.lit '0' → (∀ b ∈ ds, Digit K b) → IntText (d :: ds)

/-- [ frac ], frac = decimal-point 1*DIGIT -/
inductive FracText : List I → Prop where
  | none : FracText []
  | some {ds : List I} : Digits K ds → FracText (K.lit '.' :: ds)

/-- [ minus / plus ] -/
inductive SignText : List I → Prop where
  | none : SignText []
  | minus : SignText [K.lit '-']
  | plus : SignText [K.lit '+']

/-- [ exp ], exp = e [ minus / plus ] 1*DIGIT -/
inductive ExpText : List I → Prop where
  | none : ExpText []
  | some {e : I} {s ds : List I} : e = K.lit 'e' ∨ e = K.lit 'E' → SignText K s → Digits K ds →
      ExpText (e :: (s ++ ds))

/-- number = [ minus ] int [ frac ] [ exp ] -/
def NumText (t : List I) : Prop :=
  ∃ s i f e, t = s ++ (i ++ (f ++ e)) ∧ (s = [] ∨ s = [K.lit '-']) ∧ IntText K i ∧ FracText K f ∧ ExpText K e

/-- One `char` of a string literal. -/
inductive Item (I : Type) where
  /-- unescaped -/
  | raw (b : I)
  /-- a backslash and one of `" \ / b f n r t` -/
  | esc (c : Char)
  /-- `\u` and four hexadecimal digits -/
  | uni (ds : List I)

/-- HEXDIG in both cases -/
def Hex (b : I) : Prop := b ∈ K.lits "0123456789abcdefABCDEF"

/-- The value of a hexadecimal digit. -/
def hexDigit (b : I) : Nat :=
  if Element.code b ≤ 57 then Element.code b - 48
  else if Element.code b ≤ 70 then Element.code b - 55 else Element.code b - 87

/-- The number written by hexadecimal digits. -/
def hexValue (ds : List I) : Nat := ds.foldl (fun n b => n * 16 + hexDigit b) 0

/-- Which items may occur. -/
def Item.Ok : Item I → Prop
  | .raw b => b ≠ K.lit '"' ∧ b ≠ K.lit '\\' ∧ (lax = true ∨ 0x20 ≤ Element.code b)
  | .esc c => c ∈ ['"', '\\', '/', 'b', 'f', 'n', 'r', 't']
  | .uni ds => ds.length = 4 ∧ ∀ b ∈ ds, Hex K b

/-- How an item is written. -/
def Item.text : Item I → List I
  | .raw b => [b]
  | .esc c => [K.lit '\\', K.lit c]
  | .uni ds => K.lit '\\' :: K.lit 'u' :: ds

/-- The character an escape stands for. -/
def escaped (c : Char) : Char :=
  if c = 'b' then Char.ofNat 8 else if c = 'f' then Char.ofNat 12 else if c = 'n' then '\n'
  else if c = 'r' then '\r' else if c = 't' then '\t' else c

/-- What an item contributes: an element of the string or a UTF-16 code unit. -/
def Item.unit : Item I → I ⊕ Nat
  | .raw b => .inl b
  | .esc c => .inl (K.lit (escaped c))
  | .uni ds => .inr (hexValue ds)

/-- The string denoted: two adjacent `\u` escapes that form a surrogate pair are one code point, any other
surrogate is U+FFFD. -/
def decode : List (I ⊕ Nat) → List I
  | [] => []
  | .inl b :: r => b :: decode r
  | .inr u :: .inr w :: r =>
    if Unicode.isHigh u && Unicode.isLow w then
      K.enc (0x10000 + (u - 0xD800) * 0x400 + (w - 0xDC00)) ++ decode r
    else K.enc (if Unicode.isHigh u || Unicode.isLow u then 0xFFFD else u) ++ decode (.inr w :: r)
  | .inr u :: r => K.enc (if Unicode.isHigh u || Unicode.isLow u then 0xFFFD else u) ++ decode r

/-- Every longest run of elements between `\u` escapes is the content of a `String`; for bytes: is UTF-8. -/
def Utf8 (us : List (I ⊕ Nat)) : Prop :=
  ∀ pre run post, us = pre ++ (run.map Sum.inl ++ post) → run ≠ [] →
    (pre = [] ∨ ∃ p u, pre = p ++ [.inr u]) → (post = [] ∨ ∃ u p, post = .inr u :: p) → K.str run = some run

/-- string = quotation-mark *char quotation-mark -/
def StrText (s t : List I) : Prop :=
  ∃ items : List (Item I), (∀ it ∈ items, it.Ok K lax) ∧ Utf8 K (items.map (Item.unit K)) ∧
    s = decode K (items.map (Item.unit K)) ∧
    t = K.lit '"' :: (items.flatMap (Item.text K) ++ [K.lit '"'])

/-- The entries that no later entry replaces. -/
def lastOf {V : Type} [DecidableEq I] : List (List I × V) → List (List I × V)
  | [] => []
  | e :: ms => if e.1 ∈ ms.map Prod.fst then lastOf ms else e :: lastOf ms

variable [DecidableEq I]

mutual

/-- value, without the white space around it -/
inductive Text : Value I F → List I → Prop where
  | null : Text .null (K.lits "null")
  | true_ : Text (.bool true) (K.lits "true")
  | false_ : Text (.bool false) (K.lits "false")
  | num {t : List I} {x : F} : NumText K t → K.f64 t = some x → Text (.num x) t
  | str {s t : List I} : StrText K lax s t → Text (.str s) t
  | arrEmpty {w : List I} : Ws K w → Text (.arr []) (K.lit '[' :: (w ++ [K.lit ']']))
  | arr {vs : List (Value I F)} {t : List I} : Elems vs t → Text (.arr vs) (K.lit '[' :: (t ++ [K.lit ']']))
  | objEmpty {w : List I} : Ws K w → Text (.obj []) (K.lit '{' :: (w ++ [K.lit '}']))
  | obj {ms : List (List I × Value I F)} {t : List I} : Members ms t →
      Text (.obj (lastOf ms)) (K.lit '{' :: (t ++ [K.lit '}']))

/-- value *( "," value ) -/
inductive Elems : List (Value I F) → List I → Prop where
  | one {v : Value I F} {a t b : List I} : Ws K a → Text v t → Ws K b → Elems [v] (a ++ (t ++ b))
  | trailing {v : Value I F} {a t b c : List I} : lax = true → Ws K a → Text v t → Ws K b → Ws K c →
      Elems [v] (a ++ (t ++ (b ++ K.lit ',' :: c)))
  | cons {v : Value I F} {vs : List (Value I F)} {a t b r : List I} : Ws K a → Text v t → Ws K b → Elems vs r →
      Elems (v :: vs) (a ++ (t ++ (b ++ K.lit ',' :: r)))

/-- member *( "," member ), member = string ":" value -/
inductive Members : List (List I × Value I F) → List I → Prop where
  | one {k : List I} {v : Value I F} {a s b c t d : List I} : Ws K a → StrText K lax k s → Ws K b → Ws K c →
      Text v t → Ws K d → Members [(k, v)] (a ++ (s ++ (b ++ K.lit ':' :: (c ++ (t ++ d)))))
  | trailing {k : List I} {v : Value I F} {a s b c t d e : List I} : lax = true → Ws K a → StrText K lax k s →
      Ws K b → Ws K c → Text v t → Ws K d → Ws K e →
      Members [(k, v)] (a ++ (s ++ (b ++ K.lit ':' :: (c ++ (t ++ (d ++ K.lit ',' :: e))))))
  | cons {k : List I} {v : Value I F} {ms : List (List I × Value I F)} {a s b c t d r : List I} : Ws K a →
      StrText K lax k s → Ws K b → Ws K c → Text v t → Ws K d → Members ms r →
      Members ((k, v) :: ms) (a ++ (s ++ (b ++ K.lit ':' :: (c ++ (t ++ (d ++ K.lit ',' :: r))))))

end

/-- JSON-text = ws value ws -/
def Doc (v : Value I F) (t : List I) : Prop := ∃ a u b, t = a ++ (u ++ b) ∧ Ws K a ∧ Text K lax v u ∧ Ws K b

/-! ## Printing -/

/-- The digit of a number below 16. -/
def hexChar (i : Nat) : Char := Char.ofNat (if i < 10 then 48 + i else 87 + i)

/-- How an element of a string is written: quotes, backslashes and control characters are escaped. -/
def itemOf (b : I) : Item I :=
  if b = K.lit '"' then .esc '"'
  else if b = K.lit '\\' then .esc '\\'
  else if Element.code b < 0x20 then
    .uni [K.lit '0', K.lit '0', K.lit (hexChar (Element.code b / 16)), K.lit (hexChar (Element.code b % 16))]
  else .raw b

/-- A string literal. -/
def quote (s : List I) : List I := K.lit '"' :: (s.flatMap (fun b => (itemOf K b).text K) ++ [K.lit '"'])

variable (num : F → List I)

mutual

/-- The text of a value, without white space; `num` writes numbers. -/
def print : Value I F → List I
  | .null => K.lits "null"
  | .bool true => K.lits "true"
  | .bool false => K.lits "false"
  | .str s => quote K s
  | .num x => num x
  | .arr vs => K.lit '[' :: (printElems vs ++ [K.lit ']'])
  | .obj ms => K.lit '{' :: (printMembers ms ++ [K.lit '}'])

/-- The elements, separated by commas. -/
def printElems : List (Value I F) → List I
  | [] => []
  | [v] => print v
  | v :: w :: vs => print v ++ K.lit ',' :: printElems (w :: vs)

/-- The members, separated by commas. -/
def printMembers : List (List I × Value I F) → List I
  | [] => []
  | [(k, v)] => quote K k ++ K.lit ':' :: print v
  | (k, v) :: m :: ms => quote K k ++ K.lit ':' :: (print v ++ K.lit ',' :: printMembers (m :: ms))

end

/-- A value of the program: strings are `String`s, the keys of a map differ, and `num` writes each number
as JSON does and so that `f64::from_str` reads it back. -/
inductive Proper : Value I F → Prop where
  | null : Proper .null
  | bool (b : Bool) : Proper (.bool b)
  | str {s : List I} : K.str s = some s → Proper (.str s)
  | num {x : F} : NumText K (num x) → K.f64 (num x) = some x → Proper (.num x)
  | arr {vs : List (Value I F)} : (∀ v ∈ vs, Proper v) → Proper (.arr vs)
  | obj {ms : List (List I × Value I F)} : (ms.map Prod.fst).Nodup → (∀ k ∈ ms.map Prod.fst, K.str k = some k) →
      (∀ v ∈ ms.map Prod.snd, Proper v) → Proper (.obj ms)

end

end OniComb.Json.Spec
