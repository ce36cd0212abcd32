import Verif.Spec.HoconLayout
import Verif.Spec.HoconString

/-!
# Specification: JSON values as configuration values

Which JSON values are in question and which configuration value they are.  Numbers are decimals; `num` writes them.
-/

namespace OniComb.Hocon.Spec
open OniComb OniComb.Hocon
open OniComb.Uri (Bytes byte bytes)

/-- A JSON value with decimals. -/
abbrev JsonValue := Json.Value UInt8 Decimal

mutual
/-- The same value as a configuration value. -/
def ofJson : JsonValue → Value
  | .null => .null
  | .bool b => .bool b
  | .str s => .str s
  | .num d => .num d
  | .arr vs => .arr (ofJsonElems vs)
  | .obj ms => .obj (ofJsonMembers ms)
/-- The elements of an array. -/
def ofJsonElems : List JsonValue → List Value
  | [] => []
  | v :: vs => ofJson v :: ofJsonElems vs
/-- The members of an object. -/
def ofJsonMembers : List (Bytes × JsonValue) → List (Bytes × Value)
  | [] => []
  | (k, v) :: ms => (k, ofJson v) :: ofJsonMembers ms
end

/-- The value of a key. -/
def jsonGet (k : Bytes) (ms : List (Bytes × JsonValue)) : Option JsonValue := (ms.find? fun m => m.1 == k).map Prod.snd

/-- The value at a path of keys. -/
def jsonAt : List Bytes → JsonValue → Option JsonValue
  | [], v => some v
  | k :: ks, .obj ms => (jsonGet k ms).bind (jsonAt ks)
  | _ :: _, _ => none

/-- The value is an object. -/
def JsonObj : JsonValue → Prop
  | .obj _ => True
  | _ => False

/-- The value is an array. -/
def JsonArr : JsonValue → Prop
  | .arr _ => True
  | _ => False

/-- The content of a string: not empty, valid UTF-8, without brackets and single quotes, and not beginning with a
space or with the sign of a comment. -/
def JsonString (s : Bytes) : Prop :=
  s ≠ [] ∧ Uri.validUtf8 s = true ∧ (∀ b ∈ s, b ∉ bytes "[]'") ∧ ∀ b, s.head? = some b → b ∉ bytes " #/"

/-- The JSON values in question: numbers are written without sign and exponent, and in no array does an array come
behind an object. -/
inductive JsonPlain (dec : Bytes → Option Decimal) (num : Decimal → Bytes) : JsonValue → Prop where
  | null : JsonPlain dec num .null
  | bool (b : Bool) : JsonPlain dec num (.bool b)
  | str {s : Bytes} : JsonString s → JsonPlain dec num (.str s)
  | num {d : Decimal} : DecimalText (num d) → dec (num d) = some d → JsonPlain dec num (.num d)
  | arr {vs : List JsonValue} : (∀ v ∈ vs, JsonPlain dec num v) → vs.Pairwise (fun v w => ¬ (JsonObj v ∧ JsonArr w)) →
      JsonPlain dec num (.arr vs)
  | obj {ms : List (Bytes × JsonValue)} : (ms.map Prod.fst).Nodup → (∀ k ∈ ms.map Prod.fst, JsonString k) →
      (∀ v ∈ ms.map Prod.snd, JsonPlain dec num v) → JsonPlain dec num (.obj ms)

/-! ## Texts with white space -/

/-- A string literal of JSON: not empty, without brackets and single quotes standing for themselves, and not
beginning with a space or with the sign of a comment. -/
def JsonLiteral (s t : Bytes) : Prop :=
  ∃ items : List StrItem, items ≠ [] ∧ (∀ it ∈ items, it.Ok strKind false) ∧ (∀ b, .raw b ∈ items → b ∉ bytes "[]'") ∧
    Json.Spec.Utf8 strKind (items.map (Json.Spec.Item.unit strKind)) ∧ FirstOk items ∧
    t = byte '"' :: itemsText items ++ [byte '"'] ∧ s = denoted items

mutual
/-- JSON texts with any white space; numbers without sign and exponent, different keys, and
what comes behind an object in an array does not look like a setting, `Layout.Guarded`. -/
inductive JsonText (dec : Bytes → Option Decimal) : JsonValue → Bytes → Prop where
  | null : JsonText dec .null (bytes "null")
  | true_ : JsonText dec (.bool true) (bytes "true")
  | false_ : JsonText dec (.bool false) (bytes "false")
  | num {t : Bytes} {d : Decimal} : DecimalText t → dec t = some d → JsonText dec (.num d) t
  | str {s t : Bytes} : JsonLiteral s t → JsonText dec (.str s) t
  | arrEmpty {w : Bytes} : Blanks w → JsonText dec (.arr []) (byte '[' :: (w ++ [byte ']']))
  | arr {vs : List JsonValue} {t : Bytes} : JsonElems dec vs t →
      JsonText dec (.arr vs) (byte '[' :: (t ++ [byte ']']))
  | objEmpty {w : Bytes} : Blanks w → JsonText dec (.obj []) (byte '{' :: (w ++ [byte '}']))
  | obj {ms : List (Bytes × JsonValue)} {t : Bytes} : JsonMembers dec ms t → (ms.map Prod.fst).Nodup →
      JsonText dec (.obj ms) (byte '{' :: (t ++ [byte '}']))
/-- The elements of an array. -/
inductive JsonElems (dec : Bytes → Option Decimal) : List JsonValue → Bytes → Prop where
  | one {v : JsonValue} {a t b : Bytes} : Blanks a → JsonText dec v t → Blanks b →
      JsonElems dec [v] (a ++ (t ++ b))
  | cons {v : JsonValue} {vs : List JsonValue} {a t b r : Bytes} : Blanks a → JsonText dec v t → Blanks b →
      (JsonObj v → ∀ x, Layout.Guarded (b ++ byte ',' :: (r ++ byte ']' :: x))) → JsonElems dec vs r → JsonElems dec (v :: vs) (a ++ (t ++ (b ++ byte ',' :: r)))
/-- The members of an object. -/
inductive JsonMembers (dec : Bytes → Option Decimal) : List (Bytes × JsonValue) → Bytes → Prop where
  | one {k : Bytes} {v : JsonValue} {a s b c t d : Bytes} : Blanks a → JsonLiteral k s → Blanks b → Blanks c →
      JsonText dec v t → Blanks d → JsonMembers dec [(k, v)] (a ++ (s ++ (b ++ byte ':' :: (c ++ (t ++ d)))))
  | cons {k : Bytes} {v : JsonValue} {ms : List (Bytes × JsonValue)} {a s b c t d r : Bytes} : Blanks a →
      JsonLiteral k s → Blanks b → Blanks c → JsonText dec v t → Blanks d → JsonMembers dec ms r →
      JsonMembers dec ((k, v) :: ms) (a ++ (s ++ (b ++ byte ':' :: (c ++ (t ++ (d ++ byte ',' :: r))))))
end

/-- An object or an array between white space. -/
def JsonDoc (dec : Bytes → Option Decimal) (v : JsonValue) (t : Bytes) : Prop :=
  ∃ a u b, t = a ++ (u ++ b) ∧ Blanks a ∧ JsonText dec v u ∧ Blanks b ∧ (JsonObj v ∨ JsonArr v)

end OniComb.Hocon.Spec
