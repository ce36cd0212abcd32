import Verif.Model.Combinators
import Verif.Model.Elements
import Verif.Model.Repeat
import Verif.Model.Unicode
import Verif.Model.Uri

/-!
# The JSON examples

`/repo/parser/examples/json_char.rs` (input `&[char]`) and `/repo/parser/examples/json_byte.rs` (input
`&[u8]`).  The two files are the same grammar over two element types; the model is written once over a
`Kind` that holds what differs.  Line numbers are of `json_char.rs` / `json_byte.rs`.
-/

namespace OniComb.Json

/-- What the two files take from the language and the standard library.  `F` stands for `f64`. -/
structure Kind (I F : Type) where
  /-- the literal `'c'` or `b'c'` -/
  lit : Char → I
  /-- the elements a `\u` escape may contain: `c.is_digit(16)` (char:44) or `is_hex_digit` (byte:43) -/
  hex : I → Bool
  /-- from the elements read to a `String`: `String::from_iter` (char:26, 42, 46) or `from_utf8`
  (byte:25, 41, 45) -/
  str : List I → Option (List I)
  /-- `u16::from_str_radix(&digits, 16)`, char:47 / byte:46 -/
  u16 : List I → Option Nat
  /-- the elements of a code point in a `String` -/
  enc : Nat → List I
  /-- `f64::from_str` -/
  f64 : List I → Option F

/-- The kind of `json_char.rs`; a `String` is the list of its `char`s. -/
def charKind {F : Type} (f64 : List Char → Option F) : Kind Char F where
  lit := id
  hex := Chr.isHexDigit
  str := some
  u16 := fun ds => Uri.parseUInt 16 65535 (ds.flatMap fun c => Unicode.encodeUtf8 c.toNat)
  enc := fun c => [Char.ofNat c]
  f64 := f64

/-- The kind of `json_byte.rs`; a `String` is the list of its UTF-8 bytes. -/
def byteKind {F : Type} (f64 : List UInt8 → Option F) : Kind UInt8 F where
  lit := Uri.byte
  hex := Element.isHexDigit
  str := Uri.fromUtf8
  u16 := Uri.parseUInt 16 65535
  enc := Unicode.encodeUtf8
  f64 := f64

/-- `JsonValue`, char:7-15 / byte:6-14.  A `HashMap` is a list of entries with different keys; the order
carries no meaning (see `collectMap`). -/
inductive Value (I F : Type) where
  | null
  | bool (b : Bool)
  | str (s : List I)
  | num (x : F)
  | arr (vs : List (Value I F))
  | obj (ms : List (List I × Value I F))

section
variable {I F V : Type} [DecidableEq I] [Element I] (K : Kind I F)

/-- The elements of a string literal. -/
def Kind.lits (K : Kind I F) (s : String) : List I := s.toList.map K.lit

/-- `HashMap::insert`: the new entry replaces one with the same key. -/
def insertMap (m : List (List I × V)) (e : List I × V) : List (List I × V) :=
  m.filter (fun x => !decide (x.1 = e.1)) ++ [e]

/-- `into_iter().collect::<HashMap<_, _>>()`, char:66 / byte:65: the entries are inserted in order. -/
def collectMap (ms : List (List I × V)) : List (List I × V) := ms.foldl insertMap []

/-- `space`, char:17-19 / byte:16-18. -/
def space : Parser I Unit := discard (many0 (elmOf (K.lits " \t\r\n")))

/-- `integer` of `number`, char:22 / byte:21. -/
def integer : Parser I I := or (skipRight elmDigit19 (many0 elmDigit)) (elm (K.lit '0'))

/-- `frac` of `number`, char:23 / byte:22. -/
def frac : Parser I (I × List I) := andThen (elm (K.lit '.')) (many1 elmDigit)

/-- `exp` of `number`, char:24 / byte:23. -/
def exp : Parser I ((I × Option I) × List I) :=
  andThen (andThen (elmOf (K.lits "eE")) (opt (elmOf (K.lits "+-")))) (many1 elmDigit)

/-- `number`, char:21-27 / byte:20-26. -/
def number : Parser I F :=
  mapRes (mapRes (collect (andThen (andThen (andThen (opt (elm (K.lit '-'))) (integer K))
    (opt (frac K))) (opt (exp K)))) K.str) K.f64

/-- `special_char` of `string`, char:30-37 / byte:29-36. -/
def specialChar : Parser I I :=
  or (or (or (or (or (or (or (elm (K.lit '\\')) (elm (K.lit '/'))) (elm (K.lit '"')))
    (map (elm (K.lit 'b')) fun _ => K.lit (Char.ofNat 8)))
    (map (elm (K.lit 'f')) fun _ => K.lit (Char.ofNat 12)))
    (map (elm (K.lit 'n')) fun _ => K.lit '\n'))
    (map (elm (K.lit 'r')) fun _ => K.lit '\r'))
    (map (elm (K.lit 't')) fun _ => K.lit '\t')

/-- `escape_sequence` of `string`, char:38 / byte:37. -/
def escapeSequence : Parser I I := skipLeft (elm (K.lit '\\')) (specialChar K)

/-- `char_string` of `string`, char:39-42 / byte:38-41. -/
def charString : Parser I (List I) := mapRes (many1 (or (noneOf (K.lits "\\\"")) (escapeSequence K))) K.str

/-- `utf16_char` of `string`, char:43-47 / byte:42-46. -/
def utf16Char : Parser I Nat :=
  skipLeft (seq (K.lits "\\u")) (mapRes (mapRes (count (elmPred K.hex) 4) K.str) K.u16)

/-- `utf16_string` of `string`, char:48-52 / byte:47-51. -/
def utf16String : Parser I (List I) :=
  map (many1 (utf16Char K)) fun us => (Unicode.decodeUtf16 us).flatMap K.enc

/-- `string`, char:29-55 / byte:28-54. -/
def string : Parser I (List I) :=
  map (surround (elm (K.lit '"')) (many0 (or (charString K) (utf16String K))) (elm (K.lit '"'))) List.flatten

/-- `array` of `json_char.rs`, char:57-60: the delimiters drop the white space with `*` and `-`. -/
def arrayChar (value : Parser I (Value I F)) : Parser I (List (Value I F)) :=
  surround (skipRight (elm (K.lit '[')) (space K))
    (many0Sep value (skipRight (skipLeft (space K) (elm (K.lit ','))) (space K)))
    (skipLeft (space K) (elm (K.lit ']')))

/-- `array` of `json_byte.rs`, byte:56-59: the delimiters pair the white space up with `+`. -/
def arrayByte (value : Parser I (Value I F)) : Parser I (List (Value I F)) :=
  surround (andThen (elm (K.lit '[')) (space K))
    (many0Sep value (andThen (andThen (space K) (elm (K.lit ','))) (space K)))
    (andThen (space K) (elm (K.lit ']')))

/-- `member` of `object`, char:63 / byte:62. -/
def member (value : Parser I (Value I F)) : Parser I (List I × Value I F) :=
  andThen (skipRight (skipRight (skipRight (string K) (space K)) (elm (K.lit ':'))) (space K)) value

/-- `object`, char:62-67 / byte:61-66. -/
def object (value : Parser I (Value I F)) : Parser I (List (List I × Value I F)) :=
  map (surround (andThen (elm (K.lit '{')) (space K))
    (many0Sep (member K value) (andThen (andThen (space K) (elm (K.lit ','))) (space K)))
    (andThen (space K) (elm (K.lit '}')))) collectMap

/-- `value`, char:69-78 / byte:68-77, given the `array` of the file and what `lazy(value)` runs. -/
def valueOf (array : Parser I (Value I F) → Parser I (List (Value I F))) (value : Parser I (Value I F)) :
    Parser I (Value I F) :=
  skipRight
    (or (or (or (or (or (or (map (seq (K.lits "null")) fun _ => .null)
      (map (seq (K.lits "true")) fun _ => .bool true))
      (map (seq (K.lits "false")) fun _ => .bool false))
      (map (number K) .num))
      (map (string K) .str))
      (map (array value) .arr))
      (map (object K value) .obj))
    (space K)

/-- `json`, char:80-82 / byte:79-81, unrolled `n` times. -/
def jsonOf (array : Parser I (Value I F) → Parser I (List (Value I F))) (n : Nat) : Parser I (Value I F) :=
  skipRight (skipLeft (space K) (fixN (valueOf K array) n)) end_

end

/-- `json` of `json_char.rs`. -/
def jsonChar {F : Type} (f64 : List Char → Option F) (n : Nat) : Parser Char (Value Char F) :=
  jsonOf (charKind f64) (arrayChar (charKind f64)) n

/-- `json` of `json_byte.rs`. -/
def jsonByte {F : Type} (f64 : List UInt8 → Option F) (n : Nat) : Parser UInt8 (Value UInt8 F) :=
  jsonOf (byteKind f64) (arrayByte (byteKind f64)) n

end OniComb.Json
