import Verif.Model.Json
import Verif.Model.Steps

/-!
# The JSON examples, their steps counted

The parsers of `Model/Json` once more, written with the counted combinators of `Model/Steps`. Line numbers are of
`/repo/parser/examples/json_char.rs` / `/repo/parser/examples/json_byte.rs`.
-/

namespace OniComb.Json.Counting
open OniComb OniComb.Json
open OniComb.Counted (prim unary)

section
variable {I F : Type} [DecidableEq I] [Element I] (K : Kind I F)

/-- `elm`, extension/parsers/element_parsers.rs:17-27. -/
def one (c : Char) : Counted I I := prim (elm (K.lit c))

/-- `space`, char:17-19 / byte:16-18. -/
def space : Counted I Unit := unary discard (.many0 (prim (elmOf (K.lits " \t\r\n"))))

/-- `integer` of `number`, char:22 / byte:21. -/
def integer : Counted I I := .or (.skipRight (prim elmDigit19) (.many0 (prim elmDigit))) (one K '0')

/-- `frac` of `number`, char:23 / byte:22. -/
def frac : Counted I (I × List I) := .andThen (one K '.') (.many1 (prim elmDigit))

/-- `exp` of `number`, char:24 / byte:23. -/
def exp : Counted I ((I × Option I) × List I) :=
  .andThen (.andThen (prim (elmOf (K.lits "eE"))) (.opt (prim (elmOf (K.lits "+-"))))) (.many1 (prim elmDigit))

/-- The elements of a number, char:25 / byte:24. -/
def numeral : Counted I (((Option I × I) × Option (I × List I)) × Option ((I × Option I) × List I)) :=
  .andThen (.andThen (.andThen (.opt (one K '-')) (integer K)) (.opt (frac K))) (.opt (exp K))

/-- `number`, char:21-27 / byte:20-26. -/
def number : Counted I F :=
  unary (fun p => mapRes p K.f64) (unary (fun p => mapRes p K.str) (unary collect (numeral K)))

/-- `special_char` of `string`, char:30-37 / byte:29-36. -/
def specialChar : Counted I I :=
  .or (.or (.or (.or (.or (.or (.or (one K '\\') (one K '/')) (one K '"'))
    (unary (fun p => map p fun _ => K.lit (Char.ofNat 8)) (one K 'b')))
    (unary (fun p => map p fun _ => K.lit (Char.ofNat 12)) (one K 'f')))
    (unary (fun p => map p fun _ => K.lit '\n') (one K 'n')))
    (unary (fun p => map p fun _ => K.lit '\r') (one K 'r')))
    (unary (fun p => map p fun _ => K.lit '\t') (one K 't'))

/-- `escape_sequence` of `string`, char:38 / byte:37. -/
def escapeSequence : Counted I I := .skipLeft (one K '\\') (specialChar K)

/-- An item of `char_string`, char:40 / byte:39. -/
def charItem : Counted I I := .or (prim (noneOf (K.lits "\\\""))) (escapeSequence K)

/-- `char_string` of `string`, char:39-42 / byte:38-41. -/
def charString : Counted I (List I) := unary (fun p => mapRes p K.str) (.many1 (charItem K))

/-- `utf16_char` of `string`, char:43-47 / byte:42-46. -/
def utf16Char : Counted I Nat :=
  .skipLeft (.seq (K.lits "\\u"))
    (unary (fun p => mapRes p K.u16) (unary (fun p => mapRes p K.str) (.count (prim (elmPred K.hex)) 4)))

/-- `utf16_string` of `string`, char:48-52 / byte:47-51. -/
def utf16String : Counted I (List I) :=
  unary (fun p => map p fun us => (Unicode.decodeUtf16 us).flatMap K.enc) (.many1 (utf16Char K))

/-- `string`, char:29-55 / byte:28-54. -/
def string : Counted I (List I) :=
  unary (fun p => map p List.flatten) (.surround (one K '"') (.many0 (.or (charString K) (utf16String K))) (one K '"'))

/-- `array` of `json_char.rs`, char:57-60. -/
def arrayChar (value : Counted I (Value I F)) : Counted I (List (Value I F)) :=
  .surround (.skipRight (one K '[') (space K))
    (.many0Sep value (.skipRight (.skipLeft (space K) (one K ',')) (space K)))
    (.skipLeft (space K) (one K ']'))

/-- `array` of `json_byte.rs`, byte:56-59. -/
def arrayByte (value : Counted I (Value I F)) : Counted I (List (Value I F)) :=
  .surround (.andThen (one K '[') (space K))
    (.many0Sep value (.andThen (.andThen (space K) (one K ',')) (space K)))
    (.andThen (space K) (one K ']'))

/-- `member` of `object`, char:63 / byte:62. -/
def member (value : Counted I (Value I F)) : Counted I (List I × Value I F) :=
  .andThen (.skipRight (.skipRight (.skipRight (string K) (space K)) (one K ':')) (space K)) value

/-- `object`, char:62-67 / byte:61-66. -/
def object (value : Counted I (Value I F)) : Counted I (List (List I × Value I F)) :=
  unary (fun p => map p collectMap) (.surround (.andThen (one K '{') (space K))
    (.many0Sep (member K value) (.andThen (.andThen (space K) (one K ',')) (space K)))
    (.andThen (space K) (one K '}')))

/-- `value`, char:69-78 / byte:68-77, given the `array` of the file and what `lazy(value)` runs. -/
def valueOf (array : Counted I (Value I F) → Counted I (List (Value I F))) (value : Counted I (Value I F)) :
    Counted I (Value I F) :=
  .skipRight
    (.or (.or (.or (.or (.or (.or (unary (fun p => map p fun _ => .null) (.seq (K.lits "null")))
      (unary (fun p => map p fun _ => .bool true) (.seq (K.lits "true"))))
      (unary (fun p => map p fun _ => .bool false) (.seq (K.lits "false"))))
      (unary (fun p => map p .num) (number K)))
      (unary (fun p => map p .str) (string K)))
      (unary (fun p => map p .arr) (array value)))
      (unary (fun p => map p .obj) (object K value)))
    (space K)

/-- `json`, char:80-82 / byte:79-81, unrolled `n` times. -/
def jsonOf (array : Counted I (Value I F) → Counted I (List (Value I F))) (n : Nat) : Counted I (Value I F) :=
  .skipRight (.skipLeft (space K) (.fixN (valueOf K array) n)) (prim end_)

end

/-- `json` of `json_char.rs`. -/
def jsonChar {F : Type} (f64 : List Char → Option F) (n : Nat) : Counted Char (Value Char F) :=
  jsonOf (charKind f64) (arrayChar (charKind f64)) n

/-- `json` of `json_byte.rs`. -/
def jsonByte {F : Type} (f64 : List UInt8 → Option F) (n : Nat) : Counted UInt8 (Value UInt8 F) :=
  jsonOf (byteKind f64) (arrayByte (byteKind f64)) n

end OniComb.Json.Counting
