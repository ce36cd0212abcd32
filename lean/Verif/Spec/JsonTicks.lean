import Verif.Model.Json
import Verif.Spec.PegTicks

/-!
# The JSON examples with a clock

The parsers of `Model/Json` with the combinators of `Model/CacheGrammar`; the store is a clock, which is advanced by one by
every parser without parts and every run of `lazy(value)`, and for a literal by its length and one. Line numbers are of
`/repo/parser/examples/json_char.rs` / `/repo/parser/examples/json_byte.rs`.
-/

namespace OniComb.Json.Ticking
open OniComb OniComb.Json OniComb.Stateful
open OniComb.Peg (tick optTicked)

section
variable {I A B : Type}

/-- `seq`, elements_parsers_impl.rs:10-34. -/
def word [DecidableEq I] (w : List I) : SParser Nat I (List I) := tick (w.length + 1) (OniComb.seq w)

/-- `of_many0`, repeat_parsers_impl.rs:18-23. -/
def many0 (p : SParser Nat I A) : SParser Nat I (List A) := Stateful.repeatSep p (.from_ 0) (none : Option (SParser Nat I Unit))

/-- `of_many1`, repeat_parsers_impl.rs:26-31. -/
def many1 (p : SParser Nat I A) : SParser Nat I (List A) := Stateful.repeatSep p (.from_ 1) (none : Option (SParser Nat I Unit))

/-- `of_count`, repeat_parsers_impl.rs:34-39. -/
def count (p : SParser Nat I A) (n : Nat) : SParser Nat I (List A) :=
  Stateful.repeatSep p (.closed n n) (none : Option (SParser Nat I Unit))

/-- `of_many0_sep`, repeat_parsers_impl.rs:42-48. -/
def many0Sep (p : SParser Nat I A) (sep : SParser Nat I B) : SParser Nat I (List A) := Stateful.repeatSep p (.from_ 0) (some sep)

/-- A grammar `p = F(lazy(|| p))` unrolled `n` times. -/
def fixN (F : SParser Nat I A → SParser Nat I A) : Nat → SParser Nat I A
  | 0 => tick 1 diverging
  | n + 1 => F fun s => .bind (tick 1 unit s) fun _ => fixN F n s

end

section
variable {I F : Type} [DecidableEq I] [Element I] (K : Kind I F)

/-- `elm`, extension/parsers/element_parsers.rs:17-27. -/
def one (c : Char) : SParser Nat I I := tick 1 (elm (K.lit c))

/-- `space`, char:17-19 / byte:16-18. -/
def space : SParser Nat I Unit := Stateful.unary discard (many0 (tick 1 (elmOf (K.lits " \t\r\n"))))

/-- `integer` of `number`, char:22 / byte:21. -/
def integer : SParser Nat I I := Stateful.or (Stateful.skipRight (tick 1 elmDigit19) (many0 (tick 1 elmDigit))) (one K '0')

/-- `frac` of `number`, char:23 / byte:22. -/
def frac : SParser Nat I (I × List I) := Stateful.andThen (one K '.') (many1 (tick 1 elmDigit))

/-- `exp` of `number`, char:24 / byte:23. -/
def exp : SParser Nat I ((I × Option I) × List I) :=
  Stateful.andThen (Stateful.andThen (tick 1 (elmOf (K.lits "eE"))) (optTicked (tick 1 (elmOf (K.lits "+-"))))) (many1 (tick 1 elmDigit))

/-- The elements of a number, char:25 / byte:24. -/
def numeral : SParser Nat I (((Option I × I) × Option (I × List I)) × Option ((I × Option I) × List I)) :=
  Stateful.andThen (Stateful.andThen (Stateful.andThen (optTicked (one K '-')) (integer K)) (optTicked (frac K))) (optTicked (exp K))

/-- `number`, char:21-27 / byte:20-26. -/
def number : SParser Nat I F :=
  Stateful.unary (fun p => mapRes p K.f64) (Stateful.unary (fun p => mapRes p K.str) (Stateful.unary collect (numeral K)))

/-- `special_char` of `string`, char:30-37 / byte:29-36. -/
def specialChar : SParser Nat I I :=
  Stateful.or (Stateful.or (Stateful.or (Stateful.or (Stateful.or (Stateful.or (Stateful.or (one K '\\') (one K '/')) (one K '"'))
    (Stateful.unary (fun p => map p fun _ => K.lit (Char.ofNat 8)) (one K 'b')))
    (Stateful.unary (fun p => map p fun _ => K.lit (Char.ofNat 12)) (one K 'f')))
    (Stateful.unary (fun p => map p fun _ => K.lit '\n') (one K 'n')))
    (Stateful.unary (fun p => map p fun _ => K.lit '\r') (one K 'r')))
    (Stateful.unary (fun p => map p fun _ => K.lit '\t') (one K 't'))

/-- `escape_sequence` of `string`, char:38 / byte:37. -/
def escapeSequence : SParser Nat I I := Stateful.skipLeft (one K '\\') (specialChar K)

/-- An item of `char_string`, char:40 / byte:39. -/
def charItem : SParser Nat I I := Stateful.or (tick 1 (noneOf (K.lits "\\\""))) (escapeSequence K)

/-- `char_string` of `string`, char:39-42 / byte:38-41. -/
def charString : SParser Nat I (List I) := Stateful.unary (fun p => mapRes p K.str) (many1 (charItem K))

/-- `utf16_char` of `string`, char:43-47 / byte:42-46. -/
def utf16Char : SParser Nat I Nat :=
  Stateful.skipLeft (word (K.lits "\\u"))
    (Stateful.unary (fun p => mapRes p K.u16) (Stateful.unary (fun p => mapRes p K.str) (count (tick 1 (elmPred K.hex)) 4)))

/-- `utf16_string` of `string`, char:48-52 / byte:47-51. -/
def utf16String : SParser Nat I (List I) :=
  Stateful.unary (fun p => map p fun us => (Unicode.decodeUtf16 us).flatMap K.enc) (many1 (utf16Char K))

/-- `string`, char:29-55 / byte:28-54. -/
def string : SParser Nat I (List I) :=
  Stateful.unary (fun p => map p List.flatten) (Stateful.surround (one K '"') (many0 (Stateful.or (charString K) (utf16String K))) (one K '"'))

/-- `array` of `json_char.rs`, char:57-60. -/
def arrayChar (value : SParser Nat I (Value I F)) : SParser Nat I (List (Value I F)) :=
  Stateful.surround (Stateful.skipRight (one K '[') (space K))
    (many0Sep value (Stateful.skipRight (Stateful.skipLeft (space K) (one K ',')) (space K)))
    (Stateful.skipLeft (space K) (one K ']'))

/-- `array` of `json_byte.rs`, byte:56-59. -/
def arrayByte (value : SParser Nat I (Value I F)) : SParser Nat I (List (Value I F)) :=
  Stateful.surround (Stateful.andThen (one K '[') (space K))
    (many0Sep value (Stateful.andThen (Stateful.andThen (space K) (one K ',')) (space K)))
    (Stateful.andThen (space K) (one K ']'))

/-- `member` of `object`, char:63 / byte:62. -/
def member (value : SParser Nat I (Value I F)) : SParser Nat I (List I × Value I F) :=
  Stateful.andThen (Stateful.skipRight (Stateful.skipRight (Stateful.skipRight (string K) (space K)) (one K ':')) (space K)) value

/-- `object`, char:62-67 / byte:61-66. -/
def object (value : SParser Nat I (Value I F)) : SParser Nat I (List (List I × Value I F)) :=
  Stateful.unary (fun p => map p collectMap) (Stateful.surround (Stateful.andThen (one K '{') (space K))
    (many0Sep (member K value) (Stateful.andThen (Stateful.andThen (space K) (one K ',')) (space K)))
    (Stateful.andThen (space K) (one K '}')))

/-- `value`, char:69-78 / byte:68-77, given the `array` of the file and what `lazy(value)` runs. -/
def valueOf (array : SParser Nat I (Value I F) → SParser Nat I (List (Value I F))) (value : SParser Nat I (Value I F)) :
    SParser Nat I (Value I F) :=
  Stateful.skipRight
    (Stateful.or (Stateful.or (Stateful.or (Stateful.or (Stateful.or (Stateful.or (Stateful.unary (fun p => map p fun _ => .null) (word (K.lits "null")))
      (Stateful.unary (fun p => map p fun _ => .bool true) (word (K.lits "true"))))
      (Stateful.unary (fun p => map p fun _ => .bool false) (word (K.lits "false"))))
      (Stateful.unary (fun p => map p .num) (number K)))
      (Stateful.unary (fun p => map p .str) (string K)))
      (Stateful.unary (fun p => map p .arr) (array value)))
      (Stateful.unary (fun p => map p .obj) (object K value)))
    (space K)

/-- `json`, char:80-82 / byte:79-81, unrolled `n` times. -/
def jsonOf (array : SParser Nat I (Value I F) → SParser Nat I (List (Value I F))) (n : Nat) : SParser Nat I (Value I F) :=
  Stateful.skipRight (Stateful.skipLeft (space K) (fixN (valueOf K array) n)) (tick 1 end_)

end

/-- `json` of `json_char.rs`. -/
def jsonChar {F : Type} (f64 : List Char → Option F) (n : Nat) : SParser Nat Char (Value Char F) :=
  jsonOf (charKind f64) (arrayChar (charKind f64)) n

/-- `json` of `json_byte.rs`. -/
def jsonByte {F : Type} (f64 : List UInt8 → Option F) (n : Nat) : SParser Nat UInt8 (Value UInt8 F) :=
  jsonOf (byteKind f64) (arrayByte (byteKind f64)) n

end OniComb.Json.Ticking
