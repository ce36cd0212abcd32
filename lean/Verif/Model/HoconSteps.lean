import Verif.Model.HoconParse
import Verif.Model.UriSteps

/-!
# The HOCON parser, its steps counted

The parsers of `Model/HoconParse` once more, written with the counted combinators of `Model/Steps`. `take_till0` counts one for every
element that it looks at. Conversions of what has been read (`String::from_utf8`, `Decimal::from_str_radix`, `decode_utf16`, the maps
that are filled) are not counted. Line numbers are of `/repo/hocon/src/parsers.rs`.
-/

namespace OniComb.Hocon.Counting
open OniComb OniComb.Hocon
open OniComb.Uri (Bytes byte bytes fromUtf8 parseUInt mapUnwrap text)
open OniComb.Uri.Counting (C coll att mapped tried txt lit among)
open OniComb.Counted (prim unary)

variable {A : Type}

/-- `space`, parsers.rs:13-15. -/
def space : C Bytes := coll (.many0 (among " \t\r\n"))

/-- `take_till0`, taken_parsers_impl.rs:106-128, one step for every element of the rest of the line and one. -/
def lineRest : C Bytes :=
  ⟨takeTill0 fun c => c == byte '\r' || c == byte '\n',
    fun s => ((s.input.drop s.offset).takeWhile fun c => !(c == byte '\r' || c == byte '\n')).length + 1⟩

/-- `comment`, parsers.rs:7-11. -/
def comment : C Bytes :=
  coll (.andThen space (.many1 (.andThen (.or (att (coll (.seq (bytes "//")))) (coll (lit '#'))) lineRest)))

/-- `space_or_comment`, parsers.rs:17-19. -/
def spaceOrComment : C Unit := unary discard (.or (att comment) space)

/-- `p.surround(space_or_comment(), space_or_comment())`, the idiom of parsers.rs:42, 97, 188 and others. -/
def spaced (p : C A) : C A := .surround spaceOrComment p spaceOrComment

/-- `include_method`, parsers.rs:21-26. -/
def includeMethod : C Bytes := txt (.or (.seq (bytes "file")) (.seq (bytes "url")))

/-- `integer` of `number`, parsers.rs:34. -/
def integer : C Bytes := .or (coll (.andThen (prim elmDigit19) (.many0 (prim elmDigit)))) (coll (lit '0'))

/-- `frac` of `number`, parsers.rs:35. -/
def frac : C (UInt8 × List UInt8) := .andThen (lit '.') (.many1 (prim elmDigit))

/-- `exp` of `number`, parsers.rs:36. -/
def exp : C ((UInt8 × Option UInt8) × List UInt8) := .andThen (.andThen (among "eE") (.opt (among "+-"))) (.many1 (prim elmDigit))

/-- `number` without the surrounding blanks, parsers.rs:37-40. -/
def numberBare : C (((Option UInt8 × Bytes) × Option Bytes) × Option Bytes) :=
  .andThen (.andThen (.andThen (.opt (lit '-')) (tried integer fromUtf8)) (.opt (txt frac))) (.opt (txt exp))

/-- `number`, parsers.rs:33-44. -/
def number : C (Option UInt8 × Bytes × Option Bytes × Option Bytes) :=
  mapped (spaced numberBare) fun (((s, i), f), e) => (s, i, f, e)

/-- `number_value`, parsers.rs:77-94. -/
def numberValue (S : Std) : C Decimal := unary (mapUnwrap · (numberOf S)) number

/-- `seq(s).attempt()`. -/
def spelling (s : String) : C Bytes := att (.seq (bytes s))

/-- A unit with five spellings: `ns`, `us` and `ms` of `duration`, parsers.rs:47-64. -/
def unit5 (a b c d e : String) (u : TimeUnit) : C TimeUnit :=
  mapped (.or (.or (.or (.or (spelling a) (spelling b)) (spelling c)) (spelling d)) (.seq (bytes e))) fun _ => u

/-- A unit with three spellings: `s`, `m`, `h` and `d` of `duration`, parsers.rs:65-68. -/
def unit3 (a b c : String) (u : TimeUnit) : C TimeUnit :=
  mapped (.or (.or (spelling a) (spelling b)) (.seq (bytes c))) fun _ => u

/-- The unit alternatives of `duration`, parsers.rs:70. -/
def unitP : C TimeUnit :=
  .or (.or (.or (.or (.or (.or
    (att (unit5 "ns" "nano" "nanos" "nanosecond" "nanoseconds" .nanoseconds))
    (att (unit5 "us" "micro" "micros" "microsecond" "microseconds" .microseconds)))
    (att (unit5 "ms" "milli" "millis" "millisecond" "milliseconds" .milliseconds)))
    (att (unit3 "s" "second" "seconds" .seconds)))
    (att (unit3 "m" "minute" "minutes" .minutes)))
    (att (unit3 "h" "hour" "hours" .hours)))
    (unit3 "d" "day" "days" .days)

/-- `duration`, parsers.rs:46-71. -/
def duration (S : Std) : C (Decimal × TimeUnit) := .andThen (numberValue S) unitP

/-- `duration_value`, parsers.rs:73-75. -/
def durationValue (S : Std) : C Value := mapped (duration S) fun (d, u) => .dur d u

/-- `special_char` of `string`, parsers.rs:105-112. -/
def specialChar : C UInt8 :=
  .or (.or (.or (.or (.or (.or (.or (lit '\\') (lit '/')) (lit '"'))
    (mapped (lit 'b') fun _ => 8)) (mapped (lit 'f') fun _ => 12))
    (mapped (lit 'n') fun _ => 10)) (mapped (lit 'r') fun _ => 13))
    (mapped (lit 't') fun _ => 9)

/-- `char_string` of `string`, parsers.rs:113-118. -/
def charString : C Bytes :=
  tried (.many1 (.or (prim (noneOf (bytes "[]\r\n\\\"'"))) (.skipLeft (lit '\\') specialChar))) fromUtf8

/-- `utf16_char` of `string`, parsers.rs:119-123. -/
def utf16Char : C Nat :=
  .skipLeft (.seq (bytes "\\u")) (tried (tried (.count (prim elmHexDigit) 4) fromUtf8) (parseUInt 16 65535))

/-- `utf16_string` of `string`, parsers.rs:124-128. -/
def utf16String : C Bytes := mapped (.many1 utf16Char) fun us => (Unicode.decodeUtf16 us).flatMap Unicode.encodeUtf8

/-- `string_surround` of `string`, parsers.rs:129. -/
def stringSurround : C (List Bytes) := .many1 (.or (att charString) utf16String)

/-- `string_double_quote_bracket` and `string_single_quote_bracket`, parsers.rs:96-102. -/
def quote (c : Char) : C UInt8 := spaced (lit c)

/-- `string`, parsers.rs:104-133. -/
def string : C Bytes :=
  mapped (.or (.or (att (.surround (quote '"') stringSurround (quote '"')))
    (att (.surround (quote '\'') stringSurround (quote '\'')))) stringSurround) List.flatten

/-- `array`, parsers.rs:170-181. -/
def array (cv : C Value) : C (List Value) :=
  .surround (spaced (lit '[')) (.many0Sep cv (spaced (lit ','))) (spaced (lit ']'))

/-- `kv`, parsers.rs:183-185. -/
def kv : C Unit := unary discard (among "=:")

/-- `path_element`, parsers.rs:229-231. -/
def pathElement : C Bytes := coll (.many1 (.or (prim elmAlpha) (among "-_")))

/-- `path`, parsers.rs:233-239. -/
def path : C Bytes := txt (.many1Sep pathElement (lit '.'))

/-- `key`, parsers.rs:187-189. -/
def key : C Bytes := spaced (.or (att path) string)

/-- `object`, parsers.rs:211-227. -/
def object (prop : C (Bytes × Value)) : C Entries :=
  mapped (.surround (spaced (lit '{')) (.many0Sep prop (.opt (spaced (lit ',')))) (spaced (lit '}'))) objectFold

/-- `object_config_value`, parsers.rs:259-261. -/
def objectConfigValue (prop : C (Bytes × Value)) : C Value := mapped (object prop) .obj

/-- `array_config_value`, parsers.rs:263-265. -/
def arrayConfigValue (cv : C Value) : C Value := mapped (array cv) .arr

/-- `property`, parsers.rs:191-193. -/
def property (cv : C Value) (prop : C (Bytes × Value)) : C (Bytes × Value) :=
  .andThen key (.or (.or (att (.skipLeft kv cv)) (att (objectConfigValue prop))) (arrayConfigValue cv))

/-- `reference`, parsers.rs:241-257. -/
def reference : C (Bool × Bytes) :=
  .surround (spaced (.seq (bytes "${")))
    (.andThen (mapped (.opt (lit '?')) Option.isSome) (txt (.many1Sep pathElement (lit '.'))))
    (spaced (.seq (bytes "}")))

/-- `reference_config_value`, parsers.rs:267-273. -/
def referenceConfigValue : C Value := mapped reference fun (missing, p) => .ref none p missing

/-- `string_config_value`, parsers.rs:166-168. -/
def stringConfigValue : C Value := mapped string .str

/-- `enumeration_config_value`, parsers.rs:275-282. -/
def enumerationConfigValue : C Value := mapped (.many1 (.or (att stringConfigValue) referenceConfigValue)) (.enumeration none)

/-- `simple_config_value`, parsers.rs:284-292. -/
def simpleConfigValue (S : Std) : C Value :=
  spaced (.or (.or (.or (.or (.or (att (mapped (.seq (bytes "null")) fun _ => .null))
    (att (mapped (.seq (bytes "true")) fun _ => .bool true)))
    (att (mapped (.seq (bytes "false")) fun _ => .bool false)))
    (att (durationValue S))) (att (mapped (numberValue S) .num))) stringConfigValue)

/-- `config_value`, parsers.rs:294-301. -/
def configValue (S : Std) (cv : C Value) (prop : C (Bytes × Value)) : C Value :=
  spaced (.or (.or (.or (.or (att (arrayConfigValue cv)) (att (objectConfigValue prop)))
    (att referenceConfigValue)) (att (simpleConfigValue S))) enumerationConfigValue)

/-- The two functions `config_value` and `property` that refer to each other through `lazy`, unrolled `n` times. -/
def grammar (S : Std) : Nat → C Value × C (Bytes × Value)
  | 0 => (prim diverging, prim diverging)
  | n + 1 =>
    let cv := .lazy fun _ => (grammar S n).1
    let prop := .lazy fun _ => (grammar S n).2
    (configValue S cv prop, property cv prop)

/-- `include_config_value`, parsers.rs:28-31. -/
def includeConfigValue : C Value :=
  mapped (.andThen (.skipLeft (.skipLeft (.seq (bytes "include")) (lit ' ')) includeMethod)
    (.surround (.seq (bytes "(\"")) path (.seq (bytes "\")"))))
    fun (method, p) => .incl method (byte '"' :: p ++ [byte '"'])

/-- `config`, parsers.rs:303-323. -/
def config (cv : C Value) (prop : C (Bytes × Value)) : C (List Value) :=
  .or (.or (att (mapped (.many1 prop) fun ps => [.obj (configFold ps)])) (att (.many1 includeConfigValue)))
    (.many0 (.or (att (objectConfigValue prop)) (arrayConfigValue cv)))

/-- `hocon`, parsers.rs:325-327, unrolled `n` times. -/
def hocon (S : Std) (n : Nat) : C (List Value) :=
  .skipRight (.skipLeft spaceOrComment (config (grammar S n).1 (grammar S n).2)) (prim end_)

end OniComb.Hocon.Counting
