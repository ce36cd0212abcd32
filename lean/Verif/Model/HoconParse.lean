import Verif.Model.HoconValue
import Verif.Model.Unicode

/-!
# The `hocon` crate: grammar

Models `/repo/hocon/src/parsers.rs` (all functions except `string_zero`, which is not called).

`Std.parseDecimal` stands for `rust_decimal::Decimal::from_str_radix(_, 10)`; it is a parameter of the
model, and the theorems that need to know something about it say so in a hypothesis.
-/

namespace OniComb.Hocon
open OniComb
open OniComb.Uri (Bytes byte bytes fromUtf8 parseUInt mapUnwrap text)

/-- What the grammar takes from `rust_decimal`. -/
structure Std where
  parseDecimal : Bytes → Option Decimal

/-- `space`, parsers.rs:13-15. -/
def space : Parser UInt8 Bytes := collect (many0 (elmOf (bytes " \t\r\n")))

/-- `comment`, parsers.rs:7-11. -/
def comment : Parser UInt8 Bytes :=
  let head := or (attempt (collect (seq (bytes "//")))) (collect (elm (byte '#')))
  let tail := takeTill0 fun c => c == byte '\r' || c == byte '\n'
  collect (andThen space (many1 (andThen head tail)))

/-- `space_or_comment`, parsers.rs:17-19. -/
def spaceOrComment : Parser UInt8 Unit := discard (or (attempt comment) space)

/-- `p.surround(space_or_comment(), space_or_comment())`, the idiom of parsers.rs:42, 97, 188 and others. -/
def spaced {A : Type} (p : Parser UInt8 A) : Parser UInt8 A := surround spaceOrComment p spaceOrComment

/-- `include_method`, parsers.rs:21-26. -/
def includeMethod : Parser UInt8 Bytes := text (or (seq (bytes "file")) (seq (bytes "url")))

/-- `integer` of `number`, parsers.rs:34. -/
def integer : Parser UInt8 Bytes :=
  or (collect (andThen elmDigit19 (many0 elmDigit))) (collect (elm (byte '0')))

/-- `frac` of `number`, parsers.rs:35. -/
def frac : Parser UInt8 (UInt8 × List UInt8) := andThen (elm (byte '.')) (many1 elmDigit)

/-- `exp` of `number`, parsers.rs:36. -/
def exp : Parser UInt8 ((UInt8 × Option UInt8) × List UInt8) :=
  andThen (andThen (elmOf (bytes "eE")) (opt (elmOf (bytes "+-")))) (many1 elmDigit)

/-- `number` without the surrounding blanks, parsers.rs:37-40. -/
def numberBare : Parser UInt8 (((Option UInt8 × Bytes) × Option Bytes) × Option Bytes) :=
  andThen (andThen (andThen (opt (elm (byte '-'))) (mapRes integer fromUtf8)) (opt (text frac)))
    (opt (text exp))

/-- `number`, parsers.rs:33-44. -/
def number : Parser UInt8 (Option UInt8 × Bytes × Option Bytes × Option Bytes) :=
  map (spaced numberBare) fun (((s, i), f), e) => (s, i, f, e)

/-- The closure of `number_value`, parsers.rs:78-93, with `ConfigNumberValue::from(String)`
(config_number_value.rs:26-30); `none` is a panic. -/
def numberOf (S : Std) : Option UInt8 × Bytes × Option Bytes × Option Bytes → Option Decimal
  | (none, i, none, none) => S.parseDecimal i
  | (some _, i, none, none) => S.parseDecimal i
  | (_, i, some f, none) => S.parseDecimal (i ++ f)
  | (_, i, some f, some e) => S.parseDecimal (i ++ f ++ e)
  | (_, _, none, some _) => none

/-- `number_value`, parsers.rs:77-94. -/
def numberValue (S : Std) : Parser UInt8 Decimal := mapUnwrap number (numberOf S)

/-- `seq(s).attempt()`. -/
def spelling (s : String) : Parser UInt8 Bytes := attempt (seq (bytes s))

/-- `ns` of `duration`, parsers.rs:47-52. -/
def unitNs : Parser UInt8 TimeUnit :=
  map (or (or (or (or (spelling "ns") (spelling "nano")) (spelling "nanos")) (spelling "nanosecond"))
    (seq (bytes "nanoseconds"))) fun _ => .nanoseconds

/-- `us` of `duration`, parsers.rs:53-58. -/
def unitUs : Parser UInt8 TimeUnit :=
  map (or (or (or (or (spelling "us") (spelling "micro")) (spelling "micros")) (spelling "microsecond"))
    (seq (bytes "microseconds"))) fun _ => .microseconds

/-- `ms` of `duration`, parsers.rs:59-64. -/
def unitMs : Parser UInt8 TimeUnit :=
  map (or (or (or (or (spelling "ms") (spelling "milli")) (spelling "millis")) (spelling "millisecond"))
    (seq (bytes "milliseconds"))) fun _ => .milliseconds

/-- `s` of `duration`, parsers.rs:65. -/
def unitS : Parser UInt8 TimeUnit :=
  map (or (or (spelling "s") (spelling "second")) (seq (bytes "seconds"))) fun _ => .seconds

/-- `m` of `duration`, parsers.rs:66. -/
def unitM : Parser UInt8 TimeUnit :=
  map (or (or (spelling "m") (spelling "minute")) (seq (bytes "minutes"))) fun _ => .minutes

/-- `h` of `duration`, parsers.rs:67. -/
def unitH : Parser UInt8 TimeUnit :=
  map (or (or (spelling "h") (spelling "hour")) (seq (bytes "hours"))) fun _ => .hours

/-- `d` of `duration`, parsers.rs:68. -/
def unitD : Parser UInt8 TimeUnit :=
  map (or (or (spelling "d") (spelling "day")) (seq (bytes "days"))) fun _ => .days

/-- The unit alternatives of `duration`, parsers.rs:70. -/
def unitP : Parser UInt8 TimeUnit :=
  or (or (or (or (or (or (attempt unitNs) (attempt unitUs)) (attempt unitMs)) (attempt unitS))
    (attempt unitM)) (attempt unitH)) unitD

/-- `duration`, parsers.rs:46-71. -/
def duration (S : Std) : Parser UInt8 (Decimal × TimeUnit) := andThen (numberValue S) unitP

/-- `duration_value`, parsers.rs:73-75. -/
def durationValue (S : Std) : Parser UInt8 Value := map (duration S) fun (d, u) => .dur d u

/-- `special_char` of `string`, parsers.rs:105-112. -/
def specialChar : Parser UInt8 UInt8 :=
  or (or (or (or (or (or (or (elm (byte '\\')) (elm (byte '/'))) (elm (byte '"')))
    (map (elm (byte 'b')) fun _ => 8)) (map (elm (byte 'f')) fun _ => 12))
    (map (elm (byte 'n')) fun _ => 10)) (map (elm (byte 'r')) fun _ => 13))
    (map (elm (byte 't')) fun _ => 9)

/-- `char_string` of `string`, parsers.rs:113-118. -/
def charString : Parser UInt8 Bytes :=
  mapRes (many1 (or (noneOf (bytes "[]\r\n\\\"'")) (skipLeft (elm (byte '\\')) specialChar))) fromUtf8

/-- `utf16_char` of `string`, parsers.rs:119-123. -/
def utf16Char : Parser UInt8 Nat :=
  skipLeft (seq (bytes "\\u")) (mapRes (mapRes (count elmHexDigit 4) fromUtf8) (parseUInt 16 65535))

/-- `utf16_string` of `string`, parsers.rs:124-128. -/
def utf16String : Parser UInt8 Bytes :=
  map (many1 utf16Char) fun us => (Unicode.decodeUtf16 us).flatMap Unicode.encodeUtf8

/-- `string_surround` of `string`, parsers.rs:129. -/
def stringSurround : Parser UInt8 (List Bytes) := many1 (or (attempt charString) utf16String)

/-- `string_double_quote_bracket` and `string_single_quote_bracket`, parsers.rs:96-102. -/
def quote (c : Char) : Parser UInt8 UInt8 := spaced (elm (byte c))

/-- `string`, parsers.rs:104-133. -/
def string : Parser UInt8 Bytes :=
  map (or (or (attempt (surround (quote '"') stringSurround (quote '"')))
    (attempt (surround (quote '\'') stringSurround (quote '\'')))) stringSurround) List.flatten

/-- `array`, parsers.rs:170-181. -/
def array (cv : Parser UInt8 Value) : Parser UInt8 (List Value) :=
  surround (spaced (elm (byte '['))) (many0Sep cv (spaced (elm (byte ',')))) (spaced (elm (byte ']')))

/-- `kv`, parsers.rs:183-185. -/
def kv : Parser UInt8 Unit := discard (elmOf (bytes "=:"))

/-- `path_element`, parsers.rs:229-231. -/
def pathElement : Parser UInt8 Bytes := collect (many1 (or elmAlpha (elmOf (bytes "-_"))))

/-- `path`, parsers.rs:233-239. -/
def path : Parser UInt8 Bytes := text (many1Sep pathElement (elm (byte '.')))

/-- `key`, parsers.rs:187-189. -/
def key : Parser UInt8 Bytes := spaced (or (attempt path) string)

/-- `object`, parsers.rs:211-227. -/
def object (prop : Parser UInt8 (Bytes × Value)) : Parser UInt8 Entries :=
  map (surround (spaced (elm (byte '{'))) (many0Sep prop (opt (spaced (elm (byte ',')))))
    (spaced (elm (byte '}')))) objectFold

/-- `object_config_value`, parsers.rs:259-261. -/
def objectConfigValue (prop : Parser UInt8 (Bytes × Value)) : Parser UInt8 Value := map (object prop) .obj

/-- `array_config_value`, parsers.rs:263-265. -/
def arrayConfigValue (cv : Parser UInt8 Value) : Parser UInt8 Value := map (array cv) .arr

/-- `property`, parsers.rs:191-193. -/
def property (cv : Parser UInt8 Value) (prop : Parser UInt8 (Bytes × Value)) : Parser UInt8 (Bytes × Value) :=
  andThen key (or (or (attempt (skipLeft kv cv)) (attempt (objectConfigValue prop))) (arrayConfigValue cv))

/-- `reference`, parsers.rs:241-257. -/
def reference : Parser UInt8 (Bool × Bytes) :=
  surround (spaced (seq (bytes "${")))
    (andThen (map (opt (elm (byte '?'))) Option.isSome) (text (many1Sep pathElement (elm (byte '.')))))
    (spaced (seq (bytes "}")))

/-- `reference_config_value`, parsers.rs:267-273. -/
def referenceConfigValue : Parser UInt8 Value := map reference fun (missing, p) => .ref none p missing

/-- `string_config_value`, parsers.rs:166-168. -/
def stringConfigValue : Parser UInt8 Value := map string .str

/-- `enumeration_config_value`, parsers.rs:275-282. -/
def enumerationConfigValue : Parser UInt8 Value :=
  map (many1 (or (attempt stringConfigValue) referenceConfigValue)) (.enumeration none)

/-- `simple_config_value`, parsers.rs:284-292. -/
def simpleConfigValue (S : Std) : Parser UInt8 Value :=
  spaced (or (or (or (or (or (attempt (map (seq (bytes "null")) fun _ => .null))
    (attempt (map (seq (bytes "true")) fun _ => .bool true)))
    (attempt (map (seq (bytes "false")) fun _ => .bool false)))
    (attempt (durationValue S))) (attempt (map (numberValue S) .num))) stringConfigValue)

/-- `config_value`, parsers.rs:294-301. -/
def configValue (S : Std) (cv : Parser UInt8 Value) (prop : Parser UInt8 (Bytes × Value)) :
    Parser UInt8 Value :=
  spaced (or (or (or (or (attempt (arrayConfigValue cv)) (attempt (objectConfigValue prop)))
    (attempt referenceConfigValue)) (attempt (simpleConfigValue S))) enumerationConfigValue)

/-- The two functions `config_value` and `property` that refer to each other through `lazy`, unrolled
`n` times. -/
def grammar (S : Std) : Nat → Parser UInt8 Value × Parser UInt8 (Bytes × Value)
  | 0 => (diverging, diverging)
  | n + 1 =>
    let cv := lazy fun _ => (grammar S n).1
    let prop := lazy fun _ => (grammar S n).2
    (configValue S cv prop, property cv prop)

/-- `include_config_value`, parsers.rs:28-31. -/
def includeConfigValue : Parser UInt8 Value :=
  map (andThen (skipLeft (skipLeft (seq (bytes "include")) (elm (byte ' '))) includeMethod)
    (surround (seq (bytes "(\"")) path (seq (bytes "\")"))))
    fun (method, p) => .incl method (byte '"' :: p ++ [byte '"'])

/-- `config`, parsers.rs:303-323. -/
def config (cv : Parser UInt8 Value) (prop : Parser UInt8 (Bytes × Value)) : Parser UInt8 (List Value) :=
  or (or (attempt (map (many1 prop) fun ps => [.obj (configFold ps)]))
    (attempt (many1 includeConfigValue)))
    (many0 (or (attempt (objectConfigValue prop)) (arrayConfigValue cv)))

/-- `hocon`, parsers.rs:325-327, unrolled `n` times. -/
def hocon (S : Std) (n : Nat) : Parser UInt8 (List Value) :=
  skipRight (skipLeft spaceOrComment (config (grammar S n).1 (grammar S n).2)) end_

end OniComb.Hocon
