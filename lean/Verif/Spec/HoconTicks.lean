import Verif.Model.HoconParse
import Verif.Spec.UriTicks

/-!
# The HOCON parser with a clock

The parsers of `Model/HoconParse` with the combinators of `Model/CacheGrammar`; the store is a clock, which is advanced by one by
every parser without parts and every run of `lazy(..)`, for a literal by its length and one, and by `take_till0` for what it passes.
Line numbers are of `/repo/hocon/src/parsers.rs`.
-/

namespace OniComb.Hocon.Ticking
open OniComb OniComb.Hocon
open OniComb.Uri (Bytes byte bytes fromUtf8 parseUInt mapUnwrap text)
open OniComb.Uri.Ticking (C coll att mapped tried txt lit among)
open OniComb.Json.Ticking (word)
open OniComb.Peg (tick optTicked)

variable {A B : Type}

/-- `lazy`, lazy_parsers_impl.rs:5-22: the clock is advanced by one. -/
def later (p : C A) : C A := fun s => .bind (tick 1 unit s) fun _ => p s

/-- `of_many0`, repeat_parsers_impl.rs:18-23. -/
def many0 (p : C A) : C (List A) := Stateful.repeatSep p (.from_ 0) (none : Option (C Unit))

/-- `of_many1`, repeat_parsers_impl.rs:26-31. -/
def many1 (p : C A) : C (List A) := Stateful.repeatSep p (.from_ 1) (none : Option (C Unit))

/-- `of_count`, repeat_parsers_impl.rs:34-39. -/
def count (p : C A) (n : Nat) : C (List A) := Stateful.repeatSep p (.closed n n) (none : Option (C Unit))

/-- `of_many0_sep`, repeat_parsers_impl.rs:42-48. -/
def many0Sep (p : C A) (sep : C B) : C (List A) := Stateful.repeatSep p (.from_ 0) (some sep)

/-- `of_many1_sep`, repeat_parsers_impl.rs:51-57. -/
def many1Sep (p : C A) (sep : C B) : C (List A) := Stateful.repeatSep p (.from_ 1) (some sep)

/-- `space`, parsers.rs:13-15. -/
def space : C Bytes := coll (many0 (among " \t\r\n"))

/-- `take_till0`, taken_parsers_impl.rs:106-128: the clock is advanced by one, and for every element of the rest of the line. -/
def lineRest : C Bytes := fun s =>
  tick (((s.input.drop s.offset).takeWhile fun c => !(c == byte '\r' || c == byte '\n')).length + 1)
    (takeTill0 fun c => c == byte '\r' || c == byte '\n') s

/-- `comment`, parsers.rs:7-11. -/
def comment : C Bytes :=
  coll (Stateful.andThen space (many1 (Stateful.andThen (Stateful.or (att (coll (word (bytes "//")))) (coll (lit '#'))) lineRest)))

/-- `space_or_comment`, parsers.rs:17-19. -/
def spaceOrComment : C Unit := Stateful.unary discard (Stateful.or (att comment) space)

/-- `p.surround(space_or_comment(), space_or_comment())`, the idiom of parsers.rs:42, 97, 188 and others. -/
def spaced (p : C A) : C A := Stateful.surround spaceOrComment p spaceOrComment

/-- `include_method`, parsers.rs:21-26. -/
def includeMethod : C Bytes := txt (Stateful.or (word (bytes "file")) (word (bytes "url")))

/-- `integer` of `number`, parsers.rs:34. -/
def integer : C Bytes := Stateful.or (coll (Stateful.andThen (tick 1 elmDigit19) (many0 (tick 1 elmDigit)))) (coll (lit '0'))

/-- `frac` of `number`, parsers.rs:35. -/
def frac : C (UInt8 × List UInt8) := Stateful.andThen (lit '.') (many1 (tick 1 elmDigit))

/-- `exp` of `number`, parsers.rs:36. -/
def exp : C ((UInt8 × Option UInt8) × List UInt8) := Stateful.andThen (Stateful.andThen (among "eE") (optTicked (among "+-"))) (many1 (tick 1 elmDigit))

/-- `number` without the surrounding blanks, parsers.rs:37-40. -/
def numberBare : C (((Option UInt8 × Bytes) × Option Bytes) × Option Bytes) :=
  Stateful.andThen (Stateful.andThen (Stateful.andThen (optTicked (lit '-')) (tried integer fromUtf8)) (optTicked (txt frac))) (optTicked (txt exp))

/-- `number`, parsers.rs:33-44. -/
def number : C (Option UInt8 × Bytes × Option Bytes × Option Bytes) :=
  mapped (spaced numberBare) fun (((s, i), f), e) => (s, i, f, e)

/-- `number_value`, parsers.rs:77-94. -/
def numberValue (S : Std) : C Decimal := Stateful.unary (mapUnwrap · (numberOf S)) number

/-- `seq(s).attempt()`. -/
def spelling (s : String) : C Bytes := att (word (bytes s))

/-- A unit with five spellings: `ns`, `us` and `ms` of `duration`, parsers.rs:47-64. -/
def unit5 (a b c d e : String) (u : TimeUnit) : C TimeUnit :=
  mapped (Stateful.or (Stateful.or (Stateful.or (Stateful.or (spelling a) (spelling b)) (spelling c)) (spelling d)) (word (bytes e))) fun _ => u

/-- A unit with three spellings: `s`, `m`, `h` and `d` of `duration`, parsers.rs:65-68. -/
def unit3 (a b c : String) (u : TimeUnit) : C TimeUnit :=
  mapped (Stateful.or (Stateful.or (spelling a) (spelling b)) (word (bytes c))) fun _ => u

/-- The unit alternatives of `duration`, parsers.rs:70. -/
def unitP : C TimeUnit :=
  Stateful.or (Stateful.or (Stateful.or (Stateful.or (Stateful.or (Stateful.or
    (att (unit5 "ns" "nano" "nanos" "nanosecond" "nanoseconds" .nanoseconds))
    (att (unit5 "us" "micro" "micros" "microsecond" "microseconds" .microseconds)))
    (att (unit5 "ms" "milli" "millis" "millisecond" "milliseconds" .milliseconds)))
    (att (unit3 "s" "second" "seconds" .seconds)))
    (att (unit3 "m" "minute" "minutes" .minutes)))
    (att (unit3 "h" "hour" "hours" .hours)))
    (unit3 "d" "day" "days" .days)

/-- `duration`, parsers.rs:46-71. -/
def duration (S : Std) : C (Decimal × TimeUnit) := Stateful.andThen (numberValue S) unitP

/-- `duration_value`, parsers.rs:73-75. -/
def durationValue (S : Std) : C Value := mapped (duration S) fun (d, u) => .dur d u

/-- `special_char` of `string`, parsers.rs:105-112. -/
def specialChar : C UInt8 :=
  Stateful.or (Stateful.or (Stateful.or (Stateful.or (Stateful.or (Stateful.or (Stateful.or (lit '\\') (lit '/')) (lit '"'))
    (mapped (lit 'b') fun _ => 8)) (mapped (lit 'f') fun _ => 12))
    (mapped (lit 'n') fun _ => 10)) (mapped (lit 'r') fun _ => 13))
    (mapped (lit 't') fun _ => 9)

/-- `char_string` of `string`, parsers.rs:113-118. -/
def charString : C Bytes :=
  tried (many1 (Stateful.or (tick 1 (noneOf (bytes "[]\r\n\\\"'"))) (Stateful.skipLeft (lit '\\') specialChar))) fromUtf8

/-- `utf16_char` of `string`, parsers.rs:119-123. -/
def utf16Char : C Nat :=
  Stateful.skipLeft (word (bytes "\\u")) (tried (tried (count (tick 1 elmHexDigit) 4) fromUtf8) (parseUInt 16 65535))

/-- `utf16_string` of `string`, parsers.rs:124-128. -/
def utf16String : C Bytes := mapped (many1 utf16Char) fun us => (Unicode.decodeUtf16 us).flatMap Unicode.encodeUtf8

/-- `string_surround` of `string`, parsers.rs:129. -/
def stringSurround : C (List Bytes) := many1 (Stateful.or (att charString) utf16String)

/-- `string_double_quote_bracket` and `string_single_quote_bracket`, parsers.rs:96-102. -/
def quote (c : Char) : C UInt8 := spaced (lit c)

/-- `string`, parsers.rs:104-133. -/
def string : C Bytes :=
  mapped (Stateful.or (Stateful.or (att (Stateful.surround (quote '"') stringSurround (quote '"')))
    (att (Stateful.surround (quote '\'') stringSurround (quote '\'')))) stringSurround) List.flatten

/-- `array`, parsers.rs:170-181. -/
def array (cv : C Value) : C (List Value) :=
  Stateful.surround (spaced (lit '[')) (many0Sep cv (spaced (lit ','))) (spaced (lit ']'))

/-- `kv`, parsers.rs:183-185. -/
def kv : C Unit := Stateful.unary discard (among "=:")

/-- `path_element`, parsers.rs:229-231. -/
def pathElement : C Bytes := coll (many1 (Stateful.or (tick 1 elmAlpha) (among "-_")))

/-- `path`, parsers.rs:233-239. -/
def path : C Bytes := txt (many1Sep pathElement (lit '.'))

/-- `key`, parsers.rs:187-189. -/
def key : C Bytes := spaced (Stateful.or (att path) string)

/-- `object`, parsers.rs:211-227. -/
def object (prop : C (Bytes × Value)) : C Entries :=
  mapped (Stateful.surround (spaced (lit '{')) (many0Sep prop (optTicked (spaced (lit ',')))) (spaced (lit '}'))) objectFold

/-- `object_config_value`, parsers.rs:259-261. -/
def objectConfigValue (prop : C (Bytes × Value)) : C Value := mapped (object prop) .obj

/-- `array_config_value`, parsers.rs:263-265. -/
def arrayConfigValue (cv : C Value) : C Value := mapped (array cv) .arr

/-- `property`, parsers.rs:191-193. -/
def property (cv : C Value) (prop : C (Bytes × Value)) : C (Bytes × Value) :=
  Stateful.andThen key (Stateful.or (Stateful.or (att (Stateful.skipLeft kv cv)) (att (objectConfigValue prop))) (arrayConfigValue cv))

/-- `reference`, parsers.rs:241-257. -/
def reference : C (Bool × Bytes) :=
  Stateful.surround (spaced (word (bytes "${")))
    (Stateful.andThen (mapped (optTicked (lit '?')) Option.isSome) (txt (many1Sep pathElement (lit '.'))))
    (spaced (word (bytes "}")))

/-- `reference_config_value`, parsers.rs:267-273. -/
def referenceConfigValue : C Value := mapped reference fun (missing, p) => .ref none p missing

/-- `string_config_value`, parsers.rs:166-168. -/
def stringConfigValue : C Value := mapped string .str

/-- `enumeration_config_value`, parsers.rs:275-282. -/
def enumerationConfigValue : C Value := mapped (many1 (Stateful.or (att stringConfigValue) referenceConfigValue)) (.enumeration none)

/-- `simple_config_value`, parsers.rs:284-292. -/
def simpleConfigValue (S : Std) : C Value :=
  spaced (Stateful.or (Stateful.or (Stateful.or (Stateful.or (Stateful.or (att (mapped (word (bytes "null")) fun _ => .null))
    (att (mapped (word (bytes "true")) fun _ => .bool true)))
    (att (mapped (word (bytes "false")) fun _ => .bool false)))
    (att (durationValue S))) (att (mapped (numberValue S) .num))) stringConfigValue)

/-- `config_value`, parsers.rs:294-301. -/
def configValue (S : Std) (cv : C Value) (prop : C (Bytes × Value)) : C Value :=
  spaced (Stateful.or (Stateful.or (Stateful.or (Stateful.or (att (arrayConfigValue cv)) (att (objectConfigValue prop)))
    (att referenceConfigValue)) (att (simpleConfigValue S))) enumerationConfigValue)

/-- The two functions `config_value` and `property` that refer to each other through `lazy`, unrolled `n` times. -/
def grammar (S : Std) : Nat → C Value × C (Bytes × Value)
  | 0 => (tick 1 diverging, tick 1 diverging)
  | n + 1 =>
    let cv := later (grammar S n).1
    let prop := later (grammar S n).2
    (configValue S cv prop, property cv prop)

/-- `include_config_value`, parsers.rs:28-31. -/
def includeConfigValue : C Value :=
  mapped (Stateful.andThen (Stateful.skipLeft (Stateful.skipLeft (word (bytes "include")) (lit ' ')) includeMethod)
    (Stateful.surround (word (bytes "(\"")) path (word (bytes "\")"))))
    fun (method, p) => .incl method (byte '"' :: p ++ [byte '"'])

/-- `config`, parsers.rs:303-323. -/
def config (cv : C Value) (prop : C (Bytes × Value)) : C (List Value) :=
  Stateful.or (Stateful.or (att (mapped (many1 prop) fun ps => [.obj (configFold ps)])) (att (many1 includeConfigValue)))
    (many0 (Stateful.or (att (objectConfigValue prop)) (arrayConfigValue cv)))

/-- `hocon`, parsers.rs:325-327, unrolled `n` times. -/
def hocon (S : Std) (n : Nat) : C (List Value) :=
  Stateful.skipRight (Stateful.skipLeft spaceOrComment (config (grammar S n).1 (grammar S n).2)) (tick 1 end_)

end OniComb.Hocon.Ticking
