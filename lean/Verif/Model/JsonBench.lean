import Verif.Model.Json
import Verif.Model.CacheGrammar

/-!
# The JSON grammars of the benchmark

`/repo/parser/benches/oni_comb_json.rs`: the grammar of `json_char.rs` once more, with `cache` on its parts, and a
second one over bytes that takes shortcuts in strings and numbers.  Line numbers are of that file.  The two are the same
but for these parsers, which are parameters: `str`, with one cache inside, and `num`.

`lazy(value)` builds the parsers of `value()` and their caches anew for every run, so that a value parser has eleven new
caches while it runs (`fresh`).
-/

namespace OniComb.Json
open Stateful (SParser ofParser unary fresh lift)

section
variable {I F C S : Type} [DecidableEq I] [Element I] (K : Kind I F)

/-- `comma_sep`, :74, :88, :196, :211. -/
def benchComma : Parser I I := skipRight (skipLeft (space K) (elm (K.lit ','))) (space K)

/-- `array`, :72-81 / :194-203; one cache, given what `lazy(value)` runs. -/
def benchArray (value : SParser S I (Value I F)) : SParser (CacheMap I (Value I F) × S) I (List (Value I F)) :=
  Stateful.surround (ofParser (skipRight (elm (K.lit '[')) (space K)))
    (Stateful.repeatSep (Stateful.cache value) (.from_ 0) (some (ofParser (benchComma K))))
    (ofParser (skipLeft (space K) (elm (K.lit ']'))))

/-- `member` of `object`, :85 / :208; a cache around the key, which has one inside, and one around the value. -/
def benchMember (str : SParser (CacheMap I C × S) I (List I))
    (value : SParser (CacheMap I (List I) × CacheMap I C × S) I (Value I F)) :
    SParser (CacheMap I (Value I F) × CacheMap I (List I) × CacheMap I C × S) I (List I × Value I F) :=
  Stateful.andThen
    (Stateful.skipRight (Stateful.skipRight (Stateful.skipRight (lift (Stateful.cache str))
      (ofParser (space K))) (ofParser (elm (K.lit ':')))) (ofParser (space K)))
    (Stateful.cache value)

/-- `object`, :83-98 / :206-221. -/
def benchObject (str : SParser (CacheMap I C × S) I (List I))
    (value : SParser (CacheMap I (List I) × CacheMap I C × S) I (Value I F)) :
    SParser (CacheMap I (Value I F) × CacheMap I (List I) × CacheMap I C × S) I (List (List I × Value I F)) :=
  unary (fun p => map p collectMap)
    (Stateful.surround (ofParser (skipRight (elm (K.lit '{')) (space K)))
      (Stateful.repeatSep (benchMember K str value) (.from_ 0) (some (ofParser (benchComma K))))
      (ofParser (skipLeft (space K) (elm (K.lit '}')))))

/-- `boolean`, :100-102 / :189-191. -/
def benchBoolean : Parser I Bool :=
  or (map (seq (K.lits "true")) fun _ => true) (map (seq (K.lits "false")) fun _ => false)

/-- The alternatives of `value` that do not recurse, :107-110 / :229-232; every one is cached. -/
def benchSimple (str : SParser (CacheMap I C × S) I (Value I F)) (num bool null : Parser I (Value I F)) :
    SParser (CacheMap I (Value I F) × CacheMap I (Value I F) × CacheMap I (Value I F) × CacheMap I (Value I F) ×
      CacheMap I C × S) I (Value I F) :=
  Stateful.or (lift (Stateful.or (lift (Stateful.or (lift (Stateful.cache str)) (Stateful.cache (ofParser num))))
    (Stateful.cache (ofParser bool)))) (Stateful.cache (ofParser null))

/-- `value`, :104-114 / :224-236, given what `lazy(value)` runs. -/
def benchValueOf (str : (T : Type) → SParser (CacheMap I C × T) I (List I)) (num : Parser I F)
    (value : (T : Type) → SParser T I (Value I F)) : SParser S I (Value I F) :=
  fresh (fresh (fresh (fresh (fresh (fresh (fresh (fresh (fresh (fresh (fresh
    (Stateful.skipRight
      (Stateful.or
        (lift (lift (lift (lift
          (Stateful.or
            (lift (lift (benchSimple (unary (fun p => map p .str) (str _)) (map num .num) (map (benchBoolean K) .bool)
              (map (seq (K.lits "null")) fun _ => .null))))
            (Stateful.cache (unary (fun p => map p .arr) (benchArray K (value _)))))))))
        (Stateful.cache (unary (fun p => map p .obj) (benchObject K (str _) (value _)))))
      (ofParser (space K)))))))))))))

/-- `lazy(value)`, unrolled `n` times. -/
def benchValue (str : (T : Type) → SParser (CacheMap I C × T) I (List I)) (num : Parser I F) :
    Nat → (S : Type) → SParser S I (Value I F)
  | 0, _ => ofParser diverging
  | n + 1, _ => benchValueOf K str num (benchValue str num n)

/-- `json`, :116-119 / :239-242. -/
def benchJson (str : (T : Type) → SParser (CacheMap I C × T) I (List I)) (num : Parser I F) (n : Nat) :
    SParser Unit I (Value I F) :=
  fresh (Stateful.skipRight (Stateful.skipLeft (ofParser (space K)) (Stateful.cache (benchValue K str num n _)))
    (ofParser end_))

/-- `string`, :29-70. -/
def benchString : SParser (CacheMap I (List (List I)) × S) I (List I) :=
  unary (fun p => map p List.flatten)
    (Stateful.surround (ofParser (elm (K.lit '"')))
      (Stateful.cache (ofParser (many0 (or (charString K) (utf16String K)))))
      (ofParser (elm (K.lit '"'))))

end

/-- `json`, :116-119, as `oni_comb_parse_json` (:121-130) uses it. -/
def benchChar {F : Type} (f64 : List Char → Option F) (n : Nat) : SParser Unit Char (Value Char F) :=
  benchJson (charKind f64) (fun _ => benchString (charKind f64)) (number (charKind f64)) n

/-! ## Bytes -/

section
variable {F : Type} (f64 : List UInt8 → Option F) (lossy : List UInt8 → List UInt8)

/-- `map` with an `unwrap()` in the function. -/
def mapUnwrap {I A B : Type} (p : Parser I A) (f : A → Option B) : Parser I B := fun s =>
  match p s with
  | .success v n => match f v with
    | some w => .success w n
    | none => .panic
  | .failure e c => .failure e c
  | .panic => .panic
  | .diverge => .diverge

/-- `|b: &u8| *b >= b'0' && *b <= b'9'`, :144, :147, :150. -/
def benchDigit : Parser UInt8 UInt8 := elmPred fun b => decide (48 ≤ b.toNat) && decide (b.toNat ≤ 57)

/-- `number_bytes`, :141-160: two `unwrap()`s instead of `map_res`. -/
def benchNumber : Parser UInt8 F :=
  mapUnwrap (collect (andThen (andThen (andThen (opt (elm (Uri.byte '-')))
    (or (skipRight (elmPred fun b => decide (49 ≤ b.toNat) && decide (b.toNat ≤ 57)) (many0 benchDigit))
      (elm (Uri.byte '0'))))
    (opt (andThen (elm (Uri.byte '.')) (many1 benchDigit))))
    (opt (andThen (andThen (elmOf (Uri.bytes "eE")) (opt (elmOf (Uri.bytes "+-")))) (many1 benchDigit)))))
    fun bs => (Uri.fromUtf8 bs).bind f64

/-- `string_char` of `string_bytes`, :165-178. -/
def benchStringChar : Parser UInt8 UInt8 :=
  or (elmPred fun b => decide (b ≠ Uri.byte '\\') && decide (b ≠ Uri.byte '"')) (escapeSequence (byteKind f64))

/-- `string_bytes`, :163-186: the bytes between the quotes as they stand, escapes included; `lossy` is
`String::from_utf8_lossy`. -/
def benchStringBytes {S : Type} : SParser (CacheMap UInt8 (List UInt8) × S) UInt8 (List UInt8) :=
  unary (fun p => map p lossy)
    (Stateful.skipRight (Stateful.skipLeft (ofParser (elm (Uri.byte '"')))
      (Stateful.cache (ofParser (collect (many0 (benchStringChar f64))))))
      (ofParser (elm (Uri.byte '"'))))

/-- `json_bytes`, :239-242, as `oni_comb_parse_json_bytes` (:245-249) uses it. -/
def benchByte (n : Nat) : SParser Unit UInt8 (Value UInt8 F) :=
  benchJson (byteKind f64) (fun _ => benchStringBytes f64 lossy) (benchNumber f64) n

end

end OniComb.Json
