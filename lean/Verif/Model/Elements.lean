import Verif.Model.Combinators

/-!
# Element, elements and taken parsers

Models `/repo/parser/src/core/element.rs`, `utils/set.rs`,
`internal/parsers_impl/{element,elements,taken}_parsers_impl.rs`,
`extension/parsers/element_parsers.rs`.
-/

namespace OniComb

/-! ## The `Element` trait -/

namespace Chr
/-- Rust pattern `a..=b` on `char` (order of scalar values). -/
def between (a b c : Char) : Bool := decide (a.toNat ≤ c.toNat) && decide (c.toNat ≤ b.toNat)

/-- element.rs:121-123 -/
def isSpace (c : Char) : Bool := c == ' ' || c == '\t'
/-- element.rs:125-127 -/
def isMultiSpace (c : Char) : Bool := isSpace c || (c == '\n' || c == '\r')
/-- element.rs:129-131 -/
def isWhitespace (c : Char) : Bool := isMultiSpace c || c == '\x0C'
/-- element.rs:133-135 -/
def isAscii (c : Char) : Bool := decide (c.toNat ≤ 0x7F)
/-- element.rs:137-139 -/
def isUpper (c : Char) : Bool := between 'A' 'Z' c
/-- element.rs:141-143 -/
def isLower (c : Char) : Bool := between 'a' 'z' c
/-- element.rs:145-147 -/
def isAlpha (c : Char) : Bool := between 'A' 'Z' c || between 'a' 'z' c
/-- element.rs:149-151 -/
def isDigit (c : Char) : Bool := between '0' '9' c
/-- element.rs:153-155 -/
def isDigitZero (c : Char) : Bool := c == '0'
/-- element.rs:157-159 -/
def isDigitNonZero (c : Char) : Bool := !isDigitZero c
/-- element.rs:161-163 -/
def isAlphaDigit (c : Char) : Bool := between '0' '9' c || between 'A' 'Z' c || between 'a' 'z' c
/-- element.rs:165-167 -/
def isHexDigit (c : Char) : Bool := between '0' '9' c || between 'A' 'F' c || between 'a' 'f' c
/-- element.rs:169-171 (the source really has `'0'..='8'`) -/
def isOctDigit (c : Char) : Bool := between '0' '8' c
/-- element.rs:173-175 -/
def isPunctuation (c : Char) : Bool :=
  between '!' '/' c || between ':' '@' c || between '[' '`' c || between '{' '~' c
/-- element.rs:177-179 -/
def isGraphic (c : Char) : Bool := between '!' '~' c
/-- element.rs:181-183 -/
def isControl (c : Char) : Bool := between '\x00' '\x1F' c || c == '\x7F'
end Chr

namespace Byte
/-- Rust pattern `b'a'..=b'b'` on `u8`. -/
def between (a b : Char) (c : UInt8) : Bool := decide (a.toNat ≤ c.toNat) && decide (c.toNat ≤ b.toNat)
/-- Rust pattern/comparison with the byte literal `b'a'`. -/
def is (a : Char) (c : UInt8) : Bool := c.toNat == a.toNat

/-- element.rs:51-53 -/
def isSpace (c : UInt8) : Bool := is ' ' c || is '\t' c
/-- element.rs:55-57 -/
def isMultiSpace (c : UInt8) : Bool := isSpace c || (is '\n' c || is '\r' c)
/-- element.rs:59-61 -/
def isWhitespace (c : UInt8) : Bool := isMultiSpace c || is '\x0C' c
/-- element.rs:63-65 -/
def isAscii (c : UInt8) : Bool := c &&& 128 == 0
/-- element.rs:67-69 -/
def isUpper (c : UInt8) : Bool := between 'A' 'Z' c
/-- element.rs:71-73 -/
def isLower (c : UInt8) : Bool := between 'a' 'z' c
/-- element.rs:75-77 -/
def isAlpha (c : UInt8) : Bool := between 'A' 'Z' c || between 'a' 'z' c
/-- element.rs:79-81 -/
def isDigit (c : UInt8) : Bool := between '0' '9' c
/-- element.rs:83-85 -/
def isDigitZero (c : UInt8) : Bool := is '0' c
/-- element.rs:87-89 -/
def isDigitNonZero (c : UInt8) : Bool := !isDigitZero c
/-- element.rs:91-93 -/
def isAlphaDigit (c : UInt8) : Bool := between '0' '9' c || between 'A' 'Z' c || between 'a' 'z' c
/-- element.rs:95-97 -/
def isHexDigit (c : UInt8) : Bool := between '0' '9' c || between 'A' 'F' c || between 'a' 'f' c
/-- element.rs:99-101 (the source really has `b'0'..=b'8'`) -/
def isOctDigit (c : UInt8) : Bool := between '0' '8' c
/-- element.rs:103-105 -/
def isPunctuation (c : UInt8) : Bool :=
  between '!' '/' c || between ':' '@' c || between '[' '`' c || between '{' '~' c
/-- element.rs:107-109 -/
def isGraphic (c : UInt8) : Bool := between '!' '~' c
/-- element.rs:111-113 -/
def isControl (c : UInt8) : Bool := between '\x00' '\x1F' c || is '\x7F' c
end Byte

/-- The `Element` trait, element.rs:4-44, restricted to what the parsers use.  `code` is the value
that orders elements (`PartialOrd` of `char` and `u8`). -/
class Element (I : Type) where
  code : I → Nat
  isSpace : I → Bool
  isMultiSpace : I → Bool
  isAlpha : I → Bool
  isAlphaDigit : I → Bool
  isDigit : I → Bool
  isDigitZero : I → Bool
  isHexDigit : I → Bool
  isOctDigit : I → Bool

/-- `impl Element for char`, element.rs:116-184. -/
instance : Element Char where
  code := Char.toNat
  isSpace := Chr.isSpace
  isMultiSpace := Chr.isMultiSpace
  isAlpha := Chr.isAlpha
  isAlphaDigit := Chr.isAlphaDigit
  isDigit := Chr.isDigit
  isDigitZero := Chr.isDigitZero
  isHexDigit := Chr.isHexDigit
  isOctDigit := Chr.isOctDigit

/-- `impl Element for u8`, element.rs:46-114. -/
instance : Element UInt8 where
  code := UInt8.toNat
  isSpace := Byte.isSpace
  isMultiSpace := Byte.isMultiSpace
  isAlpha := Byte.isAlpha
  isAlphaDigit := Byte.isAlphaDigit
  isDigit := Byte.isDigit
  isDigitZero := Byte.isDigitZero
  isHexDigit := Byte.isHexDigit
  isOctDigit := Byte.isOctDigit

variable {I : Type}

/-! ## Element parsers -/

/-- `elm_pred_ref`, element_parsers_impl.rs:7-23; `elm_pred`, element_parsers.rs:34-39, is this mapped
with `Clone::clone`, the identity.  At the end of input the error is a `Mismatch`, not `Incomplete`. -/
def elmPred (f : I → Bool) : Parser I I := fun s =>
  s.withInput fun inp =>
    match inp with
    | x :: _ => if f x then .success x 1 else .failure (.mismatch inp (s.offset + 1) 1) .uncommitted
    | [] => .failure (.mismatch inp (s.offset + 1) 1) .uncommitted

/-- `elm_any(_ref)`, element_parsers.rs:5-15. -/
def elmAny : Parser I I := elmPred fun _ => true

/-- `elm(_ref)`, element_parsers.rs:17-27. -/
def elm [DecidableEq I] (x : I) : Parser I I := elmPred fun y => decide (y = x)

/-- `elm_space(_ref)`, element_parsers_impl.rs:25-29. -/
def elmSpace [Element I] : Parser I I := elmPred Element.isSpace
/-- `elm_multi_space(_ref)`, element_parsers_impl.rs:31-35. -/
def elmMultiSpace [Element I] : Parser I I := elmPred Element.isMultiSpace
/-- `elm_alpha(_ref)`, element_parsers_impl.rs:37-41. -/
def elmAlpha [Element I] : Parser I I := elmPred Element.isAlpha
/-- `elm_alpha_digit(_ref)`, element_parsers_impl.rs:43-47. -/
def elmAlphaDigit [Element I] : Parser I I := elmPred Element.isAlphaDigit
/-- `elm_digit(_ref)`, element_parsers_impl.rs:49-53. -/
def elmDigit [Element I] : Parser I I := elmPred Element.isDigit
/-- `elm_hex_digit(_ref)`, element_parsers_impl.rs:55-59. -/
def elmHexDigit [Element I] : Parser I I := elmPred Element.isHexDigit
/-- `elm_oct_digit(_ref)`, element_parsers_impl.rs:61-65. -/
def elmOctDigit [Element I] : Parser I I := elmPred Element.isOctDigit
/-- `elm_digit_1_9(_ref)`, lib.rs:886-890 and :910-914. -/
def elmDigit19 [Element I] : Parser I I := filterNot elmDigit Element.isDigitZero

/-- `elm_ref_of`/`elm_of`, element_parsers_impl.rs:67-85.  A `Set` (utils/set.rs) is its `contains`. -/
def elmOfSet (contains : I → Bool) : Parser I I := fun s =>
  s.withInput fun inp =>
    match inp with
    | x :: _ =>
      if contains x then .success x 1
      else .failure (.mismatch inp (s.offset + 1) 1) .uncommitted
    | [] => .failure .incomplete .uncommitted

/-- `impl Set<T> for [T]`, `[u8; N]` and `str` (as its characters), set.rs:16-30 and :78-. -/
def setOfList [DecidableEq I] (l : List I) : I → Bool := fun x => decide (x ∈ l)
/-- `impl Set<T> for RangeInclusive<T>`, set.rs:51-55. -/
def setIncl [Element I] (a b : I) : I → Bool := fun x =>
  decide (Element.code a ≤ Element.code x) && decide (Element.code b ≥ Element.code x)
/-- `impl Set<T> for Range<T>`, set.rs:44-48. -/
def setExcl [Element I] (a b : I) : I → Bool := fun x =>
  decide (Element.code a ≤ Element.code x) && decide (Element.code b > Element.code x)

/-- `impl Set<T> for RangeFull`, set.rs:33-41. -/
def setFull : I → Bool := fun _ => true
/-- `impl Set<T> for RangeFrom<T>`, set.rs:58-62. -/
def setFrom [Element I] (a : I) : I → Bool := fun x => decide (Element.code a ≤ Element.code x)
/-- `impl Set<T> for RangeTo<T>`, set.rs:65-69. -/
def setTo [Element I] (b : I) : I → Bool := fun x => decide (Element.code b > Element.code x)
/-- `impl Set<T> for RangeToInclusive<T>`, set.rs:72-76. -/
def setToIncl [Element I] (b : I) : I → Bool := fun x => decide (Element.code b ≥ Element.code x)

/-- `elm_of` with a list set. -/
def elmOf [DecidableEq I] (l : List I) : Parser I I := elmOfSet (setOfList l)

/-- `elm_ref_in`/`elm_in`, element_parsers_impl.rs:87-105 (same code as `elm_ref_of` with
`start..=end`). -/
def elmIn [Element I] (a b : I) : Parser I I := elmOfSet (setIncl a b)

/-- `elm_ref_from_until`/`elm_from_until`, element_parsers_impl.rs:107-125 (`start..end`). -/
def elmFromUntil [Element I] (a b : I) : Parser I I := elmOfSet (setExcl a b)

/-- `none_ref_of`/`none_of`, element_parsers_impl.rs:127-145. -/
def noneOfSet (contains : I → Bool) : Parser I I := fun s =>
  s.withInput fun inp =>
    match inp with
    | x :: _ =>
      if !contains x then .success x 1
      else .failure (.mismatch inp (s.offset + 1) 1) .uncommitted
    | [] => .failure .incomplete .uncommitted

/-- `none_of` with a list set. -/
def noneOf [DecidableEq I] (l : List I) : Parser I I := noneOfSet (setOfList l)

/-! ## Sequences of elements -/

/-- Loop of `seq`/`tag`/`tag_no_case`, elements_parsers_impl.rs:14-33, :40-57, :63-80.  `eq c actual`
is the comparison, `pat` the not yet compared part of the literal, `rest` the input from `index` on. -/
def seqLoop (eq : I → I → Bool) (s : State I) (inp : List I) (lit : List I) :
    (index : Nat) → (pat rest : List I) → Res I (List I)
  | index, [], _ => .success lit index
  | _, _ :: _, [] => .failure .incomplete .uncommitted
  | index, c :: pat, x :: rest =>
    if eq c x then seqLoop eq s inp lit (index + 1) pat rest
    else .failure (.mismatch inp (s.advanceBy index).offset index) (Committed.ofBool (index != 0))

/-- `seq`, elements_parsers_impl.rs:10-34; `tag`, :37-58, is the same loop on `char`. -/
def seq [DecidableEq I] (lit : List I) : Parser I (List I) := fun s =>
  s.withInput fun inp => seqLoop (fun c x => decide (c = x)) s inp lit 0 lit inp

/-- `tag`, elements_parsers_impl.rs:37-58. Text is `List Char`. -/
def tag (lit : List Char) : Parser Char (List Char) := seq lit

/-- `char::to_ascii_lowercase` of the standard library. -/
def asciiLower (c : Char) : Char := if Chr.isUpper c then Char.ofNat (c.toNat + 32) else c

/-- `char::eq_ignore_ascii_case` of the standard library:
`self.to_ascii_lowercase() == other.to_ascii_lowercase()`. -/
def eqIgnoreAsciiCase (a b : Char) : Bool := decide (asciiLower a = asciiLower b)

/-- `tag_no_case`, elements_parsers_impl.rs:60-81. -/
def tagNoCase (lit : List Char) : Parser Char (List Char) := fun s =>
  s.withInput fun inp => seqLoop eqIgnoreAsciiCase s inp lit 0 lit inp

/-- UTF-8 length of a character, what `str::len` counts. -/
def utf8Len (c : Char) : Nat :=
  if c.toNat < 0x80 then 1 else if c.toNat < 0x800 then 2 else if c.toNat < 0x10000 then 3 else 4

/-- `regex`, elements_parsers_impl.rs:83-107.  The compiled, `^`-anchored expression is a parameter
`m` giving the number of characters of the match at the start of a text.  The consumed length is
`str.len()`, the UTF-8 byte length of the match; `captures.get(0)` is never `None`.  An engine given by
`m` matches at the start of the text only; in the code the added `^` binds tighter than `|`, so that a
pattern with alternatives can match later in the text.  `Verif.Model.Regex` models the expression, the
engine and what `regex` does with such a match. -/
def regex (m : List Char → Option Nat) : Parser Char (List Char) := fun s =>
  s.withInput fun inp =>
    match m inp with
    | some k => .success (inp.take k) (((inp.take k).map utf8Len).sum)
    | none => .failure .incomplete .uncommitted

/-! ## Taken parsers -/

/-- `&l[a..b]`; panics if `a > b` or `b > len`. -/
def withSub {A : Type} (l : List I) (a b : Nat) (k : List I → Res I A) : Res I A :=
  if a ≤ b ∧ b ≤ l.length then k ((l.drop a).take (b - a)) else .panic

/-- `take`, taken_parsers_impl.rs:9-18. -/
def take (n : Nat) : Parser I (List I) := fun s =>
  s.withInput fun inp =>
    if inp.length ≥ n then s.withSlice n fun sl => .success sl n
    else .failure .incomplete .uncommitted

/-- The scanning loop of the `take_while` parsers, taken_parsers_impl.rs:27-38: it visits every
element of the rest (it does not stop at the first mismatch), remembers the index of the first match
and counts all matches. -/
def scanWhile (f : I → Bool) : (index : Nat) → (start : Option Nat) → (len : Nat) → List I →
    Option Nat × Nat
  | _, start, len, [] => (start, len)
  | index, start, len, c :: rest =>
    if f c then
      scanWhile f (index + 1) (if start.isNone then some index else start) (len + 1) rest
    else scanWhile f (index + 1) start len rest

/-- `take_while0`, taken_parsers_impl.rs:21-44. -/
def takeWhile0 (f : I → Bool) : Parser I (List I) := fun s =>
  s.withInput fun inp =>
    match scanWhile f 0 none 0 inp with
    | (some st, len) => withSub inp st (st + len) fun sl => .success sl len
    | (none, _) => s.withSlice 0 fun sl => .success sl 0

/-- `take_while1`, taken_parsers_impl.rs:47-70. -/
def takeWhile1 (f : I → Bool) : Parser I (List I) := fun s =>
  s.withInput fun inp =>
    match scanWhile f 0 none 0 inp with
    | (some st, len) => withSub inp st (st + len) fun sl => .success sl len
    | (none, _) => .failure .incomplete .uncommitted

/-- `take_while_n_m`, taken_parsers_impl.rs:73-103. -/
def takeWhileNM (n m : Nat) (f : I → Bool) : Parser I (List I) := fun s =>
  s.withInput fun inp =>
    match scanWhile f 0 none 0 inp with
    | (some st, len) =>
      withSub inp st (st + len) fun sl =>
        if n ≤ sl.length ∧ sl.length ≤ m then .success sl len
        else .failure .incomplete .uncommitted
    | (none, _) => .failure .incomplete .uncommitted

/-- The loop of the `take_till` parsers, taken_parsers_impl.rs:112-120: index of the first match. -/
def findTill (f : I → Bool) : Nat → List I → Option Nat
  | _, [] => none
  | index, c :: rest => if f c then some index else findTill f (index + 1) rest

/-- `take_till0`, taken_parsers_impl.rs:106-128. -/
def takeTill0 (f : I → Bool) : Parser I (List I) := fun s =>
  s.withInput fun inp =>
    match findTill f 0 inp with
    | some index => s.withSlice (index + 1) fun sl => .success sl (index + 1)
    | none => .success inp inp.length

/-- `take_till1`, taken_parsers_impl.rs:131-152. -/
def takeTill1 (f : I → Bool) : Parser I (List I) := fun s =>
  s.withInput fun inp =>
    match findTill f 0 inp with
    | some index => s.withSlice (index + 1) fun sl => .success sl (index + 1)
    | none => .failure .incomplete .uncommitted

end OniComb
