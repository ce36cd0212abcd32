/-!
# UTF-16 and UTF-8 of the standard library

`std::char::decode_utf16` with `unwrap_or(REPLACEMENT_CHARACTER)` as used in
`/repo/hocon/src/parsers.rs:124-128` and `/repo/parser/examples/json_{char,byte}.rs`, and the UTF-8 encoding
of the `char`s collected into a `String`.  Characters are their code points.
-/

namespace OniComb.Unicode

/-- A high surrogate. -/
def isHigh (u : Nat) : Bool := decide (0xD800 ≤ u) && decide (u ≤ 0xDBFF)

/-- A low surrogate. -/
def isLow (u : Nat) : Bool := decide (0xDC00 ≤ u) && decide (u ≤ 0xDFFF)

/-- `decode_utf16(units).map(|r| r.unwrap_or(REPLACEMENT_CHARACTER))`: a surrogate pair becomes one code
point, an unpaired surrogate becomes U+FFFD. -/
def decodeUtf16 : List Nat → List Nat
  | [] => []
  | [u] => if isHigh u || isLow u then [0xFFFD] else [u]
  | u :: w :: us =>
    if isHigh u then
      if isLow w then (0x10000 + (u - 0xD800) * 0x400 + (w - 0xDC00)) :: decodeUtf16 us
      else 0xFFFD :: decodeUtf16 (w :: us)
    else if isLow u then 0xFFFD :: decodeUtf16 (w :: us)
    else u :: decodeUtf16 (w :: us)

/-- UTF-8 encoding of a code point. -/
def encodeUtf8 (c : Nat) : List UInt8 :=
  if c < 0x80 then [UInt8.ofNat c]
  else if c < 0x800 then [UInt8.ofNat (0xC0 + c / 0x40), UInt8.ofNat (0x80 + c % 0x40)]
  else if c < 0x10000 then
    [UInt8.ofNat (0xE0 + c / 0x1000), UInt8.ofNat (0x80 + c / 0x40 % 0x40), UInt8.ofNat (0x80 + c % 0x40)]
  else
    [UInt8.ofNat (0xF0 + c / 0x40000), UInt8.ofNat (0x80 + c / 0x1000 % 0x40),
      UInt8.ofNat (0x80 + c / 0x40 % 0x40), UInt8.ofNat (0x80 + c % 0x40)]

end OniComb.Unicode
