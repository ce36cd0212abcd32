import Verif.Model.Uri

/-!
# `Display for std::net::Ipv6Addr`

The algorithm of the standard library (`core/src/net/ip_addr.rs`, `impl fmt::Display for Ipv6Addr`, without width
or precision), which `Display for IpLiteral` (uri/src/models/host_name.rs:17-24) calls.  It is not part of /repo and
is written down from the documentation of the standard library.
-/

namespace OniComb.Uri
open OniComb

/-- `{:x}`: one digit. -/
def hexChar (n : Nat) : UInt8 := if n < 10 then UInt8.ofNat (48 + n) else UInt8.ofNat (87 + n)

/-- `{:x}` of the unsigned integers: lower case, no leading zeros. -/
def hexText (n : Nat) : Bytes :=
  if n < 16 then [hexChar n] else hexText (n / 16) ++ [hexChar (n % 16)]

/-- `struct Span { start, len }`. -/
structure Span where
  start : Nat
  len : Nat

/-- The loop `for (i, &segment) in segments.iter().enumerate()` that looks for the longest run of zeros; the first
of several runs of that length. -/
def longestZeros (i : Nat) (longest current : Span) : List Nat → Span
  | [] => longest
  | n :: ns =>
    if n = 0 then
      let current : Span := ⟨if current.len = 0 then i else current.start, current.len + 1⟩
      longestZeros (i + 1) (if longest.len < current.len then current else longest) current ns
    else longestZeros (i + 1) longest ⟨0, 0⟩ ns

/-- `fmt_subslice`: the segments with colons between them. -/
def segmentsText : List Nat → Bytes
  | [] => []
  | [n] => hexText n
  | n :: ns => hexText n ++ byte ':' :: segmentsText ns

/-- `Display for Ipv6Addr`: addresses `::ffff:0:0/96` with the IPv4 address, others with `::` for the longest run of
at least two zeros. -/
def displayIpv6 (x : Ipv6) : Bytes :=
  match x.segments with
  | [0, 0, 0, 0, 0, 0xffff, h, l] =>
    bytes "::ffff:" ++ Ipv4.show ⟨h / 256, h % 256, l / 256, l % 256⟩
  | segments =>
    let zeros := longestZeros 0 ⟨0, 0⟩ ⟨0, 0⟩ segments
    if 1 < zeros.len then
      segmentsText (segments.take zeros.start) ++ bytes "::" ++ segmentsText (segments.drop (zeros.start + zeros.len))
    else segmentsText segments

end OniComb.Uri
