import Verif.Model.Uri
import Verif.Spec.JsonTicks

/-!
# The URI parser with a clock

The parsers of `Model/Uri` with the combinators of `Model/CacheGrammar`; the store is a clock, which is advanced by one by every
parser without parts, and for a literal by its length and one. Files are those of `/repo/uri/src/parsers/`.
-/

namespace OniComb.Uri.Ticking
open OniComb OniComb.Uri
open OniComb.Peg (tick optTicked)
open OniComb.Stateful (SParser)

/-- A parser of bytes with a clock. -/
abbrev C (A : Type) := SParser Nat UInt8 A

section
variable {A B : Type}

/-- `.collect()`. -/
def coll (p : C A) : C Bytes := Stateful.unary collect p
/-- `.name(l)`. -/
def named (p : C A) (l : String) : C A := Stateful.unary (name · l) p
/-- `.attempt()`. -/
def att (p : C A) : C A := Stateful.unary attempt p
/-- `.map(f)`. -/
def mapped (p : C A) (f : A → B) : C B := Stateful.unary (map · f) p
/-- `.map_res(f)`. -/
def tried (p : C A) (f : A → Option B) : C B := Stateful.unary (mapRes · f) p
/-- `.collect().map(|e| e.to_vec()).map_res(String::from_utf8)`. -/
def txt (p : C A) : C Bytes := tried (mapped (coll p) id) fromUtf8
/-- `elm(b'c')`. -/
def lit (c : Char) : C UInt8 := tick 1 (elm (byte c))
/-- `elm_of(b"…")`. -/
def among (s : String) : C UInt8 := tick 1 (elmOf (bytes s))

/-- `repeat` with a range, repeat_parsers_impl.rs:60-132. -/
def times (p : C A) (r : Range) : C (List A) := Stateful.repeatSep p r (none : Option (C Unit))

end

/-- `pct_encoded`, basic_parsers.rs:17-21. -/
def pctEncoded : C Bytes := named (coll (Stateful.andThen (Stateful.andThen (lit '%') (tick 1 elmHexDigit)) (tick 1 elmHexDigit))) "pct-encoded"

/-- `unreserved`, basic_parsers.rs:24-28. -/
def unreserved : C Bytes := named (coll (Stateful.or (Stateful.or (tick 1 elmAlpha) (tick 1 elmDigit)) (among "-._~"))) "unreserved"

/-- `sub_delims`, basic_parsers.rs:41-43. -/
def subDelims : C Bytes := coll (named (among "!$&'()*+,;=") "sub-delims")

/-- `sub_delims_without_eq_ampersand`, basic_parsers.rs:45-47. -/
def subDelimsWithoutEqAmp : C Bytes := coll (named (among "!$'()*+,;") "sub-delims")

/-- `pchar`, basic_parsers.rs:4-8. -/
def pchar : C Bytes := named (coll (Stateful.or (Stateful.or (Stateful.or unreserved pctEncoded) subDelims) (coll (among ":@")))) "pchar"

/-- `pchar_without_eq_amp`, basic_parsers.rs:10-14. -/
def pcharWithoutEqAmp : C Bytes :=
  named (coll (Stateful.or (Stateful.or (Stateful.or unreserved pctEncoded) subDelimsWithoutEqAmp) (coll (among ":@")))) "pchar"

/-- `scheme`, scheme_parsers.rs:6-11. -/
def scheme : C Bytes :=
  mapped (txt (Stateful.andThen (tick 1 elmAlpha) (times (Stateful.or (Stateful.or (tick 1 elmAlpha) (tick 1 elmDigit)) (among "+-.")) (.from_ 0)))) id

/-- The item of `user_info`, user_info_parsers.rs:7, and of `reg_name`, host_parsers.rs:36. -/
def regChar : C Bytes := Stateful.or (Stateful.or (att unreserved) (att pctEncoded)) subDelims

/-- `user_info`, user_info_parsers.rs:6-12. -/
def userInfo : C UserInfo :=
  named (mapped (Stateful.andThen (txt (times regChar (.from_ 0))) (optTicked (Stateful.skipLeft (lit ':') (txt (times regChar (.from_ 1)))))) fun x => ⟨x.1, x.2⟩)
    "user_info"

/-- `dec_octet`, ip_v4_address_parsers.rs:16-29. -/
def decOctet : C Nat :=
  let p1 := coll (tick 1 elmDigit)
  let p2 := coll (Stateful.andThen (tick 1 elmDigit19) (tick 1 elmDigit))
  let p3 := coll (Stateful.andThen (Stateful.andThen (lit '1') (tick 1 elmDigit)) (tick 1 elmDigit))
  let p4 := coll (Stateful.andThen (Stateful.andThen (lit '2') (tick 1 (elmIn (byte '0') (byte '4')))) (tick 1 elmDigit))
  let p5 := coll (Stateful.andThen (Stateful.andThen (lit '2') (lit '5')) (tick 1 (elmIn (byte '0') (byte '5'))))
  named (tried (txt (Stateful.or (Stateful.or (Stateful.or (Stateful.or (att p5) (att p4)) (att p3)) (att p2)) p1)) (parseUInt 10 255)) "dec-octet"

/-- `ip_v4_address`, ip_v4_address_parsers.rs:5-9. -/
def ipv4Address : C Ipv4 :=
  named (mapped (Stateful.andThen (Stateful.skipRight (Stateful.andThen (Stateful.skipRight (Stateful.andThen (Stateful.skipRight decOctet (lit '.')) decOctet) (lit '.'))
    decOctet) (lit '.')) decOctet) fun x => ⟨x.1.1.1, x.1.1.2, x.1.2, x.2⟩) "ip_v4_address"

/-- `h16`, ip_v6_address_parsers.rs:169-178. -/
def h16 : C Nat := named (mapped (tried (txt (times (tick 1 elmHexDigit) (.closed 1 4))) (parseUInt 16 65535)) id) "h16"

/-- `ls32`, ip_v6_address_parsers.rs:196-198. -/
def ls32 : C Ls32 :=
  Stateful.or (att (mapped (Stateful.andThen (Stateful.skipRight h16 (lit ':')) h16) fun x => .ls32 x.1 x.2)) (mapped ipv4Address .ipv4)

/-- `(h16() - elm(b':')).of_count(n)`. -/
def h16Colons (n : Nat) : C (List Nat) := times (Stateful.skipRight h16 (lit ':')) (.closed n n)

/-- `ip_v6_address1`, ip_v6_address_parsers.rs:8-21. -/
def ipv6Address1 : C Ipv6 := Stateful.unary (mapUnwrap · fun x => segmentsOf 6 [] x.1 x.2) (Stateful.andThen (h16Colons 6) ls32)

/-- `ip_v6_address2`, ip_v6_address_parsers.rs:24-37. -/
def ipv6Address2 : C Ipv6 :=
  Stateful.unary (mapUnwrap · fun x => segmentsOf 5 [0] x.1 x.2) (Stateful.andThen (Stateful.skipLeft (Json.Ticking.word (bytes "::")) (h16Colons 5)) ls32)

/-- `ip_v6_address3`, ip_v6_address_parsers.rs:40-72. -/
def ipv6Address3 : C Ipv6 :=
  Stateful.unary (mapUnwrap · fun x => segmentsOf 4 [x.1.1.getD 0, 0] x.1.2 x.2)
    (Stateful.andThen (Stateful.andThen (Stateful.skipRight (optTicked h16) (Json.Ticking.word (bytes "::"))) (h16Colons 4)) ls32)

/-- `ip_v6_address_p1`, ip_v6_address_parsers.rs:74-83. -/
def ipv6P1 (n : Nat) : C Bytes := coll (optTicked (mapped (Stateful.andThen h16 (times (Stateful.skipLeft (lit ':') h16) (.closed 0 n))) fun _ => ()))

/-- `ip_v6_address_p2`, ip_v6_address_parsers.rs:85-88. -/
def ipv6P2 (n m : Nat) : C Bytes :=
  coll (Stateful.andThen (Stateful.andThen (ipv6P1 n) (Json.Ticking.word (bytes "::"))) (coll (Stateful.andThen (times (Stateful.andThen h16 (lit ':')) (.closed m m)) ls32)))

/-- `.map(|e| e.to_vec()).map_res(String::from_utf8).map_res(|s| s.parse::<Ipv6Addr>())`. -/
def toIpv6 (std : Std) (p : C Bytes) : C Ipv6 := tried (tried (mapped p id) fromUtf8) std.parseIpv6

/-- `ip_v6_address`, ip_v6_address_parsers.rs:140-151, with `ip_v6_address4` to `9`, :91-139. -/
def ipv6Address (std : Std) : C Ipv6 :=
  named (Stateful.or (Stateful.or (Stateful.or (Stateful.or (Stateful.or (Stateful.or (Stateful.or (Stateful.or (att ipv6Address1) (att ipv6Address2)) (att ipv6Address3))
    (att (toIpv6 std (ipv6P2 1 3)))) (att (toIpv6 std (ipv6P2 2 2)))) (att (toIpv6 std (ipv6P2 3 1))))
    (att (toIpv6 std (coll (Stateful.andThen (Stateful.andThen (ipv6P1 4) (Json.Ticking.word (bytes "::"))) ls32)))))
    (att (toIpv6 std (coll (Stateful.andThen (Stateful.andThen (ipv6P1 5) (Json.Ticking.word (bytes "::"))) h16)))))
    (toIpv6 std (coll (Stateful.andThen (ipv6P1 5) (Json.Ticking.word (bytes "::")))))) "ip_v6_address"

/-- `ip_v_future`, host_parsers.rs:23-32. -/
def ipvFuture : C Bytes :=
  named (txt (Stateful.andThen (Stateful.andThen (Stateful.andThen (lit 'v') (times (tick 1 elmHexDigit) (.from_ 1))) (lit '.'))
    (times (Stateful.or (Stateful.or unreserved subDelims) (coll (lit ':'))) (.from_ 1)))) "ipv-future"

/-- `ip_literal`, host_parsers.rs:16-20. -/
def ipLiteral (std : Std) : C IpLiteral :=
  named (Stateful.skipRight (Stateful.skipLeft (lit '[') (Stateful.or (att (mapped (ipv6Address std) .ipv6)) (mapped ipvFuture .ipvFuture))) (lit ']'))
    "ip-literal"

/-- `reg_name`, host_parsers.rs:35-43. -/
def regName : C HostName := named (mapped (txt (times regChar (.from_ 1))) .regName) "reg-name"

/-- `host`, host_parsers.rs:9-13. -/
def host (std : Std) : C HostName :=
  named (Stateful.or (Stateful.or (att (mapped (ipLiteral std) .ipLiteral)) (att (mapped ipv4Address .ipv4))) regName) "host"

/-- `port`, port_parsers.rs:3-9. -/
def port : C Nat := named (tried (tried (times (tick 1 elmDigit) (.from_ 0)) fromUtf8) (parseUInt 10 65535)) "port"

/-- `authority`, authority_parsers.rs:9-12. -/
def authority (std : Std) : C Authority :=
  mapped (Stateful.andThen (Stateful.andThen (optTicked (Stateful.skipRight userInfo (lit '@'))) (host std)) (optTicked (Stateful.skipLeft (lit ':') port)))
    fun x => ⟨x.1.2, x.2, x.1.1⟩

/-- `segment`, path_parsers.rs:88-90. -/
def segment : C Bytes := named (coll (times pchar (.from_ 0))) "segment"

/-- `seqment_nz`, path_parsers.rs:93-95. -/
def segmentNz : C Bytes := named (coll (times pchar (.from_ 1))) "segment-nz"

/-- `path_abempty`, path_parsers.rs:17-25. -/
def pathAbempty (n : Nat) : C Path :=
  named (mapped (times (txt (Stateful.andThen (lit '/') segment)) (.from_ n)) .abempty) "path-abempty"

/-- `path_rootless`, path_parsers.rs:55-70. -/
def pathRootless : C Path :=
  named (mapped (Stateful.unary (mapUnwrap · fun e => e.mapM fromUtf8)
    (mapped (Stateful.andThen segmentNz (times (coll (Stateful.andThen (lit '/') segment)) (.from_ 0))) fun x => x.1 :: x.2)) .rootless) "path-rootless"

/-- `hier_part`, hier_part_parsers.rs:10-14. -/
def hierPart (std : Std) : C (Option HierPart) :=
  let p1 := mapped (Stateful.andThen (Stateful.skipLeft (Json.Ticking.word (bytes "//")) (authority std)) (pathAbempty 0)) fun x => HierPart.mk (some x.1) x.2
  let p2 := mapped (Stateful.or (att (pathAbempty 1)) pathRootless) fun e => HierPart.mk none e
  optTicked (Stateful.or (att p1) p2)

/-- The closure `code_point` of query_parsers.rs:7-13. -/
def codePoint : C Bytes := txt (times (Stateful.or pcharWithoutEqAmp (coll (among "/?"))) (.from_ 0))

/-- The closure `key_values` of query_parsers.rs:14. -/
def keyValues : C (Bytes × Option Bytes) := Stateful.andThen codePoint (optTicked (Stateful.skipLeft (lit '=') codePoint))

/-- `query`, query_parsers.rs:6-20. -/
def query : C Query := mapped (Stateful.andThen keyValues (times (Stateful.skipLeft (lit '&') keyValues) (.from_ 0))) fun x => ⟨x.1 :: x.2⟩

/-- `fragment`, fragment_parsers.rs:5-12. -/
def fragment : C Bytes := named (txt (times (Stateful.or pchar (coll (among "/?"))) (.from_ 0))) "fragment"

/-- `uri`, uri_parsers.rs:14-17. -/
def uri (std : Std) : C Uri :=
  mapped (Stateful.andThen (Stateful.andThen (Stateful.andThen (Stateful.skipRight (optTicked scheme) (lit ':')) (hierPart std)) (optTicked (Stateful.skipLeft (lit '?') query)))
    (optTicked (Stateful.skipLeft (lit '#') fragment))) fun x => ⟨x.1.1.1, x.1.1.2, x.1.2, x.2⟩

end OniComb.Uri.Ticking
