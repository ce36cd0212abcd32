import Verif.Model.Uri
import Verif.Model.Steps

/-!
# The URI parser, its steps counted

The parsers of `Model/Uri` once more, written with the counted combinators of `Model/Steps`. Conversions of what has been read
(`String::from_utf8`, `str::parse`, `Ipv6Addr`) are not counted. Files are those of `/repo/uri/src/parsers/`.
-/

namespace OniComb.Uri.Counting
open OniComb OniComb.Uri
open OniComb.Counted (prim unary)

/-- A counted parser of bytes. -/
abbrev C (A : Type) := Counted UInt8 A

section
variable {A B : Type}

/-- `.collect()`. -/
def coll (p : C A) : C Bytes := unary collect p
/-- `.name(l)`. -/
def named (p : C A) (l : String) : C A := unary (name · l) p
/-- `.attempt()`. -/
def att (p : C A) : C A := unary attempt p
/-- `.map(f)`. -/
def mapped (p : C A) (f : A → B) : C B := unary (map · f) p
/-- `.map_res(f)`. -/
def tried (p : C A) (f : A → Option B) : C B := unary (mapRes · f) p
/-- `.collect().map(|e| e.to_vec()).map_res(String::from_utf8)`. -/
def txt (p : C A) : C Bytes := tried (mapped (coll p) id) fromUtf8
/-- `elm(b'c')`. -/
def lit (c : Char) : C UInt8 := prim (elm (byte c))
/-- `elm_of(b"…")`. -/
def among (s : String) : C UInt8 := prim (elmOf (bytes s))

end

/-- `pct_encoded`, basic_parsers.rs:17-21. -/
def pctEncoded : C Bytes := named (coll (.andThen (.andThen (lit '%') (prim elmHexDigit)) (prim elmHexDigit))) "pct-encoded"

/-- `unreserved`, basic_parsers.rs:24-28. -/
def unreserved : C Bytes := named (coll (.or (.or (prim elmAlpha) (prim elmDigit)) (among "-._~"))) "unreserved"

/-- `sub_delims`, basic_parsers.rs:41-43. -/
def subDelims : C Bytes := coll (named (among "!$&'()*+,;=") "sub-delims")

/-- `sub_delims_without_eq_ampersand`, basic_parsers.rs:45-47. -/
def subDelimsWithoutEqAmp : C Bytes := coll (named (among "!$'()*+,;") "sub-delims")

/-- `pchar`, basic_parsers.rs:4-8. -/
def pchar : C Bytes := named (coll (.or (.or (.or unreserved pctEncoded) subDelims) (coll (among ":@")))) "pchar"

/-- `pchar_without_eq_amp`, basic_parsers.rs:10-14. -/
def pcharWithoutEqAmp : C Bytes :=
  named (coll (.or (.or (.or unreserved pctEncoded) subDelimsWithoutEqAmp) (coll (among ":@")))) "pchar"

/-- `scheme`, scheme_parsers.rs:6-11. -/
def scheme : C Bytes :=
  mapped (txt (.andThen (prim elmAlpha) (.many0 (.or (.or (prim elmAlpha) (prim elmDigit)) (among "+-."))))) id

/-- The item of `user_info`, user_info_parsers.rs:7, and of `reg_name`, host_parsers.rs:36. -/
def regChar : C Bytes := .or (.or (att unreserved) (att pctEncoded)) subDelims

/-- `user_info`, user_info_parsers.rs:6-12. -/
def userInfo : C UserInfo :=
  named (mapped (.andThen (txt (.many0 regChar)) (.opt (.skipLeft (lit ':') (txt (.many1 regChar))))) fun x => ⟨x.1, x.2⟩)
    "user_info"

/-- `dec_octet`, ip_v4_address_parsers.rs:16-29. -/
def decOctet : C Nat :=
  let p1 := coll (prim elmDigit)
  let p2 := coll (.andThen (prim elmDigit19) (prim elmDigit))
  let p3 := coll (.andThen (.andThen (lit '1') (prim elmDigit)) (prim elmDigit))
  let p4 := coll (.andThen (.andThen (lit '2') (prim (elmIn (byte '0') (byte '4')))) (prim elmDigit))
  let p5 := coll (.andThen (.andThen (lit '2') (lit '5')) (prim (elmIn (byte '0') (byte '5'))))
  named (tried (txt (.or (.or (.or (.or (att p5) (att p4)) (att p3)) (att p2)) p1)) (parseUInt 10 255)) "dec-octet"

/-- `ip_v4_address`, ip_v4_address_parsers.rs:5-9. -/
def ipv4Address : C Ipv4 :=
  named (mapped (.andThen (.skipRight (.andThen (.skipRight (.andThen (.skipRight decOctet (lit '.')) decOctet) (lit '.'))
    decOctet) (lit '.')) decOctet) fun x => ⟨x.1.1.1, x.1.1.2, x.1.2, x.2⟩) "ip_v4_address"

/-- `h16`, ip_v6_address_parsers.rs:169-178. -/
def h16 : C Nat := named (mapped (tried (txt (.manyNM (prim elmHexDigit) 1 4)) (parseUInt 16 65535)) id) "h16"

/-- `ls32`, ip_v6_address_parsers.rs:196-198. -/
def ls32 : C Ls32 :=
  .or (att (mapped (.andThen (.skipRight h16 (lit ':')) h16) fun x => .ls32 x.1 x.2)) (mapped ipv4Address .ipv4)

/-- `(h16() - elm(b':')).of_count(n)`. -/
def h16Colons (n : Nat) : C (List Nat) := .count (.skipRight h16 (lit ':')) n

/-- `ip_v6_address1`, ip_v6_address_parsers.rs:8-21. -/
def ipv6Address1 : C Ipv6 := unary (mapUnwrap · fun x => segmentsOf 6 [] x.1 x.2) (.andThen (h16Colons 6) ls32)

/-- `ip_v6_address2`, ip_v6_address_parsers.rs:24-37. -/
def ipv6Address2 : C Ipv6 :=
  unary (mapUnwrap · fun x => segmentsOf 5 [0] x.1 x.2) (.andThen (.skipLeft (.seq (bytes "::")) (h16Colons 5)) ls32)

/-- `ip_v6_address3`, ip_v6_address_parsers.rs:40-72. -/
def ipv6Address3 : C Ipv6 :=
  unary (mapUnwrap · fun x => segmentsOf 4 [x.1.1.getD 0, 0] x.1.2 x.2)
    (.andThen (.andThen (.skipRight (.opt h16) (.seq (bytes "::"))) (h16Colons 4)) ls32)

/-- `ip_v6_address_p1`, ip_v6_address_parsers.rs:74-83. -/
def ipv6P1 (n : Nat) : C Bytes := coll (.opt (mapped (.andThen h16 (.manyNM (.skipLeft (lit ':') h16) 0 n)) fun _ => ()))

/-- `ip_v6_address_p2`, ip_v6_address_parsers.rs:85-88. -/
def ipv6P2 (n m : Nat) : C Bytes :=
  coll (.andThen (.andThen (ipv6P1 n) (.seq (bytes "::"))) (coll (.andThen (.count (.andThen h16 (lit ':')) m) ls32)))

/-- `.map(|e| e.to_vec()).map_res(String::from_utf8).map_res(|s| s.parse::<Ipv6Addr>())`. -/
def toIpv6 (std : Std) (p : C Bytes) : C Ipv6 := tried (tried (mapped p id) fromUtf8) std.parseIpv6

/-- `ip_v6_address`, ip_v6_address_parsers.rs:140-151, with `ip_v6_address4` to `9`, :91-139. -/
def ipv6Address (std : Std) : C Ipv6 :=
  named (.or (.or (.or (.or (.or (.or (.or (.or (att ipv6Address1) (att ipv6Address2)) (att ipv6Address3))
    (att (toIpv6 std (ipv6P2 1 3)))) (att (toIpv6 std (ipv6P2 2 2)))) (att (toIpv6 std (ipv6P2 3 1))))
    (att (toIpv6 std (coll (.andThen (.andThen (ipv6P1 4) (.seq (bytes "::"))) ls32)))))
    (att (toIpv6 std (coll (.andThen (.andThen (ipv6P1 5) (.seq (bytes "::"))) h16)))))
    (toIpv6 std (coll (.andThen (ipv6P1 5) (.seq (bytes "::")))))) "ip_v6_address"

/-- `ip_v_future`, host_parsers.rs:23-32. -/
def ipvFuture : C Bytes :=
  named (txt (.andThen (.andThen (.andThen (lit 'v') (.many1 (prim elmHexDigit))) (lit '.'))
    (.many1 (.or (.or unreserved subDelims) (coll (lit ':')))))) "ipv-future"

/-- `ip_literal`, host_parsers.rs:16-20. -/
def ipLiteral (std : Std) : C IpLiteral :=
  named (.skipRight (.skipLeft (lit '[') (.or (att (mapped (ipv6Address std) .ipv6)) (mapped ipvFuture .ipvFuture))) (lit ']'))
    "ip-literal"

/-- `reg_name`, host_parsers.rs:35-43. -/
def regName : C HostName := named (mapped (txt (.many1 regChar)) .regName) "reg-name"

/-- `host`, host_parsers.rs:9-13. -/
def host (std : Std) : C HostName :=
  named (.or (.or (att (mapped (ipLiteral std) .ipLiteral)) (att (mapped ipv4Address .ipv4))) regName) "host"

/-- `port`, port_parsers.rs:3-9. -/
def port : C Nat := named (tried (tried (.many0 (prim elmDigit)) fromUtf8) (parseUInt 10 65535)) "port"

/-- `authority`, authority_parsers.rs:9-12. -/
def authority (std : Std) : C Authority :=
  mapped (.andThen (.andThen (.opt (.skipRight userInfo (lit '@'))) (host std)) (.opt (.skipLeft (lit ':') port)))
    fun x => ⟨x.1.2, x.2, x.1.1⟩

/-- `segment`, path_parsers.rs:88-90. -/
def segment : C Bytes := named (coll (.many0 pchar)) "segment"

/-- `seqment_nz`, path_parsers.rs:93-95. -/
def segmentNz : C Bytes := named (coll (.many1 pchar)) "segment-nz"

/-- `path_abempty`, path_parsers.rs:17-25. -/
def pathAbempty (n : Nat) : C Path :=
  named (mapped (.repeatFrom n (txt (.andThen (lit '/') segment))) .abempty) "path-abempty"

/-- `path_rootless`, path_parsers.rs:55-70. -/
def pathRootless : C Path :=
  named (mapped (unary (mapUnwrap · fun e => e.mapM fromUtf8)
    (mapped (.andThen segmentNz (.many0 (coll (.andThen (lit '/') segment)))) fun x => x.1 :: x.2)) .rootless) "path-rootless"

/-- `hier_part`, hier_part_parsers.rs:10-14. -/
def hierPart (std : Std) : C (Option HierPart) :=
  let p1 := mapped (.andThen (.skipLeft (.seq (bytes "//")) (authority std)) (pathAbempty 0)) fun x => HierPart.mk (some x.1) x.2
  let p2 := mapped (.or (att (pathAbempty 1)) pathRootless) fun e => HierPart.mk none e
  .opt (.or (att p1) p2)

/-- The closure `code_point` of query_parsers.rs:7-13. -/
def codePoint : C Bytes := txt (.many0 (.or pcharWithoutEqAmp (coll (among "/?"))))

/-- The closure `key_values` of query_parsers.rs:14. -/
def keyValues : C (Bytes × Option Bytes) := .andThen codePoint (.opt (.skipLeft (lit '=') codePoint))

/-- `query`, query_parsers.rs:6-20. -/
def query : C Query := mapped (.andThen keyValues (.many0 (.skipLeft (lit '&') keyValues))) fun x => ⟨x.1 :: x.2⟩

/-- `fragment`, fragment_parsers.rs:5-12. -/
def fragment : C Bytes := named (txt (.many0 (.or pchar (coll (among "/?"))))) "fragment"

/-- `uri`, uri_parsers.rs:14-17. -/
def uri (std : Std) : C Uri :=
  mapped (.andThen (.andThen (.andThen (.skipRight (.opt scheme) (lit ':')) (hierPart std)) (.opt (.skipLeft (lit '?') query)))
    (.opt (.skipLeft (lit '#') fragment))) fun x => ⟨x.1.1.1, x.1.1.2, x.1.2, x.2⟩

end OniComb.Uri.Counting
