import Verif.Model.Elements
import Verif.Model.Repeat

/-!
# The `uri` crate

Models `/repo/uri/src/models/{scheme,user_info,host_name,authority,path,hier_part,query,uri}.rs` and the
parsers of `/repo/uri/src/parsers/` reachable from `Uri::parse` (uri.rs:68-70).  `path`,
`path_absolute` and `path_noscheme` are in `UriPath.lean`.  Not modelled: `absolute_uri`, `reserved`, `gen_delims`
(unreachable: the module `parsers` is private, lib.rs:4), the derived instances and the generators of the tests.

A Rust `String` is the list of its bytes.
-/

namespace OniComb.Uri
open OniComb

/-- Bytes of a Rust `String` or of a byte slice. -/
abbrev Bytes := List UInt8

/-- A byte literal `b'x'`. -/
def byte (c : Char) : UInt8 := UInt8.ofNat c.toNat

/-- The bytes of an ASCII string literal. -/
def bytes (s : String) : Bytes := s.toList.map byte

/-! ## Standard library -/

/-- UTF-8 validity as checked by `String::from_utf8` (table 3-7 of the Unicode standard: no overlong
forms, no surrogates, at most `0x10FFFF`). -/
def validUtf8 : Bytes → Bool
  | [] => true
  | a :: r1 =>
    if a.toNat < 0x80 then validUtf8 r1
    else
      match r1 with
      | [] => false
      | b :: r2 =>
        if 0xC2 ≤ a.toNat ∧ a.toNat ≤ 0xDF then
          decide (0x80 ≤ b.toNat ∧ b.toNat ≤ 0xBF) && validUtf8 r2
        else
          match r2 with
          | [] => false
          | c :: r3 =>
            if 0xE0 ≤ a.toNat ∧ a.toNat ≤ 0xEF then
              decide ((if a.toNat = 0xE0 then 0xA0 else 0x80) ≤ b.toNat ∧
                b.toNat ≤ (if a.toNat = 0xED then 0x9F else 0xBF)) &&
              decide (0x80 ≤ c.toNat ∧ c.toNat ≤ 0xBF) && validUtf8 r3
            else
              match r3 with
              | [] => false
              | d :: r4 =>
                decide (0xF0 ≤ a.toNat ∧ a.toNat ≤ 0xF4) &&
                decide ((if a.toNat = 0xF0 then 0x90 else 0x80) ≤ b.toNat ∧
                  b.toNat ≤ (if a.toNat = 0xF4 then 0x8F else 0xBF)) &&
                decide (0x80 ≤ c.toNat ∧ c.toNat ≤ 0xBF) &&
                decide (0x80 ≤ d.toNat ∧ d.toNat ≤ 0xBF) && validUtf8 r4

/-- `String::from_utf8` of the standard library. -/
def fromUtf8 (bs : Bytes) : Option Bytes := if validUtf8 bs then some bs else none

/-- `char::to_digit(radix)` of the standard library for radix at most 16. -/
def digitOf (radix : Nat) (b : UInt8) : Option Nat :=
  let n := b.toNat
  let d :=
    if 48 ≤ n ∧ n ≤ 57 then some (n - 48)
    else if 65 ≤ n ∧ n ≤ 70 then some (n - 55)
    else if 97 ≤ n ∧ n ≤ 102 then some (n - 87)
    else none
  d.bind fun v => if v < radix then some v else none

/-- The digit loop of `from_str_radix`: stops at a byte that is not a digit and on overflow. -/
def digitsLoop (radix max : Nat) : Nat → Bytes → Option Nat
  | acc, [] => some acc
  | acc, b :: r =>
    (digitOf radix b).bind fun d =>
      if acc * radix + d ≤ max then digitsLoop radix max (acc * radix + d) r else none

/-- `from_str_radix` (and `str::parse`) for an unsigned type with largest value `max`. -/
def parseUInt (radix max : Nat) (bs : Bytes) : Option Nat :=
  match bs with
  | [] => none
  | [b] => if b = byte '+' ∨ b = byte '-' then none else digitsLoop radix max 0 [b]
  | b :: r => if b = byte '+' then digitsLoop radix max 0 r else digitsLoop radix max 0 (b :: r)

/-- `Display` of the unsigned integers of the standard library. -/
def dec (n : Nat) : Bytes :=
  if n < 10 then [UInt8.ofNat (48 + n)] else dec (n / 10) ++ [UInt8.ofNat (48 + n % 10)]

/-- `std::net::Ipv4Addr`, its four octets. -/
structure Ipv4 where
  a : Nat
  b : Nat
  c : Nat
  d : Nat
deriving DecidableEq, Repr

/-- `Display` of `std::net::Ipv4Addr`. -/
def Ipv4.show (x : Ipv4) : Bytes :=
  dec x.a ++ [byte '.'] ++ dec x.b ++ [byte '.'] ++ dec x.c ++ [byte '.'] ++ dec x.d

/-- `std::net::Ipv6Addr`, its eight segments. -/
structure Ipv6 where
  segments : List Nat
deriving DecidableEq, Repr

/-- What the model takes from `std::net::Ipv6Addr`: `FromStr` and `Display`. Parameters of the model. -/
structure Std where
  parseIpv6 : Bytes → Option Ipv6
  showIpv6 : Ipv6 → Bytes

/-! ## Data -/

/-- `UserInfo`, user_info.rs:3-7. -/
structure UserInfo where
  userName : Bytes
  password : Option Bytes
deriving DecidableEq, Repr

/-- `IpLiteral`, host_name.rs:11-15. -/
inductive IpLiteral where
  | ipv6 (x : Ipv6)
  | ipvFuture (s : Bytes)
deriving DecidableEq, Repr

/-- `HostName`, host_name.rs:4-9. -/
inductive HostName where
  | regName (s : Bytes)
  | ipv4 (x : Ipv4)
  | ipLiteral (l : IpLiteral)
deriving DecidableEq, Repr

/-- `Authority`, authority.rs:5-10. -/
structure Authority where
  hostName : HostName
  port : Option Nat
  userInfo : Option UserInfo
deriving DecidableEq, Repr

/-- `Path`, path.rs:4-25; the constant `type_name` of each variant is left out. -/
inductive Path where
  | rootless (parts : List Bytes)
  | abempty (parts : List Bytes)
  | absolute (parts : List Bytes)
  | noScheme (parts : List Bytes)
  | empty
deriving DecidableEq, Repr

/-- `HierPart`, hier_part.rs:6-10. -/
structure HierPart where
  authority : Option Authority
  path : Path
deriving DecidableEq, Repr

/-- `Query`, query.rs:5-8. -/
structure Query where
  params : List (Bytes × Option Bytes)
deriving DecidableEq, Repr

/-- `Uri`, uri.rs:14-20; `Scheme` (scheme.rs:3-4) is its text. -/
structure Uri where
  scheme : Option Bytes
  hier : Option HierPart
  query : Option Query
  fragment : Option Bytes
deriving DecidableEq, Repr

/-- `Option::map(..).unwrap_or("")`, and the `iter().map(..).fold("", push_str)` of an option. -/
def optText {A : Type} (o : Option A) (f : A → Bytes) : Bytes :=
  match o with
  | some a => f a
  | none => []

/-- `Display for UserInfo`, user_info.rs:18-34. -/
def UserInfo.show (u : UserInfo) : Bytes := u.userName ++ optText u.password fun p => byte ':' :: p

/-- `Display for IpLiteral`, host_name.rs:17-24. -/
def IpLiteral.show (std : Std) : IpLiteral → Bytes
  | .ipv6 x => [byte '['] ++ std.showIpv6 x ++ [byte ']']
  | .ipvFuture s => [byte '['] ++ s ++ [byte ']']

/-- `Display for HostName`, host_name.rs:32-40. -/
def HostName.show (std : Std) : HostName → Bytes
  | .regName s => s
  | .ipv4 x => x.show
  | .ipLiteral l => l.show std

/-- `Display for Authority`, authority.rs:22-39. -/
def Authority.show (std : Std) (a : Authority) : Bytes :=
  optText a.userInfo (fun u => u.show ++ [byte '@']) ++ a.hostName.show std ++
    optText a.port fun n => byte ':' :: dec n

/-- `Path::parts`, path.rs:116-125. -/
def Path.parts : Path → List Bytes
  | .rootless ps => ps
  | .abempty ps => ps
  | .absolute ps => ps
  | .noScheme ps => ps
  | .empty => []

/-- `Display for Path`, path.rs:33-41. -/
def Path.show (p : Path) : Bytes := p.parts.flatten

/-- `Path::add_part`, path.rs:147-161. -/
def Path.addPart (p : Path) (part : Bytes) : Path :=
  match p with
  | .rootless ps => .rootless (ps ++ [part])
  | .abempty ps => .abempty (ps ++ [part])
  | .absolute ps => .absolute (ps ++ [part])
  | .noScheme ps => .noScheme (ps ++ [part])
  | .empty => .empty

/-- `Path::add_parts`, path.rs:163-167, and `with_parts`, path.rs:135-137. -/
def Path.addParts (p : Path) (parts : List Bytes) : Path := parts.foldl Path.addPart p

/-- `Path::to_rootless`, path.rs:139-141. -/
def Path.toRootless (p : Path) : Path := .rootless p.parts

/-- `Path::to_absolute`, path.rs:143-145. -/
def Path.toAbsolute (p : Path) : Path := .absolute p.parts

/-- `Display for HierPart`, hier_part.rs:12-25. -/
def HierPart.show (std : Std) (h : HierPart) : Bytes :=
  (optText h.authority fun a => bytes "//" ++ a.show std) ++ h.path.show

/-- One pair of `Query::as_string`, query.rs:91-100. -/
def pairText : Bytes × Option Bytes → Bytes
  | (k, none) => k
  | (k, some v) => k ++ (byte '=' :: v)

/-- `[String]::join` of the standard library. -/
def join (sep : Bytes) : List Bytes → Bytes
  | [] => []
  | [x] => x
  | x :: xs => x ++ (sep ++ join sep xs)

/-- `Query::as_string` and `Display`, query.rs:87-104 and :22-26. -/
def Query.show (q : Query) : Bytes := join [byte '&'] (q.params.map pairText)

/-- A `HashMap<&String, Vec<&String>>`, as a finite map. -/
abbrev ParamMap := Bytes → Option (List Bytes)

/-- `HashMap::insert`. -/
def ParamMap.insert (m : ParamMap) (k : Bytes) (vs : List Bytes) : ParamMap :=
  fun k' => if k' = k then some vs else m k'

/-- One turn of the loop of `Query::params`, query.rs:52-66. -/
def paramStep (m : ParamMap) : Bytes × Option Bytes → ParamMap
  | (key, value) =>
    match m key, value with
    | none, none => m.insert key []
    | none, some v => m.insert key [v]
    | some values, some v => m.insert key (values ++ [v])
    | _, _ => m

/-- `Query::params`, query.rs:50-68. -/
def Query.paramMap (q : Query) : ParamMap := q.params.foldl paramStep (fun _ => none)

/-- `Query::get_param`, query.rs:83-85. -/
def Query.getParam (q : Query) (key : Bytes) : Option (List Bytes) := q.paramMap key

/-- `Query::add`, query.rs:69-71. -/
def Query.add (q : Query) (key value : Bytes) : Query := ⟨q.params ++ [(key, some value)]⟩

/-- `Query::add_opt`, query.rs:73-81. -/
def Query.addOpt (q : Query) (key : Bytes) (value : Option Bytes) : Query :=
  match value with
  | some v => q.add key v
  | none => q

/-- `Ord for str` of the standard library: bytes are compared from the left, a proper prefix is less. -/
def strCmp : Bytes → Bytes → Ordering
  | [], [] => .eq
  | [], _ :: _ => .lt
  | _ :: _, [] => .gt
  | a :: as, b :: bs => if a < b then .lt else if b < a then .gt else strCmp as bs

/-- `PartialOrd for Query`, query.rs:16-20. -/
def Query.partialCmp (q r : Query) : Option Ordering := some (strCmp q.show r.show)

/-- `Path::is_empty`, path.rs:127-129. -/
def Path.isEmpty (p : Path) : Bool := p.parts.isEmpty

/-- `Path::non_empty`, path.rs:131-133. -/
def Path.nonEmpty (p : Path) : Bool := !p.isEmpty

/-- `Display for Uri`, uri.rs:33-65: the colon is always written. -/
def Uri.show (std : Std) (u : Uri) : Bytes :=
  (optText u.scheme id ++ [byte ':']) ++
    (optText u.hier fun h => optText h.authority fun a => bytes "//" ++ a.show std) ++
    (optText u.hier fun h => h.path.show) ++
    (optText u.query fun q => byte '?' :: q.show) ++
    optText u.fragment fun f => byte '#' :: f

/-- `Uri::authority`, uri.rs:90-95. -/
def Uri.authority (u : Uri) : Option Authority := u.hier.bind HierPart.authority
/-- `Uri::host_name`, uri.rs:97-99. -/
def Uri.hostName (u : Uri) : Option HostName := u.authority.map Authority.hostName
/-- `Uri::port`, uri.rs:101-103. -/
def Uri.port (u : Uri) : Option Nat := u.authority.bind Authority.port
/-- `Uri::user_info`, uri.rs:105-107. -/
def Uri.userInfo (u : Uri) : Option UserInfo := u.authority.bind Authority.userInfo
/-- `Uri::path`, uri.rs:109-111. -/
def Uri.path (u : Uri) : Option Path := u.hier.map HierPart.path
/-- `Uri::is_absolute`, uri.rs:121-123. -/
def Uri.isAbsolute (u : Uri) : Bool := u.fragment.isNone

/-! ## Parsers -/

/-- `p.map(f)` where the closure panics on some values: `unwrap`, indexing of a `Vec`. -/
def mapUnwrap {A B : Type} (p : Parser UInt8 A) (f : A → Option B) : Parser UInt8 B := fun s =>
  match p s with
  | .success v n =>
    match f v with
    | some w => .success w n
    | none => .panic
  | .failure e c => .failure e c
  | .panic => .panic
  | .diverge => .diverge

/-- `.collect().map(|e| e.to_vec()).map_res(String::from_utf8)`. -/
def text {A : Type} (p : Parser UInt8 A) : Parser UInt8 Bytes :=
  mapRes (map (collect p) id) fromUtf8

/-- `pct_encoded`, basic_parsers.rs:17-21. -/
def pctEncoded : Parser UInt8 Bytes :=
  name (collect (andThen (andThen (elm (byte '%')) elmHexDigit) elmHexDigit)) "pct-encoded"

/-- `unreserved`, basic_parsers.rs:24-28. -/
def unreserved : Parser UInt8 Bytes :=
  name (collect (or (or elmAlpha elmDigit) (elmOf (bytes "-._~")))) "unreserved"

/-- `sub_delims`, basic_parsers.rs:41-43. -/
def subDelims : Parser UInt8 Bytes := collect (name (elmOf (bytes "!$&'()*+,;=")) "sub-delims")

/-- `sub_delims_without_eq_ampersand`, basic_parsers.rs:45-47. -/
def subDelimsWithoutEqAmp : Parser UInt8 Bytes :=
  collect (name (elmOf (bytes "!$'()*+,;")) "sub-delims")

/-- `pchar`, basic_parsers.rs:4-8. -/
def pchar : Parser UInt8 Bytes :=
  name (collect (or (or (or unreserved pctEncoded) subDelims) (collect (elmOf (bytes ":@"))))) "pchar"

/-- `pchar_without_eq_amp`, basic_parsers.rs:10-14. -/
def pcharWithoutEqAmp : Parser UInt8 Bytes :=
  name (collect (or (or (or unreserved pctEncoded) subDelimsWithoutEqAmp)
    (collect (elmOf (bytes ":@"))))) "pchar"

/-- `scheme`, scheme_parsers.rs:6-11. -/
def scheme : Parser UInt8 Bytes :=
  map (text (andThen elmAlpha (many0 (or (or elmAlpha elmDigit) (elmOf (bytes "+-.")))))) id

/-- The closure `p` of user_info_parsers.rs:7, also the item of `reg_name`, host_parsers.rs:36. -/
def regChar : Parser UInt8 Bytes := or (or (attempt unreserved) (attempt pctEncoded)) subDelims

/-- `user_info`, user_info_parsers.rs:6-12. -/
def userInfo : Parser UInt8 UserInfo :=
  name (map (andThen (text (many0 regChar)) (opt (skipLeft (elm (byte ':')) (text (many1 regChar)))))
    fun x => ⟨x.1, x.2⟩) "user_info"

/-- `dec_octet`, ip_v4_address_parsers.rs:16-29. -/
def decOctet : Parser UInt8 Nat :=
  let p1 := collect elmDigit
  let p2 := collect (andThen elmDigit19 elmDigit)
  let p3 := collect (andThen (andThen (elm (byte '1')) elmDigit) elmDigit)
  let p4 := collect (andThen (andThen (elm (byte '2')) (elmIn (byte '0') (byte '4'))) elmDigit)
  let p5 := collect (andThen (andThen (elm (byte '2')) (elm (byte '5'))) (elmIn (byte '0') (byte '5')))
  name (mapRes (text (or (or (or (or (attempt p5) (attempt p4)) (attempt p3)) (attempt p2)) p1))
    (parseUInt 10 255)) "dec-octet"

/-- `ip_v4_address`, ip_v4_address_parsers.rs:5-9. -/
def ipv4Address : Parser UInt8 Ipv4 :=
  let dot := elm (byte '.')
  name (map (andThen (skipRight (andThen (skipRight (andThen (skipRight decOctet dot) decOctet) dot)
    decOctet) dot) decOctet) fun x => ⟨x.1.1.1, x.1.1.2, x.1.2, x.2⟩) "ip_v4_address"

/-- `h16`, ip_v6_address_parsers.rs:169-178; `H16` (:153-154) is its number. -/
def h16 : Parser UInt8 Nat :=
  name (map (mapRes (text (manyNM elmHexDigit 1 4)) (parseUInt 16 65535)) id) "h16"

/-- `LS32`, ip_v6_address_parsers.rs:180-184. -/
inductive Ls32 where
  | ls32 (l r : Nat)
  | ipv4 (x : Ipv4)

/-- `ls32`, ip_v6_address_parsers.rs:196-198. -/
def ls32 : Parser UInt8 Ls32 :=
  or (attempt (map (andThen (skipRight h16 (elm (byte ':'))) h16) fun x => .ls32 x.1 x.2))
    (map ipv4Address .ipv4)

/-- The last two segments, ip_v6_address_parsers.rs:11-18 and later; `<<` and `|` on octets are
`* 256` and `+`. -/
def Ls32.segments : Ls32 → List Nat
  | .ls32 l r => [l, r]
  | .ipv4 x => [x.a * 256 + x.b, x.c * 256 + x.d]

/-- `(h16() - elm(b':')).of_count(n)`. -/
def h16Colons (n : Nat) : Parser UInt8 (List Nat) := count (skipRight h16 (elm (byte ':'))) n

/-- `Ipv6Addr::new` applied to `vec[0]`, …, `vec[n - 1]` behind `before` and in front of the last two
segments; indexing panics if the vector is too short. -/
def segmentsOf (n : Nat) (before vec : List Nat) (b : Ls32) : Option Ipv6 :=
  if n ≤ vec.length then some ⟨before ++ vec.take n ++ b.segments⟩ else none

/-- `ip_v6_address1`, ip_v6_address_parsers.rs:8-21. -/
def ipv6Address1 : Parser UInt8 Ipv6 :=
  mapUnwrap (andThen (h16Colons 6) ls32) fun x => segmentsOf 6 [] x.1 x.2

/-- `ip_v6_address2`, ip_v6_address_parsers.rs:24-37. -/
def ipv6Address2 : Parser UInt8 Ipv6 :=
  mapUnwrap (andThen (skipLeft (seq (bytes "::")) (h16Colons 5)) ls32) fun x => segmentsOf 5 [0] x.1 x.2

/-- `ip_v6_address3`, ip_v6_address_parsers.rs:40-72. -/
def ipv6Address3 : Parser UInt8 Ipv6 :=
  mapUnwrap (andThen (andThen (skipRight (opt h16) (seq (bytes "::"))) (h16Colons 4)) ls32)
    fun x => segmentsOf 4 [x.1.1.getD 0, 0] x.1.2 x.2

/-- `ip_v6_address_p1`, ip_v6_address_parsers.rs:74-83. -/
def ipv6P1 (n : Nat) : Parser UInt8 Bytes :=
  collect (opt (map (andThen h16 (manyNM (skipLeft (elm (byte ':')) h16) 0 n)) fun _ => ()))

/-- `ip_v6_address_p2`, ip_v6_address_parsers.rs:85-88. -/
def ipv6P2 (n m : Nat) : Parser UInt8 Bytes :=
  collect (andThen (andThen (ipv6P1 n) (seq (bytes "::")))
    (collect (andThen (count (andThen h16 (elm (byte ':'))) m) ls32)))

/-- `.map(|e| e.to_vec()).map_res(String::from_utf8).map_res(|s| s.parse::<Ipv6Addr>())`. -/
def toIpv6 (std : Std) (p : Parser UInt8 Bytes) : Parser UInt8 Ipv6 :=
  mapRes (mapRes (map p id) fromUtf8) std.parseIpv6

/-- `ip_v6_address7` to `9` without the conversion, ip_v6_address_parsers.rs:115-139; the source really
has `ip_v6_address_p1(5)` in `ip_v6_address9`. -/
def ipv6Short (std : Std) : Parser UInt8 Ipv6 × Parser UInt8 Ipv6 × Parser UInt8 Ipv6 :=
  (toIpv6 std (collect (andThen (andThen (ipv6P1 4) (seq (bytes "::"))) ls32)),
   toIpv6 std (collect (andThen (andThen (ipv6P1 5) (seq (bytes "::"))) h16)),
   toIpv6 std (collect (andThen (ipv6P1 5) (seq (bytes "::")))))

/-- `ip_v6_address`, ip_v6_address_parsers.rs:140-151, with `ip_v6_address4` to `6`, :91-112. -/
def ipv6Address (std : Std) : Parser UInt8 Ipv6 :=
  name (or (or (or (or (or (or (or (or (attempt ipv6Address1) (attempt ipv6Address2))
    (attempt ipv6Address3))
    (attempt (toIpv6 std (ipv6P2 1 3)))) (attempt (toIpv6 std (ipv6P2 2 2))))
    (attempt (toIpv6 std (ipv6P2 3 1)))) (attempt (ipv6Short std).1)) (attempt (ipv6Short std).2.1))
    (ipv6Short std).2.2) "ip_v6_address"

/-- `ip_v_future`, host_parsers.rs:23-32. -/
def ipvFuture : Parser UInt8 Bytes :=
  name (text (andThen (andThen (andThen (elm (byte 'v')) (many1 elmHexDigit)) (elm (byte '.')))
    (many1 (or (or unreserved subDelims) (collect (elm (byte ':'))))))) "ipv-future"

/-- `ip_literal`, host_parsers.rs:16-20. -/
def ipLiteral (std : Std) : Parser UInt8 IpLiteral :=
  name (skipRight (skipLeft (elm (byte '['))
    (or (attempt (map (ipv6Address std) .ipv6)) (map ipvFuture .ipvFuture))) (elm (byte ']')))
    "ip-literal"

/-- `reg_name`, host_parsers.rs:35-43. -/
def regName : Parser UInt8 HostName := name (map (text (many1 regChar)) .regName) "reg-name"

/-- `host`, host_parsers.rs:9-13. -/
def host (std : Std) : Parser UInt8 HostName :=
  name (or (or (attempt (map (ipLiteral std) .ipLiteral)) (attempt (map ipv4Address .ipv4))) regName)
    "host"

/-- `port`, port_parsers.rs:3-9. -/
def port : Parser UInt8 Nat :=
  name (mapRes (mapRes (many0 elmDigit) fromUtf8) (parseUInt 10 65535)) "port"

/-- `authority`, authority_parsers.rs:9-12. -/
def authority (std : Std) : Parser UInt8 Authority :=
  map (andThen (andThen (opt (skipRight userInfo (elm (byte '@')))) (host std))
    (opt (skipLeft (elm (byte ':')) port))) fun x => ⟨x.1.2, x.2, x.1.1⟩

/-- `segment`, path_parsers.rs:88-90. -/
def segment : Parser UInt8 Bytes := name (collect (many0 pchar)) "segment"

/-- `seqment_nz`, path_parsers.rs:93-95. -/
def segmentNz : Parser UInt8 Bytes := name (collect (many1 pchar)) "segment-nz"

/-- `path_abempty`, path_parsers.rs:17-25; `n` is 1 if `required`, otherwise 0. -/
def pathAbempty (n : Nat) : Parser UInt8 Path :=
  name (map (repeat_ (text (andThen (elm (byte '/')) segment)) (.from_ n)) .abempty) "path-abempty"

/-- `path_rootless`, path_parsers.rs:55-70. -/
def pathRootless : Parser UInt8 Path :=
  name (map (mapUnwrap (map (andThen segmentNz (many0 (collect (andThen (elm (byte '/')) segment))))
    fun x => x.1 :: x.2) fun e => e.mapM fromUtf8) .rootless) "path-rootless"

/-- `hier_part`, hier_part_parsers.rs:10-14. -/
def hierPart (std : Std) : Parser UInt8 (Option HierPart) :=
  let p1 := map (andThen (skipLeft (seq (bytes "//")) (authority std)) (pathAbempty 0))
    fun x => HierPart.mk (some x.1) x.2
  let p2 := map (or (attempt (pathAbempty 1)) pathRootless) fun e => HierPart.mk none e
  opt (or (attempt p1) p2)

/-- The closure `code_point` of query_parsers.rs:7-13. -/
def codePoint : Parser UInt8 Bytes :=
  text (many0 (or pcharWithoutEqAmp (collect (elmOf (bytes "/?")))))

/-- The closure `key_values` of query_parsers.rs:14. -/
def keyValues : Parser UInt8 (Bytes × Option Bytes) :=
  andThen codePoint (opt (skipLeft (elm (byte '=')) codePoint))

/-- `query`, query_parsers.rs:6-20. -/
def query : Parser UInt8 Query :=
  map (andThen keyValues (many0 (skipLeft (elm (byte '&')) keyValues))) fun x => ⟨x.1 :: x.2⟩

/-- `fragment`, fragment_parsers.rs:5-12. -/
def fragment : Parser UInt8 Bytes :=
  name (text (many0 (or pchar (collect (elmOf (bytes "/?")))))) "fragment"

/-- `uri`, uri_parsers.rs:14-17. -/
def uri (std : Std) : Parser UInt8 Uri :=
  map (andThen (andThen (andThen (skipRight (opt scheme) (elm (byte ':'))) (hierPart std))
    (opt (skipLeft (elm (byte '?')) query))) (opt (skipLeft (elm (byte '#')) fragment)))
    fun x => ⟨x.1.1.1, x.1.1.2, x.1.2, x.2⟩

/-- `Uri::parse`, uri.rs:68-70. -/
def Uri.parse (std : Std) (text : Bytes) : Res.Out UInt8 Uri := OniComb.parse (uri std) text

end OniComb.Uri
