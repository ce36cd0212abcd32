import Verif.Model.Uri

/-!
# Specification for the `uri` crate: the character sets and texts of RFC 3986

Only the data types and the printers of the model are used here, none of its parsers.
-/

namespace OniComb.Uri.Rfc
open OniComb.Uri

/-- The byte is the code of one of the characters. -/
def OneOf (cs : List Char) (b : UInt8) : Prop := b.toNat ∈ cs.map Char.toNat

instance (cs : List Char) (b : UInt8) : Decidable (OneOf cs b) := inferInstanceAs (Decidable (_ ∈ _))

/-- ALPHA -/
def Alpha (b : UInt8) : Prop := (65 ≤ b.toNat ∧ b.toNat ≤ 90) ∨ (97 ≤ b.toNat ∧ b.toNat ≤ 122)
/-- DIGIT -/
def Digit (b : UInt8) : Prop := 48 ≤ b.toNat ∧ b.toNat ≤ 57
/-- HEXDIG (in both cases) -/
def Hex (b : UInt8) : Prop :=
  Digit b ∨ (65 ≤ b.toNat ∧ b.toNat ≤ 70) ∨ (97 ≤ b.toNat ∧ b.toNat ≤ 102)
/-- unreserved = ALPHA / DIGIT / "-" / "." / "_" / "~" -/
def Unreserved (b : UInt8) : Prop := Alpha b ∨ Digit b ∨ OneOf ['-', '.', '_', '~'] b
/-- sub-delims -/
def SubDelim (b : UInt8) : Prop := OneOf ['!', '$', '&', '\'', '(', ')', '*', '+', ',', ';', '='] b
/-- What stands for itself in a registered name, a user name or a password. -/
def RegByte (b : UInt8) : Prop := Unreserved b ∨ SubDelim b
/-- What stands for itself in a path segment (pchar). -/
def PcharByte (b : UInt8) : Prop := RegByte b ∨ OneOf [':', '@'] b
/-- What stands for itself in a fragment. -/
def FragByte (b : UInt8) : Prop := PcharByte b ∨ OneOf ['/', '?'] b
/-- What stands for itself in a key or a value of a query. -/
def QueryByte (b : UInt8) : Prop := FragByte b ∧ ¬ OneOf ['&', '='] b
/-- What follows the first letter of a scheme. -/
def SchemeByte (b : UInt8) : Prop := Alpha b ∨ Digit b ∨ OneOf ['+', '-', '.'] b

instance : DecidablePred Alpha := fun _ => inferInstanceAs (Decidable (_ ∨ _))
instance : DecidablePred Digit := fun _ => inferInstanceAs (Decidable (_ ∧ _))
instance : DecidablePred Hex := fun _ => inferInstanceAs (Decidable (_ ∨ _))
instance : DecidablePred Unreserved := fun _ => inferInstanceAs (Decidable (_ ∨ _))
instance : DecidablePred SubDelim := fun _ => inferInstanceAs (Decidable (OneOf _ _))
instance : DecidablePred RegByte := fun _ => inferInstanceAs (Decidable (_ ∨ _))
instance : DecidablePred PcharByte := fun _ => inferInstanceAs (Decidable (_ ∨ _))
instance : DecidablePred FragByte := fun _ => inferInstanceAs (Decidable (_ ∨ _))
instance : DecidablePred QueryByte := fun _ => inferInstanceAs (Decidable (_ ∧ _))
instance : DecidablePred SchemeByte := fun _ => inferInstanceAs (Decidable (_ ∨ _))

/-- A text of bytes of the class `P` and of percent encoded bytes. -/
inductive Enc (P : UInt8 → Prop) : Bytes → Prop where
  | nil : Enc P []
  | byte (b : UInt8) (t : Bytes) : P b → Enc P t → Enc P (b :: t)
  | pct (h l : UInt8) (t : Bytes) : Hex h → Hex l → Enc P t → Enc P (byte '%' :: h :: l :: t)

/-- scheme = ALPHA *( ALPHA / DIGIT / "+" / "-" / "." ) -/
def SchemeText (t : Bytes) : Prop := ∃ a s, t = a :: s ∧ Alpha a ∧ ∀ b ∈ s, SchemeByte b

/-- A user name and a password; unlike in the RFC a password is not empty and has no colon. -/
def UserInfoOk (u : UserInfo) : Prop :=
  Enc RegByte u.userName ∧ ∀ p, u.password = some p → p ≠ [] ∧ Enc RegByte p

/-- The number written by decimal digits. -/
def value (t : Bytes) : Nat := t.foldl (fun n b => n * 10 + (b.toNat - 48)) 0

/-- A decimal number without leading zeros. -/
def DecText (t : Bytes) (n : Nat) : Prop :=
  t ≠ [] ∧ (∀ b ∈ t, Digit b) ∧ value t = n ∧ (t.head? = some (byte '0') → t = [byte '0'])

/-- dec-octet "." dec-octet "." dec-octet "." dec-octet -/
def Ipv4Text (t : Bytes) (x : Ipv4) : Prop :=
  ∃ ta tb tc td, t = ta ++ [byte '.'] ++ tb ++ [byte '.'] ++ tc ++ [byte '.'] ++ td ∧
    DecText ta x.a ∧ DecText tb x.b ∧ DecText tc x.c ∧ DecText td x.d ∧
    x.a ≤ 255 ∧ x.b ≤ 255 ∧ x.c ≤ 255 ∧ x.d ≤ 255

/-- "v" 1*HEXDIG "." 1*( unreserved / sub-delims / ":" ) -/
def FutureText (t : Bytes) : Prop :=
  ∃ h r, t = byte 'v' :: (h ++ (byte '.' :: r)) ∧ h ≠ [] ∧ (∀ b ∈ h, Hex b) ∧ r ≠ [] ∧
    ∀ b ∈ r, RegByte b ∨ OneOf [':'] b

/-- The value of a hexadecimal digit. -/
def hexDigit (b : UInt8) : Nat :=
  if b.toNat ≤ 57 then b.toNat - 48 else if b.toNat ≤ 70 then b.toNat - 55 else b.toNat - 87

/-- The number written by hexadecimal digits. -/
def hexValue (t : Bytes) : Nat := t.foldl (fun n b => n * 16 + hexDigit b) 0

/-- h16 = 1*4HEXDIG -/
def H16Text (t : Bytes) (n : Nat) : Prop :=
  1 ≤ t.length ∧ t.length ≤ 4 ∧ (∀ b ∈ t, Hex b) ∧ hexValue t = n

/-- h16 *( ":" h16 ), with the groups. -/
inductive Groups : Bytes → List Nat → Prop where
  | one (t : Bytes) (n : Nat) : H16Text t n → Groups t [n]
  | cons (t : Bytes) (n : Nat) (u : Bytes) (ns : List Nat) : H16Text t n → Groups u ns →
      Groups (t ++ byte ':' :: u) (n :: ns)

/-- Groups separated by colons, where an IPv4 address may stand for the last two. -/
inductive Tail : Bytes → List Nat → Prop where
  | one (t : Bytes) (n : Nat) : H16Text t n → Tail t [n]
  | ipv4 (t : Bytes) (x : Ipv4) : Ipv4Text t x → Tail t [x.a * 256 + x.b, x.c * 256 + x.d]
  | cons (t : Bytes) (n : Nat) (u : Bytes) (ns : List Nat) : H16Text t n → Tail u ns →
      Tail (t ++ byte ':' :: u) (n :: ns)

/-- IPv6address: eight groups, or at most seven with one "::" for the zeros left out. -/
inductive Ipv6Text : Bytes → Ipv6 → Prop where
  | full (t : Bytes) (ns : List Nat) : Tail t ns → ns.length = 8 → Ipv6Text t ⟨ns⟩
  | short (t u : Bytes) (ns ms : List Nat) : (t = [] ∧ ns = [] ∨ Groups t ns) →
      (u = [] ∧ ms = [] ∨ Tail u ms) → ns.length + ms.length ≤ 7 →
      Ipv6Text (t ++ bytes "::" ++ u) ⟨ns ++ List.replicate (8 - ns.length - ms.length) 0 ++ ms⟩

/-- Seven groups and "::" for the last one. -/
def SevenGroups (t : Bytes) : Prop := ∃ g ns, t = g ++ bytes "::" ∧ Groups g ns ∧ ns.length = 7

/-- `FromStr for Ipv6Addr` of the standard library reads the texts of the RFC. -/
def StdOk (std : Std) : Prop := ∀ t x, Ipv6Text t x → std.parseIpv6 t = some x

/-- "/" segment -/
def SegmentPart (t : Bytes) : Prop := ∃ s, t = byte '/' :: s ∧ Enc PcharByte s

/-- host, where `V` says which of the IPv6 texts are meant -/
def HostText (V : Bytes → Prop) (t : Bytes) : HostName → Prop
  | .regName s => t = s ∧ s ≠ [] ∧ Enc RegByte s
  | .ipv4 x => Ipv4Text t x
  | .ipLiteral (.ipvFuture s) => t = [byte '['] ++ s ++ [byte ']'] ∧ FutureText s
  | .ipLiteral (.ipv6 x) => ∃ s, t = [byte '['] ++ s ++ [byte ']'] ∧ Ipv6Text s x ∧ V s

/-- 1*DIGIT, a number that fits into 16 bits -/
def PortText (t : Bytes) (n : Nat) : Prop := t ≠ [] ∧ (∀ b ∈ t, Digit b) ∧ value t = n ∧ n ≤ 65535

/-- A part that may be missing, behind a prefix. -/
def OptText {A : Type} (pre : Bytes) (T : Bytes → A → Prop) (t : Bytes) : Option A → Prop
  | none => t = []
  | some a => ∃ s, t = pre ++ s ∧ T s a

/-- userinfo "@" -/
def UserAtText (t : Bytes) (u : UserInfo) : Prop := t = u.show ++ [byte '@'] ∧ UserInfoOk u

/-- authority = [ userinfo "@" ] host [ ":" port ] -/
def AuthorityText (V : Bytes → Prop) (t : Bytes) (a : Authority) : Prop :=
  ∃ tu th tp, t = tu ++ th ++ tp ∧ OptText [] UserAtText tu a.userInfo ∧ HostText V th a.hostName ∧
    OptText [byte ':'] PortText tp a.port

/-- path-abempty and path-rootless -/
def PathText (t : Bytes) : Path → Prop
  | .abempty ps => t = ps.flatten ∧ ∀ s ∈ ps, SegmentPart s
  | .rootless ps => t = ps.flatten ∧ ∃ s ss, ps = s :: ss ∧ s ≠ [] ∧ Enc PcharByte s ∧ ∀ s ∈ ss, SegmentPart s
  | _ => False

/-- hier-part, where a path without authority may begin with two slashes -/
def HierText (V : Bytes → Prop) (t : Bytes) (h : HierPart) : Prop :=
  ∃ ta tp, t = ta ++ tp ∧ OptText (bytes "//") (AuthorityText V) ta h.authority ∧ PathText tp h.path ∧
    (h.authority.isSome → ∃ ps, h.path = .abempty ps) ∧ (h.authority = none → h.path.parts ≠ [])

/-- One key with its value -/
def PairOk (kv : Bytes × Option Bytes) : Prop := Enc QueryByte kv.1 ∧ ∀ v, kv.2 = some v → Enc QueryByte v

/-- key [ "=" value ] *( "&" key [ "=" value ] ) -/
def QueryText (t : Bytes) (q : Query) : Prop := t = q.show ∧ q.params ≠ [] ∧ ∀ kv ∈ q.params, PairOk kv

/-- fragment -/
def FragmentText (t f : Bytes) : Prop := t = f ∧ Enc FragByte f

/-- URI = [ scheme ] ":" [ hier-part ] [ "?" query ] [ "#" fragment ].  In the RFC the scheme is required. -/
def UriText (V : Bytes → Prop) (t : Bytes) (u : Uri) : Prop :=
  ∃ ts th tq tf, t = ts ++ [byte ':'] ++ th ++ tq ++ tf ∧
    OptText [] (fun t s => t = s ∧ SchemeText s) ts u.scheme ∧ OptText [] (HierText V) th u.hier ∧
    OptText [byte '?'] QueryText tq u.query ∧ OptText [byte '#'] FragmentText tf u.fragment

/-! ### Values whose printed form is such a text -/

/-- No prefix reads as a dotted decimal address. -/
def NoIpv4Prefix (s : Bytes) : Prop := ∀ t r x, s = t ++ r → ¬ Ipv4Text t x

/-- A registered name in the character set, an address, or a literal. -/
def HostOk (std : Std) : HostName → Prop
  | .regName s => s ≠ [] ∧ Enc RegByte s
  | .ipv4 x => x.a ≤ 255 ∧ x.b ≤ 255 ∧ x.c ≤ 255 ∧ x.d ≤ 255
  | .ipLiteral (.ipvFuture s) => FutureText s
  | .ipLiteral (.ipv6 x) => Ipv6Text (std.showIpv6 x) x ∧ ¬ SevenGroups (std.showIpv6 x)

def AuthorityOk (std : Std) (a : Authority) : Prop :=
  (∀ u, a.userInfo = some u → UserInfoOk u) ∧ HostOk std a.hostName ∧ ∀ n, a.port = some n → n ≤ 65535

/-- With an authority: segments behind slashes; without: at least one segment, the first one without or
with a slash. -/
def HierOk (std : Std) (h : HierPart) : Prop :=
  match h.authority, h.path with
  | some a, .abempty ps => AuthorityOk std a ∧ ∀ s ∈ ps, SegmentPart s
  | none, .abempty ps => ps ≠ [] ∧ ∀ s ∈ ps, SegmentPart s
  | none, .rootless ps => ∃ s ss, ps = s :: ss ∧ s ≠ [] ∧ Enc PcharByte s ∧ ∀ s ∈ ss, SegmentPart s
  | _, _ => False

/-- All components are in the character sets of the RFC. -/
def UriOk (std : Std) (u : Uri) : Prop :=
  (∀ s, u.scheme = some s → SchemeText s) ∧ (∀ h, u.hier = some h → HierOk std h) ∧
  (∀ q, u.query = some q → q.params ≠ [] ∧ ∀ kv ∈ q.params, PairOk kv) ∧
  ∀ f, u.fragment = some f → Enc FragByte f

/-- A byte of a path. -/
def PathByte (b : UInt8) : Prop := PcharByte b ∨ b = byte '/'

/-- The text begins with a character of a registered name. -/
def NameHead (t : Bytes) : Prop := ∃ s r, t = s ++ r ∧ s ≠ [] ∧ Enc RegByte s

/-- The text begins like an authority: a character of a name stands at the beginning, or behind the user
information if there is one. -/
def LikeAuthority (t : Bytes) : Prop :=
  (∃ u r, t = u.show ++ byte '@' :: r ∧ UserInfoOk u ∧ NameHead r) ∨
    (∀ u r, t = u.show ++ byte '@' :: r → ¬ UserInfoOk u) ∧ NameHead t

/-- What else is needed to read a text back: the registered name does not begin like an IPv4 address, and a
path without authority does not begin with two slashes and something like an authority. -/
def Unambiguous (u : Uri) : Prop :=
  (∀ s, u.hostName = some (.regName s) → NoIpv4Prefix s) ∧
  ∀ h r, u.hier = some h → h.authority = none → h.path.show = bytes "//" ++ r → ¬ LikeAuthority r

/-- A byte that may occur in a URI without percent encoding. -/
def UriByte (b : UInt8) : Prop := Unreserved b ∨ SubDelim b ∨ OneOf [':', '/', '?', '#', '[', ']', '@'] b

instance : DecidablePred UriByte := fun _ => inferInstanceAs (Decidable (_ ∨ _))

/-- A byte that may occur in front of the fragment without percent encoding. -/
def MainByte (b : UInt8) : Prop := Unreserved b ∨ SubDelim b ∨ OneOf [':', '/', '?', '[', ']', '@'] b

instance : DecidablePred MainByte := fun _ => inferInstanceAs (Decidable (_ ∨ _))

/-- A byte that cannot occur in a URI: a space, a quote, an angle bracket, ... -/
def Foreign (b : UInt8) : Prop := ¬ UriByte b ∧ b ≠ byte '%'

instance : DecidablePred Foreign := fun _ => inferInstanceAs (Decidable (_ ∧ _))

/-- The two texts agree up to zeros in front of the digits of the port. -/
def UpToZeros (port : Option Nat) (t s : Bytes) : Prop :=
  ∃ pre z post, t = pre ++ List.replicate z (byte '0') ++ post ∧ s = pre ++ post ∧
    (z ≠ 0 → ∃ n, port = some n ∧ [byte ':'] <:+ pre ∧ ∃ ds, DecText ds n ∧ ds <+: post)

/-- The host is not an IPv6 literal. -/
def NotIpv6 (u : Uri) : Prop := ∀ x, u.hostName ≠ some (.ipLiteral (.ipv6 x))

end OniComb.Uri.Rfc
