import Verif.Lemmas.UriRest

/-!
# Properties of the `uri` crate (C49 – C54, C68 – C71)

The specification is `Verif.Spec.Uri`: the texts of RFC 3986.  `StdOk std` says that the standard library
reads the IPv6 texts of the RFC; `exists_stdOk` shows that this can be met.
-/

namespace OniComb.Uri
open OniComb Rfc

/-- A standard library for the examples: reads and prints no IPv6 address. -/
def noStd : Std := ⟨fun _ => none, fun _ => []⟩

theorem parse_iff {std : Std} {input : Bytes} {u : Uri} :
    Uri.parse std input = .ok u ↔ ∃ t rest, input = t ++ rest ∧ Eats (uri std) t u rest := by
  unfold Uri.parse OniComb.parse
  constructor
  · intro h
    cases hr : uri std ⟨input, 0⟩ with
    | success v n =>
      rw [hr] at h
      cases h
      obtain ⟨t, rest, h1, -, h2⟩ := success_split hr
      exact ⟨t, rest, h1, h2⟩
    | failure e c => rw [hr] at h; cases h
    | panic => rw [hr] at h; cases h
    | diverge => rw [hr] at h; cases h
  · rintro ⟨t, rest, rfl, h⟩
    have h : uri std ⟨t ++ rest, 0⟩ = _ := h
    rw [h]; rfl

/-! ## C49 Printing inverts parsing -/

/-- If the parser consumes `n` bytes then the URI is printed as these `n` bytes, up to zeros in front of the
digits of the port.  (Of IPv6 literals the printed form is that of the standard library.) -/
theorem c49_show_consumed {std : Std} (hstd : StdOk std) {input : Bytes} {u : Uri} {n : Nat}
    (h : uri std ⟨input, 0⟩ = .success u n) (h6 : NotIpv6 u) :
    UpToZeros u.port (input.take n) (u.show std) := by
  obtain ⟨t, rest, rfl, rfl, he⟩ := success_split h
  rw [List.take_left]
  exact uri_zeros (uri_sound hstd he) h6

/-- If no port begins with a zero then the printed URI is exactly what was consumed. -/
theorem c49_show_exact {std : Std} (hstd : StdOk std) {input : Bytes} {u : Uri} {n : Nat}
    (h : uri std ⟨input, 0⟩ = .success u n) (h6 : NotIpv6 u)
    (hz : ∀ pre post, input.take n ≠ pre ++ bytes ":0" ++ post) : u.show std = input.take n := by
  obtain ⟨pre, z, post, h1, h2, h3⟩ := c49_show_consumed hstd h h6
  cases z with
  | zero => rw [h1, h2]; simp
  | succ z =>
    obtain ⟨-, -, ⟨p, rfl⟩, -⟩ := h3 (by simp)
    refine absurd ?_ (hz p (List.replicate z (byte '0') ++ post))
    rw [h1, show bytes ":0" = [byte ':', byte '0'] by decide, List.replicate_succ]
    simp

/-- A parsed URI is read back from its printed form. -/
theorem c49_reparse {std : Std} (hstd : StdOk std) {input : Bytes} {u : Uri} (h : Uri.parse std input = .ok u)
    (h6 : NotIpv6 u) : Uri.parse std (u.show std) = .ok u := by
  obtain ⟨t, rest, -, he⟩ := parse_iff.1 h
  exact parse_iff.2 ⟨_, [], (List.append_nil _).symm, uri_complete hstd (uri_show (uri_ok (uri_sound hstd he) h6))
    (uri_unambiguous he) (by intro b r' he; cases he)⟩

/-- With two slashes in front of the path, too, if nothing behind them can be a host. -/
example : uri noStd ⟨bytes "a:////x//:@/y?q[", 0⟩ = .success ⟨some (bytes "a"), some ⟨none, .abempty [bytes "/", bytes "/",
      bytes "/", bytes "/x", bytes "/", bytes "/:@", bytes "/y"]⟩, some ⟨[(bytes "q", none)]⟩, none⟩ 15 ∧
    uri noStd ⟨bytes "a://u@[::", 0⟩ = .success ⟨some (bytes "a"), some ⟨none, .abempty [bytes "/", bytes "/u@"]⟩, none,
      none⟩ 6 := by decide +kernel

example : uri noStd ⟨bytes "http://u:p@example.com:0080/a//b?x=1&y#z rest", 0⟩ =
    .success ⟨some (bytes "http"), some ⟨some ⟨.regName (bytes "example.com"), some 80, some ⟨bytes "u", some (bytes "p")⟩⟩,
      .abempty [bytes "/a", bytes "/", bytes "/b"]⟩, some ⟨[(bytes "x", some (bytes "1")), (bytes "y", none)]⟩,
      some (bytes "z")⟩ 40 := by decide +kernel

example : NotIpv6 ⟨some (bytes "http"), some ⟨some ⟨.regName (bytes "example.com"), some 80, none⟩, .abempty []⟩, none,
    none⟩ := by intro x; simp [Uri.hostName, Uri.authority]

/-! ## C50 Trailing garbage -/

/-- Behind any URI whatever begins with a byte that cannot occur in one is ignored. -/
theorem c50_garbage_violated {std : Std} (hstd : StdOk std) {t : Bytes} {u : Uri}
    (h : UriText (¬ SevenGroups ·) t u) (ha : Unambiguous u) (b : UInt8) (hb : Foreign b) (garbage : Bytes) :
    Uri.parse std (t ++ b :: garbage) = .ok u :=
  parse_iff.2 ⟨t, _, rfl, uri_complete hstd h ha fun b' r' he => by cases he; exact .inr hb⟩

example : Foreign (byte ' ') ∧ Foreign (byte '<') ∧ Foreign (byte '"') ∧ Foreign (byte '\\') ∧ Foreign 200 := by
  decide

example : Uri.parse noStd (bytes "http://a/ b") = .ok ⟨some (bytes "http"),
    some ⟨some ⟨.regName (bytes "a"), none, none⟩, .abempty [bytes "/"]⟩, none, none⟩ := by decide +kernel

/-- The rest of the text is ignored also if it is made of bytes of a URI. -/
theorem c50_rest_violated : Uri.parse noStd (bytes "http://localhost:/admin?x=1") = .ok ⟨some (bytes "http"),
    some ⟨some ⟨.regName (bytes "localhost"), none, none⟩, .abempty []⟩, none, none⟩ := by decide +kernel

private theorem start_digit {w : Bytes} (hd : ∀ b r', w = b :: r' → ¬ Digit b) : ¬ Start Digit False w := by
  rintro (⟨b, r', e, hb⟩ | ⟨h, -⟩)
  · exact hd b r' e hb
  · exact h

/-- It is so behind every host name and colon, unless a port follows or the name and the colon turn out to
be user info: whatever text stands there is ignored, with path and query. -/
theorem c50_rest_general_violated {std : Std} (hstd : StdOk std) {sch s w : Bytes} (hs : SchemeText sch)
    (h0 : s ≠ []) (he : Enc RegByte s) (hn : NoIpv4Prefix s) (hd : ∀ b r', w = b :: r' → ¬ Digit b)
    (hw : ∀ p r', p ≠ [] → Enc RegByte p → w ≠ p ++ byte '@' :: r') :
    Uri.parse std (sch ++ bytes "://" ++ s ++ byte ':' :: w) =
      .ok ⟨some sch, some ⟨some ⟨.regName s, none, none⟩, .abempty []⟩, none, none⟩ :=
  parse_iff.2 ⟨_, _, rfl, uri_authority hs (authority_name hstd h0 he hn hw (start_digit hd)) (by
    intro c hc r' h
    simp at h
    revert h
    rw [← and_true (byte ':' = byte c)]
    simp only [List.mem_cons, List.not_mem_nil, or_false] at hc
    rcases hc with rfl | rfl | rfl <;> (intro h; exact absurd h.1.1 (by decide)))⟩

example : NoIpv4Prefix (bytes "localhost") ∧ ∀ p r', p ≠ [] → Enc RegByte p →
    bytes "/admin?x=1" ≠ p ++ byte '@' :: r' := by
  refine ⟨?_, fun p r' h0 hp e => ?_⟩
  · intro t r x e ht
    obtain ⟨d, t', rfl, hd⟩ := ipv4_digit_head ht
    have : bytes "localhost" = byte 'l' :: bytes "ocalhost" := by decide
    rw [this] at e
    simp at e
    rw [← e.1] at hd
    revert hd; decide
  · have : bytes "/admin?x=1" = byte '/' :: bytes "admin?x=1" := by decide
    rw [this] at e
    cases p with
    | nil => exact h0 rfl
    | cons b p => simp at e; exact absurd (e.1 ▸ enc_name hp b (by simp)) (by decide)

theorem _root_.OniComb.Uri.Rfc.UriText.weaken {V : Bytes → Prop} {t : Bytes} {u : Uri} (h : UriText V t u) : UriText (fun _ => True) t u := by
  obtain ⟨ts, th, tq, tf, rfl, h1, h2, h3, h4⟩ := h
  refine ⟨ts, th, tq, tf, rfl, h1, ?_, h3, h4⟩
  cases hh : u.hier with
  | none => rw [hh] at h2; exact h2
  | some h =>
    rw [hh] at h2
    obtain ⟨s, rfl, ta, tp, rfl, h5, h6⟩ := h2
    refine ⟨_, rfl, ta, tp, rfl, ?_, h6⟩
    cases ha : h.authority with
    | none => rw [ha] at h5; exact h5
    | some a =>
      rw [ha] at h5
      obtain ⟨s, rfl, tu, th, tp, rfl, h7, h8, h9⟩ := h5
      refine ⟨_, rfl, tu, th, tp, rfl, h7, ?_, h9⟩
      match a.hostName, h8 with
      | .regName s, h8 => exact h8
      | .ipv4 x, h8 => exact h8
      | .ipLiteral (.ipvFuture s), h8 => exact h8
      | .ipLiteral (.ipv6 x), h8 => obtain ⟨s, rfl, h, -⟩ := h8; exact ⟨s, rfl, h, trivial⟩

/-- A text is accepted only if it begins with a URI, and the result has the components of that URI. -/
theorem c50_prefix_partial {std : Std} (hstd : StdOk std) {input : Bytes} {u : Uri}
    (h : Uri.parse std input = .ok u) : ∃ t rest, input = t ++ rest ∧ UriText (fun _ => True) t u := by
  obtain ⟨t, rest, h1, he⟩ := parse_iff.1 h
  exact ⟨t, rest, h1, (uri_sound hstd he).weaken⟩

/-! ## C51 Components -/

/-- Every text of the grammar is read, with its components. -/
theorem c51_text_partial {std : Std} (hstd : StdOk std) {t : Bytes} {u : Uri}
    (h : UriText (¬ SevenGroups ·) t u) (ha : Unambiguous u) : Uri.parse std t = .ok u :=
  parse_iff.2 ⟨t, [], by simp, uri_complete hstd h ha (by intro b r' he; cases he)⟩

/-- Every URI of components in the character sets of the RFC is read back from its printed form. -/
theorem c51_roundtrip_partial {std : Std} (hstd : StdOk std) {u : Uri} (h : UriOk std u) (ha : Unambiguous u) :
    Uri.parse std (u.show std) = .ok u := c51_text_partial hstd (uri_show h) ha

/-- The texts that are consumed completely are those of the grammar without the ambiguous ones. -/
theorem c51_language {std : Std} (hstd : StdOk std) {t : Bytes} {u : Uri} :
    uri std ⟨t, 0⟩ = .success u t.length ↔ UriText (¬ SevenGroups ·) t u ∧ Unambiguous u := by
  have e : uri std ⟨t, 0⟩ = .success u t.length ↔ Eats (uri std) t u [] := by unfold Eats; rw [List.append_nil]
  rw [e]
  constructor
  · exact fun h => ⟨uri_sound hstd h, uri_unambiguous h⟩
  · rintro ⟨h1, h2⟩
    exact uri_complete hstd h1 h2 (by intro b r' he; cases he)

/-- Of the URIs with components in the character sets of the RFC exactly the ambiguous ones are not read back. -/
theorem c51_roundtrip_iff_partial {std : Std} (hstd : StdOk std) {u : Uri} (h : UriOk std u) :
    Uri.parse std (u.show std) = .ok u ↔ Unambiguous u := by
  refine ⟨fun hp => ?_, c51_roundtrip_partial hstd h⟩
  obtain ⟨t, rest, -, he⟩ := parse_iff.1 hp
  exact uri_unambiguous he

/-- Two different URIs are never printed alike. -/
theorem c51_show_injective {std : Std} (hstd : StdOk std) {u v : Uri} (hu : UriOk std u) (hau : Unambiguous u)
    (hv : UriOk std v) (hav : Unambiguous v) (h : u.show std = v.show std) : u = v := by
  have h1 := c51_roundtrip_partial hstd hu hau
  rw [h, c51_roundtrip_partial hstd hv hav] at h1
  cases h1; rfl

/-- A registered name that begins like an address is not read back: the address is taken for the host and the
rest is dropped. -/
theorem c51_host_violated : UriOk noStd ⟨some (bytes "http"), some ⟨some ⟨.regName (bytes "1.2.3.4.example.com"), none, none⟩,
      .abempty [bytes "/x"]⟩, none, none⟩ ∧
    Uri.parse noStd (bytes "http://1.2.3.4.example.com/x") = .ok ⟨some (bytes "http"),
      some ⟨some ⟨.ipv4 ⟨1, 2, 3, 4⟩, none, none⟩, .abempty []⟩, none, none⟩ := by
  refine ⟨⟨?_, ?_, ?_, ?_⟩, by decide +kernel⟩
  · rintro s ⟨⟩
    exact ⟨byte 'h', bytes "ttp", by decide, by decide, by decide⟩
  · rintro h ⟨⟩
    refine ⟨⟨by rintro u ⟨⟩, ⟨by decide, .of_all (by decide)⟩, by rintro n ⟨⟩⟩, ?_⟩
    intro s hs
    simp at hs
    subst hs
    exact ⟨bytes "x", by decide, .of_all (by decide)⟩
  · rintro q ⟨⟩
  · rintro f ⟨⟩

/-- It is so for every registered name that begins with an address and goes on with something else than a
digit, whatever path, query and fragment follow: the URI is not read back but gives the address. -/
theorem c51_host_general_violated {std : Std} {sch t r rest : Bytes} {b : UInt8} {x : Ipv4} (hs : SchemeText sch)
    (ht : Ipv4Text t x) (he : Enc RegByte (t ++ b :: r)) (hb : ¬ Digit b)
    (hr : ∀ b' r', rest = b' :: r' → b' ∈ bytes "/?#") :
    Uri.parse std (sch ++ bytes "://" ++ (t ++ b :: r) ++ rest) =
      .ok ⟨some sch, some ⟨some ⟨.ipv4 x, none, none⟩, .abempty []⟩, none, none⟩ := by
  have hst : Stop rest := by
    intro b' r' e
    have := hr b' r' e
    rw [show bytes "/?#" = ['/', '?', '#'].map byte by decide] at this
    exact .inl ((mem_bytes (by decide)).1 this)
  refine parse_iff.2 ⟨_, b :: r ++ rest, by simp, uri_authority hs (authority_ipv4 ht he hb hst) ?_⟩
  intro c hc r' h
  simp at h
  have hb' := enc_name he b (by simp)
  rw [h.1] at hb'
  revert hb'
  simp only [List.mem_cons, List.not_mem_nil, or_false] at hc
  rcases hc with rfl | rfl | rfl <;> decide

example : Ipv4Text (bytes "1.2.3.4") ⟨1, 2, 3, 4⟩ ∧ Enc RegByte (bytes "1.2.3.4" ++ byte '.' :: bytes "example.com") ∧
    ¬ Digit (byte '.') := by
  refine ⟨⟨bytes "1", bytes "2", bytes "3", bytes "4", by decide, ?_, ?_, ?_, ?_, by decide, by decide, by decide, by decide⟩, .of_all (by decide), by decide⟩ <;>
    exact ⟨by decide, by decide, by decide, by decide⟩

/-- A path with two slashes and without authority is taken for an authority. -/
theorem c51_slashes_violated : Uri.parse noStd (Uri.show noStd ⟨some (bytes "file"), some ⟨none, .abempty [bytes "/",
      bytes "/etc"]⟩, none, none⟩) = .ok ⟨some (bytes "file"), some ⟨some ⟨.regName (bytes "etc"), none, none⟩,
      .abempty []⟩, none, none⟩ := by decide +kernel

/-- No URI without authority and with a path that begins with an empty segment and a name is read back: what is
read has an authority. -/
theorem c51_slashes_general_violated {std : Std} {sch s : Bytes} {ps : List Bytes} {q : Option Query}
    {f : Option Bytes} (hs : SchemeText sch) (h0 : s ≠ []) (he : Enc RegByte s)
    (hp : PathText ps.flatten (.abempty ps)) (u : Uri)
    (h : Uri.parse std (Uri.show std ⟨some sch, some ⟨none, .abempty (bytes "/" :: (byte '/' :: s) :: ps)⟩, q, f⟩) =
      .ok u) : u.authority ≠ none := by
  obtain ⟨t, r, e, hu⟩ := parse_iff.1 h
  refine uri_slashes (rest := ps.flatten ++ ((optText q fun q => byte '?' :: q.show) ++ optText f fun f => byte '#' :: f)) hs h0 he ?_ ?_ hu
  · intro b r' e
    left
    cases ps with
    | nil =>
      cases q with
      | some q => simp [optText] at e; rw [← e.1]; decide
      | none =>
        cases f with
        | some f => simp [optText] at e; rw [← e.1]; decide
        | none => simp [optText] at e
    | cons p ps =>
      obtain ⟨t', ht'⟩ := abempty_head hp (by simp)
      rw [ht'] at e
      simp at e
      rw [← e.1]; decide
  · rw [← e]
    have : bytes "/" = [byte '/'] := by decide
    have : bytes "//" = [byte '/', byte '/'] := by decide
    simp [Uri.show, optText, Path.show, Path.parts, *]

/-- The hypotheses of the round trip are met. -/
example : UriOk noStd ⟨some (bytes "http"), some ⟨some ⟨.ipv4 ⟨127, 0, 0, 1⟩, some 8080, some ⟨bytes "u%20", none⟩⟩,
      .abempty [bytes "/x"]⟩, some ⟨[(bytes "k", some [])]⟩, some (bytes "/?")⟩ ∧
    Unambiguous ⟨some (bytes "http"), some ⟨some ⟨.ipv4 ⟨127, 0, 0, 1⟩, some 8080, some ⟨bytes "u%20", none⟩⟩,
      .abempty [bytes "/x"]⟩, some ⟨[(bytes "k", some [])]⟩, some (bytes "/?")⟩ := by
  refine ⟨⟨?_, ?_, ?_, ?_⟩, ?_, ?_⟩
  · rintro s ⟨⟩
    exact ⟨byte 'h', bytes "ttp", by decide, by decide, by decide⟩
  · rintro h ⟨⟩
    refine ⟨⟨?_, ⟨by decide, by decide, by decide, by decide⟩, by rintro n ⟨⟩; decide⟩, ?_⟩
    · rintro u ⟨⟩
      exact ⟨.byte (byte 'u') _ (by decide) (.pct (byte '2') (byte '0') [] (by decide) (by decide) .nil), by rintro p ⟨⟩⟩
    · intro s hs
      simp at hs
      subst hs
      exact ⟨bytes "x", by decide, .of_all (by decide)⟩
  · rintro q ⟨⟩
    refine ⟨by simp, ?_⟩
    intro kv hkv
    simp at hkv
    subst hkv
    exact ⟨.of_all (by decide), by rintro v ⟨⟩; exact .nil⟩
  · rintro f ⟨⟩
    exact .of_all (by decide)
  · rintro s ⟨⟩
  · rintro h r ⟨⟩ ⟨⟩

/-! ## C52 Characters, panics -/

/-- Every call returns. -/
theorem c52_returns (std : Std) (input : Bytes) :
    (∃ u, Uri.parse std input = .ok u) ∨ ∃ e, Uri.parse std input = .err e := by
  unfold Uri.parse OniComb.parse
  rcases outcomes (uri std) input with ⟨t, v, rest, rfl, h⟩ | ⟨c, e, h⟩ | h
  · have h : uri std ⟨t ++ rest, 0⟩ = _ := h
    rw [h]; exact .inl ⟨v, rfl⟩
  · rw [h]; exact .inr ⟨e, rfl⟩
  · exact absurd (Halts.out input) h

/-- The consumed bytes are characters of RFC 3986, and a percent sign is followed by two hexadecimal digits. -/
theorem c52_characters {std : Std} (hstd : StdOk std) {input : Bytes} {u : Uri} {n : Nat}
    (h : uri std ⟨input, 0⟩ = .success u n) : n ≤ input.length ∧ Enc UriByte (input.take n) := by
  obtain ⟨t, rest, rfl, rfl, he⟩ := success_split h
  rw [List.take_left]
  exact ⟨by simp, uri_uri (uri_sound hstd he)⟩

/-- Every percent sign of such a text stands in front of two hexadecimal digits. -/
theorem c52_percent {t : Bytes} (h : Enc UriByte t) (pre post : Bytes) (he : t = pre ++ byte '%' :: post) :
    ∃ a b r, post = a :: b :: r ∧ Hex a ∧ Hex b := by
  induction h generalizing pre with
  | nil => simp at he
  | byte b t hb _ ih =>
    cases pre with
    | nil => simp at he; rw [he.1] at hb; exact absurd hb (by decide)
    | cons c pre => simp at he; exact ih pre he.2
  | pct h l t h1 h2 _ ih =>
    match pre, he with
    | [], he => simp at he; exact ⟨h, l, t, he.symm, h1, h2⟩
    | [a], he => simp at he; rw [he.2.1] at h1; exact absurd h1 (by decide)
    | [a, b], he => simp at he; rw [he.2.2.1] at h2; exact absurd h2 (by decide)
    | a :: b :: c :: pre, he => simp at he; exact ih pre he.2.2.2

/-- No other byte is accepted, whatever the standard library does. -/
example : UriByte (byte 'a') ∧ ¬ UriByte (byte ' ') ∧ ¬ UriByte (byte '%') ∧ ¬ UriByte 200 := by decide

/-! ## C53 Dotted decimal hosts -/

/-- The parser accepts exactly the texts that begin with four numbers up to 255 without leading zeros, and
takes the longest such prefix. -/
theorem c53_ipv4 {input : Bytes} {x : Ipv4} {n : Nat} : ipv4Address ⟨input, 0⟩ = .success x n ↔
    ∃ t rest, input = t ++ rest ∧ n = t.length ∧ Ipv4Text t x ∧
      ∀ d r, rest = d :: r → Digit d → x.d = 0 ∨ 255 < x.d * 10 + (d.toNat - 48) := by
  have hv : ∀ m (d : UInt8), value (dec m ++ [d]) = m * 10 + (d.toNat - 48) := by
    intro m d
    have := decText_value (dec_spec m).1
    unfold value at this ⊢
    rw [List.foldl_append, this]; rfl
  have h0 : ∀ m, dec m = [byte '0'] ↔ m = 0 := by
    intro m
    constructor
    · intro h
      have := decText_value (dec_spec m).1
      rw [h] at this
      rw [← this]; decide
    · rintro rfl; decide +kernel
  have hs : ∀ rest : Bytes, Ipv4Stop x rest ↔
      ∀ d r, rest = d :: r → Digit d → x.d = 0 ∨ 255 < x.d * 10 + (d.toNat - 48) := by
    intro rest
    unfold Ipv4Stop OctetStop
    simp only [hv, h0]
  constructor
  · intro h
    obtain ⟨t, rest, rfl, rfl, he⟩ := success_split h
    obtain ⟨h1, h2⟩ := eats_ipv4Address.1 he
    exact ⟨t, rest, rfl, rfl, h1, (hs rest).1 h2⟩
  · rintro ⟨t, rest, rfl, rfl, h1, h2⟩
    exact eats_ipv4Address.2 ⟨h1, (hs rest).2 h2⟩

/-- Every address is read back from its printed form. -/
theorem c53_roundtrip (x : Ipv4) (ha : x.a ≤ 255) (hb : x.b ≤ 255) (hc : x.c ≤ 255) (hd : x.d ≤ 255) :
    ipv4Address ⟨x.show, 0⟩ = .success x x.show.length :=
  c53_ipv4.2 ⟨x.show, [], by simp, rfl, ipv4Text_iff.2 ⟨rfl, ha, hb, hc, hd⟩, by intro d r h; cases h⟩

/-- A text belongs to at most one address. -/
theorem c53_unique {t : Bytes} {x y : Ipv4} (h : Ipv4Text t x) (h' : Ipv4Text t y) : x = y := ipv4Text_unique h h'

example : Ipv4Text (bytes "192.168.0.1") ⟨192, 168, 0, 1⟩ :=
  ipv4Text_iff.2 ⟨by decide +kernel, by decide, by decide, by decide, by decide⟩

example : ¬ Ipv4Text (bytes "01.2.3.4") ⟨1, 2, 3, 4⟩ := fun h => by
  have := (ipv4Text_iff.1 h).1
  revert this; decide +kernel

/-! ## C54 Query parameters -/

/-- The values given for a key, in order of appearance. -/
def valuesOf (params : List (Bytes × Option Bytes)) (k : Bytes) : List Bytes :=
  params.filterMap fun kv => if kv.1 = k then kv.2 else none

theorem paramStep_self (m : ParamMap) (k : Bytes) (v : Option Bytes) :
    paramStep m (k, v) k = some ((m k).getD [] ++ v.toList) := by
  unfold paramStep
  cases hm : m k with
  | none => cases v <;> simp [ParamMap.insert, hm]
  | some vs => cases v <;> simp [ParamMap.insert, hm]

theorem paramStep_other (m : ParamMap) {k k' : Bytes} (v : Option Bytes) (h : k' ≠ k) :
    paramStep m (k, v) k' = m k' := by
  unfold paramStep
  cases hm : m k with
  | none => cases v <;> simp [ParamMap.insert, h, hm]
  | some vs => cases v <;> simp [ParamMap.insert, h, hm]

theorem params_foldl (k : Bytes) : ∀ (ps : List (Bytes × Option Bytes)) (m : ParamMap),
    ps.foldl paramStep m k = if (m k).isSome ∨ k ∈ ps.map Prod.fst then some ((m k).getD [] ++ valuesOf ps k) else none := by
  intro ps
  induction ps with
  | nil =>
    intro m
    cases hm : m k <;> simp [valuesOf, hm]
  | cons kv ps ih =>
    intro m
    obtain ⟨key, v⟩ := kv
    rw [List.foldl_cons, ih]
    by_cases h : k = key
    · subst h
      rw [paramStep_self]
      cases v <;> simp [valuesOf]
    · rw [paramStep_other m v h]
      have : valuesOf ((key, v) :: ps) k = valuesOf ps k := by simp [valuesOf, Ne.symm h]
      rw [this]
      simp only [List.map_cons, List.mem_cons, h, false_or]

/-- A key is in the map exactly if it is in the list, with all its values in order. -/
theorem c54_params (q : Query) (k : Bytes) :
    q.paramMap k = if k ∈ q.params.map Prod.fst then some (valuesOf q.params k) else none := by
  unfold Query.paramMap
  rw [params_foldl]
  simp only [Option.isSome_none, Bool.false_eq_true, false_or, Option.getD_none, List.nil_append]

/-- A query is printed as its pairs in order, with `&` between them. -/
theorem c54_show (q : Query) : q.show = [byte '&'].intercalate (q.params.map fun kv =>
    match kv.2 with
    | none => kv.1
    | some v => kv.1 ++ [byte '='] ++ v) := by
  have hj : ∀ l : List Bytes, join [byte '&'] l = [byte '&'].intercalate l := by
    intro l
    induction l with
    | nil => rfl
    | cons x l ih =>
      cases l with
      | nil => simp [join, List.intercalate]
      | cons y l =>
        have ih' : join [byte '&'] (y :: l) = _ := ih
        simp only [join, ih']
        simp [List.intercalate]
  unfold Query.show
  rw [hj]
  congr 1
  refine List.map_congr_left ?_
  rintro ⟨k, v⟩ -
  cases v <;> simp [pairText]

/-- A query of keys and values in the character set is read back from its printed form. -/
theorem c54_roundtrip (q : Query) (h0 : q.params ≠ []) (h : ∀ kv ∈ q.params, PairOk kv) :
    query ⟨q.show, 0⟩ = .success q q.show.length := by
  have : Eats query q.show q [] := eats_query.2 ⟨⟨rfl, h0, h⟩, start_nil, by simp, by simp⟩
  unfold Eats at this
  rwa [List.append_nil] at this

example : Query.paramMap ⟨[(bytes "a", some (bytes "1")), (bytes "b", none), (bytes "a", some (bytes "2"))]⟩ (bytes "a") =
    some [bytes "1", bytes "2"] := by decide +kernel

example : PairOk (bytes "a", some (bytes "1")) ∧ PairOk (bytes "b", none) :=
  ⟨⟨.of_all (by decide), by rintro v ⟨⟩; exact .of_all (by decide)⟩, ⟨.of_all (by decide), by rintro v ⟨⟩⟩⟩

/-! ## C68 Adding parameters -/

/-- A parameter that is added comes last among the values of its key; other keys are left alone. -/
theorem c68_add (q : Query) (k v k' : Bytes) :
    (q.add k v).getParam k' = if k' = k then some ((q.getParam k).getD [] ++ [v]) else q.getParam k' := by
  unfold Query.getParam Query.add Query.paramMap
  rw [List.foldl_append, List.foldl_cons, List.foldl_nil]
  by_cases h : k' = k
  · subst h; rw [paramStep_self]; simp
  · rw [paramStep_other _ _ h]; simp [h]

/-- `add_opt` with a value is `add`. -/
theorem c68_addOpt_some (q : Query) (k v k' : Bytes) :
    (q.addOpt k (some v)).getParam k' = if k' = k then some ((q.getParam k).getD [] ++ [v]) else q.getParam k' :=
  c68_add q k v k'

/-- `add_opt` without a value does not add the key. -/
theorem c68_addOpt_none (q : Query) (k : Bytes) : (q.addOpt k none).show = q.show ∧
    ∀ k', (q.addOpt k none).getParam k' = q.getParam k' := ⟨rfl, fun _ => rfl⟩

/-- The printed form grows at its end. -/
theorem c68_add_show (q : Query) (k v : Bytes) (h : q.params ≠ []) :
    (q.add k v).show = q.show ++ [byte '&'] ++ k ++ [byte '='] ++ v := by
  have hj : ∀ (l : List Bytes) (x : Bytes), l ≠ [] → join [byte '&'] (l ++ [x]) = join [byte '&'] l ++ [byte '&'] ++ x := by
    intro l x
    induction l with
    | nil => simp
    | cons y l ih =>
      intro _
      cases l with
      | nil => simp [join]
      | cons z l =>
        have := ih (by simp)
        simp only [List.cons_append, join] at this ⊢
        rw [this]; simp
  unfold Query.show Query.add
  rw [List.map_append, List.map_cons, List.map_nil, hj _ _ (by simpa using h)]
  simp [pairText]

example : Query.getParam (Query.add ⟨[(bytes "a", some (bytes "1"))]⟩ (bytes "a") (bytes "2")) (bytes "a") =
    some [bytes "1", bytes "2"] := by decide +kernel

/-! ## C69 Adding parts to a path -/

/-- Nothing is ever added to an empty path. -/
theorem c69_empty_violated (parts : List Bytes) : (Path.addParts .empty parts).parts = [] := by
  have : ∀ l : List Bytes, Path.addParts .empty l = .empty := by
    intro l
    unfold Path.addParts
    induction l with
    | nil => rfl
    | cons x l ih => exact ih
  rw [this]; rfl

/-- To every other path the parts are appended in order. -/
theorem c69_addParts_partial (p : Path) (h : p ≠ .empty) (parts : List Bytes) :
    (p.addParts parts).parts = p.parts ++ parts ∧ (p.addParts parts).show = p.show ++ parts.flatten := by
  have : ∀ (l : List Bytes) (p : Path), p ≠ .empty → (p.addParts l).parts = p.parts ++ l := by
    intro l
    unfold Path.addParts
    induction l with
    | nil => intro p _; simp
    | cons x l ih =>
      intro p hp
      have h1 : (p.addPart x).parts = p.parts ++ [x] := by cases p <;> first | rfl | exact absurd rfl hp
      have h2 : p.addPart x ≠ .empty := by cases p <;> first | exact absurd rfl hp | simp [Path.addPart]
      rw [List.foldl_cons, ih _ h2, h1]; simp
  refine ⟨this parts p h, ?_⟩
  unfold Path.show
  rw [this parts p h, List.flatten_append]

/-- The conversions give a path of the kind they are named after and keep the parts. -/
theorem c69_conversions (p : Path) : p.toRootless.parts = p.parts ∧ p.toAbsolute.parts = p.parts ∧
    p.toRootless.show = p.show ∧ p.toAbsolute.show = p.show ∧
    (∃ ps, p.toRootless = .rootless ps) ∧ ∃ ps, p.toAbsolute = .absolute ps :=
  ⟨rfl, rfl, rfl, rfl, ⟨_, rfl⟩, ⟨_, rfl⟩⟩

example : (Path.addParts (.rootless [bytes "a"]) [bytes "/b", bytes "/c"]).show = bytes "a/b/c" := by decide +kernel

/-! ## C70 IPv6 literals -/

/-- Behind a scheme, exactly the IPv6 texts of the RFC are read as IPv6 hosts, apart from seven groups before
the double colon. -/
theorem c70_ipv6_partial {std : Std} (hstd : StdOk std) {sch s : Bytes} (hs : SchemeText sch) {x : Ipv6} :
    uri std ⟨sch ++ bytes "://[" ++ s ++ bytes "]", 0⟩ = .success ⟨some sch, some ⟨some ⟨.ipLiteral (.ipv6 x), none, none⟩,
      .abempty []⟩, none, none⟩ (sch ++ bytes "://[" ++ s ++ bytes "]").length ↔
      Ipv6Text s x ∧ ¬ SevenGroups s := by
  rw [c51_language hstd]
  have b1 : bytes "://[" = [byte ':', byte '/', byte '/', byte '['] := by decide
  have b2 : bytes "]" = [byte ']'] := by decide
  have b3 : bytes "//" = [byte '/', byte '/'] := by decide
  rw [b1, b2]
  constructor
  · rintro ⟨⟨ts, th, tq, tf, he, h1, h2, h3, h4⟩, -⟩
    obtain ⟨ts', e1, e2, -⟩ := h1
    obtain ⟨th', e3, ta, tp, e4, h5, ⟨e5, -⟩, -⟩ := h2
    obtain ⟨ta', e6, tu, tho, tpo, e7, h6, ⟨s', e8, h7, h8⟩, h9⟩ := h5
    have h3 : tq = [] := h3
    have h4 : tf = [] := h4
    have h6 : tu = [] := h6
    have h9 : tpo = [] := h9
    subst h3 h4 h6 h9 e8 e7 e6 e5 e4 e3 e2 e1
    have : s = s' := by
      rw [b3] at he
      simpa using he
    subst this
    exact ⟨h7, h8⟩
  · rintro ⟨h1, h2⟩
    refine ⟨⟨sch, bytes "//" ++ ([byte '['] ++ s ++ [byte ']']), [], [], by simp [b3], ⟨sch, rfl, rfl, hs⟩, ⟨_, rfl,
      bytes "//" ++ ([byte '['] ++ s ++ [byte ']']),
      [], (List.append_nil _).symm, ⟨[byte '['] ++ s ++ [byte ']'], rfl, [], [byte '['] ++ s ++ [byte ']'], [], by simp, rfl,
      ⟨s, rfl, h1, h2⟩, rfl⟩, ⟨rfl, by simp⟩, fun _ => ⟨[], rfl⟩, by rintro ⟨⟩⟩, rfl, rfl⟩, by rintro s ⟨⟩, by rintro h r ⟨⟩ ⟨⟩⟩

/-- An IPv6 address of seven groups and a double colon is dropped without an error: the URI that is returned
has no host and the path `//`. -/
theorem c70_seven_violated {std : Std} (hstd : StdOk std) {sch s : Bytes} (hs : SchemeText sch) (h : SevenGroups s)
    (rest : Bytes) : Uri.parse std (sch ++ bytes "://" ++ [byte '['] ++ s ++ [byte ']'] ++ rest) = .ok ⟨some sch,
      some ⟨none, .abempty [bytes "/", bytes "/"]⟩, none, none⟩ :=
  parse_iff.2 ⟨_, _, by simp, uri_seven (rest := rest) hstd hs h⟩

/-- Seven groups and a double colon are an address of the RFC. -/
theorem c70_seven_is_address {s : Bytes} (h : SevenGroups s) : ∃ x, Ipv6Text s x := by
  obtain ⟨g, ns, rfl, h1, h2⟩ := h
  have := Ipv6Text.short g [] ns [] (.inr h1) (.inl ⟨rfl, rfl⟩) (by simp [h2])
  rw [List.append_nil] at this
  exact ⟨_, this⟩

theorem h16_digit (c : Char) (hc : c ∈ "0123456789".toList) : H16Text [byte c] (c.toNat - 48) := by
  have key : ∀ c ∈ "0123456789".toList, (∀ b ∈ [byte c], Hex b) ∧ hexValue [byte c] = c.toNat - 48 := by decide +kernel
  exact ⟨by simp, by simp, key c hc⟩

example : SevenGroups (bytes "1:2:3:4:5:6:7::") :=
  ⟨bytes "1:2:3:4:5:6:7", [1, 2, 3, 4, 5, 6, 7], by decide +kernel,
    .cons _ 1 _ _ (h16_digit '1' (by decide)) <| .cons _ 2 _ _ (h16_digit '2' (by decide)) <|
    .cons _ 3 _ _ (h16_digit '3' (by decide)) <| .cons _ 4 _ _ (h16_digit '4' (by decide)) <|
    .cons _ 5 _ _ (h16_digit '5' (by decide)) <| .cons _ 6 _ _ (h16_digit '6' (by decide)) <|
    .one _ 7 (h16_digit '7' (by decide)), rfl⟩

example : Ipv6Text (bytes "1::2") ⟨[1, 0, 0, 0, 0, 0, 0, 2]⟩ ∧ ¬ SevenGroups (bytes "1::2") := by
  refine ⟨.short (bytes "1") (bytes "2") [1] [2] (.inr (.one _ 1 (h16_digit '1' (by decide))))
    (.inr (.one _ 2 (h16_digit '2' (by decide)))) (by decide), ?_⟩
  rintro ⟨g, ns, he, -⟩
  have := congrArg List.getLast? he
  rw [List.getLast?_append, show (bytes "::").getLast? = some (byte ':') by decide, Option.some_or] at this
  revert this; decide

/-! ## C71 User information -/

/-- A user name with an empty password in front of a host is no error: the user name is taken for the host and
everything behind it is dropped. -/
theorem c71_password_violated : Uri.parse noStd (bytes "http://trusted.com:@evil.com/x") = .ok ⟨some (bytes "http"),
    some ⟨some ⟨.regName (bytes "trusted.com"), none, none⟩, .abempty []⟩, none, none⟩ := by decide +kernel

/-- So is a password with a colon. -/
theorem c71_colon_violated : Uri.parse noStd (bytes "http://user:pa:ss@evil.com/x") = .ok ⟨some (bytes "http"),
    some ⟨some ⟨.regName (bytes "user"), none, none⟩, .abempty []⟩, none, none⟩ := by decide +kernel

/-- It is so for every name in front of `:@`: the name is taken for the host, and the rest with the real host is
dropped. -/
theorem c71_password_general_violated {std : Std} (hstd : StdOk std) {sch s : Bytes} (hs : SchemeText sch)
    (h0 : s ≠ []) (he : Enc RegByte s) (hn : NoIpv4Prefix s) (x : Bytes) :
    Uri.parse std (sch ++ bytes "://" ++ s ++ byte ':' :: byte '@' :: x) =
      .ok ⟨some sch, some ⟨some ⟨.regName s, none, none⟩, .abempty []⟩, none, none⟩ := by
  refine c50_rest_general_violated hstd hs h0 he hn ?_ ?_
  · intro b r' e
    simp at e
    rw [← e.1]; decide
  · intro p r' hp0 hp e
    cases p with
    | nil => exact hp0 rfl
    | cons b p => simp at e; exact absurd (e.1 ▸ enc_name hp b (by simp)) name_at

/-- So it is for every password with a colon that does not begin with a digit. -/
theorem c71_colon_general_violated {std : Std} (hstd : StdOk std) {sch s p : Bytes} (hs : SchemeText sch)
    (h0 : s ≠ []) (he : Enc RegByte s) (hn : NoIpv4Prefix s) (hp : Enc RegByte p)
    (hd : ∀ b r', p = b :: r' → ¬ Digit b) (x : Bytes) :
    Uri.parse std (sch ++ bytes "://" ++ s ++ byte ':' :: (p ++ byte ':' :: x)) =
      .ok ⟨some sch, some ⟨some ⟨.regName s, none, none⟩, .abempty []⟩, none, none⟩ := by
  refine c50_rest_general_violated hstd hs h0 he hn ?_ ?_
  · intro b r' e
    cases p with
    | nil => simp at e; rw [← e.1]; decide
    | cons c p => simp at e; rw [← e.1]; exact hd c p rfl
  · intro p' r' _ hp' e
    have := (span_unique (enc_name hp) (enc_name hp') name_colon name_at e).2.1
    revert this; decide

/-- If such a password begins with digits that are a port, they are taken for the port of that host. -/
theorem c71_digits_violated {std : Std} (hstd : StdOk std) {sch s ds : Bytes} (hs : SchemeText sch)
    (h0 : s ≠ []) (he : Enc RegByte s) (hn : NoIpv4Prefix s) (hd : PortText ds n) (x : Bytes) :
    Uri.parse std (sch ++ bytes "://" ++ s ++ byte ':' :: (ds ++ byte ':' :: x)) =
      .ok ⟨some sch, some ⟨some ⟨.regName s, some n, none⟩, .abempty []⟩, none, none⟩ := by
  obtain ⟨g0, g1, rfl, g2⟩ := hd
  have hp : Enc RegByte ds := .of_all fun b hb => .inl (.inr (.inl (g1 b hb)))
  refine parse_iff.2 ⟨_, byte ':' :: x, by simp, uri_authority hs (authority_port (ds := ds) hstd h0 he hn ?_ g0 g1 g2
    (start_cons (by decide) (by decide))) ?_⟩
  · intro p' r' _ hp' e
    have := (span_unique (enc_name hp) (enc_name hp') name_colon name_at e).2.1
    revert this; decide
  · intro c hc r' h
    simp at h
    simp only [List.mem_cons, List.not_mem_nil, or_false] at hc
    have := h.1
    revert this
    rcases hc with rfl | rfl | rfl <;> decide

/-- `http://user:1:2@evil.com` is the port 1 of the host `user`. -/
example : PortText (bytes "1") 1 ∧ Uri.parse noStd (bytes "http://user:1:2@evil.com/x") = .ok ⟨some (bytes "http"),
    some ⟨some ⟨.regName (bytes "user"), some 1, none⟩, .abempty []⟩, none, none⟩ :=
  ⟨⟨by decide, by decide, by decide, by decide⟩, by decide +kernel⟩

/-- A user name without colon and a password that is not empty and has no colon are read as such, in front of
any host and port. -/
theorem c71_userInfo_partial {std : Std} (hstd : StdOk std) {sch : Bytes} (hs : SchemeText sch) (a : Authority)
    (ha : AuthorityOk std a) (hn : ∀ s, a.hostName = .regName s → NoIpv4Prefix s) (u : UserInfo)
    (hu : a.userInfo = some u) :
    ∃ v, Uri.parse std (sch ++ bytes "://" ++ u.show ++ [byte '@'] ++ a.hostName.show std ++
      (match a.port with | none => [] | some n => byte ':' :: dec n)) = .ok v ∧ v.userInfo = some u ∧
      v.hostName = some a.hostName ∧ v.port = a.port := by
  refine ⟨⟨some sch, some ⟨some a, .abempty []⟩, none, none⟩, ?_, ?_, ?_, ?_⟩
  · have := c51_roundtrip_partial (u := ⟨some sch, some ⟨some a, .abempty []⟩, none, none⟩) hstd
      ⟨by rintro s ⟨⟩; exact hs, by rintro h ⟨⟩; exact ⟨ha, by simp⟩, by rintro q ⟨⟩, by rintro f ⟨⟩⟩
      ⟨by intro s h; exact hn s (by simpa [Uri.hostName, Uri.authority] using h), by rintro h r ⟨⟩ ⟨⟩⟩
    rw [← this]
    congr 1
    have b1 : bytes "://" = [byte ':'] ++ bytes "//" := by decide
    simp only [Uri.show, optText, id, Authority.show, hu, Path.show, Path.parts, b1]
    cases a.port <;> simp
  · simp [Uri.userInfo, Uri.authority, hu]
  · simp [Uri.hostName, Uri.authority]
  · simp [Uri.port, Uri.authority]

example : AuthorityOk noStd ⟨.regName (bytes "h"), some 1, some ⟨bytes "u", some (bytes "p")⟩⟩ ∧
    NoIpv4Prefix (bytes "h") := by
  refine ⟨⟨?_, ⟨by decide, .of_all (by decide)⟩, by rintro n ⟨⟩; decide⟩, ?_⟩
  · rintro u ⟨⟩
    exact ⟨.of_all (by decide), by rintro p ⟨⟩; exact ⟨by decide, .of_all (by decide)⟩⟩
  · intro t r x he h
    obtain ⟨d, t', rfl, hd⟩ := ipv4_digit_head h
    have : byte 'h' = d := by
      have := congrArg List.head? he
      simp at this
      have e : (bytes "h").head? = some (byte 'h') := by decide
      rw [e] at this
      simpa using this
    rw [← this] at hd
    exact absurd hd (by decide)

end OniComb.Uri
