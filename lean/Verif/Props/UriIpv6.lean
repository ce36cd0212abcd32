import Verif.Lemmas.UriIpv6Show
import Verif.Props.Uri

/-!
# Properties of the `uri` crate: printed IPv6 hosts (C49, C51, C70)

Here the printer of the standard library is `displayIpv6`; of its reader only `StdOk` is assumed.
-/

namespace OniComb.Uri
open OniComb Rfc

/-- Every parsed URI, with an IPv6 host or not, is read back from its printed form. -/
theorem c49_reparse_ipv6 {std : Std} (hstd : StdOk std) (hshow : std.showIpv6 = displayIpv6) {input : Bytes} {u : Uri}
    (h : Uri.parse std input = .ok u) : Uri.parse std (u.show std) = .ok u := by
  obtain ⟨t, rest, -, he⟩ := parse_iff.1 h
  have hok : UriOk std u := uri_ok_of (uri_sound hstd he) fun s x _ hx => by
    show Ipv6Text (std.showIpv6 x) x ∧ ¬ SevenGroups (std.showIpv6 x)
    rw [hshow]
    exact displayIpv6_text (ipv6Text_valid hx).1 (ipv6Text_valid hx).2
  exact parse_iff.2 ⟨_, [], (List.append_nil _).symm, uri_complete hstd (uri_show hok) (uri_unambiguous he)
    (by intro b r' he; cases he)⟩

/-- An IPv6 host of eight segments of 16 bits is a component that can be read back (`c51_roundtrip_partial`). -/
theorem c51_ipv6 {std : Std} (hshow : std.showIpv6 = displayIpv6) {x : Ipv6} :
    HostOk std (.ipLiteral (.ipv6 x)) ↔ x.segments.length = 8 ∧ ∀ n ∈ x.segments, n < 65536 := by
  constructor
  · exact fun h => ipv6Text_valid h.1
  · intro h
    show Ipv6Text (std.showIpv6 x) x ∧ ¬ SevenGroups (std.showIpv6 x)
    rw [hshow]
    exact displayIpv6_text h.1 h.2

/-- Every address is read from the text that the standard library prints for it: the texts that are not read
(`c70_seven_violated`) are never printed. -/
theorem c70_printed {std : Std} (hstd : StdOk std) {sch : Bytes} (hs : SchemeText sch) {x : Ipv6}
    (hl : x.segments.length = 8) (hx : ∀ n ∈ x.segments, n < 65536) :
    Uri.parse std (sch ++ bytes "://[" ++ displayIpv6 x ++ bytes "]") =
      .ok ⟨some sch, some ⟨some ⟨.ipLiteral (.ipv6 x), none, none⟩, .abempty []⟩, none, none⟩ := by
  unfold Uri.parse OniComb.parse
  rw [(c70_ipv6_partial hstd hs).2 (displayIpv6_text hl hx)]
  rfl

/-- An address has one printed form only, and two addresses never the same. -/
theorem c70_printed_injective {x y : Ipv6} (hl : x.segments.length = 8) (hx : ∀ n ∈ x.segments, n < 65536)
    (hl' : y.segments.length = 8) (hy : ∀ n ∈ y.segments, n < 65536) (h : displayIpv6 x = displayIpv6 y) : x = y :=
  ipv6Text_unique (displayIpv6_text hl hx).1 (h ▸ (displayIpv6_text hl' hy).1)

/-- Such a standard library exists. -/
example : ∃ std, StdOk std ∧ std.showIpv6 = displayIpv6 := by
  obtain ⟨std, h⟩ := exists_stdOk
  exact ⟨⟨std.parseIpv6, displayIpv6⟩, h, rfl⟩

example : displayIpv6 ⟨[0x2001, 0xdb8, 0, 0, 1, 0, 0, 0xff]⟩ = bytes "2001:db8::1:0:0:ff" := by decide +kernel
example : displayIpv6 ⟨[0, 0, 0, 0, 0, 0, 0, 0]⟩ = bytes "::" := by decide +kernel
example : displayIpv6 ⟨[1, 2, 3, 4, 5, 6, 7, 0]⟩ = bytes "1:2:3:4:5:6:7:0" := by decide +kernel
example : displayIpv6 ⟨[1, 2, 3, 4, 5, 6, 0, 0]⟩ = bytes "1:2:3:4:5:6::" := by decide +kernel
example : displayIpv6 ⟨[0, 0, 0, 0, 0, 0xffff, 0xc000, 0x280]⟩ = bytes "::ffff:192.0.2.128" := by decide +kernel

end OniComb.Uri
