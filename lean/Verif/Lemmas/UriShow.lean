import Verif.Lemmas.UriComplete

/-!
# Helper lemmas for the URI parser: printing
-/

namespace OniComb.Uri
open OniComb Rfc
variable {t rest r : Bytes} {std : Std} {V : Bytes → Prop}

/-! ### A printed URI is a text of the grammar -/

theorem host_show {h : HostName} (hh : HostOk std h) : HostText (¬ SevenGroups ·) (h.show std) h := by
  match h, hh with
  | .regName s, hh => exact ⟨rfl, hh⟩
  | .ipv4 x, hh => exact ipv4Text_iff.2 ⟨rfl, hh⟩
  | .ipLiteral (.ipvFuture s), hh => exact ⟨rfl, hh⟩
  | .ipLiteral (.ipv6 x), hh => exact ⟨_, rfl, hh⟩

theorem port_show {n : Nat} (h : n ≤ 65535) : PortText (dec n) n :=
  ⟨(dec_spec n).1.1, (dec_spec n).1.2.1, (dec_spec n).1.2.2.1, h⟩

theorem authority_show {a : Authority} (h : AuthorityOk std a) :
    AuthorityText (¬ SevenGroups ·) (a.show std) a := by
  obtain ⟨h1, h2, h3⟩ := h
  refine ⟨_, _, _, rfl, ?_, host_show h2, ?_⟩
  · cases hu : a.userInfo with
    | none => rfl
    | some u => exact ⟨_, rfl, rfl, h1 u hu⟩
  · cases hp : a.port with
    | none => rfl
    | some n => exact ⟨dec n, rfl, port_show (h3 n hp)⟩

theorem hier_show {h : HierPart} (hh : HierOk std h) : HierText (¬ SevenGroups ·) (h.show std) h := by
  obtain ⟨a, p⟩ := h
  match a, p, hh with
  | some a, .abempty ps, hh =>
    exact ⟨_, _, rfl, ⟨a.show std, rfl, authority_show hh.1⟩, ⟨rfl, hh.2⟩, fun _ => ⟨ps, rfl⟩, by rintro ⟨⟩⟩
  | none, .abempty ps, hh => exact ⟨_, _, rfl, rfl, ⟨rfl, hh.2⟩, by rintro ⟨⟩, fun _ => hh.1⟩
  | none, .rootless ps, hh =>
    refine ⟨_, _, rfl, rfl, ⟨rfl, hh⟩, by rintro ⟨⟩, fun _ => ?_⟩
    obtain ⟨s, ss, rfl, -⟩ := hh
    simp [Path.parts]

theorem show_eq (u : Uri) : u.show std = optText u.scheme id ++ [byte ':'] ++ optText u.hier (·.show std) ++
    optText u.query (fun q => byte '?' :: q.show) ++ optText u.fragment (fun f => byte '#' :: f) := by
  unfold Uri.show
  cases u.hier <;> simp [optText, HierPart.show]

theorem uri_show {u : Uri} (h : UriOk std u) : UriText (¬ SevenGroups ·) (u.show std) u := by
  obtain ⟨h1, h2, h3, h4⟩ := h
  refine ⟨_, _, _, _, show_eq u, ?_, ?_, ?_, ?_⟩
  · cases hu : u.scheme with
    | none => rfl
    | some s => exact ⟨s, rfl, rfl, h1 s hu⟩
  · cases hu : u.hier with
    | none => rfl
    | some s => exact ⟨_, rfl, hier_show (h2 s hu)⟩
  · cases hu : u.query with
    | none => rfl
    | some s => exact ⟨_, rfl, rfl, h3 s hu⟩
  · cases hu : u.fragment with
    | none => rfl
    | some s => exact ⟨_, rfl, rfl, h4 s hu⟩

/-! ### A text of the grammar prints as itself -/

theorem _root_.OniComb.Uri.Rfc.UpToZeros.refl (port : Option Nat) (t : Bytes) : UpToZeros port t t := ⟨t, 0, [], by simp, by simp, by simp⟩

theorem _root_.OniComb.Uri.Rfc.UpToZeros.frame {port : Option Nat} {s : Bytes} (h : UpToZeros port t s) (a b : Bytes) :
    UpToZeros port (a ++ t ++ b) (a ++ s ++ b) := by
  obtain ⟨pre, z, post, rfl, rfl, h⟩ := h
  refine ⟨a ++ pre, z, post ++ b, by simp, by simp, fun hz => ?_⟩
  obtain ⟨n, h1, h2, ds, h3, h4⟩ := h hz
  exact ⟨n, h1, h2.trans (List.suffix_append _ _), ds, h3, h4.trans (List.prefix_append _ _)⟩

theorem host_zeros {h : HostName} (ht : HostText V t h) (h6 : ∀ x, h ≠ .ipLiteral (.ipv6 x)) : t = h.show std := by
  match h, ht with
  | .regName s, ht => exact ht.1
  | .ipv4 x, ht => exact (ipv4Text_iff.1 ht).1
  | .ipLiteral (.ipvFuture s), ht => exact ht.1
  | .ipLiteral (.ipv6 x), ht => exact absurd rfl (h6 x)

theorem authority_zeros {a : Authority} (ht : AuthorityText V t a) (h6 : ∀ x, a.hostName ≠ .ipLiteral (.ipv6 x)) :
    UpToZeros a.port t (a.show std) := by
  obtain ⟨tu, th, tp, rfl, h1, h2, h3⟩ := ht
  have e2 := host_zeros (std := std) h2 h6
  have e1 : tu = optText a.userInfo (fun u => u.show ++ [byte '@']) := by
    cases hu : a.userInfo with
    | none => rw [hu] at h1; exact h1
    | some u =>
      rw [hu] at h1
      obtain ⟨s, rfl, rfl, -⟩ := h1
      rfl
  unfold Authority.show
  rw [← e1, ← e2]
  cases hp : a.port with
  | none => rw [hp] at h3; have h3 : tp = [] := h3; subst h3; exact .refl _ _
  | some n =>
    rw [hp] at h3
    obtain ⟨s, rfl, h4, h5, h6, -⟩ := h3
    obtain ⟨z, hz⟩ := digits_zeros s h5 h4
    rw [h6] at hz
    refine ⟨tu ++ th ++ [byte ':'], z, dec n, by rw [hz]; simp, by simp [optText], fun _ => ⟨n, rfl,
      List.suffix_append _ _, dec n, (dec_spec n).1, List.prefix_refl _⟩⟩

theorem path_text {p : Path} (h : PathText t p) : t = p.show := by
  match p, h with
  | .abempty ps, h => exact h.1
  | .rootless ps, h => exact h.1

theorem hier_zeros {h : HierPart} (ht : HierText V t h)
    (h6 : ∀ a x, h.authority = some a → a.hostName ≠ .ipLiteral (.ipv6 x)) :
    UpToZeros (h.authority.bind Authority.port) t (h.show std) := by
  obtain ⟨ta, tp, rfl, h1, h2, -⟩ := ht
  unfold HierPart.show
  rw [← path_text h2]
  cases ha : h.authority with
  | none => rw [ha] at h1; have h1 : ta = [] := h1; subst h1; exact .refl _ _
  | some a =>
    rw [ha] at h1
    obtain ⟨s, rfl, h3⟩ := h1
    exact (authority_zeros h3 (h6 a · ha)).frame _ _

theorem uri_zeros {u : Uri} (ht : UriText V t u) (h6 : NotIpv6 u) : UpToZeros u.port t (u.show std) := by
  obtain ⟨ts, th, tq, tf, rfl, h1, h2, h3, h4⟩ := ht
  rw [show_eq]
  have e1 : ts = optText u.scheme id := by
    cases hu : u.scheme with
    | none => rw [hu] at h1; exact h1
    | some u => rw [hu] at h1; obtain ⟨s, rfl, rfl, -⟩ := h1; rfl
  have e3 : tq = optText u.query (fun q => byte '?' :: q.show) := by
    cases hu : u.query with
    | none => rw [hu] at h3; exact h3
    | some u => rw [hu] at h3; obtain ⟨s, rfl, rfl, -⟩ := h3; rfl
  have e4 : tf = optText u.fragment (fun f => byte '#' :: f) := by
    cases hu : u.fragment with
    | none => rw [hu] at h4; exact h4
    | some u => rw [hu] at h4; obtain ⟨s, rfl, rfl, -⟩ := h4; rfl
  rw [← e1, ← e3, ← e4]
  cases hh : u.hier with
  | none => rw [hh] at h2; have h2 : th = [] := h2; subst h2; exact .refl _ _
  | some h =>
    rw [hh] at h2
    obtain ⟨s, e, h5⟩ := h2
    rw [List.nil_append] at e
    subst e
    have key : UpToZeros u.port th (h.show std) := by
      have e : u.port = h.authority.bind Authority.port := by
        unfold Uri.port Uri.authority; rw [hh]; rfl
      rw [e]
      refine hier_zeros h5 fun a x ha hx => h6 x ?_
      unfold Uri.hostName Uri.authority; rw [hh]
      simp [ha, hx]
    have := (key.frame (ts ++ [byte ':']) tq).frame [] tf
    simpa [optText] using this

/-! ### A text of the grammar has a printable value -/

theorem host_ok {h : HostName} (ht : HostText V t h)
    (h6 : ∀ s x, h = .ipLiteral (.ipv6 x) → Ipv6Text s x → HostOk std h) : HostOk std h := by
  match h, ht with
  | .regName s, ht => exact ht.2
  | .ipv4 x, ht => exact (ipv4Text_iff.1 ht).2
  | .ipLiteral (.ipvFuture s), ht => exact ht.2
  | .ipLiteral (.ipv6 x), ht =>
    obtain ⟨s, -, h1, -⟩ := ht
    exact h6 s x rfl h1

theorem authority_ok {a : Authority} (ht : AuthorityText V t a)
    (h6 : ∀ s x, a.hostName = .ipLiteral (.ipv6 x) → Ipv6Text s x → HostOk std a.hostName) :
    AuthorityOk std a := by
  obtain ⟨tu, th, tp, rfl, h1, h2, h3⟩ := ht
  refine ⟨?_, host_ok h2 h6, ?_⟩
  · intro u hu
    rw [hu] at h1
    obtain ⟨s, rfl, -, h⟩ := h1
    exact h
  · intro n hn
    rw [hn] at h3
    obtain ⟨s, rfl, h⟩ := h3
    exact h.2.2.2

theorem hier_ok {h : HierPart} (ht : HierText V t h)
    (h6 : ∀ a s x, h.authority = some a → a.hostName = .ipLiteral (.ipv6 x) → Ipv6Text s x →
      HostOk std a.hostName) : HierOk std h := by
  obtain ⟨ta, tp, rfl, h1, h2, h3, h4⟩ := ht
  obtain ⟨a, p⟩ := h
  cases a with
  | some a =>
    obtain ⟨ps, rfl⟩ := h3 rfl
    obtain ⟨s, rfl, h5⟩ := h1
    exact ⟨authority_ok h5 (h6 a · · rfl), h2.2⟩
  | none =>
    match p, h2 with
    | .abempty ps, h2 => exact ⟨h4 rfl, h2.2⟩
    | .rootless ps, h2 => exact h2.2

theorem uri_ok_of {u : Uri} (ht : UriText V t u)
    (h6 : ∀ s x, u.hostName = some (.ipLiteral (.ipv6 x)) → Ipv6Text s x → HostOk std (.ipLiteral (.ipv6 x))) :
    UriOk std u := by
  obtain ⟨ts, th, tq, tf, rfl, h1, h2, h3, h4⟩ := ht
  refine ⟨?_, ?_, ?_, ?_⟩
  · intro s hs; rw [hs] at h1; obtain ⟨-, -, -, h⟩ := h1; exact h
  · intro h hh
    rw [hh] at h2
    obtain ⟨s, rfl, h5⟩ := h2
    refine hier_ok h5 fun a s x ha hx hs => hx ▸ h6 s x ?_ hs
    unfold Uri.hostName Uri.authority; rw [hh]
    simp [ha, hx]
  · intro s hs; rw [hs] at h3; obtain ⟨-, -, -, h⟩ := h3; exact h
  · intro s hs; rw [hs] at h4; obtain ⟨-, -, -, h⟩ := h4; exact h

theorem uri_ok {u : Uri} (ht : UriText V t u) (h6 : NotIpv6 u) : UriOk std u :=
  uri_ok_of ht fun _ x hx _ => absurd hx (h6 x)

/-! ### A registered name that is read does not begin with an address -/

theorem host_noIpv4 {s : Bytes} (he : Eats (host std) t (.regName s) rest) : NoIpv4Prefix s := by
  unfold host at he
  rw [eats_name] at he
  rcases eats_or.1 he with he | ⟨hf, he⟩
  · rcases eats_or.1 he with he | ⟨-, he⟩
    · obtain ⟨l, h1, h2⟩ := eats_map.1 (eats_attempt.1 he); cases h2
    · obtain ⟨l, h1, h2⟩ := eats_map.1 (eats_attempt.1 he); cases h2
  · obtain ⟨h1, h2, h3, h4⟩ := eats_regName.1 he
    cases h1
    refine (noIpv4Prefix_iff (rest := rest) ?_).1 ?_
    · rintro b r' rfl
      have hb : ¬ RegByte b := fun hb => h4 (.inl ⟨b, r', rfl, hb⟩)
      refine ⟨fun hd => hb (.inl (.inr (.inl hd))), ?_⟩
      rintro rfl
      exact hb (by decide)
    · rcases fail_or.1 hf with ⟨hf, -⟩ | ⟨-, hf⟩
      · cases hf
      · obtain ⟨-, c, hc⟩ := fail_attempt.1 hf
        exact ⟨c, fail_map.1 hc⟩

theorem authority_noIpv4 {a : Authority} {s : Bytes} (h : Eats (authority std) t a rest)
    (hs : a.hostName = .regName s) : NoIpv4Prefix s := by
  unfold authority at h
  obtain ⟨⟨⟨u, h'⟩, n⟩, h1, rfl⟩ := eats_map.1 h
  obtain ⟨t1, tp, rfl, h2, h3⟩ := eats_andThen.1 h1
  obtain ⟨tu, th, rfl, h4, h5⟩ := eats_andThen.1 h2
  simp at hs
  subst hs
  exact host_noIpv4 h5

theorem hier_noIpv4 {h : HierPart} {a : Authority} {s : Bytes} (he : Eats (hierPart std) t (some h) rest)
    (ha : h.authority = some a) (hs : a.hostName = .regName s) : NoIpv4Prefix s := by
  rw [hierPart_eq] at he
  rcases eats_opt.1 he with ⟨w, hw, h1⟩ | ⟨-, hw, -⟩
  · cases hw
    rcases eats_or.1 h1 with h2 | ⟨-, h2⟩
    · rw [eats_attempt] at h2
      unfold hierP1 at h2
      obtain ⟨⟨a', p⟩, h3, rfl⟩ := eats_map.1 h2
      obtain ⟨t1, tp, rfl, h4, h5⟩ := eats_andThen.1 h3
      obtain ⟨t2, ta, w, rfl, h6, h7⟩ := eats_skipLeft.1 h4
      cases ha
      exact authority_noIpv4 h7 hs
    · unfold hierP2 at h2
      obtain ⟨p, h3, rfl⟩ := eats_map.1 h2
      cases ha
  · cases hw

theorem uri_noIpv4 {u : Uri} (h : Eats (uri std) t u rest) : ∀ s, u.hostName = some (.regName s) → NoIpv4Prefix s := by
  intro s hs
  unfold uri at h
  obtain ⟨⟨⟨⟨sc, hi⟩, q⟩, f⟩, h1, rfl⟩ := eats_map.1 h
  obtain ⟨t1, tf, rfl, h2, hf⟩ := eats_andThen.1 h1
  obtain ⟨t2, tq, rfl, h3, hq⟩ := eats_andThen.1 h2
  obtain ⟨t3, th, rfl, h4, hh⟩ := eats_andThen.1 h3
  clear h h1 h2 h3
  cases hi with
  | none => cases hs
  | some h =>
    unfold Uri.hostName Uri.authority at hs
    cases ha : h.authority with
    | none => rw [show (Option.some h).bind HierPart.authority = h.authority from rfl, ha] at hs; cases hs
    | some a =>
      rw [show (Option.some h).bind HierPart.authority = h.authority from rfl, ha] at hs
      exact hier_noIpv4 hh ha (by simpa using hs)

/-- What has been read is not ambiguous. -/
theorem uri_unambiguous {u : Uri} (h : Eats (uri std) t u rest) : Unambiguous u :=
  ⟨uri_noIpv4 h, fun hp _ => uri_notLike h hp⟩

/-! ### The bytes of a text of the grammar -/

theorem _root_.OniComb.Uri.Rfc.Enc.mono {P Q : UInt8 → Prop} (hPQ : ∀ b, P b → Q b) (h : Enc P t) : Enc Q t := by
  induction h with
  | nil => exact .nil
  | byte b t hb _ ih => exact .byte b t (hPQ b hb) ih
  | pct h l t hh hl _ ih => exact .pct h l t hh hl ih

theorem _root_.OniComb.Uri.Rfc.Enc.append {P : UInt8 → Prop} {s : Bytes} (h : Enc P t) (hs : Enc P s) : Enc P (t ++ s) := by
  induction h with
  | nil => exact hs
  | byte b t hb _ ih => exact .byte b _ hb ih
  | pct h l t hh hl _ ih => exact .pct h l _ hh hl ih

theorem _root_.OniComb.Uri.Rfc.Enc.of_all {P : UInt8 → Prop} : ∀ {t : Bytes}, (∀ b ∈ t, P b) → Enc P t
  | [], _ => .nil
  | b :: t, h => .byte b t (h b (by simp)) (Enc.of_all fun x hx => h x (by simp [hx]))

theorem _root_.OniComb.Uri.Rfc.Enc.flatten {P : UInt8 → Prop} : ∀ {l : List Bytes}, (∀ t ∈ l, Enc P t) → Enc P l.flatten
  | [], _ => .nil
  | s :: l, h => by
    rw [List.flatten_cons]
    exact Enc.append (h s (by simp)) (Enc.flatten fun x hx => h x (by simp [hx]))

/-- A byte of an IPv6 address. -/
def AddrByte (b : UInt8) : Prop := Hex b ∨ OneOf ['.', ':'] b

instance : DecidablePred AddrByte := fun _ => inferInstanceAs (Decidable (_ ∨ _))

theorem digit_main {b : UInt8} (h : Digit b) : MainByte b := .inl (.inr (.inl h))

theorem hex_main {b : UInt8} (h : Hex b) : MainByte b := by
  rcases h with h | h | h
  · exact digit_main h
  · exact .inl (.inl (.inl ⟨h.1, by omega⟩))
  · exact .inl (.inl (.inr ⟨h.1, by omega⟩))

theorem reg_main {b : UInt8} (h : RegByte b) : MainByte b := by
  rcases h with h | h
  · exact .inl h
  · exact .inr (.inl h)

theorem oneOf_main {b : UInt8} {cs : List Char} (h : OneOf cs b)
    (hc : ∀ c ∈ cs, c ∈ [':', '/', '?', '[', ']', '@']) : MainByte b := by
  refine .inr (.inr ?_)
  obtain ⟨c, h1, h2⟩ := List.mem_map.1 h
  exact List.mem_map.2 ⟨c, hc c h1, h2⟩

theorem pchar_main {b : UInt8} (h : PcharByte b) : MainByte b := by
  rcases h with h | h
  · exact reg_main h
  · exact oneOf_main h (by decide)

theorem frag_main {b : UInt8} (h : FragByte b) : MainByte b := by
  rcases h with h | h
  · exact pchar_main h
  · exact oneOf_main h (by decide)

theorem main_uri {b : UInt8} (h : MainByte b) : UriByte b := by
  rcases h with h | h | h
  · exact .inl h
  · exact .inr (.inl h)
  · exact oneOf_uri h (by decide)

theorem addr_main {b : UInt8} (h : AddrByte b) : MainByte b := by
  rcases h with h | h
  · exact hex_main h
  · obtain ⟨c, hc, rfl⟩ := oneOf_cases (by decide) h
    have key : ∀ c ∈ ['.', ':'], MainByte (byte c) := by decide
    exact key c hc

theorem ipv4_addr {x : Ipv4} (h : Ipv4Text t x) : ∀ b ∈ t, AddrByte b := by
  intro b hb
  rcases ipv4_mem h b hb with h | rfl
  · exact .inl (digit_hex h)
  · decide

theorem groups_addr {ns : List Nat} (h : Groups t ns) : ∀ b ∈ t, AddrByte b := by
  induction h with
  | one t n h => exact fun b hb => .inl (h.2.2.1 b hb)
  | cons t n u ns h _ ih =>
    intro b hb
    simp at hb
    rcases hb with hb | rfl | hb
    · exact .inl (h.2.2.1 b hb)
    · decide
    · exact ih b hb

theorem tail_addr {ns : List Nat} (h : Tail t ns) : ∀ b ∈ t, AddrByte b := by
  induction h with
  | one t n h => exact fun b hb => .inl (h.2.2.1 b hb)
  | ipv4 t x h => exact ipv4_addr h
  | cons t n u ns h _ ih =>
    intro b hb
    simp at hb
    rcases hb with hb | rfl | hb
    · exact .inl (h.2.2.1 b hb)
    · decide
    · exact ih b hb

theorem ipv6_addr {x : Ipv6} (h : Ipv6Text t x) : ∀ b ∈ t, AddrByte b := by
  cases h with
  | full _ ns h _ => exact tail_addr h
  | short t u ns ms h1 h2 _ =>
    intro b hb
    simp only [List.mem_append] at hb
    rcases hb with (hb | hb) | hb
    · rcases h1 with ⟨rfl, -⟩ | h1
      · cases hb
      · exact groups_addr h1 b hb
    · have key : ∀ c ∈ bytes "::", AddrByte c := by decide
      exact key b hb
    · rcases h2 with ⟨rfl, -⟩ | h2
      · cases hb
      · exact tail_addr h2 b hb

theorem ipv4_main {x : Ipv4} (h : Ipv4Text t x) : ∀ b ∈ t, MainByte b := fun b hb => addr_main (ipv4_addr h b hb)

theorem ipv6_main {x : Ipv6} (h : Ipv6Text t x) : ∀ b ∈ t, MainByte b := fun b hb => addr_main (ipv6_addr h b hb)

theorem future_main (h : FutureText t) : ∀ b ∈ t, MainByte b := by
  obtain ⟨h, r, rfl, -, h1, -, h2⟩ := h
  intro b hb
  simp at hb
  rcases hb with rfl | hb | rfl | hb
  · decide
  · exact hex_main (h1 b hb)
  · decide
  · rcases h2 b hb with h | h
    · exact reg_main h
    · exact oneOf_main h (by decide)

theorem brackets_main (h : ∀ b ∈ t, MainByte b) : Enc MainByte ([byte '['] ++ t ++ [byte ']']) := by
  refine .of_all fun b hb => ?_
  simp at hb
  rcases hb with rfl | hb | rfl
  · decide
  · exact h b hb
  · decide

theorem host_main {h : HostName} (ht : HostText V t h) : Enc MainByte t := by
  match h, ht with
  | .regName s, ht => obtain ⟨rfl, -, h⟩ := ht; exact h.mono fun _ => reg_main
  | .ipv4 x, ht => exact .of_all (ipv4_main ht)
  | .ipLiteral (.ipvFuture s), ht => obtain ⟨rfl, h⟩ := ht; exact brackets_main (future_main h)
  | .ipLiteral (.ipv6 x), ht => obtain ⟨s, rfl, h, -⟩ := ht; exact brackets_main (ipv6_main h)

theorem userInfo_main {u : UserInfo} (h : UserInfoOk u) : Enc MainByte u.show := by
  unfold UserInfo.show
  refine (h.1.mono fun _ => reg_main).append ?_
  cases hp : u.password with
  | none => exact .nil
  | some p => exact .byte _ _ (by decide) ((h.2 p hp).2.mono fun _ => reg_main)

theorem authority_main {a : Authority} (ht : AuthorityText V t a) : Enc MainByte t := by
  obtain ⟨tu, th, tp, rfl, h1, h2, h3⟩ := ht
  refine ((?_ : Enc MainByte tu).append (host_main h2)).append ?_
  · cases hu : a.userInfo with
    | none => rw [hu] at h1; have h1 : tu = [] := h1; subst h1; exact .nil
    | some u =>
      rw [hu] at h1
      obtain ⟨s, rfl, rfl, h⟩ := h1
      exact (userInfo_main h).append (.byte _ _ (by decide) .nil)
  · cases hp : a.port with
    | none => rw [hp] at h3; have h3 : tp = [] := h3; subst h3; exact .nil
    | some n =>
      rw [hp] at h3
      obtain ⟨s, rfl, -, h, -⟩ := h3
      exact .byte _ _ (by decide) (.of_all fun b hb => digit_main (h b hb))

theorem segment_main (h : SegmentPart t) : Enc MainByte t := by
  obtain ⟨s, rfl, h⟩ := h
  exact .byte _ _ (by decide) (h.mono fun _ => pchar_main)

theorem path_main {p : Path} (h : PathText t p) : Enc MainByte t := by
  match p, h with
  | .abempty ps, h => obtain ⟨rfl, h'⟩ := h; exact .flatten fun s hs => segment_main (h' s hs)
  | .rootless ps, h =>
    obtain ⟨rfl, s, ss, rfl, -, h1, h2⟩ := h
    rw [List.flatten_cons]
    exact (h1.mono fun _ => pchar_main).append (.flatten fun s hs => segment_main (h2 s hs))

theorem hier_main {h : HierPart} (ht : HierText V t h) : Enc MainByte t := by
  obtain ⟨ta, tp, rfl, h1, h2, -⟩ := ht
  refine (?_ : Enc MainByte ta).append (path_main h2)
  cases ha : h.authority with
  | none => rw [ha] at h1; have h1 : ta = [] := h1; subst h1; exact .nil
  | some a =>
    rw [ha] at h1
    obtain ⟨s, rfl, h⟩ := h1
    exact Enc.append (.of_all (by decide)) (authority_main h)

theorem pair_main {kv : Bytes × Option Bytes} (h : PairOk kv) : Enc MainByte (pairText kv) := by
  obtain ⟨k, v⟩ := kv
  have hk : Enc MainByte k := h.1.mono fun _ hb => frag_main hb.1
  cases v with
  | none => exact hk
  | some v => exact hk.append (.byte _ _ (by decide) ((h.2 v rfl).mono fun _ hb => frag_main hb.1))

theorem join_main : ∀ {l : List Bytes}, (∀ t ∈ l, Enc MainByte t) → Enc MainByte (join [byte '&'] l)
  | [], _ => .nil
  | [x], h => h x (by simp)
  | x :: y :: l, h => Enc.append (h x (by simp))
      (.byte _ _ (by decide) (join_main (l := y :: l) fun t ht => h t (List.mem_cons_of_mem _ ht)))

/-- The text of a URI: what is in front of the fragment has no number sign. -/
theorem uri_front {u : Uri} (ht : UriText V t u) : ∃ m tf, t = m ++ tf ∧ Enc MainByte m ∧
    OptText [byte '#'] FragmentText tf u.fragment := by
  obtain ⟨ts, th, tq, tf, rfl, h1, h2, h3, h4⟩ := ht
  refine ⟨_, tf, rfl, (((?_ : Enc MainByte ts).append (.byte _ _ (by decide) .nil)).append ?_).append ?_, h4⟩
  · cases hu : u.scheme with
    | none => rw [hu] at h1; have h1 : ts = [] := h1; subst h1; exact .nil
    | some s =>
      rw [hu] at h1
      obtain ⟨_, rfl, rfl, a, s, rfl, h5, h6⟩ := h1
      refine .byte _ _ (.inl (.inl h5)) (.of_all fun b hb => ?_)
      rcases h6 b hb with h | h | h
      · exact .inl (.inl h)
      · exact digit_main h
      · obtain ⟨c, hc, rfl⟩ := oneOf_cases (by decide) h
        have key : ∀ c ∈ ['+', '-', '.'], MainByte (byte c) := by decide
        exact key c hc
  · cases hu : u.hier with
    | none => rw [hu] at h2; have h2 : th = [] := h2; subst h2; exact .nil
    | some h => rw [hu] at h2; obtain ⟨s, rfl, h⟩ := h2; exact hier_main h
  · cases hu : u.query with
    | none => rw [hu] at h3; have h3 : tq = [] := h3; subst h3; exact .nil
    | some q =>
      rw [hu] at h3
      obtain ⟨s, rfl, rfl, -, h⟩ := h3
      refine .byte _ _ (by decide) (join_main ?_)
      intro t ht
      obtain ⟨kv, h5, rfl⟩ := List.mem_map.1 ht
      exact pair_main (h kv h5)

theorem uri_uri {u : Uri} (ht : UriText V t u) : Enc UriByte t := by
  obtain ⟨m, tf, rfl, hm, h4⟩ := uri_front ht
  refine (hm.mono fun _ => main_uri).append ?_
  cases hu : u.fragment with
  | none => rw [hu] at h4; have h4 : tf = [] := h4; subst h4; exact .nil
  | some f =>
    rw [hu] at h4
    obtain ⟨s, rfl, rfl, h⟩ := h4
    exact .byte _ _ (by decide) (h.mono fun _ => frag_uri)

/-- A number sign occurs in the text exactly if there is a fragment. -/
theorem hash_iff {u : Uri} (ht : UriText V t u) : byte '#' ∈ t ↔ u.fragment ≠ none := by
  obtain ⟨m, tf, rfl, hm, h4⟩ := uri_front ht
  have hn : byte '#' ∉ m := by
    clear h4 ht
    induction hm with
    | nil => simp
    | byte b t hb _ ih =>
      rw [List.mem_cons, not_or]
      exact ⟨fun e => absurd (e ▸ hb) (by decide), ih⟩
    | pct h l t h1 h2 _ ih =>
      simp only [List.mem_cons, not_or]
      exact ⟨by decide, fun e => absurd (e ▸ h1) (by decide), fun e => absurd (e ▸ h2) (by decide), ih⟩
  cases hu : u.fragment with
  | none => rw [hu] at h4; have h4 : tf = [] := h4; subst h4; simpa using hn
  | some f =>
    rw [hu] at h4
    obtain ⟨s, rfl, rfl, h⟩ := h4
    simp

/-! ### Seven groups before a double colon -/

/-- No authority is read in front of seven groups and a double colon. -/
theorem no_seven (hstd : StdOk std) {s rest' : Bytes} (h : SevenGroups s) :
    ∃ c, Fail (authority std) ([byte '['] ++ s ++ [byte ']'] ++ rest') c := by
  rw [fails_iff]
  intro t a rest he hv
  obtain ⟨tu, th, tp, rfl, h1, h2, -⟩ := authority_sound hstd hv
  have hu : tu = [] := by
    cases ha : a.userInfo with
    | none => rw [ha] at h1; exact h1
    | some u =>
      rw [ha] at h1
      obtain ⟨-, rfl, rfl, h3⟩ := h1
      have hb := userInfo_user h3
      cases hs : u.show with
      | nil => rw [hs] at he; simp at he; exact absurd he.1 (by decide)
      | cons b r =>
        rw [hs] at he hb
        simp at he
        have := hb b (by simp)
        rw [← he.1] at this
        exact absurd this (by decide)
  subst hu
  obtain ⟨g, ns, rfl, hg, hl⟩ := h
  have hs : ∀ b ∈ g ++ bytes "::", AddrByte b := by
    have key : ∀ b ∈ bytes "::", AddrByte b := by decide
    intro b hb
    rcases List.mem_append.1 hb with hb | hb
    · exact groups_addr hg b hb
    · exact key b hb
  generalize hh : a.hostName = hn at h2
  match hn, h2 with
  | .regName n, h2 =>
    obtain ⟨rfl, h3, h4⟩ := h2
    cases th with
    | nil => exact h3 rfl
    | cons b r => simp at he; exact regByte_head h4 r (by rw [he.1])
  | .ipv4 x, h2 =>
    obtain ⟨d, t', rfl, hd⟩ := ipv4_digit_head h2
    simp at he
    rw [← he.1] at hd
    exact absurd hd (by decide)
  | .ipLiteral (.ipvFuture n), h2 =>
    obtain ⟨rfl, h, r, rfl, -⟩ := h2
    obtain ⟨d, t', rfl, hd⟩ := groups_head hg
    simp at he
    rw [he.1] at hd
    exact absurd hd (by decide)
  | .ipLiteral (.ipv6 x), h2 =>
    obtain ⟨s', rfl, h3, h4⟩ := h2
    refine h4 ?_
    have e : (g ++ bytes "::") ++ byte ']' :: rest' = s' ++ byte ']' :: (tp ++ rest) := by simpa using he
    have := span_unique hs (ipv6_addr h3) (by decide) (by decide) e
    exact ⟨g, ns, this.1.symm, hg, hl⟩

theorem uri_seven (hstd : StdOk std) {sch s : Bytes} (hs : SchemeText sch) (h : SevenGroups s) :
    Eats (uri std) (sch ++ bytes "://") ⟨some sch, some ⟨none, .abempty [bytes "/", bytes "/"]⟩, none, none⟩
      (byte '[' :: s ++ byte ']' :: rest) := by
  have b1 : bytes "://" = [byte ':'] ++ bytes "//" := by decide
  unfold uri
  refine eats_map.2 ⟨(((some sch, some ⟨none, .abempty [bytes "/", bytes "/"]⟩), none), none), eats_andThen.2
    ⟨sch ++ bytes "://", [], by simp, eats_andThen.2 ⟨sch ++ bytes "://", [], by simp, eats_andThen.2
    ⟨sch ++ [byte ':'], bytes "//", by rw [b1, List.append_assoc], eats_skipRight.2 ⟨sch, [byte ':'], _, rfl,
    eats_opt.2 (.inl ⟨sch, rfl, eats_scheme.2 ⟨rfl, hs, start_cons (by decide) (by decide)⟩⟩),
    eats_elm.2 ⟨rfl, rfl⟩⟩, ?_⟩, ?_⟩, ?_⟩, rfl⟩
  · rw [hierPart_eq]
    obtain ⟨c, hc⟩ := no_seven (rest' := rest) hstd h
    refine eats_opt.2 (.inl ⟨_, rfl, eats_or.2 (.inr ⟨fail_attempt.2 ⟨rfl, c, ?_⟩, ?_⟩)⟩)
    · unfold hierP1
      refine fail_map.2 (fail_andThen.2 (.inl (fail_skipLeft.2 (.inr ⟨bytes "//", _, _, rfl, eats_seq.2 ⟨rfl, rfl⟩, ?_⟩))))
      simpa using hc
    · unfold hierP2
      refine eats_map.2 ⟨_, eats_or.2 (.inl (eats_attempt.2 (eats_pathAbempty1.2 ⟨_, rfl, by simp, ⟨by decide, ?_⟩,
        start_cons (by decide) (by decide), by simp; decide⟩))), rfl⟩
      intro s hs
      simp at hs
      subst hs
      exact ⟨[], by decide, .nil⟩
  · exact eats_opt.2 (.inr ⟨rfl, rfl, _, fail_skipLeft.2 (.inl (fail_elm.2 ⟨rfl, by simp; decide⟩))⟩)
  · exact eats_opt.2 (.inr ⟨rfl, rfl, _, fail_skipLeft.2 (.inl (fail_elm.2 ⟨rfl, by simp; decide⟩))⟩)

end OniComb.Uri
