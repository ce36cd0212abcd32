import Verif.Lemmas.UriIpv6Complete
import Verif.Lemmas.UriAuthority

/-!
# Helper lemmas for the URI parser: which texts are read
-/

namespace OniComb.Uri
open OniComb Rfc
variable {A B : Type} {t rest r : Bytes} {c : Committed} {std : Std}

/-! ### Addresses are determined by their text -/

theorem decText_value {n : Nat} (h : DecText t n) : value t = n := h.2.2.1

theorem dot_not_digit : ¬ Digit (byte '.') := by decide

theorem ipv4Text_unique {x y : Ipv4} (h : Ipv4Text t x) (h' : Ipv4Text t y) : x = y := by
  obtain ⟨a, b, c, d⟩ := x
  obtain ⟨a', b', c', d'⟩ := y
  obtain ⟨ta, tb, tc, td, rfl, ha, hb, hc, hd, -⟩ := h
  obtain ⟨ta', tb', tc', td', he, ha', hb', hc', hd', -⟩ := h'
  simp only [List.append_assoc, List.singleton_append] at he
  obtain ⟨rfl, -, he⟩ := span_unique ha.2.1 ha'.2.1 dot_not_digit dot_not_digit he
  obtain ⟨rfl, -, he⟩ := span_unique hb.2.1 hb'.2.1 dot_not_digit dot_not_digit he
  obtain ⟨rfl, -, rfl⟩ := span_unique hc.2.1 hc'.2.1 dot_not_digit dot_not_digit he
  have e1 := decText_value ha; have e2 := decText_value ha'
  have e3 := decText_value hb; have e4 := decText_value hb'
  have e5 := decText_value hc; have e6 := decText_value hc'
  have e7 := decText_value hd; have e8 := decText_value hd'
  simp only at e1 e2 e3 e4 e5 e6 e7 e8
  subst e1 e3 e5 e7
  rw [e2, e4, e6, e8]

theorem tail_unique {ns ms : List Nat} (h : Tail t ns) (h' : Tail t ms) : ns = ms := by
  induction h generalizing ms with
  | one t n h =>
    cases h' with
    | one _ m h' => rw [← h.2.2.2, ← h'.2.2.2]
    | ipv4 _ x h' =>
      obtain ⟨ds, t', rfl, -⟩ := ipv4_head h'
      exact absurd (by simp) (h16_no_dot h)
    | cons _ _ _ _ _ _ => exact absurd (by simp) (h16_no_colon h)
  | ipv4 t x h =>
    cases h' with
    | one _ m h' =>
      obtain ⟨ds, t', rfl, -⟩ := ipv4_head h
      exact absurd (by simp) (h16_no_dot h')
    | ipv4 _ y h' => rw [ipv4Text_unique h h']
    | cons _ _ _ _ _ _ => exact absurd (by simp) (ipv4_no_colon h)
  | cons t n u ns h h1 ih =>
    generalize he : t ++ byte ':' :: u = w at h'
    cases h' with
    | one _ m h' => exact absurd (by simp [← he]) (h16_no_colon h')
    | ipv4 _ x h' => exact absurd (by simp [← he]) (ipv4_no_colon h')
    | cons t' m u' ms h' h1' =>
      have hc : ¬ Hex (byte ':') := by decide
      obtain ⟨rfl, -, rfl⟩ := span_unique h.2.2.1 h'.2.2.1 hc hc he
      rw [ih h1', ← h.2.2.2, ← h'.2.2.2]

theorem ipv6Text_unique {x y : Ipv6} (h : Ipv6Text t x) (h' : Ipv6Text t y) : x = y := by
  have mixed : ∀ {w a b : Bytes} {ns : List Nat}, Tail w ns → w = a ++ bytes "::" ++ b → False := by
    intro w a b ns h he
    have := tail_colons h a (byte ':' :: b) (by rw [he, double]; simp)
    obtain ⟨d, b', he', hd⟩ := this
    cases he'
    revert hd; decide
  cases h with
  | full _ ns h _ =>
    generalize hw : t = w at h'
    cases h' with
    | full _ ms h' _ => subst hw; rw [tail_unique h h']
    | short a u ns' ms _ _ _ => exact (mixed h hw).elim
  | short a u ns ms h1 h2 _ =>
    generalize hw : a ++ bytes "::" ++ u = w at h'
    cases h' with
    | full _ ms' h' _ => exact (mixed h' hw.symm).elim
    | short a' u' ns' ms' h1' h2' _ =>
      have h1o : OptGroups a ns := h1
      have h1o' : OptGroups a' ns' := h1'
      obtain ⟨rfl, rfl⟩ := double_unique h1o.colons h1o'.colons hw
      have e1 : ns = ns' := by
        rcases h1 with ⟨rfl, rfl⟩ | h1 <;> rcases h1' with ⟨he, rfl⟩ | h1'
        · rfl
        · obtain ⟨d, t', he, -⟩ := groups_head h1'; simp at he
        · subst he; obtain ⟨d, t', he, -⟩ := groups_head h1; simp at he
        · exact tail_unique h1.tail h1'.tail
      have e2 : ms = ms' := by
        rcases h2 with ⟨rfl, rfl⟩ | h2 <;> rcases h2' with ⟨he, rfl⟩ | h2'
        · rfl
        · obtain ⟨d, t', he, -⟩ := tail_head h2'; simp at he
        · subst he; obtain ⟨d, t', he, -⟩ := tail_head h2; simp at he
        · exact tail_unique h2 h2'
      rw [e1, e2]

open Classical in
/-- The assumption about the standard library is consistent. -/
theorem exists_stdOk : ∃ std, StdOk std := by
  refine ⟨⟨fun t => if h : ∃ x, Ipv6Text t x then some h.choose else none, fun _ => []⟩, ?_⟩
  intro t x h
  have h' : ∃ x, Ipv6Text t x := ⟨x, h⟩
  simp only [h', dite_true]
  rw [ipv6Text_unique h'.choose_spec h]

theorem ipv6_head {x : Ipv6} (h : Ipv6Text t x) : ∃ d t', t = d :: t' ∧ (Hex d ∨ d = byte ':') := by
  cases h with
  | full _ ns h _ => obtain ⟨d, t', rfl, hd⟩ := tail_head h; exact ⟨d, t', rfl, .inl hd⟩
  | short a u ns ms h _ _ =>
    rcases h with ⟨rfl, rfl⟩ | h
    · exact ⟨byte ':', byte ':' :: u, by rw [double]; rfl, .inr rfl⟩
    · obtain ⟨d, t', rfl, hd⟩ := groups_head h; exact ⟨d, _, rfl, .inl hd⟩

/-! ### Host -/

theorem digit_uri {b : UInt8} (h : Digit b) : UriByte b := .inl (.inr (.inl h))

theorem hex_uri {b : UInt8} (h : Hex b) : UriByte b := by
  rcases h with h | h | h
  · exact digit_uri h
  · exact .inl (.inl (.inl ⟨h.1, by omega⟩))
  · exact .inl (.inl (.inr ⟨h.1, by omega⟩))

theorem reg_uri {b : UInt8} (h : RegByte b) : UriByte b := by
  rcases h with h | h
  · exact .inl h
  · exact .inr (.inl h)

theorem oneOf_uri {b : UInt8} {cs : List Char} (h : OneOf cs b)
    (hc : ∀ c ∈ cs, c ∈ [':', '/', '?', '#', '[', ']', '@']) : UriByte b := by
  refine .inr (.inr ?_)
  obtain ⟨c, h1, h2⟩ := List.mem_map.1 h
  exact List.mem_map.2 ⟨c, hc c h1, h2⟩

theorem pchar_uri {b : UInt8} (h : PcharByte b) : UriByte b := by
  rcases h with h | h
  · exact reg_uri h
  · exact oneOf_uri h (by decide)

theorem frag_uri {b : UInt8} (h : FragByte b) : UriByte b := by
  rcases h with h | h
  · exact pchar_uri h
  · exact oneOf_uri h (by decide)

/-- What follows: nothing, one of the characters, or a byte that cannot occur in a URI. -/
def StopAt (cs : List Char) (r : Bytes) : Prop := ∀ b r', r = b :: r' → OneOf cs b ∨ Foreign b

/-- What follows an authority. -/
def Stop (r : Bytes) : Prop := StopAt ['/', '?', '#'] r

/-- What follows a host. -/
def HostStop (r : Bytes) : Prop := StopAt [':', '/', '?', '#'] r

/-- What follows a path. -/
def PathStop (r : Bytes) : Prop := StopAt ['?', '#'] r

theorem Stop.host (h : Stop r) : HostStop r := by
  intro b r' he
  refine (h b r' he).imp_left fun this => ?_
  simp only [OneOf, List.map, List.mem_cons, List.not_mem_nil, or_false] at this ⊢
  exact .inr this

theorem PathStop.stop (h : PathStop r) : Stop r := by
  intro b r' he
  refine (h b r' he).imp_left fun this => ?_
  simp only [OneOf, List.map, List.mem_cons, List.not_mem_nil, or_false] at this ⊢
  exact .inr this

theorem oneOf_cases {cs : List Char} {b : UInt8} (hc : ∀ c ∈ cs, c.toNat < 256) (h : OneOf cs b) :
    ∃ c ∈ cs, b = byte c := by
  unfold OneOf at h
  obtain ⟨c, h1, h2⟩ := List.mem_map.1 h
  exact ⟨c, h1, toNat_inj (by rw [byte_toNat c (hc c h1), h2])⟩

/-- What holds for the characters and for the foreign bytes holds for the next byte. -/
theorem StopAt.cases {cs : List Char} {Q : UInt8 → Prop} (h : StopAt cs r) (hc : ∀ c ∈ cs, c.toNat < 256)
    (h1 : ∀ c ∈ cs, Q (byte c)) (h2 : ∀ b, Foreign b → Q b) {b : UInt8} {r' : Bytes} (he : r = b :: r') : Q b := by
  rcases h b r' he with h | h
  · obtain ⟨c, h3, rfl⟩ := oneOf_cases hc h
    exact h1 c h3
  · exact h2 b h

theorem not_start {P : UInt8 → Prop} {pct : Prop} {cs : List Char} (hc : ∀ c ∈ cs, c.toNat < 256)
    (hP : ∀ c ∈ cs, ¬ P (byte c) ∧ byte c ≠ byte '%') (hU : ∀ b, P b → UriByte b) (h : StopAt cs r) :
    ¬ Start P pct r := by
  cases r with
  | nil => exact start_nil
  | cons b r =>
    have := h.cases (Q := fun b => ¬ P b ∧ b ≠ byte '%') hc hP (fun b hb => ⟨fun h => hb.1 (hU b h), hb.2⟩) rfl
    exact start_cons this.1 this.2

theorem not_head {cs : List Char} {d : UInt8} (hc : ∀ c ∈ cs, c.toNat < 256) (hd : ∀ c ∈ cs, byte c ≠ d)
    (hU : UriByte d) (h : StopAt cs r) : ∀ r', r ≠ d :: r' := by
  rintro r' rfl
  exact h.cases (Q := fun b => b ≠ d) hc hd (fun b hb he => hb.1 (he ▸ hU)) rfl rfl

/-- A longer address is read if the text goes on. -/
theorem ipv4_longest (r : Bytes) : ∀ (t : Bytes) (x : Ipv4), Ipv4Text t x →
    ∃ t' x' r', t ++ r = t' ++ r' ∧ Eats ipv4Address t' x' r' := by
  induction r with
  | nil => exact fun t x h => ⟨t, x, [], rfl, eats_ipv4Address.2 ⟨h, by intro d r' he; cases he⟩⟩
  | cons b r ih =>
    intro t x h
    by_cases hs : Ipv4Stop x (b :: r)
    · exact ⟨t, x, b :: r, rfl, eats_ipv4Address.2 ⟨h, hs⟩⟩
    · have h0 : Digit b ∧ dec x.d ≠ [byte '0'] ∧ value (dec x.d ++ [b]) ≤ 255 := by
        by_contra hn
        refine hs fun d r' he hd => ?_
        cases he
        by_cases h1 : dec x.d = [byte '0']
        · exact .inl h1
        · exact .inr (by
            by_contra h2
            exact hn ⟨hd, h1, by omega⟩)
      obtain ⟨ta, tb, tc, td, rfl, ha, hb, hc, hd, l1, l2, l3, l4⟩ := h
      have etd : td = dec x.d := decText_iff.1 hd
      have hds : ∀ y ∈ td ++ [b], Digit y := by
        intro y hy
        rcases List.mem_append.1 hy with hy | hy
        · exact hd.2.1 y hy
        · rw [List.mem_singleton.1 hy]; exact h0.1
      have hz : (td ++ [b]).head? = some (byte '0') → td ++ [b] = [byte '0'] := by
        intro hh
        cases td with
        | nil => exact absurd rfl hd.1
        | cons y td =>
          have := hd.2.2.2 (by simpa using hh)
          exact absurd (etd ▸ this) h0.2.1
      obtain ⟨t', x', r', h1, h2⟩ := ih (ta ++ [byte '.'] ++ tb ++ [byte '.'] ++ tc ++ [byte '.'] ++ (td ++ [b]))
        ⟨x.a, x.b, x.c, value (td ++ [b])⟩ ⟨ta, tb, tc, td ++ [b], rfl, ha, hb, hc, ⟨by simp, hds, rfl, hz⟩, l1, l2, l3,
          by rw [etd]; exact h0.2.2⟩
      exact ⟨t', x', r', by rw [← h1]; simp, h2⟩

theorem noIpv4Prefix_iff (hr : ∀ b r', rest = b :: r' → ¬ Digit b ∧ b ≠ byte '.') :
    (∃ c, Fail ipv4Address (t ++ rest) c) ↔ NoIpv4Prefix t := by
  rw [fails_iff]
  constructor
  · rintro h t' r x rfl ht'
    obtain ⟨t2, x2, r2, h1, h2⟩ := ipv4_longest (r ++ rest) t' x ht'
    exact h t2 x2 r2 (by rw [← h1]; simp) h2
  · intro h t' x r' he hx
    have hx' := (eats_ipv4Address.1 hx).1
    have hp : t' <+: t := by
      have h1 : t' <+: t ++ rest := he ▸ List.prefix_append _ _
      by_cases hl : t'.length ≤ t.length
      · exact List.prefix_of_prefix_length_le h1 (List.prefix_append _ _) hl
      · exfalso
        cases rest with
        | nil => simp at h1; exact hl h1.length_le
        | cons b rest =>
          have h2 : t ++ [b] <+: t' := List.prefix_of_prefix_length_le ⟨rest, by simp⟩ h1 (by simp; omega)
          have h3 := hr b rest rfl
          rcases ipv4_mem hx' b (h2.subset (by simp)) with h4 | h4
          · exact h3.1 h4
          · exact h3.2 h4
    obtain ⟨r2, rfl⟩ := hp
    exact h t' r2 x rfl hx'

theorem regByte_head (h : Enc RegByte t) : ∀ r', t ≠ byte '[' :: r' := by
  rintro r' rfl
  cases h with
  | byte _ _ h _ => revert h; decide

theorem digit_head {b : UInt8} (h : Digit b) : b ≠ byte '[' := by rintro rfl; revert h; decide

theorem ipv4_digit_head {x : Ipv4} (h : Ipv4Text t x) : ∃ d t', t = d :: t' ∧ Digit d := by
  obtain ⟨ds, t', rfl, h1, h2⟩ := ipv4_head h
  cases ds with
  | nil => exact absurd rfl h1
  | cons d ds => exact ⟨d, _, rfl, h2 d (by simp)⟩

theorem host_complete (hstd : StdOk std) {h : HostName} (ht : HostText (¬ SevenGroups ·) t h)
    (hn : ∀ s, h = .regName s → NoIpv4Prefix s)
    (hs : HostStop rest) : Eats (host std) t h rest := by
  unfold host
  rw [eats_name]
  have c256 : ∀ c ∈ [':', '/', '?', '#'], Char.toNat c < 256 := by decide
  match h, ht with
  | .regName s, ht =>
    obtain ⟨rfl, h0, h1⟩ := ht
    refine eats_or.2 (.inr ⟨fail_or.2 (.inr ⟨fail_attempt.2 ⟨rfl, _, fail_map.2 (fail_ipLiteral ?_)⟩,
      fail_attempt.2 ⟨rfl, ?_⟩⟩), eats_regName.2 ⟨rfl, h0, h1, ?_⟩⟩)
    · intro r' he
      cases t with
      | nil => exact h0 rfl
      | cons b t => exact regByte_head h1 t (by simp at he; rw [he.1])
    · have key : ∀ c ∈ [':', '/', '?', '#'], ¬ Digit (byte c) ∧ byte c ≠ byte '.' := by decide
      have hr : ∀ b r', rest = b :: r' → ¬ Digit b ∧ b ≠ byte '.' := by
        intro b r' he
        refine StopAt.cases (Q := fun b => ¬ Digit b ∧ b ≠ byte '.') hs c256 key (fun b hb => ⟨fun h => hb.1 (digit_uri h), ?_⟩) he
        rintro rfl
        exact hb.1 (by decide)
      obtain ⟨c, hc⟩ := (noIpv4Prefix_iff (t := t) (rest := rest) hr).2 (hn t rfl)
      exact ⟨c, fail_map.2 hc⟩
    · exact not_start c256 (by decide) (fun _ => reg_uri) hs
  | .ipv4 x, ht =>
    have ht' : Ipv4Text t x := ht
    obtain ⟨d, t', rfl, hd⟩ := ipv4_digit_head ht'
    refine eats_or.2 (.inl (eats_or.2 (.inr ⟨fail_attempt.2 ⟨rfl, _, fail_map.2 (fail_ipLiteral ?_)⟩,
      eats_attempt.2 (eats_map.2 ⟨x, eats_ipv4Address.2 ⟨ht', ?_⟩, rfl⟩)⟩)))
    · intro r' he; simp at he; exact digit_head hd he.1
    · intro b r' he hb
      have h1 := StopAt.cases (Q := fun b => ¬ Digit b) hs c256 (by decide) (fun b hb h => hb.1 (digit_uri h)) he
      exact absurd hb h1
  | .ipLiteral (.ipvFuture s), ht =>
    obtain ⟨rfl, h1⟩ := ht
    refine eats_or.2 (.inl (eats_or.2 (.inl (eats_attempt.2 (eats_map.2 ⟨_, ?_, rfl⟩)))))
    unfold ipLiteral
    refine eats_name.2 (eats_skipRight.2 ⟨[byte '['] ++ s, [byte ']'], _, rfl, eats_skipLeft.2 ⟨[byte '['], s, _, rfl,
      eats_elm.2 ⟨rfl, rfl⟩, eats_or.2 (.inr ⟨fail_attempt.2 ⟨rfl, ?_⟩, eats_map.2 ⟨s, eats_ipvFuture.2 ⟨rfl, h1,
      start_cons (by unfold FutureByte; decide) (by decide)⟩, rfl⟩⟩)⟩, eats_elm.2 ⟨rfl, rfl⟩⟩)
    rw [fails_iff]
    intro u v r' he hu
    obtain ⟨x, hx, -⟩ := eats_map.1 hu
    obtain ⟨x', h2, -⟩ := ipv6Address_sound hx
    obtain ⟨d, t', rfl, h3⟩ := ipv6_head h2
    obtain ⟨h, r, rfl, -⟩ := h1
    simp at he
    rw [← he.1] at h3
    revert h3; decide
  | .ipLiteral (.ipv6 x), ht =>
    obtain ⟨s, rfl, h1, h7⟩ := ht
    refine eats_or.2 (.inl (eats_or.2 (.inl (eats_attempt.2 (eats_map.2 ⟨_, ?_, rfl⟩)))))
    unfold ipLiteral
    exact eats_name.2 (eats_skipRight.2 ⟨[byte '['] ++ s, [byte ']'], _, rfl, eats_skipLeft.2 ⟨[byte '['], s, _, rfl,
      eats_elm.2 ⟨rfl, rfl⟩, eats_or.2 (.inl (eats_attempt.2 (eats_map.2 ⟨x, ipv6Address_complete hstd h1 h7,
      rfl⟩)))⟩, eats_elm.2 ⟨rfl, rfl⟩⟩)

/-! ### Authority -/

/-- Bytes of user info, host name, address and port. -/
def UserByte (b : UInt8) : Prop := RegByte b ∨ b = byte '%' ∨ b = byte ':' ∨ Hex b

theorem enc_user {P : UInt8 → Prop} (hP : ∀ b, P b → RegByte b) (h : Enc P t) : ∀ b ∈ t, UserByte b := by
  induction h with
  | nil => simp
  | byte b t hb _ ih =>
    intro c hc
    rcases List.mem_cons.1 hc with rfl | hc
    · exact .inl (hP _ hb)
    · exact ih c hc
  | pct h l t h1 h2 _ ih =>
    intro c hc
    simp only [List.mem_cons] at hc
    rcases hc with rfl | rfl | rfl | hc
    · exact .inr (.inl rfl)
    · exact .inr (.inr (.inr h1))
    · exact .inr (.inr (.inr h2))
    · exact ih c hc

theorem userInfo_user {u : UserInfo} (h : UserInfoOk u) : ∀ b ∈ u.show, UserByte b := by
  intro b hb
  obtain ⟨n, pw⟩ := u
  simp only [UserInfo.show, List.mem_append] at hb
  rcases hb with hb | hb
  · exact enc_user (fun _ h => h) h.1 b hb
  · cases pw with
    | none => simp [optText] at hb
    | some p =>
      simp only [optText, List.mem_cons] at hb
      rcases hb with rfl | hb
      · exact .inr (.inr (.inl rfl))
      · exact enc_user (fun _ h => h) (h.2 p rfl).2 b hb

instance : DecidablePred UserByte := fun _ => inferInstanceAs (Decidable (_ ∨ _))

theorem digit_user {b : UInt8} (h : Digit b) : UserByte b := .inr (.inr (.inr (digit_hex h)))

/-- There is no `@` in a host and a port. -/
theorem no_userAt {h : HostName} {n : Option Nat} {th tp : Bytes} {V : Bytes → Prop} (ht : HostText V th h)
    (hp : OptText [byte ':'] PortText tp n) (hs : Stop rest) :
    ∃ c, Fail (skipRight userInfo (elm (byte '@'))) (th ++ tp ++ rest) c := by
  rw [fails_iff]
  intro t u r' he hu
  obtain ⟨rfl, hu1⟩ := eats_userAt.1 hu
  clear hu
  have hu := userInfo_user hu1
  have hat : ¬ UserByte (byte '@') := by decide
  have hbr : ¬ UserByte (byte '[') := by decide
  have he' : u.show ++ byte '@' :: r' = th ++ tp ++ rest := by simpa using he.symm
  have hport : ∀ b ∈ tp, UserByte b := by
    cases n with
    | none => cases hp; simp
    | some n =>
      obtain ⟨ds, rfl, -, h2, -⟩ := hp
      intro b hb
      simp only [List.mem_append, List.mem_singleton] at hb
      rcases hb with rfl | hb
      · exact .inr (.inr (.inl rfl))
      · exact digit_user (h2 b hb)
  have fin : (∀ b ∈ th, UserByte b) → False := by
    intro hh
    have hall : ∀ b ∈ th ++ tp, UserByte b := fun b hb => (List.mem_append.1 hb).elim (hh b) (hport b)
    cases rest with
    | nil =>
      have : byte '@' ∈ th ++ tp := by rw [List.append_nil] at he'; rw [← he']; simp
      exact hat (hall _ this)
    | cons b rest =>
      have key : ∀ c ∈ ['/', '?', '#'], ¬ UserByte (byte c) ∧ byte c ≠ byte '@' := by decide
      have hc := StopAt.cases (Q := fun b => ¬ UserByte b ∧ b ≠ byte '@') hs (by decide) key (fun b hb => ⟨fun h => by
        rcases h with h | h | rfl | h
        · exact hb.1 (reg_uri h)
        · exact hb.2 h
        · exact hb.1 (by decide)
        · exact hb.1 (hex_uri h), by rintro rfl; exact hb.1 (by decide)⟩) rfl
      have := span_unique hu hall hat hc.1 he'
      exact hc.2 this.2.1.symm
  match h, ht with
  | .regName s, ht => obtain ⟨rfl, -, h1⟩ := ht; exact fin (enc_user (fun _ h => h) h1)
  | .ipv4 x, ht =>
    refine fin fun b hb => ?_
    rcases ipv4_mem ht b hb with h | rfl
    · exact digit_user h
    · decide
  | .ipLiteral l, ht =>
    have : ∃ s, th = byte '[' :: s := by
      cases l with
      | ipv6 x => obtain ⟨s, rfl, -⟩ := ht; exact ⟨_, rfl⟩
      | ipvFuture s => obtain ⟨rfl, -⟩ := ht; exact ⟨_, rfl⟩
    obtain ⟨s, rfl⟩ := this
    cases hsh : u.show with
    | nil => rw [hsh] at he'; simp at he'; exact absurd he'.1 (by decide)
    | cons d ds =>
      rw [hsh] at he'
      simp at he'
      exact hbr (he'.1 ▸ hu d (by rw [hsh]; simp))

theorem authority_complete (hstd : StdOk std) {a : Authority} (ht : AuthorityText (¬ SevenGroups ·) t a)
    (hn : ∀ s, a.hostName = .regName s → NoIpv4Prefix s)
    (hs : Stop rest) : Eats (authority std) t a rest := by
  obtain ⟨tu, th, tp, rfl, h1, h2, h3⟩ := ht
  obtain ⟨hst, n, u⟩ := a
  have c256 : ∀ c ∈ ['/', '?', '#'], Char.toNat c < 256 := by decide
  unfold authority
  refine eats_map.2 ⟨((u, hst), n), eats_andThen.2 ⟨tu ++ th, tp, rfl, eats_andThen.2 ⟨tu, th, rfl, ?_, ?_⟩, ?_⟩, rfl⟩
  · cases u with
    | none =>
      cases h1
      refine eats_opt.2 (.inr ⟨rfl, rfl, ?_⟩)
      have := no_userAt h2 h3 hs
      simpa using this
    | some u =>
      obtain ⟨s, rfl, h4⟩ := h1
      exact eats_opt.2 (.inl ⟨u, rfl, eats_userAt.2 h4⟩)
  · refine host_complete hstd h2 hn ?_
    intro b r' he
    cases n with
    | none => cases h3; exact hs.host b r' (by simpa using he)
    | some n =>
      obtain ⟨ds, rfl, -⟩ := h3
      simp at he
      rw [← he.1]
      decide
  · cases n with
    | none =>
      cases h3
      refine eats_opt.2 (.inr ⟨rfl, rfl, _, fail_skipLeft.2 (.inl (fail_elm.2 ⟨rfl, ?_⟩))⟩)
      exact not_head c256 (by decide) (by decide) hs
    | some n =>
      obtain ⟨ds, rfl, h4, h5, h6, h8⟩ := h3
      exact eats_opt.2 (.inl ⟨n, rfl, eats_colonPort.2 ⟨ds, rfl, h4, h5, h6, h8, not_start c256 (by decide) (fun _ => digit_uri) hs⟩⟩)

/-! ### Hierarchical part -/

theorem eats_hierP1_head {h : HierPart} (he : Eats (hierP1 std) t h rest) : bytes "//" <+: t := by
  unfold hierP1 at he
  obtain ⟨⟨a, p⟩, h3, rfl⟩ := eats_map.1 he
  obtain ⟨t1, tp, rfl, h4, h5⟩ := eats_andThen.1 h3
  obtain ⟨t2, ta, w, rfl, h6, h7⟩ := eats_skipLeft.1 h4
  obtain ⟨rfl, -⟩ := eats_seq.1 h6
  exact ⟨ta ++ tp, by simp⟩

theorem eats_hierP1_authority {h : HierPart} (he : Eats (hierP1 std) t h rest) :
    ∃ ta tp a, t = bytes "//" ++ (ta ++ tp) ∧ Eats (authority std) ta a (tp ++ rest) := by
  unfold hierP1 at he
  obtain ⟨⟨a, p⟩, h3, rfl⟩ := eats_map.1 he
  obtain ⟨t1, tp, rfl, h4, h5⟩ := eats_andThen.1 h3
  obtain ⟨t2, ta, w, rfl, h6, h7⟩ := eats_skipLeft.1 h4
  obtain ⟨rfl, -⟩ := eats_seq.1 h6
  exact ⟨ta, tp, a, by simp, h7⟩

theorem slashes : bytes "//" = [byte '/', byte '/'] := by decide

theorem abempty_head {ps : List Bytes} (h : PathText t (.abempty ps)) (h0 : ps ≠ []) : ∃ t', t = byte '/' :: t' := by
  obtain ⟨rfl, h1⟩ := h
  cases ps with
  | nil => exact absurd rfl h0
  | cons p ps => obtain ⟨s, rfl, -⟩ := h1 p (by simp); exact ⟨_, rfl⟩

theorem pchar_slash : ¬ PcharByte (byte '/') := by decide

theorem rootless_head {ps : List Bytes} (h : PathText t (.rootless ps)) :
    ∃ d t', t = d :: t' ∧ (PcharByte d ∨ d = byte '%') := by
  obtain ⟨rfl, s, ss, rfl, h0, h1, -⟩ := h
  cases h1 with
  | nil => exact absurd rfl h0
  | byte b t hb _ => exact ⟨b, _, rfl, .inl hb⟩
  | pct x y t _ _ _ => exact ⟨byte '%', _, rfl, .inr rfl⟩

theorem hierPart_complete (hstd : StdOk std) {h : Option HierPart} (ht : OptText [] (HierText (¬ SevenGroups ·)) t h)
    (hn : ∀ hp a s, h = some hp → hp.authority = some a → a.hostName = .regName s → NoIpv4Prefix s)
    (h2 : ∀ hp r, h = some hp → hp.authority = none → hp.path.show = bytes "//" ++ r → ¬ LikeAuthority r)
    (hs : PathStop rest) : Eats (hierPart std) t h rest := by
  rw [hierPart_eq]
  have c256 : ∀ c ∈ ['?', '#'], Char.toNat c < 256 := by decide
  have hsp : ¬ Start PcharByte True rest := not_start c256 (by decide) (fun _ => pchar_uri) hs
  have hsl : ∀ r', rest ≠ byte '/' :: r' := not_head c256 (by decide) (by decide) hs
  cases h with
  | none =>
    cases ht
    refine eats_opt.2 (.inr ⟨rfl, rfl, ?_⟩)
    rw [fails_iff]
    rintro t v r' he hv
    rcases eats_or.1 hv with hv | ⟨-, hv⟩
    · obtain ⟨z, rfl⟩ := eats_hierP1_head (eats_attempt.1 hv)
      rw [slashes] at he
      exact hsl _ he
    · unfold hierP2 at hv
      obtain ⟨p, hp, -⟩ := eats_map.1 hv
      rcases eats_or.1 hp with hp | ⟨-, hp⟩
      · obtain ⟨ps, rfl, h0, h1, -⟩ := eats_pathAbempty1.1 (eats_attempt.1 hp)
        obtain ⟨t', rfl⟩ := abempty_head h1 h0
        exact hsl _ he
      · obtain ⟨ps, rfl, h1, -⟩ := eats_pathRootless.1 hp
        obtain ⟨d, t', rfl, hd⟩ := rootless_head h1
        have key : ∀ c ∈ ['?', '#'], ¬ (PcharByte (byte c) ∨ byte c = byte '%') := by decide
        exact StopAt.cases (Q := fun b => ¬ (PcharByte b ∨ b = byte '%')) hs c256 key
          (fun b hb h => h.elim (fun h => hb.1 (pchar_uri h)) hb.2) he hd
  | some hp =>
    obtain ⟨-, rfl, ta, tp, rfl, h3, h4, h5, h6⟩ := ht
    refine eats_opt.2 (.inl ⟨hp, rfl, ?_⟩)
    obtain ⟨o, p⟩ := hp
    cases o with
    | some a =>
      obtain ⟨s, rfl, h3⟩ := h3
      obtain ⟨ps, rfl⟩ := h5 rfl
      refine eats_or.2 (.inl (eats_attempt.2 ?_))
      unfold hierP1
      refine eats_map.2 ⟨(a, .abempty ps), eats_andThen.2 ⟨bytes "//" ++ s, tp, rfl, eats_skipLeft.2 ⟨bytes "//", s, _,
        rfl, eats_seq.2 ⟨rfl, rfl⟩, authority_complete hstd h3 (fun s hs => hn _ a s rfl rfl hs) ?_⟩,
        eats_pathAbempty0.2 ⟨ps, rfl, h4, fun _ => hsp, hsl⟩⟩, rfl⟩
      intro b r' he
      by_cases h0 : ps = []
      · subst h0
        obtain ⟨rfl, -⟩ := h4
        exact hs.stop b r' he
      · obtain ⟨t', rfl⟩ := abempty_head h4 h0
        simp at he
        rw [← he.1]; decide
    | none =>
      cases h3
      have hpt : tp = p.show := by
        cases p with
        | abempty ps => exact h4.1
        | rootless ps => exact h4.1
        | absolute ps => cases h4
        | noScheme ps => cases h4
        | empty => cases h4
      have f1 : Fail (attempt (hierP1 std)) ([] ++ tp ++ rest) .uncommitted := by
        refine fail_attempt.2 ⟨rfl, fails_iff.2 fun t v r' he hv => ?_⟩
        obtain ⟨x, y, a, rfl, ha⟩ := eats_hierP1_authority hv
        have hw : ∃ w', tp = bytes "//" ++ w' := by
          rw [slashes] at he ⊢
          have hp0 : tp ≠ [] := by
            rintro rfl
            exact hsl _ he
          cases tp with
          | nil => exact absurd rfl hp0
          | cons x tp =>
            cases tp with
            | nil => simp at he; exact absurd he.2 (hsl _)
            | cons y tp => simp at he; exact ⟨tp, by simp [he.1, he.2.1]⟩
        obtain ⟨w', rfl⟩ := hw
        refine h2 _ w' rfl rfl hpt.symm ?_
        have hse : Enc PathByte (bytes "//") := .byte _ _ (.inr rfl) (.byte _ _ (.inr rfl) .nil)
        refine likeAuthority_of_eats hstd (enc_right pathByte_pct hse (pathText_enc h4)) ?_
          (not_head c256 (by decide) (by decide) hs) ha ?_
        · rintro (⟨b, y', rfl, hb | rfl⟩ | ⟨-, h, l, y', rfl, hh, hl⟩)
          · exact hsp (.inl ⟨b, y', rfl, hb⟩)
          · exact hsl _ rfl
          · exact hsp (.inr ⟨trivial, h, l, y', rfl, hh, hl⟩)
        · simpa [List.append_assoc] using he.symm
      refine eats_or.2 (.inr ⟨f1, ?_⟩)
      unfold hierP2
      refine eats_map.2 ⟨p, ?_, rfl⟩
      cases p with
      | abempty ps =>
        exact eats_or.2 (.inl (eats_attempt.2 (eats_pathAbempty1.2 ⟨ps, rfl, h6 rfl, h4, hsp, hsl⟩)))
      | rootless ps =>
        refine eats_or.2 (.inr ⟨fail_attempt.2 ⟨rfl, fails_iff.2 fun t v r' he hv => ?_⟩,
          eats_pathRootless.2 ⟨ps, rfl, h4, hsp, hsl⟩⟩)
        obtain ⟨ps', rfl, h0, h1, -⟩ := eats_pathAbempty1.1 hv
        obtain ⟨t', rfl⟩ := abempty_head h1 h0
        obtain ⟨d, t2, rfl, hd⟩ := rootless_head h4
        simp at he
        rw [he.1] at hd
        revert hd; decide
      | absolute ps => cases h4
      | noScheme ps => cases h4
      | empty => cases h4

/-! ### The whole -/

/-- Every text of the grammar is read completely, apart from the ambiguous ones. -/
theorem uri_complete (hstd : StdOk std) {u : Uri} (ht : UriText (¬ SevenGroups ·) t u) (ha : Unambiguous u)
    (hr : StopAt [] rest) : Eats (uri std) t u rest := by
  obtain ⟨ts, th, tq, tf, rfl, h1, h2, h3, h4⟩ := ht
  obtain ⟨hn, hsl⟩ := ha
  obtain ⟨s, h, q, f⟩ := u
  have c256 : ∀ c ∈ ['#'], Char.toNat c < 256 := by decide
  have c0 : ∀ c ∈ ([] : List Char), Char.toNat c < 256 := by decide
  have stopF : StopAt ['#'] (tf ++ rest) := by
    intro b r' he
    cases f with
    | none => cases h4; exact .inr ((hr b r' he).resolve_left (by simp [OneOf]))
    | some f => obtain ⟨x, rfl, -⟩ := h4; simp at he; rw [← he.1]; decide
  have stopQ : PathStop (tq ++ (tf ++ rest)) := by
    intro b r' he
    cases q with
    | none =>
      cases h3
      refine (stopF b r' he).imp_left fun h => ?_
      simp only [OneOf, List.map, List.mem_cons, List.not_mem_nil, or_false] at h ⊢
      exact .inr h
    | some q => obtain ⟨x, rfl, -⟩ := h3; simp at he; rw [← he.1]; decide
  unfold uri
  refine eats_map.2 ⟨(((s, h), q), f), eats_andThen.2 ⟨ts ++ [byte ':'] ++ th ++ tq, tf, rfl, eats_andThen.2
    ⟨ts ++ [byte ':'] ++ th, tq, rfl, eats_andThen.2 ⟨ts ++ [byte ':'], th, rfl, eats_skipRight.2 ⟨ts, [byte ':'], _,
    rfl, ?_, eats_elm.2 ⟨rfl, rfl⟩⟩, ?_⟩, ?_⟩, ?_⟩, rfl⟩
  · cases s with
    | none =>
      cases h1
      refine eats_opt.2 (.inr ⟨rfl, rfl, fails_iff.2 fun t v r' he hv => ?_⟩)
      obtain ⟨-, ⟨a, w, rfl, hh, -⟩, -⟩ := eats_scheme.1 hv
      simp at he
      rw [← he.1] at hh
      revert hh; decide
    | some s =>
      obtain ⟨x, rfl, rfl, h5⟩ := h1
      exact eats_opt.2 (.inl ⟨_, rfl, eats_scheme.2 ⟨rfl, h5, start_cons (by decide) (by decide)⟩⟩)
  · refine hierPart_complete hstd h2 ?_ hsl (by simpa using stopQ)
    rintro hp a s rfl hpa hs
    refine hn s ?_
    simp [Uri.hostName, Uri.authority, hpa, hs]
  · cases q with
    | none =>
      cases h3
      refine eats_opt.2 (.inr ⟨rfl, rfl, _, fail_skipLeft.2 (.inl (fail_elm.2 ⟨rfl, ?_⟩))⟩)
      exact not_head c256 (by decide) (by decide) stopF
    | some q =>
      obtain ⟨x, rfl, h5⟩ := h3
      refine eats_opt.2 (.inl ⟨q, rfl, eats_skipLeft.2 ⟨[byte '?'], x, _, rfl, eats_elm.2 ⟨rfl, rfl⟩,
        eats_query.2 ⟨h5, ?_⟩⟩⟩)
      exact ⟨not_start c256 (by decide) (fun _ h => frag_uri h.1) stopF, not_head c256 (by decide) (by decide) stopF,
        fun _ _ _ => not_head c256 (by decide) (by decide) stopF⟩
  · cases f with
    | none =>
      cases h4
      exact eats_opt.2 (.inr ⟨rfl, rfl, _, fail_skipLeft.2 (.inl (fail_elm.2 ⟨rfl, not_head c0 (by decide) (by decide) hr⟩))⟩)
    | some f =>
      obtain ⟨x, rfl, rfl, h5⟩ := h4
      exact eats_opt.2 (.inl ⟨_, rfl, eats_skipLeft.2 ⟨[byte '#'], x, _, rfl, eats_elm.2 ⟨rfl, rfl⟩,
        eats_fragment.2 ⟨rfl, h5, not_start c0 (by decide) (fun _ => frag_uri) hr⟩⟩⟩)

/-- A path behind which no authority was read does not begin like one. -/
theorem hier_slashes {h : HierPart} {w : Bytes} (he : Eats (hierPart std) t (some h) rest) (ha : h.authority = none)
    (hw : h.path.show = bytes "//" ++ w) : ¬ LikeAuthority w := by
  rw [hierPart_eq] at he
  rcases eats_opt.1 he with ⟨x, hx, h1⟩ | ⟨-, hx, -⟩
  · cases hx
    rcases eats_or.1 h1 with h2 | ⟨hf, h2⟩
    · rw [eats_attempt] at h2
      unfold hierP1 at h2
      obtain ⟨⟨a', p⟩, h3, rfl⟩ := eats_map.1 h2
      cases ha
    · unfold hierP2 at h2
      obtain ⟨p, h3, rfl⟩ := eats_map.1 h2
      have hw : p.show = bytes "//" ++ w := hw
      obtain ⟨-, c, hc⟩ := fail_attempt.1 hf
      rcases eats_or.1 h3 with h4 | ⟨-, h4⟩
      · obtain ⟨ps, rfl, h0, h5, h6, h7⟩ := eats_pathAbempty1.1 (eats_attempt.1 h4)
        obtain rfl : t = bytes "//" ++ w := h5.1.trans hw
        have hse : Enc PathByte (bytes "//") := .byte _ _ (.inr rfl) (.byte _ _ (.inr rfl) .nil)
        rw [← likeAuthority_append (r := rest) (enc_right pathByte_pct hse (pathText_enc h5))]
        · unfold hierP1 at hc
          rcases fail_andThen.1 (fail_map.1 hc) with h | ⟨t, v, r', -, -, h⟩
          · rcases fail_skipLeft.1 h with h | ⟨t, v, r', e, h1, h2⟩
            · exact absurd ⟨w ++ rest, by simp⟩ (fail_seq.1 ⟨_, h⟩)
            · obtain ⟨rfl, -⟩ := eats_seq.1 h1
              rw [List.append_assoc] at e
              obtain rfl := List.append_cancel_left e
              exact fail_authority h2
          · unfold pathAbempty at h
            exact absurd (fail_map.1 (fail_name.1 h)) fail_many0
        · rintro (⟨b, y', rfl, hb | rfl⟩ | ⟨-, h, l, y', rfl, hh, hl⟩)
          · exact h6 (.inl ⟨b, y', rfl, hb⟩)
          · exact h7 _ rfl
          · exact h6 (.inr ⟨trivial, h, l, y', rfl, hh, hl⟩)
      · obtain ⟨ps, rfl, h5, -⟩ := eats_pathRootless.1 h4
        obtain ⟨d, t', rfl, hd⟩ := rootless_head h5
        have e : d :: t' = bytes "//" ++ w := h5.1.trans hw
        rw [slashes] at e
        simp at e
        rw [e.1] at hd
        exact absurd hd (by decide)
  · cases hx

theorem uri_notLike {u : Uri} {w : Bytes} (h : Eats (uri std) t u rest) : ∀ hp, u.hier = some hp →
    hp.authority = none → hp.path.show = bytes "//" ++ w → ¬ LikeAuthority w := by
  intro hp h1 h2 h3
  unfold uri at h
  obtain ⟨⟨⟨⟨sc, hi⟩, q⟩, f⟩, h4, rfl⟩ := eats_map.1 h
  obtain ⟨t1, tf, rfl, h5, -⟩ := eats_andThen.1 h4
  obtain ⟨t2, tq, rfl, h6, -⟩ := eats_andThen.1 h5
  obtain ⟨t3, th, rfl, -, hh⟩ := eats_andThen.1 h6
  cases h1
  exact hier_slashes hh h2 h3

end OniComb.Uri
