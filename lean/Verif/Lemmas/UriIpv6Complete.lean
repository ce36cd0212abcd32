import Verif.Lemmas.UriIpv6

/-!
# Helper lemmas for the URI parser: which IPv6 literals are read
-/

namespace OniComb.Uri
open OniComb Rfc
variable {A B : Type} {t u rest r : Bytes} {c : Committed} {std : Std}

/-! ### Shape of the texts -/

theorem span_unique {P : UInt8 → Prop} {a b : Bytes} {x y : UInt8} {r r' : Bytes} (ha : ∀ z ∈ a, P z)
    (hb : ∀ z ∈ b, P z) (hx : ¬ P x) (hy : ¬ P y) (h : a ++ x :: r = b ++ y :: r') : a = b ∧ x = y ∧ r = r' := by
  induction a generalizing b with
  | nil =>
    cases b with
    | nil => simp at h; exact ⟨rfl, h⟩
    | cons z b => simp at h; exact absurd (h.1 ▸ hb z (by simp)) hx
  | cons w a ih =>
    cases b with
    | nil => simp at h; exact absurd (h.1 ▸ ha w (by simp)) hy
    | cons z b =>
      simp at h
      obtain ⟨h1, h2⟩ := ih (fun z hz => ha z (by simp [hz])) (fun z hz => hb z (by simp [hz])) h.2
      exact ⟨by rw [h.1, h1], h2⟩

/-- Every colon is followed by a hexadecimal digit. -/
def Colons (t : Bytes) : Prop := ∀ a b, t = a ++ byte ':' :: b → ∃ d b', b = d :: b' ∧ Hex d

theorem h16_head {n : Nat} (h : H16Text t n) : ∃ d t', t = d :: t' ∧ Hex d := by
  obtain ⟨h1, -, h3, -⟩ := h
  cases t with
  | nil => simp at h1
  | cons d t => exact ⟨d, t, rfl, h3 d (by simp)⟩

theorem h16_no_colon {n : Nat} (h : H16Text t n) : byte ':' ∉ t := fun hm =>
  absurd (h.2.2.1 _ hm) (by decide)
theorem h16_no_dot {n : Nat} (h : H16Text t n) : byte '.' ∉ t := fun hm =>
  absurd (h.2.2.1 _ hm) (by decide)

theorem digit_hex {b : UInt8} (h : Digit b) : Hex b := .inl h

theorem ipv4_mem {x : Ipv4} (h : Ipv4Text t x) : ∀ b ∈ t, Digit b ∨ b = byte '.' := by
  obtain ⟨ta, tb, tc, td, rfl, ha, hb, hc, hd, -⟩ := h
  intro b hm
  simp only [List.mem_append, List.mem_singleton] at hm
  rcases hm with (((((hm | hm) | hm) | hm) | hm) | hm) | hm
  · exact .inl (ha.2.1 b hm)
  · exact .inr hm
  · exact .inl (hb.2.1 b hm)
  · exact .inr hm
  · exact .inl (hc.2.1 b hm)
  · exact .inr hm
  · exact .inl (hd.2.1 b hm)

theorem ipv4_no_colon {x : Ipv4} (h : Ipv4Text t x) : byte ':' ∉ t := fun hm => by
  rcases ipv4_mem h _ hm with h | h
  · exact absurd h (by decide)
  · exact absurd h (by decide)

/-- An address begins with digits and a dot. -/
theorem ipv4_head {x : Ipv4} (h : Ipv4Text t x) : ∃ ds t', t = ds ++ byte '.' :: t' ∧ ds ≠ [] ∧ ∀ b ∈ ds, Digit b := by
  obtain ⟨ta, tb, tc, td, rfl, ha, -⟩ := h
  exact ⟨ta, tb ++ [byte '.'] ++ tc ++ [byte '.'] ++ td, by simp, ha.1, ha.2.1⟩

theorem colons_cons {n : Nat} (h : H16Text t n) (hu : Colons u) (hd : ∃ d u', u = d :: u' ∧ Hex d) :
    Colons (t ++ byte ':' :: u) := by
  intro a b he
  by_cases hl : a.length ≤ t.length
  · obtain ⟨c, rfl⟩ : ∃ c, t = a ++ c := by
      have : a <+: t ++ byte ':' :: u := he ▸ List.prefix_append _ _
      obtain ⟨c, hc⟩ := List.prefix_of_prefix_length_le this (List.prefix_append _ _) hl
      exact ⟨c, hc.symm⟩
    rw [List.append_assoc, List.append_cancel_left_eq] at he
    cases c with
    | nil => simp at he; subst he; exact hd
    | cons d c => simp at he; exact absurd (by simp [he.1]) (h16_no_colon h)
  · obtain ⟨c, rfl⟩ : ∃ c, a = t ++ byte ':' :: c := by
      have h1 : t ++ [byte ':'] <+: t ++ byte ':' :: u := ⟨u, by simp⟩
      have h2 : a <+: t ++ byte ':' :: u := he ▸ List.prefix_append _ _
      obtain ⟨c, hc⟩ := List.prefix_of_prefix_length_le h1 h2 (by simp; omega)
      exact ⟨c, by simpa using hc.symm⟩
    simp at he
    exact hu _ _ he

theorem groups_head {ns : List Nat} (h : Groups t ns) : ∃ d t', t = d :: t' ∧ Hex d := by
  cases h with
  | one _ _ h => exact h16_head h
  | cons _ _ _ _ h _ => obtain ⟨d, t', rfl, hd⟩ := h16_head h; exact ⟨d, _, rfl, hd⟩

theorem tail_head {ns : List Nat} (h : Tail t ns) : ∃ d t', t = d :: t' ∧ Hex d := by
  cases h with
  | one _ _ h => exact h16_head h
  | ipv4 _ x h =>
    obtain ⟨ds, t', rfl, h1, h2⟩ := ipv4_head h
    cases ds with
    | nil => exact absurd rfl h1
    | cons d ds => exact ⟨d, _, rfl, digit_hex (h2 d (by simp))⟩
  | cons _ _ _ _ h _ => obtain ⟨d, t', rfl, hd⟩ := h16_head h; exact ⟨d, _, rfl, hd⟩

theorem _root_.OniComb.Uri.Rfc.Groups.tail {ns : List Nat} (h : Groups t ns) : Tail t ns := by
  induction h with
  | one t n h => exact .one _ _ h
  | cons t n u ns h _ ih => exact .cons _ _ _ _ h ih

theorem tail_colons {ns : List Nat} (h : Tail t ns) : Colons t := by
  induction h with
  | one t n h => intro a b he; exact absurd (by simp [he]) (h16_no_colon h)
  | ipv4 t x h => intro a b he; exact absurd (by simp [he]) (ipv4_no_colon h)
  | cons t n u ns h h' ih => exact colons_cons h ih (tail_head h')

/-- The bytes of an address. -/
theorem tail_mem {ns : List Nat} (h : Tail t ns) : byte ']' ∉ t := by
  induction h with
  | one t n h => intro hm; exact absurd (h.2.2.1 _ hm) (by decide)
  | ipv4 t x h =>
    intro hm
    rcases ipv4_mem h _ hm with h | h <;> exact absurd h (by decide)
  | cons t n u ns h _ ih =>
    intro hm
    simp only [List.mem_append, List.mem_cons] at hm
    rcases hm with hm | hm | hm
    · exact absurd (h.2.2.1 _ hm) (by decide)
    · exact absurd hm (by decide)
    · exact ih hm

/-- The number of groups, counted in the text. -/
theorem tail_count {ns : List Nat} (h : Tail t ns) :
    ns.length = t.count (byte ':') + 1 + if byte '.' ∈ t then 1 else 0 := by
  induction h with
  | one t n h =>
    rw [List.count_eq_zero.2 (h16_no_colon h), if_neg (h16_no_dot h)]; rfl
  | ipv4 t x h =>
    rw [List.count_eq_zero.2 (ipv4_no_colon h), if_pos]; rfl
    obtain ⟨ds, t', rfl, -⟩ := ipv4_head h
    simp
  | cons t n u ns h _ ih =>
    have e : (byte '.' ∈ t ++ byte ':' :: u) ↔ byte '.' ∈ u := by
      simp [h16_no_dot h, show byte '.' ≠ byte ':' by decide]
    rw [List.count_append, List.count_eq_zero.2 (h16_no_colon h), List.count_cons_self, List.length_cons, ih]
    simp only [e]
    omega

theorem tail_prefix {ns ms : List Nat} (h : Tail t ns) (h' : Tail u ms) (hp : t <+: u) : ns.length ≤ ms.length := by
  rw [tail_count h, tail_count h']
  have h1 : t.count (byte ':') ≤ u.count (byte ':') := hp.sublist.count_le _
  have h2 : (if byte '.' ∈ t then 1 else 0) ≤ if byte '.' ∈ u then 1 else 0 := by
    by_cases hd : byte '.' ∈ t
    · rw [if_pos hd, if_pos (hp.subset hd)]; exact Nat.le_refl _
    · rw [if_neg hd]; exact Nat.zero_le _
  omega

/-- A text without closing bracket in front of a bracket. -/
theorem prefix_of_bracket {r' : Bytes} (ht : byte ']' ∉ t) (h : t ++ r = u ++ byte ']' :: r') : t <+: u := by
  have h1 : t <+: u ++ byte ']' :: r' := h ▸ List.prefix_append _ _
  by_cases hl : t.length ≤ u.length
  · exact List.prefix_of_prefix_length_le h1 (List.prefix_append _ _) hl
  · exfalso
    have h2 : u ++ [byte ']'] <+: t :=
      List.prefix_of_prefix_length_le ⟨r', by simp⟩ h1 (by simp; omega)
    exact ht (h2.subset (by simp))

/-- Nothing or groups. -/
def OptGroups (t : Bytes) (ns : List Nat) : Prop := t = [] ∧ ns = [] ∨ Groups t ns

theorem OptGroups.colons {ns : List Nat} (h : OptGroups t ns) : Colons t := by
  rcases h with ⟨rfl, -⟩ | h
  · intro a b he; simp at he
  · exact tail_colons h.tail

theorem double : bytes "::" = [byte ':', byte ':'] := by decide

/-- The groups in front of the double colon are determined. -/
theorem double_unique {a b X Y : Bytes} (ha : Colons a) (hb : Colons b)
    (h : a ++ bytes "::" ++ X = b ++ bytes "::" ++ Y) : a = b ∧ X = Y := by
  have key : ∀ {a b X Y : Bytes}, Colons b → a ++ bytes "::" ++ X = b ++ bytes "::" ++ Y →
      a.length < b.length → False := by
    intro a b X Y hb h hl
    have h1 : a <+: b := by
      refine List.prefix_of_prefix_length_le (l₃ := b ++ bytes "::" ++ Y) ?_ ?_ (by omega)
      · rw [← h]; exact ⟨bytes "::" ++ X, by simp⟩
      · exact ⟨bytes "::" ++ Y, by simp⟩
    obtain ⟨z, rfl⟩ := h1
    rw [double] at h
    simp only [List.append_assoc, List.append_cancel_left_eq] at h
    cases z with
    | nil => simp at hl
    | cons z1 z =>
      simp only [List.cons_append, List.nil_append, List.cons.injEq] at h
      obtain ⟨rfl, h⟩ := h
      obtain ⟨d, z', rfl, hd⟩ := hb a z rfl
      simp only [List.cons_append, List.cons.injEq] at h
      rw [← h.1] at hd
      revert hd; decide
  rcases Nat.lt_trichotomy a.length b.length with hl | hl | hl
  · exact absurd (key hb h hl) id
  · have := List.append_inj (by simpa using h : a ++ (bytes "::" ++ X) = b ++ (bytes "::" ++ Y)) hl
    exact ⟨this.1, by simpa using this.2⟩
  · exact absurd (key ha h.symm hl) id

/-- Groups in front of a double colon contain every address text that begins there. -/
theorem prefix_of_double {w X : Bytes} (hw : Colons w) (hc : w ++ r = t ++ bytes "::" ++ X) : w <+: t := by
  have h1 : w <+: t ++ bytes "::" ++ X := hc ▸ List.prefix_append _ _
  have h0 : t <+: t ++ bytes "::" ++ X := ⟨bytes "::" ++ X, by simp⟩
  by_cases hl : w.length ≤ t.length
  · exact List.prefix_of_prefix_length_le h1 h0 hl
  · exfalso
    have h2 : t ++ [byte ':'] <+: w :=
      List.prefix_of_prefix_length_le ⟨[byte ':'] ++ X, by simp [double]⟩ h1 (by simp; omega)
    obtain ⟨z, rfl⟩ := h2
    obtain ⟨d, z', rfl, hd⟩ := hw t z (by simp)
    rw [double] at hc
    simp at hc
    rw [hc.1] at hd
    revert hd; decide

/-! ### What the pieces read -/

theorem bracket_not_hex {r : Bytes} : ¬ Start Hex False (byte ']' :: r) := start_cons (by decide) (by decide)

theorem fail_h16 (h : ¬ Start Hex False r) : Fail h16 r .uncommitted := by
  unfold h16
  exact fail_name.2 (fail_map.2 (fail_mapRes.2 (.inl (fail_text (fail_manyNM (by decide) (unit_hex.fails.2 h))))))

theorem groups_cons_split {ns : List Nat} (h : Groups t ns) : ∃ a n b ms, t = a ++ b ∧ ns = n :: ms ∧ H16Text a n ∧
    (b = [] ∨ ∃ b', b = byte ':' :: b') ∧ ∀ rest, Many (skipLeft (elm (byte ':')) h16) b ms (byte ':' :: rest) := by
  induction h with
  | one t n h => exact ⟨t, n, [], [], by simp, rfl, h, .inl rfl, fun rest => .nil _⟩
  | cons t n u ns h h' ih =>
    obtain ⟨a, m, b, ms, rfl, rfl, h1, h2, h3⟩ := ih
    refine ⟨t, n, byte ':' :: (a ++ b), m :: ms, rfl, rfl, h, .inr ⟨_, rfl⟩, fun rest => ?_⟩
    have : Many (skipLeft (elm (byte ':')) h16) ((byte ':' :: a) ++ b) (m :: ms) (byte ':' :: rest) := by
      refine .cons (eats_skipLeft.2 ⟨[byte ':'], a, _, rfl, eats_elm.2 ⟨rfl, rfl⟩, eats_h16.2 ⟨h1, .inr ?_⟩⟩) (h3 rest)
      rcases h2 with rfl | ⟨b', rfl⟩ <;> exact colon_not_hex
    exact this

/-- The groups in front of the double colon are read, if there are not too many. -/
theorem eats_ipv6P1 {n : Nat} (hn : 1 ≤ n) {ns : List Nat} (h : OptGroups t ns) (hl : ns.length ≤ n + 1) :
    ∃ v, Eats (ipv6P1 n) t v (bytes "::" ++ rest) := by
  rw [double]
  refine ⟨t, eats_collect.2 ⟨rfl, ?_⟩⟩
  rcases h with ⟨rfl, -⟩ | h
  · refine ⟨none, eats_opt.2 (.inr ⟨rfl, rfl, _, fail_map.2 (fail_andThen.2 (.inl (fail_h16 ?_)))⟩)⟩
    exact colon_not_hex
  · obtain ⟨a, m, b, ms, rfl, rfl, h1, h2, h3⟩ := groups_cons_split h
    refine ⟨some (), eats_opt.2 (.inl ⟨(), rfl, eats_map.2 ⟨(m, ms), eats_andThen.2 ⟨a, b, rfl, ?_, ?_⟩, rfl⟩⟩)⟩
    · refine eats_h16.2 ⟨h1, .inr ?_⟩
      rcases h2 with rfl | ⟨b', rfl⟩ <;> exact colon_not_hex
    · refine (eats_manyNM hn).2 ⟨Nat.zero_le _, by simpa using hl, h3 _, .inr ⟨.uncommitted, ?_⟩⟩
      exact fail_skipLeft.2 (.inr ⟨[byte ':'], byte ':', byte ':' :: rest, rfl, eats_elm.2 ⟨rfl, rfl⟩,
        fail_h16 colon_not_hex⟩)

/-- Two groups or an IPv4 address in front of a bracket. -/
theorem eats_ls32 {ns : List Nat} (h : Tail t ns) (hl : ns.length = 2) : ∃ l, Eats ls32 t l (byte ']' :: rest) := by
  unfold ls32
  cases h with
  | one _ _ h => simp at hl
  | ipv4 _ x h =>
    refine ⟨.ipv4 x, eats_or.2 (.inr ⟨fail_attempt.2 ⟨rfl, ?_⟩, eats_map.2 ⟨x, eats_ipv4Address.2 ⟨h, ?_⟩, rfl⟩⟩)⟩
    · rw [fails_iff]
      intro u v r' he hu
      obtain ⟨⟨m, n⟩, h1, -⟩ := eats_map.1 hu
      obtain ⟨t1, t2, rfl, h2, -⟩ := eats_andThen.1 h1
      obtain ⟨w, rfl, h3⟩ := eats_h16Colon.1 h2
      obtain ⟨ds, t', rfl, -, h5⟩ := ipv4_head h
      have he' : w ++ byte ':' :: (t2 ++ r') = ds ++ byte '.' :: (t' ++ byte ']' :: rest) := by simpa using he.symm
      have := span_unique (P := Hex) h3.2.2.1 (fun z hz => digit_hex (h5 z hz)) (by decide) (by decide) he'
      exact absurd this.2.1 (by decide)
    · intro d r' he hd
      cases he
      exact absurd hd (by decide)
  | cons a n b ms h h' =>
    cases h' with
    | one _ m h'' =>
      refine ⟨.ls32 n m, eats_or.2 (.inl (eats_attempt.2 (eats_map.2 ⟨(n, m), eats_andThen.2 ⟨a ++ [byte ':'], b,
        by simp, eats_h16Colon.2 ⟨a, rfl, h⟩, eats_h16.2 ⟨h'', .inr bracket_not_hex⟩⟩, rfl⟩)))⟩
    | ipv4 _ x _ => simp at hl
    | cons _ m b' ms' _ h3 =>
      have := tail_count h3
      simp at hl
      subst hl
      simp at this
      omega

theorem tail_split {ns : List Nat} (h : Tail t ns) (k : Nat) (hl : ns.length = k + 2) :
    ∃ a b as bs, t = a ++ b ∧ ColonGroups a as ∧ as.length = k ∧ Tail b bs ∧ bs.length = 2 := by
  induction h generalizing k with
  | one t n h => simp at hl
  | ipv4 t x h =>
    simp at hl
    subst hl
    exact ⟨[], t, [], _, rfl, .nil, rfl, .ipv4 t x h, rfl⟩
  | cons t n u ns h h' ih =>
    cases k with
    | zero => exact ⟨[], _, [], _, rfl, .nil, rfl, .cons t n u ns h h', hl⟩
    | succ k =>
      obtain ⟨a, b, as, bs, rfl, h1, h2, h3, h4⟩ := ih k (by simpa using hl)
      exact ⟨t ++ byte ':' :: a, b, n :: as, bs, by simp, .cons _ _ _ _ h h1, by simp [h2], h3, h4⟩

/-! ### Which alternative reads a text -/

/-- Groups behind the double colon, or none. -/
def OptTail (t : Bytes) (ns : List Nat) : Prop := t = [] ∧ ns = [] ∨ Tail t ns

theorem optTail_prefix {ns ms : List Nat} {w r' : Bytes} (hw : Tail w ns) (hu : OptTail u ms)
    (h : w ++ r = u ++ byte ']' :: r') : ns.length ≤ ms.length := by
  have hp := prefix_of_bracket (tail_mem hw) h
  rcases hu with ⟨rfl, -⟩ | hu
  · obtain ⟨d, t', rfl, -⟩ := tail_head hw
    simp at hp
  · exact tail_prefix hw hu hp

/-- An alternative with a double colon and `k` groups behind it does not read a text with fewer. -/
theorem fail_short {p : Parser UInt8 Ipv6} [Good p] [Halts p] {k : Nat} {ns ms : List Nat}
    (hp : ∀ s v rest, Eats p s v rest → ∃ a b as bs, s = a ++ bytes "::" ++ b ∧ OptGroups a as ∧ Tail b bs ∧
      bs.length = k)
    (ht : OptGroups t ns) (hu : OptTail u ms) (hk : ms.length < k) :
    Fail (attempt p) (t ++ bytes "::" ++ u ++ byte ']' :: rest) .uncommitted := by
  refine fail_attempt.2 ⟨rfl, fails_iff.2 fun s v r' he hs => ?_⟩
  obtain ⟨a, b, as, bs, rfl, h1, h2, rfl⟩ := hp _ _ _ hs
  obtain ⟨-, h3⟩ := double_unique (X := u ++ byte ']' :: rest) (Y := b ++ r') ht.colons h1.colons
    (by simpa using he)
  have := optTail_prefix h2 hu h3.symm
  omega

theorem ipv6Address1_shape {s : Bytes} {v : Ipv6} (h : Eats ipv6Address1 s v rest) :
    ∃ ns, Tail s ns ∧ ns.length = 8 := by
  obtain ⟨⟨vs, l⟩, h1, h2⟩ := eats_mapUnwrap.1 h
  obtain ⟨t1, t2, rfl, h3, h4⟩ := eats_andThen.1 h1
  obtain ⟨h5, h6⟩ := (eats_h16Colons (by decide)).1 h3
  obtain ⟨h7, h8⟩ := ls32_sound h4
  exact ⟨_, h6.tail h7, by simp [h5, h8]⟩

theorem ipv6Address2_shape {s : Bytes} {v : Ipv6} (h : Eats ipv6Address2 s v rest) :
    ∃ a b as bs, s = a ++ bytes "::" ++ b ∧ OptGroups a as ∧ Tail b bs ∧ bs.length = 7 := by
  obtain ⟨⟨vs, l⟩, h1, h2⟩ := eats_mapUnwrap.1 h
  obtain ⟨t1, t2, rfl, h3, h4⟩ := eats_andThen.1 h1
  obtain ⟨u1, u2, w, rfl, h9, h10⟩ := eats_skipLeft.1 h3
  obtain ⟨rfl, -⟩ := eats_seq.1 h9
  obtain ⟨h5, h6⟩ := (eats_h16Colons (by decide)).1 h10
  obtain ⟨h7, h8⟩ := ls32_sound h4
  exact ⟨[], u2 ++ t2, [], _, by simp, .inl ⟨rfl, rfl⟩, h6.tail h7, by simp [h5, h8]⟩

theorem ipv6Address3_shape {s : Bytes} {v : Ipv6} (h : Eats ipv6Address3 s v rest) :
    ∃ a b as bs, s = a ++ bytes "::" ++ b ∧ OptGroups a as ∧ Tail b bs ∧ bs.length = 6 := by
  obtain ⟨⟨⟨o, vs⟩, l⟩, h1, h2⟩ := eats_mapUnwrap.1 h
  obtain ⟨t1, t2, rfl, h3, h4⟩ := eats_andThen.1 h1
  obtain ⟨u1, u2, rfl, h9, h10⟩ := eats_andThen.1 h3
  obtain ⟨u3, u4, w, rfl, h11, h12⟩ := eats_skipRight.1 h9
  obtain ⟨rfl, -⟩ := eats_seq.1 h12
  obtain ⟨h5, h6⟩ := (eats_h16Colons (by decide)).1 h10
  obtain ⟨h7, h8⟩ := ls32_sound h4
  rcases eats_opt.1 h11 with ⟨n, rfl, h13⟩ | ⟨rfl, rfl, -⟩
  · exact ⟨u3, u2 ++ t2, [n], _, by simp, .inr (.one _ _ (eats_h16.1 h13).1), h6.tail h7, by simp [h5, h8]⟩
  · exact ⟨[], u2 ++ t2, [], _, by simp, .inl ⟨rfl, rfl⟩, h6.tail h7, by simp [h5, h8]⟩

theorem ipv6P2_shape {n m : Nat} (hn : 1 ≤ n) (hm : 1 ≤ m) {s : Bytes} {v : Ipv6}
    (h : Eats (toIpv6 std (ipv6P2 n m)) s v rest) :
    ∃ a b as bs, s = a ++ bytes "::" ++ b ∧ OptGroups a as ∧ Tail b bs ∧ bs.length = m + 2 := by
  obtain ⟨⟨v, h⟩, -⟩ := toIpv6_sound h fun v hv => (eats_collect.1 hv).1
  obtain ⟨rfl, ⟨⟨a, b⟩, d⟩, h1⟩ := eats_collect.1 h
  obtain ⟨t1, t2, rfl, h2, h3⟩ := eats_andThen.1 h1
  obtain ⟨t3, t4, rfl, h4, h5⟩ := eats_andThen.1 h2
  obtain ⟨rfl, -⟩ := eats_seq.1 h5
  obtain ⟨-, ns, h6, h7⟩ := ipv6P1_sound hn h4
  obtain ⟨-, ⟨vs, l⟩, h8⟩ := eats_collect.1 h3
  obtain ⟨t5, t6, rfl, h9, h10⟩ := eats_andThen.1 h8
  obtain ⟨h11, h12⟩ := (eats_count hm).1 h9
  obtain ⟨h13, h14⟩ := ls32_sound h10
  exact ⟨t3, t5 ++ t6, ns, _, by simp, h7, (many_h16Colon' h12).tail h13, by simp [h11, h14]⟩

theorem ipv6Short1_shape {s : Bytes} {v : Ipv6} (h : Eats (ipv6Short std).1 s v rest) :
    ∃ a b as bs, s = a ++ bytes "::" ++ b ∧ OptGroups a as ∧ Tail b bs ∧ bs.length = 2 := by
  obtain ⟨⟨v, h⟩, -⟩ := toIpv6_sound h fun v hv => (eats_collect.1 hv).1
  obtain ⟨rfl, ⟨⟨a, b⟩, l⟩, h1⟩ := eats_collect.1 h
  obtain ⟨t1, t2, rfl, h2, h3⟩ := eats_andThen.1 h1
  obtain ⟨t3, t4, rfl, h4, h5⟩ := eats_andThen.1 h2
  obtain ⟨rfl, -⟩ := eats_seq.1 h5
  obtain ⟨-, ns, h6, h7⟩ := ipv6P1_sound (by decide) h4
  obtain ⟨h13, h14⟩ := ls32_sound h3
  exact ⟨t3, t2, ns, _, by simp, h7, h13, h14⟩

theorem ipv6Short2_shape {s : Bytes} {v : Ipv6} (h : Eats (ipv6Short std).2.1 s v rest) :
    ∃ a b as bs, s = a ++ bytes "::" ++ b ∧ OptGroups a as ∧ Tail b bs ∧ bs.length = 1 := by
  obtain ⟨⟨v, h⟩, -⟩ := toIpv6_sound h fun v hv => (eats_collect.1 hv).1
  obtain ⟨rfl, ⟨⟨a, b⟩, n⟩, h1⟩ := eats_collect.1 h
  obtain ⟨t1, t2, rfl, h2, h3⟩ := eats_andThen.1 h1
  obtain ⟨t3, t4, rfl, h4, h5⟩ := eats_andThen.1 h2
  obtain ⟨rfl, -⟩ := eats_seq.1 h5
  obtain ⟨-, ns, h6, h7⟩ := ipv6P1_sound (by decide) h4
  exact ⟨t3, t2, ns, _, by simp, h7, .one _ _ (eats_h16.1 h3).1, rfl⟩

/-- Eight groups are not read in front of a double colon. -/
theorem fail_full {ns : List Nat} (ht : OptGroups t ns) (hl : ns.length ≤ 7) :
    Fail (attempt ipv6Address1) (t ++ bytes "::" ++ r) .uncommitted := by
  refine fail_attempt.2 ⟨rfl, fails_iff.2 fun s v r' he hs => ?_⟩
  obtain ⟨ms, h1, h2⟩ := ipv6Address1_shape hs
  have hp := prefix_of_double (tail_colons h1) he.symm
  rcases ht with ⟨rfl, -⟩ | ht
  · obtain ⟨d, t', rfl, -⟩ := tail_head h1
    simp at hp
  · have := tail_prefix h1 ht.tail hp
    omega

theorem colonCount (n : Nat) (hn : 1 ≤ n) {as : List Nat} (h : ColonGroups t as) (hl : as.length = n) :
    ∃ v, Eats (count (andThen h16 (elm (byte ':'))) n) t v rest := by
  obtain ⟨vs, h1, h2⟩ := colonGroups_many' (rest := rest) h
  exact ⟨vs, (eats_count hn).2 ⟨by omega, h1⟩⟩

theorem tail_ascii {ns : List Nat} (h : Tail t ns) : ∀ b ∈ t, b.toNat < 128 := by
  induction h with
  | one t n h => exact ascii_h16 h
  | ipv4 t x h =>
    intro b hb
    rcases ipv4_mem h b hb with h | rfl
    · exact unit_digit.ascii h
    · decide
  | cons t n u ns h _ ih =>
    intro b hb
    simp only [List.mem_append, List.mem_cons] at hb
    rcases hb with hb | rfl | hb
    · exact ascii_h16 h b hb
    · decide
    · exact ih b hb

theorem ipv6_ascii {x : Ipv6} (h : Ipv6Text t x) : ∀ b ∈ t, b.toNat < 128 := by
  cases h with
  | full _ ns h _ => exact tail_ascii h
  | short a u ns ms h h' _ =>
    intro b hb
    simp only [List.mem_append] at hb
    rcases hb with (hb | hb) | hb
    · rcases h with ⟨rfl, -⟩ | h
      · simp at hb
      · exact tail_ascii h.tail b hb
    · rw [double] at hb; simp at hb; subst hb; decide
    · rcases h' with ⟨rfl, -⟩ | h'
      · simp at hb
      · exact tail_ascii h' b hb

theorem eats_toIpv6 (hstd : StdOk std) {p : Parser UInt8 Bytes} {x : Ipv6} (hx : Ipv6Text t x)
    (h : Eats p t t rest) : Eats (toIpv6 std p) t x rest := by
  unfold toIpv6
  simp only [eats_mapRes, eats_map]
  exact ⟨t, ⟨t, ⟨t, h, rfl⟩, fromUtf8_ascii _ (ipv6_ascii hx)⟩, hstd _ _ hx⟩

/-- All other texts of the RFC are read in front of a bracket. -/
theorem ipv6Address_complete (hstd : StdOk std) {x : Ipv6} (h : Ipv6Text t x) (h7 : ¬ SevenGroups t) :
    Eats (ipv6Address std) t x (byte ']' :: rest) := by
  suffices h' : ∃ y, Eats (ipv6Address std) t y (byte ']' :: rest) by
    obtain ⟨y, hy⟩ := h'
    obtain ⟨x', h1, h2⟩ := ipv6Address_sound hy
    have e1 := hstd _ _ h
    have e2 := hstd _ _ h1
    rw [e1] at e2; cases e2
    rcases h2 with rfl | h2
    · exact hy
    · rw [e1] at h2; cases h2; exact hy
  unfold ipv6Address
  simp only [eats_name]
  have L : ∀ {p q : Parser UInt8 Ipv6} {t r : Bytes}, (∃ y, Eats p t y r) → ∃ y, Eats (or p q) t y r :=
    fun ⟨y, h⟩ => ⟨y, eats_or.2 (.inl h)⟩
  have R : ∀ {p q : Parser UInt8 Ipv6} {t r : Bytes}, Fail p (t ++ r) .uncommitted → (∃ y, Eats q t y r) →
      ∃ y, Eats (or p q) t y r := fun h1 ⟨y, h⟩ => ⟨y, eats_or.2 (.inr ⟨h1, h⟩)⟩
  have F : ∀ {p q : Parser UInt8 Ipv6} {r : Bytes}, Fail p r .uncommitted → Fail q r .uncommitted →
      Fail (or p q) r .uncommitted := fun h1 h2 => fail_or.2 (.inr ⟨h1, h2⟩)
  have At : ∀ {p : Parser UInt8 Ipv6} {t r : Bytes}, (∃ y, Eats p t y r) → ∃ y, Eats (attempt p) t y r :=
    fun ⟨y, h⟩ => ⟨y, eats_attempt.2 h⟩
  have hx := h
  cases h with
  | full _ ns h1 h2 =>
    obtain ⟨a, b, as, bs, rfl, h3, h4, h5, h6⟩ := tail_split h1 6 h2
    obtain ⟨l, h8⟩ := eats_ls32 (rest := rest) h5 h6
    refine L (L (L (L (L (L (L (L (At ⟨_, eats_mapUnwrap.2 ⟨(as, l), eats_andThen.2 ⟨a, b, rfl,
      (eats_h16Colons (by decide)).2 ⟨h4, h3⟩, h8⟩, segmentsOf_some h4⟩⟩))))))))
  | short g u ns ms hg hu hl =>
    have hg' : OptGroups g ns := hg
    have hu' : OptTail u ms := hu
    have ntail : ∀ k, ms.length = k → 1 ≤ k → Tail u ms := by
      intro k hk h1
      rcases hu with ⟨-, rfl⟩ | hu
      · simp at hk; omega
      · exact hu
    have f1 : Fail (attempt ipv6Address1) (g ++ bytes "::" ++ u ++ byte ']' :: rest) .uncommitted := by
      have := fail_full (r := u ++ byte ']' :: rest) hg' (by omega)
      simpa using this
    have f2 : ms.length < 7 → Fail (attempt ipv6Address2) (g ++ bytes "::" ++ u ++ byte ']' :: rest) .uncommitted :=
      fun h => fail_short (fun s v rest he => ipv6Address2_shape he) hg' hu' h
    have f3 : ms.length < 6 → Fail (attempt ipv6Address3) (g ++ bytes "::" ++ u ++ byte ']' :: rest) .uncommitted :=
      fun h => fail_short (fun s v rest he => ipv6Address3_shape he) hg' hu' h
    have f4 : ms.length < 5 → Fail (attempt (toIpv6 std (ipv6P2 1 3))) (g ++ bytes "::" ++ u ++ byte ']' :: rest)
        .uncommitted :=
      fun h => fail_short (fun s v rest he => ipv6P2_shape (by decide) (by decide) he) hg' hu' h
    have f5 : ms.length < 4 → Fail (attempt (toIpv6 std (ipv6P2 2 2))) (g ++ bytes "::" ++ u ++ byte ']' :: rest)
        .uncommitted :=
      fun h => fail_short (fun s v rest he => ipv6P2_shape (by decide) (by decide) he) hg' hu' h
    have f6 : ms.length < 3 → Fail (attempt (toIpv6 std (ipv6P2 3 1))) (g ++ bytes "::" ++ u ++ byte ']' :: rest)
        .uncommitted :=
      fun h => fail_short (fun s v rest he => ipv6P2_shape (by decide) (by decide) he) hg' hu' h
    have i1 : Good (ipv6Short std).1 := by unfold ipv6Short; infer_instance
    have i2 : Good (ipv6Short std).2.1 := by unfold ipv6Short; infer_instance
    have j1 : Halts (ipv6Short std).1 := by unfold ipv6Short; infer_instance
    have j2 : Halts (ipv6Short std).2.1 := by unfold ipv6Short; infer_instance
    have f7 : ms.length < 2 → Fail (attempt (ipv6Short std).1) (g ++ bytes "::" ++ u ++ byte ']' :: rest)
        .uncommitted := fun h => fail_short (fun s v rest he => ipv6Short1_shape he) hg' hu' h
    have f8 : ms.length < 1 → Fail (attempt (ipv6Short std).2.1) (g ++ bytes "::" ++ u ++ byte ']' :: rest)
        .uncommitted := fun h => fail_short (fun s v rest he => ipv6Short2_shape he) hg' hu' h
    have p2 : ∀ n m, 1 ≤ n → 1 ≤ m → ns.length ≤ n + 1 → ms.length = m + 2 →
        ∃ y, Eats (toIpv6 std (ipv6P2 n m)) (g ++ bytes "::" ++ u) y (byte ']' :: rest) := by
      intro n m hn hm hln hlm
      obtain ⟨a, b, as, bs, rfl, h3, h4, h5, h6⟩ := tail_split (ntail _ hlm (by omega)) m hlm
      obtain ⟨l, h8⟩ := eats_ls32 (rest := rest) h5 h6
      obtain ⟨v, h9⟩ := colonCount (rest := b ++ byte ']' :: rest) m hm h3 h4
      obtain ⟨w, h10⟩ := eats_ipv6P1 (rest := a ++ b ++ byte ']' :: rest) hn hg' hln
      refine ⟨_, eats_toIpv6 hstd hx (eats_collect.2 ⟨rfl, ((w, _), _), eats_andThen.2 ⟨g ++ bytes "::", a ++ b, rfl,
        eats_andThen.2 ⟨g, bytes "::", rfl, ?_, eats_seq.2 ⟨rfl, rfl⟩⟩, eats_collect.2 ⟨rfl, (v, l),
        eats_andThen.2 ⟨a, b, rfl, h9, h8⟩⟩⟩⟩)⟩
      simpa using h10
    by_cases c7 : ms.length = 7
    · have hns : ns = [] := List.length_eq_zero_iff.1 (by omega)
      obtain ⟨rfl⟩ : g = [] := by
        rcases hg with ⟨rfl, -⟩ | hg
        · rfl
        · have := tail_count hg.tail; rw [hns] at this; simp at this; omega
      obtain ⟨a, b, as, bs, rfl, h3, h4, h5, h6⟩ := tail_split (ntail _ c7 (by omega)) 5 c7
      obtain ⟨l, h8⟩ := eats_ls32 (rest := rest) h5 h6
      exact L (L (L (L (L (L (L (R f1 (At ⟨_, eats_mapUnwrap.2 ⟨(as, l), eats_andThen.2 ⟨bytes "::" ++ a, b, by simp,
        eats_skipLeft.2 ⟨bytes "::", a, _, rfl, eats_seq.2 ⟨rfl, rfl⟩, (eats_h16Colons (by decide)).2 ⟨h4, h3⟩⟩, h8⟩,
        segmentsOf_some h4⟩⟩))))))))
    by_cases c6 : ms.length = 6
    · obtain ⟨a, b, as, bs, rfl, h3, h4, h5, h6⟩ := tail_split (ntail _ c6 (by omega)) 4 c6
      obtain ⟨l, h8⟩ := eats_ls32 (rest := rest) h5 h6
      have ho : ∃ o, Eats (opt h16) g o (bytes "::" ++ (a ++ b ++ byte ']' :: rest)) := by
        rw [double]
        rcases hg with ⟨rfl, -⟩ | hg
        · exact ⟨none, eats_opt.2 (.inr ⟨rfl, rfl, _, fail_h16 colon_not_hex⟩)⟩
        · cases hg with
          | one _ n h => exact ⟨some n, eats_opt.2 (.inl ⟨n, rfl, eats_h16.2 ⟨h, .inr colon_not_hex⟩⟩)⟩
          | cons _ n _ ns' h h' =>
            have := tail_count h'.tail
            simp at hl; omega
      obtain ⟨o, ho⟩ := ho
      refine L (L (L (L (L (L (R (F f1 (f2 (by omega))) (At ⟨_, eats_mapUnwrap.2 ⟨((o, as), l), eats_andThen.2
        ⟨g ++ bytes "::" ++ a, b, by simp, eats_andThen.2 ⟨g ++ bytes "::", a, rfl, eats_skipRight.2 ⟨g, bytes "::", _, rfl,
        ?_, eats_seq.2 ⟨rfl, rfl⟩⟩, (eats_h16Colons (by decide)).2 ⟨h4, h3⟩⟩, h8⟩,
        segmentsOf_some h4⟩⟩)))))))
      simpa using ho
    by_cases c5 : ms.length = 5
    · exact L (L (L (L (L (R (F (F f1 (f2 (by omega))) (f3 (by omega))) (At (p2 1 3 (by decide) (by decide) (by omega) c5)))))))
    by_cases c4 : ms.length = 4
    · exact L (L (L (L (R (F (F (F f1 (f2 (by omega))) (f3 (by omega))) (f4 (by omega)))
        (At (p2 2 2 (by decide) (by decide) (by omega) c4))))))
    by_cases c3 : ms.length = 3
    · exact L (L (L (R (F (F (F (F f1 (f2 (by omega))) (f3 (by omega))) (f4 (by omega))) (f5 (by omega)))
        (At (p2 3 1 (by decide) (by decide) (by omega) c3)))))
    have fs := F (F (F (F (F f1 (f2 (by omega))) (f3 (by omega))) (f4 (by omega))) (f5 (by omega))) (f6 (by omega))
    by_cases c2 : ms.length = 2
    · obtain ⟨l, h8⟩ := eats_ls32 (rest := rest) (ntail _ c2 (by omega)) c2
      obtain ⟨w, h10⟩ := eats_ipv6P1 (n := 4) (rest := u ++ byte ']' :: rest) (by decide) hg' (by omega)
      refine L (L (R fs (At ⟨_, eats_toIpv6 hstd hx (eats_collect.2 ⟨rfl, ((w, _), l), eats_andThen.2 ⟨g ++ bytes "::", u,
        rfl, eats_andThen.2 ⟨g, bytes "::", rfl, ?_, eats_seq.2 ⟨rfl, rfl⟩⟩, h8⟩⟩)⟩)))
      simpa using h10
    by_cases c1 : ms.length = 1
    · have hu1 := ntail _ c1 (by omega)
      have : ∃ n, H16Text u n := by
        cases hu1 with
        | one _ n h => exact ⟨n, h⟩
        | ipv4 _ _ _ => simp at c1
        | cons _ n _ ns' h h' => have := tail_count h'; simp at c1; subst c1; simp at this; omega
      obtain ⟨n, hn⟩ := this
      obtain ⟨w, h10⟩ := eats_ipv6P1 (n := 5) (rest := u ++ byte ']' :: rest) (by decide) hg' (by omega)
      refine L (R (F fs (f7 (by omega))) (At ⟨_, eats_toIpv6 hstd hx (eats_collect.2 ⟨rfl, ((w, _), n), eats_andThen.2
        ⟨g ++ bytes "::", u, rfl, eats_andThen.2 ⟨g, bytes "::", rfl, ?_, eats_seq.2 ⟨rfl, rfl⟩⟩,
        eats_h16.2 ⟨hn, .inr bracket_not_hex⟩⟩⟩)⟩))
      simpa using h10
    · have hms : ms = [] := List.length_eq_zero_iff.1 (by omega)
      obtain rfl : u = [] := by
        rcases hu with ⟨rfl, -⟩ | hu
        · rfl
        · have := tail_count hu; rw [hms] at this; simp at this; omega
      have hns : ns.length ≤ 6 := by
        rcases Nat.lt_or_ge ns.length 7 with h | h
        · omega
        · exfalso
          rcases hg with ⟨-, rfl⟩ | hg
          · simp at h
          · exact h7 ⟨g, ns, by simp, hg, by omega⟩
      obtain ⟨w, h10⟩ := eats_ipv6P1 (n := 5) (rest := byte ']' :: rest) (by decide) hg' (by omega)
      refine R (F (F fs (f7 (by omega))) (f8 (by omega))) ⟨_, eats_toIpv6 hstd hx (eats_collect.2 ⟨rfl, (w, _),
        eats_andThen.2 ⟨g, bytes "::", by simp, ?_, eats_seq.2 ⟨rfl, rfl⟩⟩⟩)⟩
      simpa using h10

/-- Seven groups and a double colon are not read. -/
theorem ipv6Address_seven {x : Ipv6} (h : Eats (ipv6Address std) t x rest) : ¬ SevenGroups t := by
  rintro ⟨g, ns, rfl, hg, hl⟩
  have hg' : OptGroups g ns := .inr hg
  have no : ∀ {a b : Bytes} {as bs : List Nat}, g ++ bytes "::" = a ++ bytes "::" ++ b → OptGroups a as → Tail b bs →
      False := by
    intro a b as bs he ha hb
    obtain ⟨-, h⟩ := double_unique (X := []) (Y := b) hg'.colons ha.colons (by simpa using he)
    obtain ⟨d, t', rfl, -⟩ := tail_head hb
    cases h
  unfold ipv6Address at h
  rw [eats_name] at h
  rcases eats_or.1 h with h | ⟨-, h⟩
  · rcases eats_or.1 h with h | ⟨-, h⟩
    · rcases eats_or.1 h with h | ⟨-, h⟩
      · rcases eats_or.1 h with h | ⟨-, h⟩
        · rcases eats_or.1 h with h | ⟨-, h⟩
          · rcases eats_or.1 h with h | ⟨-, h⟩
            · rcases eats_or.1 h with h | ⟨-, h⟩
              · rcases eats_or.1 h with h | ⟨-, h⟩
                · obtain ⟨ms, h1, -⟩ := ipv6Address1_shape (eats_attempt.1 h)
                  obtain ⟨d, b', he, hd⟩ := tail_colons h1 g [byte ':'] (by rw [double])
                  cases he
                  revert hd; decide
                · obtain ⟨a, b, as, bs, he, ha, hb, -⟩ := ipv6Address2_shape (eats_attempt.1 h)
                  exact no he ha hb
              · obtain ⟨a, b, as, bs, he, ha, hb, -⟩ := ipv6Address3_shape (eats_attempt.1 h)
                exact no he ha hb
            · obtain ⟨a, b, as, bs, he, ha, hb, -⟩ := ipv6P2_shape (by decide) (by decide) (eats_attempt.1 h)
              exact no he ha hb
          · obtain ⟨a, b, as, bs, he, ha, hb, -⟩ := ipv6P2_shape (by decide) (by decide) (eats_attempt.1 h)
            exact no he ha hb
        · obtain ⟨a, b, as, bs, he, ha, hb, -⟩ := ipv6P2_shape (by decide) (by decide) (eats_attempt.1 h)
          exact no he ha hb
      · obtain ⟨a, b, as, bs, he, ha, hb, -⟩ := ipv6Short1_shape (eats_attempt.1 h)
        exact no he ha hb
    · obtain ⟨a, b, as, bs, he, ha, hb, -⟩ := ipv6Short2_shape (eats_attempt.1 h)
      exact no he ha hb
  · obtain ⟨⟨v, h⟩, -⟩ := toIpv6_sound h fun v hv => (eats_collect.1 hv).1
    obtain ⟨-, ⟨a, b⟩, h1⟩ := eats_collect.1 h
    obtain ⟨t3, t4, he, h4, h5⟩ := eats_andThen.1 h1
    obtain ⟨rfl, -⟩ := eats_seq.1 h5
    obtain ⟨-, ms, h6, h7⟩ := ipv6P1_sound (by decide) h4
    have h7' : OptGroups t3 ms := h7
    obtain ⟨rfl, -⟩ := double_unique (X := []) (Y := []) hg'.colons h7'.colons (by simpa using he)
    rcases h7 with ⟨rfl, -⟩ | h7
    · obtain ⟨d, t', he, -⟩ := groups_head hg; cases he
    · have e1 := tail_count hg.tail
      have e2 := tail_count h7.tail
      omega

end OniComb.Uri
