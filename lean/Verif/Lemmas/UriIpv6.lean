import Verif.Lemmas.Uri

/-!
# Helper lemmas for the URI parser: IPv6 literals
-/

namespace OniComb.Uri
open OniComb Rfc
variable {A B : Type} {t rest r : Bytes} {c : Committed}

/-! ### Groups -/

theorem digitOf_hex {b : UInt8} (h : Hex b) : digitOf 16 b = some (hexDigit b) ∧ hexDigit b < 16 := by
  unfold digitOf hexDigit
  unfold Hex Digit at h
  dsimp only
  by_cases h1 : b.toNat ≤ 57
  · rw [if_pos (by omega), if_pos h1]
    simp only [Option.bind_some]
    rw [if_pos (by omega)]
    exact ⟨rfl, by omega⟩
  · rw [if_neg (by omega), if_neg h1]
    by_cases h2 : b.toNat ≤ 70
    · rw [if_pos (by omega), if_pos h2]
      simp only [Option.bind_some]
      rw [if_pos (by omega)]
      exact ⟨rfl, by omega⟩
    · rw [if_neg (by omega), if_neg h2, if_pos (by omega)]
      simp only [Option.bind_some]
      rw [if_pos (by omega)]
      exact ⟨rfl, by omega⟩

theorem hex_sign {b : UInt8} (h : Hex b) : b ≠ byte '+' ∧ b ≠ byte '-' := by
  constructor <;> rintro rfl <;> revert h <;> decide

theorem digitsLoop_hex (max : Nat) : ∀ (t : Bytes) (acc : Nat), (∀ b ∈ t, Hex b) →
    (acc + 1) * 16 ^ t.length ≤ max + 1 →
    digitsLoop 16 max acc t = some (t.foldl (fun n b => n * 16 + hexDigit b) acc) := by
  intro t
  induction t with
  | nil => intro acc _ h; simp [digitsLoop]
  | cons b t ih =>
    intro acc hd hacc
    obtain ⟨h1, h2⟩ := digitOf_hex (hd b (by simp))
    rw [List.foldl_cons]
    simp only [digitsLoop, h1, Option.bind_some]
    have h3 : (acc * 16 + hexDigit b + 1) * 16 ^ t.length ≤ max + 1 := by
      refine Nat.le_trans ?_ hacc
      rw [List.length_cons, Nat.pow_succ, Nat.mul_comm (16 ^ t.length) 16, ← Nat.mul_assoc]
      exact Nat.mul_le_mul_right _ (by omega)
    have h4 : acc * 16 + hexDigit b + 1 ≤ (acc * 16 + hexDigit b + 1) * 16 ^ t.length :=
      Nat.le_mul_of_pos_right _ (Nat.pow_pos (by decide))
    rw [if_pos (by omega)]
    exact ih _ (fun x hx => hd x (by simp [hx])) h3

theorem parseUInt_hex (t : Bytes) (h : ∀ b ∈ t, Hex b) (h1 : 1 ≤ t.length) (h4 : t.length ≤ 4) :
    parseUInt 16 65535 t = some (hexValue t) := by
  have hp : (0 + 1) * 16 ^ t.length ≤ 65535 + 1 := by
    have : 16 ^ t.length ≤ 16 ^ 4 := Nat.pow_le_pow_right (by decide) h4
    omega
  match t, h, h1 with
  | [b], h, _ =>
    have hs := hex_sign (h b (by simp))
    unfold parseUInt
    simp only [hs.1, hs.2, or_self, if_false]
    exact digitsLoop_hex _ _ _ h hp
  | b :: c :: r, h, _ =>
    have hs := hex_sign (h b (by simp))
    unfold parseUInt
    simp only
    rw [if_neg hs.1]
    exact digitsLoop_hex _ _ _ h hp

instance [NoDiv (p : Parser UInt8 A)] : NoDiv (text p) := by unfold text; infer_instance
instance : NoDiv h16 := by unfold h16; infer_instance
instance : Good h16 := by unfold h16; infer_instance
instance : Halts h16 := by unfold h16; infer_instance

theorem many_hex {vs : List UInt8} : Many elmHexDigit t vs rest ↔ vs = t ∧ ∀ b ∈ t, Hex b := by
  constructor
  · intro h
    induction h with
    | nil => simp
    | cons h1 _ ih =>
      obtain ⟨rfl, h2⟩ := eats_elmPred.1 h1
      obtain ⟨rfl, h3⟩ := ih
      refine ⟨rfl, fun b hb => ?_⟩
      rcases List.mem_cons.1 hb with rfl | hb
      · exact isHex_iff.1 h2
      · exact h3 b hb
  · rintro ⟨rfl, h⟩
    induction vs with
    | nil => exact .nil _
    | cons b vs ih =>
      exact .cons (t := [b]) (eats_elmPred.2 ⟨rfl, isHex_iff.2 (h b (by simp))⟩)
        (ih fun x hx => h x (by simp [hx]))

theorem eats_h16 {n : Nat} : Eats h16 t n rest ↔
    H16Text t n ∧ (t.length = 4 ∨ ¬ Start Hex False rest) := by
  unfold h16
  simp only [eats_name, eats_map, eats_mapRes, eats_text, id]
  have hm : ∀ {vs}, Eats (manyNM (elmHexDigit : Parser UInt8 UInt8) 1 4) t vs rest ↔
      vs = t ∧ 1 ≤ t.length ∧ t.length ≤ 4 ∧ (∀ b ∈ t, Hex b) ∧ (t.length = 4 ∨ ¬ Start Hex False rest) := by
    intro vs
    rw [eats_manyNM (by decide), many_hex, unit_hex.fails]
    constructor
    · rintro ⟨h1, h2, ⟨rfl, h3⟩, h4⟩; exact ⟨rfl, h1, h2, h3, h4⟩
    · rintro ⟨rfl, h1, h2, h3, h4⟩; exact ⟨h1, h2, ⟨rfl, h3⟩, h4⟩
  constructor
  · rintro ⟨_, ⟨v, ⟨h1, vs, h2⟩, h3⟩, rfl⟩
    obtain ⟨rfl, h4, h5, h6, h7⟩ := hm.1 h2
    rw [fromUtf8_ascii _ (fun b hb => hex_ascii (h6 b hb))] at h1
    cases h1
    rw [parseUInt_hex _ h6 h4 h5] at h3
    cases h3
    exact ⟨⟨h4, h5, h6, rfl⟩, h7⟩
  · rintro ⟨⟨h4, h5, h6, rfl⟩, h7⟩
    exact ⟨_, ⟨t, ⟨fromUtf8_ascii _ fun b hb => hex_ascii (h6 b hb), t, hm.2 ⟨rfl, h4, h5, h6, h7⟩⟩,
      parseUInt_hex _ h6 h4 h5⟩, rfl⟩

theorem colon_not_hex {r : Bytes} : ¬ Start Hex False (byte ':' :: r) := start_cons (by decide) (by decide)

/-- `h16 ":"` -/
theorem eats_h16Colon {n : Nat} : Eats (skipRight h16 (elm (byte ':'))) t n rest ↔
    ∃ u, t = u ++ [byte ':'] ∧ H16Text u n := by
  rw [eats_skipRight]
  constructor
  · rintro ⟨t1, t2, w, rfl, h1, h2⟩
    obtain ⟨rfl, -⟩ := eats_elm.1 h2
    exact ⟨t1, rfl, (eats_h16.1 h1).1⟩
  · rintro ⟨u, rfl, h⟩
    exact ⟨u, [byte ':'], byte ':', rfl, eats_h16.2 ⟨h, .inr colon_not_hex⟩, eats_elm.2 ⟨rfl, rfl⟩⟩

/-- Groups with a colon behind each. -/
inductive ColonGroups : Bytes → List Nat → Prop where
  | nil : ColonGroups [] []
  | cons (t : Bytes) (n : Nat) (u : Bytes) (ns : List Nat) : H16Text t n → ColonGroups u ns →
      ColonGroups (t ++ byte ':' :: u) (n :: ns)

theorem many_h16Colon {vs : List Nat} : Many (skipRight h16 (elm (byte ':'))) t vs rest ↔ ColonGroups t vs := by
  constructor
  · intro h
    induction h with
    | nil => exact .nil
    | cons h1 _ ih =>
      obtain ⟨u, rfl, h2⟩ := eats_h16Colon.1 h1
      have := ColonGroups.cons _ _ _ _ h2 ih
      simpa using this
  · intro h
    induction h with
    | nil => exact .nil _
    | cons t n u ns h1 _ ih =>
      have := Many.cons (t := t ++ [byte ':']) (eats_h16Colon.2 ⟨t, rfl, h1⟩) ih
      simpa using this

/-- The same with the other way to write `h16 ":"`. -/
theorem many_h16Colon' {vs : List (Nat × UInt8)} : Many (andThen h16 (elm (byte ':'))) t vs rest →
    ColonGroups t (vs.map Prod.fst) := by
  intro h
  induction h with
  | nil => exact .nil
  | @cons _ _ _ v vs h1 _ ih =>
    obtain ⟨n, b⟩ := v
    obtain ⟨t1, t2, rfl, h3, h4⟩ := eats_andThen.1 h1
    obtain ⟨rfl, -⟩ := eats_elm.1 h4
    have := ColonGroups.cons _ _ _ _ (eats_h16.1 h3).1 ih
    simpa using this

theorem colonGroups_many' {ns : List Nat} (h : ColonGroups t ns) :
    ∃ vs : List (Nat × UInt8), Many (andThen h16 (elm (byte ':'))) t vs rest ∧ vs.length = ns.length := by
  induction h with
  | nil => exact ⟨[], .nil _, rfl⟩
  | cons t n u ns h1 _ ih =>
    obtain ⟨vs, ih, hl⟩ := ih
    have := Many.cons (t := t ++ [byte ':']) (v := (n, byte ':')) (p := andThen h16 (elm (byte ':')))
      (eats_andThen.2 ⟨t, [byte ':'], rfl, eats_h16.2 ⟨h1, .inr colon_not_hex⟩, eats_elm.2 ⟨rfl, rfl⟩⟩) ih
    exact ⟨_, by simpa using this, by simp [hl]⟩

theorem ColonGroups.tail {ns ms : List Nat} {u : Bytes} (h : ColonGroups t ns) (h' : Tail u ms) :
    Tail (t ++ u) (ns ++ ms) := by
  induction h with
  | nil => exact h'
  | cons t n v ns h1 _ ih =>
    have := Tail.cons _ _ _ _ h1 ih
    simpa using this

/-! ### The last two groups -/

instance : Good ls32 := by unfold ls32; infer_instance
instance : Halts ls32 := by unfold ls32; infer_instance

theorem ls32_sound {l : Ls32} (h : Eats ls32 t l rest) : Tail t l.segments ∧ l.segments.length = 2 := by
  unfold ls32 at h
  rcases eats_or.1 h with h | ⟨-, h⟩
  · rw [eats_attempt] at h
    obtain ⟨⟨a, b⟩, h1, rfl⟩ := eats_map.1 h
    obtain ⟨t1, t2, rfl, h2, h3⟩ := eats_andThen.1 h1
    obtain ⟨u, rfl, h4⟩ := eats_h16Colon.1 h2
    have := Tail.cons _ _ _ _ h4 (Tail.one _ _ (eats_h16.1 h3).1)
    exact ⟨by simpa [Ls32.segments] using this, rfl⟩
  · obtain ⟨x, h1, rfl⟩ := eats_map.1 h
    exact ⟨.ipv4 _ x (eats_ipv4Address.1 h1).1, rfl⟩

/-! ### The nine alternatives -/

instance : Good (h16Colons n) := by unfold h16Colons; infer_instance
instance : Halts (h16Colons n) := by unfold h16Colons; infer_instance

theorem eats_h16Colons {n : Nat} (hn : 1 ≤ n) {vs : List Nat} :
    Eats (h16Colons n) t vs rest ↔ vs.length = n ∧ ColonGroups t vs := by
  unfold h16Colons
  rw [eats_count hn, many_h16Colon]

theorem segmentsOf_some {n : Nat} {before vec : List Nat} {b : Ls32} (h : vec.length = n) :
    segmentsOf n before vec b = some ⟨before ++ vec ++ b.segments⟩ := by
  unfold segmentsOf
  rw [if_pos (by omega), List.take_of_length_le (by omega)]

instance good_ipv6Address1 : Good ipv6Address1 := by
  refine good_mapUnwrap ?_
  rintro t ⟨vs, l⟩ rest h
  obtain ⟨t1, t2, rfl, h1, -⟩ := eats_andThen.1 h
  rw [segmentsOf_some ((eats_h16Colons (by decide)).1 h1).1]; rfl

instance good_ipv6Address2 : Good ipv6Address2 := by
  refine good_mapUnwrap ?_
  rintro t ⟨vs, l⟩ rest h
  obtain ⟨t1, t2, rfl, h1, -⟩ := eats_andThen.1 h
  obtain ⟨t3, t4, w, rfl, -, h2⟩ := eats_skipLeft.1 h1
  rw [segmentsOf_some ((eats_h16Colons (by decide)).1 h2).1]; rfl

instance good_ipv6Address3 : Good ipv6Address3 := by
  refine good_mapUnwrap ?_
  rintro t ⟨⟨o, vs⟩, l⟩ rest h
  obtain ⟨t1, t2, rfl, h1, -⟩ := eats_andThen.1 h
  obtain ⟨t3, t4, rfl, -, h2⟩ := eats_andThen.1 h1
  rw [segmentsOf_some ((eats_h16Colons (by decide)).1 h2).1]; rfl

instance : Halts ipv6Address1 := by unfold ipv6Address1; infer_instance
instance : Halts ipv6Address2 := by unfold ipv6Address2; infer_instance
instance : Halts ipv6Address3 := by unfold ipv6Address3; infer_instance

theorem ipv6Address1_sound {x : Ipv6} (h : Eats ipv6Address1 t x rest) : Ipv6Text t x := by
  obtain ⟨⟨vs, l⟩, h1, h2⟩ := eats_mapUnwrap.1 h
  obtain ⟨t1, t2, rfl, h3, h4⟩ := eats_andThen.1 h1
  obtain ⟨h5, h6⟩ := (eats_h16Colons (by decide)).1 h3
  obtain ⟨h7, h8⟩ := ls32_sound h4
  rw [segmentsOf_some h5] at h2
  cases h2
  exact .full _ _ (by simpa using h6.tail h7) (by simp [h5, h8])

theorem ipv6Address2_sound {x : Ipv6} (h : Eats ipv6Address2 t x rest) : Ipv6Text t x := by
  obtain ⟨⟨vs, l⟩, h1, h2⟩ := eats_mapUnwrap.1 h
  obtain ⟨t1, t2, rfl, h3, h4⟩ := eats_andThen.1 h1
  obtain ⟨u1, u2, w, rfl, h9, h10⟩ := eats_skipLeft.1 h3
  obtain ⟨rfl, -⟩ := eats_seq.1 h9
  obtain ⟨h5, h6⟩ := (eats_h16Colons (by decide)).1 h10
  obtain ⟨h7, h8⟩ := ls32_sound h4
  rw [segmentsOf_some h5] at h2
  cases h2
  have := Ipv6Text.short [] (u2 ++ t2) [] (vs ++ l.segments) (.inl ⟨rfl, rfl⟩) (.inr (h6.tail h7))
    (by simp [h5, h8])
  simpa [h5, h8] using this

theorem ipv6Address3_sound {x : Ipv6} (h : Eats ipv6Address3 t x rest) : Ipv6Text t x := by
  obtain ⟨⟨⟨o, vs⟩, l⟩, h1, h2⟩ := eats_mapUnwrap.1 h
  obtain ⟨t1, t2, rfl, h3, h4⟩ := eats_andThen.1 h1
  obtain ⟨u1, u2, rfl, h9, h10⟩ := eats_andThen.1 h3
  obtain ⟨u3, u4, w, rfl, h11, h12⟩ := eats_skipRight.1 h9
  obtain ⟨rfl, -⟩ := eats_seq.1 h12
  obtain ⟨h5, h6⟩ := (eats_h16Colons (by decide)).1 h10
  obtain ⟨h7, h8⟩ := ls32_sound h4
  rw [segmentsOf_some h5] at h2
  cases h2
  rcases eats_opt.1 h11 with ⟨n, rfl, h13⟩ | ⟨rfl, rfl, -⟩
  · have := Ipv6Text.short u3 (u2 ++ t2) [n] (vs ++ l.segments)
      (.inr (.one _ _ (eats_h16.1 h13).1)) (.inr (h6.tail h7)) (by simp [h5, h8])
    simpa [h5, h8] using this
  · have := Ipv6Text.short [] (u2 ++ t2) [] (vs ++ l.segments) (.inl ⟨rfl, rfl⟩) (.inr (h6.tail h7))
      (by simp [h5, h8])
    simpa [h5, h8, List.replicate] using this

instance : Good (ipv6P1 n) := by unfold ipv6P1; infer_instance
instance : Halts (ipv6P1 n) := by unfold ipv6P1; infer_instance
instance : Good (ipv6P2 n m) := by unfold ipv6P2; infer_instance
instance : Halts (ipv6P2 n m) := by unfold ipv6P2; infer_instance
instance [Good p] : Good (toIpv6 std p) := by unfold toIpv6; infer_instance
instance [Halts p] : Halts (toIpv6 std p) := by unfold toIpv6; infer_instance

/-- `":" h16` repeated, behind a group. -/
theorem colon_h16s {vs : List Nat} (h : Many (skipLeft (elm (byte ':')) h16) t vs rest) :
    ∀ (u : Bytes) (n : Nat), H16Text u n → Groups (u ++ t) (n :: vs) := by
  induction h with
  | nil => intro u n hu; rw [List.append_nil]; exact .one _ _ hu
  | cons h1 _ ih =>
    intro u n hu
    obtain ⟨t1, t2, w, rfl, h2, h3⟩ := eats_skipLeft.1 h1
    obtain ⟨rfl, -⟩ := eats_elm.1 h2
    have := Groups.cons _ _ _ _ hu (ih _ _ (eats_h16.1 h3).1)
    simpa using this

theorem ipv6P1_sound {n : Nat} (hn : 1 ≤ n) {v : Bytes} (h : Eats (ipv6P1 n) t v rest) :
    v = t ∧ ∃ ns, ns.length ≤ n + 1 ∧ (t = [] ∧ ns = [] ∨ Groups t ns) := by
  obtain ⟨rfl, a, h1⟩ := eats_collect.1 h
  refine ⟨rfl, ?_⟩
  rcases eats_opt.1 h1 with ⟨u, -, h2⟩ | ⟨rfl, -, -⟩
  · obtain ⟨⟨m, ms⟩, h3, -⟩ := eats_map.1 h2
    obtain ⟨t1, t2, rfl, h4, h5⟩ := eats_andThen.1 h3
    obtain ⟨-, h6, h7, -⟩ := (eats_manyNM hn).1 h5
    exact ⟨m :: ms, by simpa using h6, .inr (colon_h16s h7 _ _ (eats_h16.1 h4).1)⟩
  · exact ⟨[], by simp, .inl ⟨rfl, rfl⟩⟩

theorem ascii_h16 {t : Bytes} {n : Nat} (h : H16Text t n) : ∀ b ∈ t, b.toNat < 128 :=
  fun b hb => hex_ascii (h.2.2.1 b hb)

theorem toIpv6_sound {std : Std} {p : Parser UInt8 Bytes} {x : Ipv6} (h : Eats (toIpv6 std p) t x rest)
    (hp : ∀ v, Eats p t v rest → v = t) : (∃ v, Eats p t v rest) ∧ std.parseIpv6 t = some x := by
  unfold toIpv6 at h
  simp only [eats_mapRes, eats_map, id] at h
  obtain ⟨v, ⟨w, ⟨u, h1, rfl⟩, h2⟩, h3⟩ := h
  have := hp _ h1
  subst this
  unfold fromUtf8 at h2
  split at h2
  · cases h2; exact ⟨⟨_, h1⟩, h3⟩
  · cases h2

theorem ipv6P2_sound {n m : Nat} (hn : 1 ≤ n) (hm : 1 ≤ m) (hnm : n + 1 + (m + 2) ≤ 7) {v : Bytes}
    (h : Eats (ipv6P2 n m) t v rest) : v = t ∧ ∃ x, Ipv6Text t x := by
  obtain ⟨rfl, ⟨⟨a, b⟩, d⟩, h1⟩ := eats_collect.1 h
  refine ⟨rfl, ?_⟩
  obtain ⟨t1, t2, rfl, h2, h3⟩ := eats_andThen.1 h1
  obtain ⟨t3, t4, rfl, h4, h5⟩ := eats_andThen.1 h2
  obtain ⟨rfl, -⟩ := eats_seq.1 h5
  obtain ⟨-, ns, h6, h7⟩ := ipv6P1_sound hn h4
  obtain ⟨-, ⟨vs, l⟩, h8⟩ := eats_collect.1 h3
  obtain ⟨t5, t6, rfl, h9, h10⟩ := eats_andThen.1 h8
  obtain ⟨h11, h12⟩ := (eats_count hm).1 h9
  obtain ⟨h13, h14⟩ := ls32_sound h10
  refine ⟨_, Ipv6Text.short t3 (t5 ++ t6) ns _ h7 (.inr ((many_h16Colon' h12).tail h13)) ?_⟩
  simp [h11, h14]; omega

instance (std : Std) : Good (ipv6Address std) := by unfold ipv6Address ipv6Short; infer_instance
instance (std : Std) : Halts (ipv6Address std) := by unfold ipv6Address ipv6Short; infer_instance

/-- Only texts of the RFC are read. -/
theorem ipv6Address_sound {std : Std} {x : Ipv6} (h : Eats (ipv6Address std) t x rest) :
    ∃ x', Ipv6Text t x' ∧ (x = x' ∨ std.parseIpv6 t = some x) := by
  unfold ipv6Address at h
  simp only [eats_name, eats_or, eats_attempt] at h
  have p2 : ∀ {n m : Nat}, 1 ≤ n → 1 ≤ m → n + 1 + (m + 2) ≤ 7 → Eats (toIpv6 std (ipv6P2 n m)) t x rest →
      ∃ x', Ipv6Text t x' ∧ (x = x' ∨ std.parseIpv6 t = some x) := by
    intro n m hn hm hnm h
    obtain ⟨⟨v, h1⟩, h2⟩ := toIpv6_sound h fun v hv => (ipv6P2_sound hn hm hnm hv).1
    obtain ⟨-, x', h3⟩ := ipv6P2_sound hn hm hnm h1
    exact ⟨x', h3, .inr h2⟩
  rcases h with (((((((h | ⟨-, h⟩) | ⟨-, h⟩) | ⟨-, h⟩) | ⟨-, h⟩) | ⟨-, h⟩) | ⟨-, h⟩) | ⟨-, h⟩) | ⟨-, h⟩
  · exact ⟨x, ipv6Address1_sound h, .inl rfl⟩
  · exact ⟨x, ipv6Address2_sound h, .inl rfl⟩
  · exact ⟨x, ipv6Address3_sound h, .inl rfl⟩
  · exact p2 (by decide) (by decide) (by decide) h
  · exact p2 (by decide) (by decide) (by decide) h
  · exact p2 (by decide) (by decide) (by decide) h
  · obtain ⟨⟨v, h1⟩, h2⟩ := toIpv6_sound h fun v hv => (eats_collect.1 hv).1
    obtain ⟨-, ⟨⟨a, b⟩, l⟩, h3⟩ := eats_collect.1 h1
    obtain ⟨t1, t2, rfl, h4, h5⟩ := eats_andThen.1 h3
    obtain ⟨t3, t4, rfl, h6, h7⟩ := eats_andThen.1 h4
    obtain ⟨rfl, -⟩ := eats_seq.1 h7
    obtain ⟨-, ns, h8, h9⟩ := ipv6P1_sound (by decide) h6
    obtain ⟨h13, h14⟩ := ls32_sound h5
    exact ⟨_, Ipv6Text.short t3 t2 ns _ h9 (.inr h13) (by omega), .inr h2⟩
  · obtain ⟨⟨v, h1⟩, h2⟩ := toIpv6_sound h fun v hv => (eats_collect.1 hv).1
    obtain ⟨-, ⟨⟨a, b⟩, l⟩, h3⟩ := eats_collect.1 h1
    obtain ⟨t1, t2, rfl, h4, h5⟩ := eats_andThen.1 h3
    obtain ⟨t3, t4, rfl, h6, h7⟩ := eats_andThen.1 h4
    obtain ⟨rfl, -⟩ := eats_seq.1 h7
    obtain ⟨-, ns, h8, h9⟩ := ipv6P1_sound (by decide) h6
    exact ⟨_, Ipv6Text.short t3 t2 ns _ h9 (.inr (.one _ _ (eats_h16.1 h5).1)) (by simp; omega), .inr h2⟩
  · obtain ⟨⟨v, h1⟩, h2⟩ := toIpv6_sound h fun v hv => (eats_collect.1 hv).1
    obtain ⟨-, ⟨a, b⟩, h3⟩ := eats_collect.1 h1
    obtain ⟨t3, t4, rfl, h6, h7⟩ := eats_andThen.1 h3
    obtain ⟨rfl, -⟩ := eats_seq.1 h7
    obtain ⟨-, ns, h8, h9⟩ := ipv6P1_sound (by decide) h6
    have := Ipv6Text.short t3 [] ns [] h9 (.inl ⟨rfl, rfl⟩) (by simp; omega)
    exact ⟨_, by simpa using this, .inr h2⟩

end OniComb.Uri
