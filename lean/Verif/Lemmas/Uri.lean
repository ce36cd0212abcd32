import Verif.Lemmas.UriChars
import Mathlib.Tactic.Tauto

/-!
# Helper lemmas for the URI parser: its components
-/

namespace OniComb
variable {I A B : Type}

/-- The parser returns on every text. -/
class Halts (p : Parser I A) : Prop where
  out : ∀ r, Ret p r

section
variable {p : Parser I A} {q : Parser I B}

instance (priority := low) [h : NoDiv p] : Halts p := ⟨fun _ => h.out _⟩
instance [h : Halts p] (f : A → B) : Halts (map p f) := ⟨fun r => ret_map.2 (h.out r)⟩
instance [h : Halts p] (f : A → Option B) : Halts (mapRes p f) := ⟨fun r => ret_mapRes.2 (h.out r)⟩
instance [h : Halts p] (l : String) : Halts (name p l) := ⟨fun r => ret_name.2 (h.out r)⟩
instance [h : Halts p] : Halts (attempt p) := ⟨fun r => ret_attempt.2 (h.out r)⟩
instance [h : Halts p] : Halts (opt p) := ⟨fun r => ret_opt.2 (h.out r)⟩
instance [h : Halts p] : Halts (collect p) := ⟨fun r => ret_collect.2 (h.out r)⟩
instance {p' : Parser I A} [h : Halts p] [h' : Halts p'] : Halts (or p p') :=
  ⟨fun r => ret_or.2 ⟨h.out r, fun _ => h'.out r⟩⟩
instance [Good p] [Good q] [h : Halts p] [h' : Halts q] : Halts (andThen p q) :=
  ⟨fun r => ret_andThen.2 ⟨h.out r, fun _ _ rest _ _ => h'.out rest⟩⟩
instance [Good p] [Good q] [h : Halts p] [h' : Halts q] : Halts (skipLeft p q) :=
  ⟨fun r => ret_skipLeft.2 ⟨h.out r, fun _ _ rest _ _ => h'.out rest⟩⟩
instance [Good p] [Good q] [h : Halts p] [h' : Halts q] : Halts (skipRight p q) :=
  ⟨fun r => ret_skipRight.2 ⟨h.out r, fun _ _ rest _ _ => h'.out rest⟩⟩

/-- The parser consumes something. -/
class Prog (p : Parser I A) : Prop where
  out : ∀ t v rest, Eats p t v rest → t ≠ []

instance [h : Prog p] [Good p] [Good q] : Prog (andThen p q) := ⟨fun t v rest he => by
  obtain ⟨v, w⟩ := v
  obtain ⟨t1, t2, rfl, h1, -⟩ := eats_andThen.1 he
  have := h.out _ _ _ h1
  simp [this]⟩
instance [h : Prog p] [Good p] [Good q] : Prog (skipLeft p q) := ⟨fun t v rest he => by
  obtain ⟨t1, t2, w, rfl, h1, -⟩ := eats_skipLeft.1 he
  have := h.out _ _ _ h1
  simp [this]⟩
instance [h : Prog p] [Good p] [Good q] : Prog (skipRight p q) := ⟨fun t v rest he => by
  obtain ⟨t1, t2, w, rfl, h1, -⟩ := eats_skipRight.1 he
  have := h.out _ _ _ h1
  simp [this]⟩
instance [h : Prog p] : Prog (collect p) := ⟨fun t v rest he => by
  obtain ⟨-, a, h1⟩ := eats_collect.1 he
  exact h.out _ _ _ h1⟩
instance [h : Prog p] (f : A → B) : Prog (map p f) := ⟨fun t v rest he => by
  obtain ⟨a, h1, -⟩ := eats_map.1 he
  exact h.out _ _ _ h1⟩
instance [h : Prog p] (f : A → Option B) : Prog (mapRes p f) := ⟨fun t v rest he => by
  obtain ⟨a, h1, -⟩ := eats_mapRes.1 he
  exact h.out _ _ _ h1⟩
instance [DecidableEq I] (x : I) : Prog (elm x) := ⟨fun t v rest he => by
  obtain ⟨rfl, -⟩ := eats_elm.1 he; simp⟩

instance [Good p] [h : Halts p] [h' : Prog p] : Halts (many0 p) :=
  ⟨fun _ => ret_many0 (fun r' _ => h.out r') fun t v rest _ he => h'.out t v rest he⟩
instance [Good p] [h : Halts p] [h' : Prog p] : Halts (many1 p) :=
  ⟨fun _ => ret_many1 (fun r' _ => h.out r') fun t v rest _ he => h'.out t v rest he⟩

/-- A parser that returns and fails only without commitment fails exactly where it reads nothing. -/
theorem fail_of_soft [Good p] [h : Halts p] (hs : ∀ r c, Fail p r c → c = .uncommitted) {r : List I} :
    Fail p r .uncommitted ↔ ∀ t v rest, r = t ++ rest → ¬ Eats p t v rest := by
  constructor
  · rintro hf t v rest rfl he; exact not_eats_fail he hf
  · intro hn
    rcases outcomes p r with ⟨t, v, rest, rfl, he⟩ | ⟨c, hc⟩ | hr
    · exact absurd he (hn _ _ _ rfl)
    · have := hs _ _ hc; subst this; exact hc
    · exact absurd (h.out r) hr

/-- A parser that returns fails exactly where it reads nothing. -/
theorem fails_iff [Good p] [h : Halts p] {r : List I} :
    (∃ c, Fail p r c) ↔ ∀ t v rest, r = t ++ rest → ¬ Eats p t v rest := by
  constructor
  · rintro ⟨c, hf⟩ t v rest rfl he; exact not_eats_fail he hf
  · intro hn
    rcases outcomes p r with ⟨t, v, rest, rfl, he⟩ | hc | hr
    · exact absurd he (hn _ _ _ rfl)
    · exact hc
    · exact absurd (h.out r) hr

end
end OniComb

namespace OniComb.Uri
open OniComb Rfc
variable {A B : Type} {t rest r : Bytes} {c : Committed}

/-! ### The closures that may panic -/

section
variable {p : Parser UInt8 A} {f : A → Option B}

theorem eats_mapUnwrap {w : B} : Eats (mapUnwrap p f) t w rest ↔ ∃ v, Eats p t v rest ∧ f v = some w := by
  unfold Eats mapUnwrap
  cases h : p ⟨t ++ rest, 0⟩ with
  | success a n =>
    dsimp only
    cases hf : f a with
    | none =>
      simp only [reduceCtorEq, Res.success.injEq, false_iff]
      rintro ⟨v, ⟨rfl, -⟩, h⟩; rw [hf] at h; cases h
    | some b =>
      simp only [Res.success.injEq]
      constructor
      · rintro ⟨rfl, rfl⟩; exact ⟨_, ⟨rfl, rfl⟩, hf⟩
      · rintro ⟨v, ⟨rfl, rfl⟩, h6⟩; rw [hf] at h6; cases h6; exact ⟨rfl, rfl⟩
  | _ => simp

theorem fail_mapUnwrap : Fail (mapUnwrap p f) r c ↔ Fail p r c := by
  unfold Fail mapUnwrap
  cases h : p ⟨r, 0⟩ with
  | success a n => dsimp only; cases f a <;> simp
  | _ => simp

instance [h : Halts p] : Halts (mapUnwrap p f) := ⟨fun r => by
  have := h.out r
  unfold Ret mapUnwrap at *
  cases h : p ⟨r, 0⟩ with
  | success a n => dsimp only; cases f a <;> simp
  | diverge => exact absurd h this
  | _ => simp⟩

/-- No panic, if the closure is defined on every value the parser returns. -/
theorem good_mapUnwrap [hp : Good p] (hf : ∀ t v rest, Eats p t v rest → (f v).isSome = true) :
    Good (mapUnwrap p f) := by
  have hv : ∀ s v n, s.offset ≤ s.input.length → p s = .success v n → (f v).isSome = true := by
    intro s v n hs h
    have h1 : p ⟨s.input.take s.offset ++ s.input.drop s.offset, (s.input.take s.offset).length⟩ =
        .success v n := by
      rw [List.take_append_drop, List.length_take, Nat.min_eq_left hs]; exact h
    obtain ⟨t, rest, -, -, h2⟩ := success_split ((at_success _ _ v n).1 h1)
    exact hf _ _ _ h2
  have heq : ∀ s, s.offset ≤ s.input.length → mapUnwrap p f s = mapRes p f s := by
    intro s hs
    unfold mapUnwrap mapRes
    cases h : p s with
    | success v n =>
      obtain ⟨w, hw⟩ := Option.isSome_iff_exists.1 (hv s v n hs h)
      simp [hw]
    | _ => rfl
  have hg : Good (mapRes p f) := inferInstance
  refine ⟨⟨fun s hs => ?_, ?_⟩, ?_⟩
  · rw [heq s hs]; exact hg.nice.1 s hs
  · intro pre inp k hk
    have := hg.nice.2 pre inp k hk
    rw [heq ⟨inp, k⟩ hk, heq ⟨pre ++ inp, pre.length + k⟩ (by simp; omega)]
    exact this
  · intro s v n hs h
    unfold mapUnwrap at h
    cases hp' : p s with
    | success a m =>
      rw [hp'] at h
      dsimp only at h
      cases hfa : f a with
      | none => rw [hfa] at h; cases h
      | some w => rw [hfa] at h; cases h; exact hp.tame s a _ hs hp'
    | _ => rw [hp'] at h; cases h

end

instance [h : Halts (p : Parser UInt8 A)] : Halts (text p) := ⟨fun r => ret_text.2 (h.out r)⟩

/-! ### Units -/

instance : Good regChar := unit_regChar.good
instance : Halts regChar := ⟨fun _ => unit_regChar.ret⟩
instance : Good pchar := unit_pchar.good
instance : Halts pchar := ⟨fun _ => unit_pchar.ret⟩
instance : Good unreserved := unit_unreserved.good
instance : Good subDelims := unit_subDelims.good
instance : Good (or pchar (collect (elmOf (bytes "/?")))) := unit_fragChar.good
instance : Good (or pcharWithoutEqAmp (collect (elmOf (bytes "/?")))) := unit_queryChar.good

theorem UnitP.halts0 {p : Parser UInt8 A} {P : UInt8 → Prop} {pct : Prop} (h : UnitP p P pct) :
    Halts (many0 p) := ⟨fun _ => h.ret_many0⟩
theorem UnitP.halts1 {p : Parser UInt8 A} {P : UInt8 → Prop} {pct : Prop} (h : UnitP p P pct) :
    Halts (many1 p) := ⟨fun _ => h.ret_many1⟩

instance : Halts (many0 regChar) := unit_regChar.halts0
instance : Halts (many1 regChar) := unit_regChar.halts1
instance : Halts (many0 pchar) := unit_pchar.halts0
instance : Halts (many1 pchar) := unit_pchar.halts1
instance : Halts (many0 (or pchar (collect (elmOf (bytes "/?"))))) := unit_fragChar.halts0
instance : Halts (many0 (or pcharWithoutEqAmp (collect (elmOf (bytes "/?"))))) := unit_queryChar.halts0
instance : Halts (many0 (elmDigit : Parser UInt8 UInt8)) := unit_digit.halts0
instance : Halts (many1 (elmHexDigit : Parser UInt8 UInt8)) := unit_hex.halts1
instance : Halts (many0 (or (or elmAlpha elmDigit) (elmOf (bytes "+-.")))) := unit_schemeChar.halts0
instance : Halts (many1 (or (or unreserved subDelims) (collect (elm (byte ':'))))) := unit_futureChar.halts1

/-! ### Scheme -/

instance : Good scheme := by unfold scheme; infer_instance
instance : Halts scheme := by unfold scheme; infer_instance

theorem eats_scheme {v : Bytes} : Eats scheme t v rest ↔
    v = t ∧ SchemeText t ∧ ¬ Start SchemeByte False rest := by
  unfold scheme
  simp only [eats_map, id]
  constructor
  · rintro ⟨v', h, rfl⟩
    obtain ⟨h1, ⟨a, bs⟩, h2⟩ := eats_text.1 h
    obtain ⟨t1, t2, rfl, h3, h4⟩ := eats_andThen.1 h2
    obtain ⟨rfl, h3'⟩ := eats_elmPred.1 h3
    obtain ⟨h5, h6⟩ := unit_schemeChar.eats_many0.1 ⟨bs, h4⟩
    have ha := isAlpha_iff.1 h3'
    have hs := units_false.1 h5
    have hasc : ∀ b ∈ [a] ++ t2, b.toNat < 128 := by
      intro b hb
      rcases List.mem_append.1 hb with hb | hb
      · rw [List.mem_singleton] at hb; subst hb; exact unit_alpha.ascii ha
      · exact unit_schemeChar.ascii (hs b hb)
    rw [fromUtf8_ascii _ hasc] at h1
    exact ⟨(Option.some.inj h1).symm, ⟨a, t2, rfl, ha, hs⟩, h6⟩
  · rintro ⟨rfl, ⟨a, t2, rfl, ha, hs⟩, h6⟩
    have hasc : ∀ b ∈ a :: t2, b.toNat < 128 := by
      intro b hb
      rcases List.mem_cons.1 hb with rfl | hb
      · exact unit_alpha.ascii ha
      · exact unit_schemeChar.ascii (hs b hb)
    obtain ⟨bs, h4⟩ := unit_schemeChar.eats_many0.2 ⟨units_false.2 hs, h6⟩
    exact ⟨a :: t2, eats_text.2 ⟨fromUtf8_ascii _ hasc, (a, bs), eats_andThen.2 ⟨[a], t2, rfl,
      eats_elmPred.2 ⟨rfl, isAlpha_iff.2 ha⟩, h4⟩⟩, rfl⟩

/-! ### User information -/

instance : Good userInfo := by unfold userInfo; infer_instance
instance : Halts userInfo := by unfold userInfo; infer_instance

theorem eats_colonReg {v : Bytes} : Eats (skipLeft (elm (byte ':')) (text (many1 regChar))) t v rest ↔
    t = byte ':' :: v ∧ v ≠ [] ∧ Enc RegByte v ∧ ¬ Start RegByte True rest := by
  rw [eats_skipLeft]
  constructor
  · rintro ⟨t1, t2, w, rfl, h1, h2⟩
    obtain ⟨rfl, -⟩ := eats_elm.1 h1
    obtain ⟨rfl, h3, h4, h5⟩ := unit_regChar.eats_text1.1 h2
    exact ⟨rfl, h3, units_true.1 h4, h5⟩
  · rintro ⟨rfl, h3, h4, h5⟩
    exact ⟨[byte ':'], v, byte ':', rfl, eats_elm.2 ⟨rfl, rfl⟩,
      unit_regChar.eats_text1.2 ⟨rfl, h3, units_true.2 h4, h5⟩⟩

theorem colon_not_reg : ¬ RegByte (byte ':') := by decide
theorem at_not_reg : ¬ RegByte (byte '@') := by decide

/-- What follows a user name and a password must not continue it. -/
def UserStop (u : UserInfo) (rest : Bytes) : Prop :=
  ¬ Start RegByte True rest ∧
    (u.password = none → ∀ r', rest = byte ':' :: r' → ¬ Start RegByte True r')

theorem eats_userInfo {u : UserInfo} : Eats userInfo t u rest ↔
    t = u.show ∧ UserInfoOk u ∧ UserStop u rest := by
  unfold userInfo
  rw [eats_name, eats_map]
  obtain ⟨n, pw⟩ := u
  constructor
  · rintro ⟨⟨n', pw'⟩, h, he⟩
    cases he
    obtain ⟨t1, t2, rfl, h1, h2⟩ := eats_andThen.1 h
    obtain ⟨rfl, h3, h4⟩ := unit_regChar.eats_text0.1 h1
    have h3' := units_true.1 h3
    rcases eats_opt.1 h2 with ⟨w, rfl, h5⟩ | ⟨rfl, rfl, c, h5⟩
    · obtain ⟨rfl, h6, h7, h8⟩ := eats_colonReg.1 h5
      refine ⟨rfl, ⟨h3', ?_⟩, h8, ?_⟩
      · rintro p ⟨⟩; exact ⟨h6, h7⟩
      · rintro ⟨⟩
    · refine ⟨by simp [UserInfo.show, optText], ⟨h3', by rintro p ⟨⟩⟩, h4, ?_⟩
      rintro - r' rfl hs
      rcases fail_skipLeft.1 h5 with h6 | ⟨t', v, rest', h6, h7, h8⟩
      · exact (fail_elm.1 h6).2 r' rfl
      · obtain ⟨rfl, -⟩ := eats_elm.1 h7
        obtain rfl : r' = rest' := by simpa using h6
        obtain ⟨v', hv'⟩ : ∃ c, Fail (many1 regChar) r' c := by
          rcases outcomes (many1 regChar) r' with ⟨t, v, rest, rfl, he⟩ | hc | hr
          · exfalso
            have : Eats (text (many1 regChar)) t t rest :=
              unit_regChar.eats_text1.2 ⟨rfl, unit_regChar.eats_many1.1 ⟨v, he⟩⟩
            exact not_eats_fail this h8
          · exact hc
          · exact absurd unit_regChar.ret_many1 hr
        exact unit_regChar.fails.1 (fail_many1.1 hv').2 hs
  · rintro ⟨rfl, ⟨h1, h2⟩, h3, h4⟩
    refine ⟨(n, pw), ?_, rfl⟩
    have hn := units_true.2 h1
    cases pw with
    | none =>
      refine eats_andThen.2 ⟨n, [], by simp [UserInfo.show, optText], ?_, ?_⟩
      · exact unit_regChar.eats_text0.2 ⟨rfl, hn, h3⟩
      · refine eats_opt.2 (.inr ⟨rfl, rfl, ?_⟩)
        by_cases hr : ∃ r', rest = byte ':' :: r'
        · obtain ⟨r', rfl⟩ := hr
          exact ⟨_, fail_skipLeft.2 (.inr ⟨[byte ':'], byte ':', r', rfl, eats_elm.2 ⟨rfl, rfl⟩,
            unit_regChar.fail_text1 (h4 rfl r' rfl)⟩)⟩
        · exact ⟨_, fail_skipLeft.2 (.inl (fail_elm.2 ⟨rfl, fun r' h => hr ⟨r', h⟩⟩))⟩
    | some w =>
      obtain ⟨h5, h6⟩ := h2 w rfl
      refine eats_andThen.2 ⟨n, byte ':' :: w, rfl, ?_, eats_opt.2 (.inl ⟨w, rfl, ?_⟩)⟩
      · exact unit_regChar.eats_text0.2 ⟨rfl, hn, start_cons colon_not_reg (by decide)⟩
      · exact eats_colonReg.2 ⟨rfl, h5, h6, h3⟩

/-- `user_info "@"` -/
theorem eats_userAt {u : UserInfo} : Eats (skipRight userInfo (elm (byte '@'))) t u rest ↔
    t = u.show ++ [byte '@'] ∧ UserInfoOk u := by
  rw [eats_skipRight]
  constructor
  · rintro ⟨t1, t2, w, rfl, h1, h2⟩
    obtain ⟨rfl, -⟩ := eats_elm.1 h2
    obtain ⟨rfl, h3, -⟩ := eats_userInfo.1 h1
    exact ⟨rfl, h3⟩
  · rintro ⟨rfl, h⟩
    refine ⟨u.show, [byte '@'], byte '@', rfl, eats_userInfo.2 ⟨rfl, h, ?_, ?_⟩, eats_elm.2 ⟨rfl, rfl⟩⟩
    · exact start_cons at_not_reg (by decide)
    · rintro - r' h; exact absurd (List.cons.inj h).1 (by decide)

/-! ### Port -/

instance : Good port := by unfold port; infer_instance
instance : Halts port := by unfold port; infer_instance

theorem digits_of_many {vs : List UInt8} : Eats (many0 elmDigit) t vs rest → vs = t := by
  intro h
  have h1 := (eats_many0.1 h).1
  clear h
  induction h1 with
  | nil => rfl
  | cons h1 _ ih => obtain ⟨rfl, -⟩ := eats_elmPred.1 h1; rw [ih]; rfl

/-- `":" port` -/
theorem eats_colonPort {n : Nat} : Eats (skipLeft (elm (byte ':')) port) t n rest ↔
    ∃ ds, t = byte ':' :: ds ∧ ds ≠ [] ∧ (∀ b ∈ ds, Digit b) ∧ value ds = n ∧ n ≤ 65535 ∧
      ¬ Start Digit False rest := by
  rw [eats_skipLeft]
  have key : ∀ ds, Eats port ds n rest ↔ ds ≠ [] ∧ (∀ b ∈ ds, Digit b) ∧ value ds = n ∧ n ≤ 65535 ∧
      ¬ Start Digit False rest := by
    intro ds
    unfold port
    simp only [eats_name, eats_mapRes]
    constructor
    · rintro ⟨s, ⟨v, h1, h2⟩, h3⟩
      obtain rfl := digits_of_many h1
      obtain ⟨h4, h5⟩ := unit_digit.eats_many0.1 ⟨_, h1⟩
      have h6 := units_false.1 h4
      rw [fromUtf8_ascii _ (fun b hb => unit_digit.ascii (h6 b hb))] at h2
      cases h2
      rw [parseUInt_dec _ _ h6] at h3
      split at h3
      · rename_i h7; cases h3; exact ⟨h7.1, h6, rfl, h7.2, h5⟩
      · cases h3
    · rintro ⟨h1, h2, h3, h4, h5⟩
      obtain ⟨v, h6⟩ := unit_digit.eats_many0.2 ⟨units_false.2 h2, h5⟩
      obtain rfl := digits_of_many h6
      refine ⟨v, ⟨v, h6, fromUtf8_ascii _ fun b hb => unit_digit.ascii (h2 b hb)⟩, ?_⟩
      rw [parseUInt_dec _ _ h2, if_pos ⟨h1, by omega⟩, h3]
  constructor
  · rintro ⟨t1, t2, w, rfl, h1, h2⟩
    obtain ⟨rfl, -⟩ := eats_elm.1 h1
    exact ⟨t2, rfl, (key t2).1 h2⟩
  · rintro ⟨ds, rfl, h⟩
    exact ⟨[byte ':'], ds, byte ':', rfl, eats_elm.2 ⟨rfl, rfl⟩, (key ds).2 h⟩

/-! ### IPv4 addresses -/

/-- A parser that reads exactly the texts of a set, whatever follows, and fails softly. -/
structure Fixed (p : Parser UInt8 A) (L : Bytes → Prop) : Prop where
  good : Good p
  halts : Halts p
  eats : ∀ {t rest}, (∃ v, Eats p t v rest) ↔ L t
  soft : ∀ r c, Fail p r c → c = .uncommitted

theorem Fixed.fail {p : Parser UInt8 A} {L : Bytes → Prop} (h : Fixed p L) :
    Fail p r .uncommitted ↔ ∀ t rest, r = t ++ rest → ¬ L t := by
  have := h.good; have := h.halts
  rw [fail_of_soft h.soft]
  constructor
  · intro h1 t rest hr hl
    obtain ⟨v, hv⟩ := h.eats.2 hl
    exact h1 t v rest hr hv
  · intro h1 t v rest hr he
    exact h1 t rest hr (h.eats.1 ⟨v, he⟩)

theorem byte_eq {b : UInt8} {c : Char} (h : c.toNat < 256) : b = byte c ↔ b.toNat = c.toNat := by
  rw [← byte_toNat c h]
  exact ⟨fun h => h ▸ rfl, toNat_inj⟩

theorem Fixed.congr {p : Parser UInt8 A} {L M : Bytes → Prop} (h : Fixed p L) (e : ∀ t, L t ↔ M t) : Fixed p M where
  good := h.good
  halts := h.halts
  eats := by intro t rest; rw [h.eats, e]
  soft := h.soft

theorem fixed_elm (c : Char) : Fixed (elm (byte c)) (fun t => ∃ b, t = [b] ∧ b = byte c) where
  good := inferInstance
  halts := inferInstance
  eats := by intro t rest; simp only [eats_elm]; simp
  soft := fun _ _ h => (fail_elm.1 h).1

theorem fixed_digit : Fixed (elmDigit : Parser UInt8 UInt8) (fun t => ∃ b, t = [b] ∧ Digit b) where
  good := inferInstance
  halts := inferInstance
  eats := by
    intro t rest
    have := unit_digit.eats (t := t) (rest := rest)
    simpa using this
  soft := fun _ _ h => (fail_elmPred.1 h).1

theorem fixed_digit19 : Fixed (elmDigit19 : Parser UInt8 UInt8)
    (fun t => ∃ b, t = [b] ∧ Digit b ∧ b.toNat ≠ 48) where
  good := inferInstance
  halts := inferInstance
  eats := by
    intro t rest
    unfold elmDigit19 filterNot elmDigit
    simp only [eats_filter, eats_elmPred]
    refine exists_congr fun b => ?_
    rw [isDigit_iff, show Element.isDigitZero b = Byte.isDigitZero b from rfl]
    simp [Byte.isDigitZero, Byte.is, and_assoc]
  soft := by
    intro r c h
    rcases fail_filter.1 h with h | ⟨h, -⟩
    · exact (fail_elmPred.1 h).1
    · exact h

theorem fixed_in (a b : Char) : Fixed (elmIn (byte a) (byte b))
    (fun t => ∃ x, t = [x] ∧ (byte a).toNat ≤ x.toNat ∧ x.toNat ≤ (byte b).toNat) where
  good := inferInstance
  halts := inferInstance
  eats := by
    intro t rest
    unfold elmIn
    simp only [eats_elmOfSet]
    refine exists_congr fun x => ?_
    simp [setIncl, show ∀ y : UInt8, Element.code y = y.toNat from fun _ => rfl]
  soft := fun _ _ h => (fail_elmOfSet.1 h).1

theorem Fixed.seq {p : Parser UInt8 A} {q : Parser UInt8 B} {L M : Bytes → Prop} (h : Fixed p L)
    (h' : Fixed q M) : Fixed (andThen p q) (fun t => ∃ t1 t2, t = t1 ++ t2 ∧ L t1 ∧ M t2) := by
  have := h.good; have := h'.good; have := h.halts; have := h'.halts
  refine ⟨inferInstance, inferInstance, ?_, ?_⟩
  · intro t rest
    constructor
    · rintro ⟨⟨v, w⟩, he⟩
      obtain ⟨t1, t2, rfl, h1, h2⟩ := eats_andThen.1 he
      exact ⟨t1, t2, rfl, h.eats.1 ⟨_, h1⟩, h'.eats.1 ⟨_, h2⟩⟩
    · rintro ⟨t1, t2, rfl, h1, h2⟩
      obtain ⟨v, h3⟩ := (h.eats (rest := t2 ++ rest)).2 h1
      obtain ⟨w, h4⟩ := (h'.eats (rest := rest)).2 h2
      exact ⟨(v, w), eats_andThen.2 ⟨t1, t2, rfl, h3, h4⟩⟩
  · intro r c hf
    rcases fail_andThen.1 hf with hf | ⟨_, _, _, -, -, hf⟩
    · exact h.soft _ _ hf
    · exact h'.soft _ _ hf

theorem Fixed.coll {p : Parser UInt8 A} {L : Bytes → Prop} (h : Fixed p L) : Fixed (collect p) L := by
  have := h.good; have := h.halts
  refine ⟨inferInstance, inferInstance, ?_, fun r c hf => h.soft r c (fail_collect.1 hf)⟩
  intro t rest
  rw [← h.eats (rest := rest)]
  simp only [eats_collect, exists_eq_left]

theorem Fixed.att {p : Parser UInt8 A} {L : Bytes → Prop} (h : Fixed p L) : Fixed (attempt p) L := by
  have := h.good; have := h.halts
  refine ⟨inferInstance, inferInstance, ?_, fun r c hf => (fail_attempt.1 hf).1⟩
  intro t rest
  rw [← h.eats (rest := rest)]
  simp only [eats_attempt]

/-- No prefix of the text is in the set. -/
def NoPrefix (L : Bytes → Prop) (r : Bytes) : Prop := ∀ t rest, r = t ++ rest → ¬ L t

theorem eats_or5 {p5 p4 p3 p2 p1 : Parser UInt8 A} {L5 L4 L3 L2 L1 : Bytes → Prop} (h5 : Fixed p5 L5)
    (h4 : Fixed p4 L4) (h3 : Fixed p3 L3) (h2 : Fixed p2 L2) (h1 : Fixed p1 L1) :
    (∃ v, Eats (or (or (or (or p5 p4) p3) p2) p1) t v rest) ↔
      L5 t ∨ (NoPrefix L5 (t ++ rest) ∧ (L4 t ∨ (NoPrefix L4 (t ++ rest) ∧ (L3 t ∨
        (NoPrefix L3 (t ++ rest) ∧ (L2 t ∨ (NoPrefix L2 (t ++ rest) ∧ L1 t))))))) := by
  simp only [eats_or, fail_or, exists_or, h5.fail, h4.fail, h3.fail, h2.fail, exists_and_left,
    reduceCtorEq, false_and, false_or, NoPrefix]
  rw [h5.eats, h4.eats, h3.eats, h2.eats, h1.eats]
  tauto

/-- The longest prefix that is a number up to 255 without leading zeros. -/
def OctetStop (t rest : Bytes) : Prop :=
  ∀ d r', rest = d :: r' → Digit d → t = [byte '0'] ∨ 255 < value (t ++ [d])

theorem value_long (x y z w : UInt8) (t : Bytes) (hx : x.toNat ≠ 48) (hd : Digit x) :
    255 < value (x :: y :: z :: w :: t) := by
  unfold value
  simp only [List.foldl_cons]
  have := foldl_ge t ((((0 * 10 + (x.toNat - 48)) * 10 + (y.toNat - 48)) * 10 + (z.toNat - 48)) * 10 +
    (w.toNat - 48))
  unfold Digit at hd
  omega

/-- The five alternatives of `dec_octet` read the longest number up to 255. -/
theorem octet_alternatives (t rest : Bytes) :
    ((∃ z, t = [byte '2', byte '5', z] ∧ 48 ≤ z.toNat ∧ z.toNat ≤ 53) ∨
      (NoPrefix (fun t => ∃ z, t = [byte '2', byte '5', z] ∧ 48 ≤ z.toNat ∧ z.toNat ≤ 53) (t ++ rest) ∧
      ((∃ y z, t = [byte '2', y, z] ∧ 48 ≤ y.toNat ∧ y.toNat ≤ 52 ∧ Digit z) ∨
      (NoPrefix (fun t => ∃ y z, t = [byte '2', y, z] ∧ 48 ≤ y.toNat ∧ y.toNat ≤ 52 ∧ Digit z) (t ++ rest) ∧
      ((∃ y z, t = [byte '1', y, z] ∧ Digit y ∧ Digit z) ∨
      (NoPrefix (fun t => ∃ y z, t = [byte '1', y, z] ∧ Digit y ∧ Digit z) (t ++ rest) ∧
      ((∃ x y, t = [x, y] ∧ Digit x ∧ x.toNat ≠ 48 ∧ Digit y) ∨
      (NoPrefix (fun t => ∃ x y, t = [x, y] ∧ Digit x ∧ x.toNat ≠ 48 ∧ Digit y) (t ++ rest) ∧
      (∃ x, t = [x] ∧ Digit x))))))))) ↔
    DecText t (value t) ∧ value t ≤ 255 ∧ OctetStop t rest := by
  have e0 : (byte '0').toNat = 48 := rfl
  have e1 : (byte '1').toNat = 49 := rfl
  have e2 : (byte '2').toNat = 50 := rfl
  have e5 : (byte '5').toNat = 53 := rfl
  have three : ∀ x y z : UInt8, Digit x → Digit y → Digit z → x.toNat ≠ 48 → value [x, y, z] ≤ 255 →
      DecText [x, y, z] (value [x, y, z]) ∧ value [x, y, z] ≤ 255 ∧ OctetStop [x, y, z] rest := by
    intro x y z hx hy hz h0 hv
    refine ⟨⟨by simp, by simp [hx, hy, hz], rfl, fun h => ?_⟩, hv, fun d r' _ _ => .inr ?_⟩
    · simp only [List.head?_cons, Option.some.injEq] at h; subst h; exact absurd e0 h0
    · exact value_long x y z d [] h0 hx
  constructor
  · rintro (⟨z, rfl, h1, h2⟩ | ⟨n5, ⟨y, z, rfl, h1, h2, h3⟩ | ⟨n4, ⟨y, z, rfl, h1, h2⟩ |
      ⟨n3, ⟨x, y, rfl, h1, h2, h3⟩ | ⟨n2, ⟨x, rfl, h1⟩⟩⟩⟩⟩)
    · refine three _ _ _ (by decide) (by decide) ?_ (by decide) ?_
      · unfold Digit; omega
      · simp only [value, List.foldl_cons, List.foldl_nil, e2, e5]; omega
    · refine three _ _ _ (by decide) ?_ h3 (by decide) ?_
      · unfold Digit; omega
      · unfold Digit at h3; simp only [value, List.foldl_cons, List.foldl_nil, e2]; omega
    · refine three _ _ _ (by decide) h1 h2 (by decide) ?_
      unfold Digit at h1 h2; simp only [value, List.foldl_cons, List.foldl_nil, e1]; omega
    · refine ⟨⟨by simp, by simp [h1, h3], rfl, fun h => ?_⟩, ?_, ?_⟩
      · simp only [List.head?_cons, Option.some.injEq] at h; subst h; exact absurd e0 h2
      · unfold Digit at h1 h3; simp only [value, List.foldl_cons, List.foldl_nil]; omega
      · rintro d r' rfl hd
        right
        have g5 := n5 [x, y, d] r' (by simp)
        have g4 := n4 [x, y, d] r' (by simp)
        have g3 := n3 [x, y, d] r' (by simp)
        have hx1 : x.toNat ≠ 49 := by
          intro hx; have : x = byte '1' := toNat_inj hx
          subst this; exact g3 ⟨y, d, rfl, h3, hd⟩
        have hx2 : x.toNat = 50 → 53 ≤ y.toNat := by
          intro hx; have : x = byte '2' := toNat_inj hx
          subst this
          by_contra hlt
          unfold Digit at h3
          exact g4 ⟨y, d, rfl, h3.1, by omega, hd⟩
        have hx3 : x.toNat = 50 → y.toNat = 53 → 53 < d.toNat := by
          intro hx hy; have h1' : x = byte '2' := toNat_inj hx
          have h2' : y = byte '5' := toNat_inj hy
          subst h1' h2'
          by_contra hlt
          unfold Digit at hd
          exact g5 ⟨d, rfl, hd.1, by omega⟩
        unfold Digit at h1 h3 hd
        simp only [value, List.cons_append, List.nil_append, List.foldl_cons, List.foldl_nil]
        by_cases hx : x.toNat = 50
        · have := hx2 hx
          by_cases hy : y.toNat = 53
          · have := hx3 hx hy; omega
          · omega
        · omega
    · refine ⟨⟨by simp, by simp [h1], rfl, fun h => by simpa using h⟩, ?_, ?_⟩
      · unfold Digit at h1; simp only [value, List.foldl_cons, List.foldl_nil]; omega
      · rintro d r' rfl hd
        left
        by_contra hx
        have hx' : x.toNat ≠ 48 := fun h => hx (by rw [show x = byte '0' from toNat_inj h])
        exact n2 [x, d] r' (by simp) ⟨x, d, rfl, h1, hx', hd⟩
  · rintro ⟨⟨h1, h2, -, h3⟩, h4, h5⟩
    have pre : ∀ {u u' : Bytes} {a b : UInt8} {l : Bytes}, a :: l = u ++ u' → u.head? = some b → a = b := by
      intro u u' a b l h hu
      cases u with
      | nil => cases hu
      | cons c u => simp at hu h; rw [h.1, hu]
    match t, h1 with
    | [x], _ =>
      have hx : Digit x := h2 x (by simp)
      have n2 : NoPrefix (fun t => ∃ x y, t = [x, y] ∧ Digit x ∧ x.toNat ≠ 48 ∧ Digit y) ([x] ++ rest) := by
        rintro _ rest' he ⟨a, d, rfl, ha, ha0, hd⟩
        simp only [List.cons_append, List.nil_append, List.cons.injEq] at he
        obtain ⟨rfl, he⟩ := he
        rcases h5 d rest' he hd with h | h
        · simp only [List.cons.injEq, and_true] at h; subst h; exact ha0 e0
        · unfold Digit at ha hd
          simp only [value, List.cons_append, List.nil_append, List.foldl_cons, List.foldl_nil] at h
          omega
      refine .inr ⟨?_, .inr ⟨?_, .inr ⟨?_, .inr ⟨n2, x, rfl, hx⟩⟩⟩⟩
      · rintro _ rest' he ⟨z, rfl, -⟩
        exact n2 [byte '2', byte '5'] (z :: rest') he ⟨_, _, rfl, by decide, by decide, by decide⟩
      · rintro _ rest' he ⟨y, z, rfl, ha, hb, -⟩
        exact n2 [byte '2', y] (z :: rest') he ⟨_, _, rfl, by decide, by decide, by unfold Digit; omega⟩
      · rintro _ rest' he ⟨y, z, rfl, ha, -⟩
        exact n2 [byte '1', y] (z :: rest') he ⟨_, _, rfl, by decide, by decide, ha⟩
    | [x, y], _ =>
      have hx : Digit x := h2 x (by simp)
      have hy : Digit y := h2 y (by simp)
      have hx0 : x.toNat ≠ 48 := by
        intro h
        have := h3 (by rw [show x = byte '0' from toNat_inj h]; rfl)
        simp at this
      have no : ∀ a b c rest', [x, y] ++ rest = [a, b, c] ++ rest' → Digit c → value [a, b, c] ≤ 255 → False := by
        intro a b c rest' he hc hv
        simp only [List.cons_append, List.nil_append, List.cons.injEq] at he
        obtain ⟨rfl, rfl, he⟩ := he
        rcases h5 c rest' he hc with h | h
        · simp at h
        · simp only [List.cons_append, List.nil_append] at h; omega
      refine .inr ⟨?_, .inr ⟨?_, .inr ⟨?_, .inl ⟨x, y, rfl, hx, hx0, hy⟩⟩⟩⟩
      · rintro _ rest' he ⟨z, rfl, ha, hb⟩
        refine no _ _ _ rest' he (by unfold Digit; omega) ?_
        simp only [value, List.foldl_cons, List.foldl_nil, e2, e5]; omega
      · rintro _ rest' he ⟨y', z, rfl, ha, hb, hc⟩
        refine no _ _ _ rest' he hc ?_
        unfold Digit at hc
        simp only [value, List.foldl_cons, List.foldl_nil, e2]; omega
      · rintro _ rest' he ⟨y', z, rfl, hb, hc⟩
        refine no _ _ _ rest' he hc ?_
        unfold Digit at hb hc
        simp only [value, List.foldl_cons, List.foldl_nil, e1]; omega
    | [x, y, z], _ =>
      have hx : Digit x := h2 x (by simp)
      have hy : Digit y := h2 y (by simp)
      have hz : Digit z := h2 z (by simp)
      have hx0 : x.toNat ≠ 48 := by
        intro h
        have := h3 (by rw [show x = byte '0' from toNat_inj h]; rfl)
        simp at this
      simp only [value, List.foldl_cons, List.foldl_nil] at h4
      unfold Digit at hx hy hz
      have n3 : ∀ {L : Bytes → Prop}, (∀ u, L u → ∃ a b c, u = [a, b, c]) → ¬ L [x, y, z] →
          NoPrefix L ([x, y, z] ++ rest) := by
        intro L hL hn u rest' he hu
        obtain ⟨a, b, c, rfl⟩ := hL u hu
        simp only [List.cons_append, List.nil_append, List.cons.injEq] at he
        obtain ⟨rfl, rfl, rfl, -⟩ := he
        exact hn hu
      by_cases c1 : x.toNat = 49
      · have : x = byte '1' := toNat_inj c1
        subst this
        refine .inr ⟨n3 ?_ ?_, .inr ⟨n3 ?_ ?_, .inl ⟨y, z, rfl, hy, hz⟩⟩⟩
        · rintro u ⟨z, rfl, -⟩; exact ⟨_, _, _, rfl⟩
        · rintro ⟨z, h, -⟩; exact absurd (List.cons.inj h).1 (by decide)
        · rintro u ⟨y, z, rfl, -⟩; exact ⟨_, _, _, rfl⟩
        · rintro ⟨y, z, h, -⟩; exact absurd (List.cons.inj h).1 (by decide)
      · have c2 : x.toNat = 50 := by omega
        have : x = byte '2' := toNat_inj c2
        subst this
        by_cases c3 : y.toNat = 53
        · have : y = byte '5' := toNat_inj c3
          subst this
          exact .inl ⟨z, rfl, hz.1, by omega⟩
        · refine .inr ⟨n3 ?_ ?_, .inl ⟨y, z, rfl, hy.1, by omega, hz⟩⟩
          · rintro u ⟨z, rfl, -⟩; exact ⟨_, _, _, rfl⟩
          · rintro ⟨z, h, -⟩
            simp only [List.cons.injEq, true_and] at h
            rw [h.1] at c3; exact c3 e5
    | x :: y :: z :: w :: t, _ =>
      have hx0 : x.toNat ≠ 48 := by
        intro h
        have := h3 (by rw [show x = byte '0' from toNat_inj h]; rfl)
        simp at this
      have := value_long x y z w t hx0 (h2 x (by simp))
      omega

instance : Good decOctet := by unfold decOctet; infer_instance
instance : Halts decOctet := by unfold decOctet; infer_instance

/-- `dec_octet` reads the longest number up to 255 without leading zeros. -/
theorem eats_decOctet {n : Nat} : Eats decOctet t n rest ↔ DecText t n ∧ n ≤ 255 ∧ OctetStop t rest := by
  have key := octet_alternatives t rest
  have f5 : Fixed (attempt (collect (andThen (andThen (elm (byte '2')) (elm (byte '5')))
      (elmIn (byte '0') (byte '5'))))) (fun t => ∃ z, t = [byte '2', byte '5', z] ∧ 48 ≤ z.toNat ∧ z.toNat ≤ 53) := by
    refine ((((fixed_elm '2').seq (fixed_elm '5')).seq (fixed_in '0' '5')).coll.att).congr fun t => ?_
    constructor
    · rintro ⟨_, _, rfl, ⟨_, _, rfl, ⟨_, rfl, rfl⟩, ⟨_, rfl, rfl⟩⟩, ⟨z, rfl, h1, h2⟩⟩; exact ⟨z, rfl, h1, h2⟩
    · rintro ⟨z, rfl, h1, h2⟩
      exact ⟨[_, _], [z], rfl, ⟨[_], [_], rfl, ⟨_, rfl, rfl⟩, ⟨_, rfl, rfl⟩⟩, ⟨z, rfl, h1, h2⟩⟩
  have f4 : Fixed (attempt (collect (andThen (andThen (elm (byte '2')) (elmIn (byte '0') (byte '4'))) elmDigit)))
      (fun t => ∃ y z, t = [byte '2', y, z] ∧ 48 ≤ y.toNat ∧ y.toNat ≤ 52 ∧ Digit z) := by
    refine ((((fixed_elm '2').seq (fixed_in '0' '4')).seq fixed_digit).coll.att).congr fun t => ?_
    constructor
    · rintro ⟨_, _, rfl, ⟨_, _, rfl, ⟨_, rfl, rfl⟩, ⟨y, rfl, h1, h2⟩⟩, ⟨z, rfl, h3⟩⟩
      exact ⟨y, z, rfl, h1, h2, h3⟩
    · rintro ⟨y, z, rfl, h1, h2, h3⟩
      exact ⟨[_, y], [z], rfl, ⟨[_], [y], rfl, ⟨_, rfl, rfl⟩, ⟨_, rfl, h1, h2⟩⟩, ⟨z, rfl, h3⟩⟩
  have f3 : Fixed (attempt (collect (andThen (andThen (elm (byte '1')) elmDigit) elmDigit)))
      (fun t => ∃ y z, t = [byte '1', y, z] ∧ Digit y ∧ Digit z) := by
    refine ((((fixed_elm '1').seq fixed_digit).seq fixed_digit).coll.att).congr fun t => ?_
    constructor
    · rintro ⟨_, _, rfl, ⟨_, _, rfl, ⟨_, rfl, rfl⟩, ⟨y, rfl, h1⟩⟩, ⟨z, rfl, h3⟩⟩
      exact ⟨y, z, rfl, h1, h3⟩
    · rintro ⟨y, z, rfl, h1, h3⟩
      exact ⟨[_, y], [z], rfl, ⟨[_], [y], rfl, ⟨_, rfl, rfl⟩, ⟨_, rfl, h1⟩⟩, ⟨z, rfl, h3⟩⟩
  have f2 : Fixed (attempt (collect (andThen elmDigit19 elmDigit)))
      (fun t => ∃ x y, t = [x, y] ∧ Digit x ∧ x.toNat ≠ 48 ∧ Digit y) := by
    refine ((fixed_digit19.seq fixed_digit).coll.att).congr fun t => ?_
    constructor
    · rintro ⟨_, _, rfl, ⟨x, rfl, h1, h2⟩, ⟨y, rfl, h3⟩⟩; exact ⟨x, y, rfl, h1, h2, h3⟩
    · rintro ⟨x, y, rfl, h1, h2, h3⟩; exact ⟨[x], [y], rfl, ⟨x, rfl, h1, h2⟩, ⟨y, rfl, h3⟩⟩
  have f1 : Fixed (collect elmDigit) (fun t => ∃ x, t = [x] ∧ Digit x) := fixed_digit.coll
  have all := (eats_or5 f5 f4 f3 f2 f1 (t := t) (rest := rest)).trans key
  unfold decOctet
  simp only [eats_name, eats_mapRes, eats_text]
  rw [all]
  constructor
  · rintro ⟨v, ⟨h1, h2, h3, h4⟩, h5⟩
    rw [fromUtf8_ascii _ (fun b hb => unit_digit.ascii (h2.2.1 b hb))] at h1
    cases h1
    rw [parseUInt_dec _ _ h2.2.1, if_pos ⟨h2.1, h3⟩] at h5
    cases h5
    exact ⟨h2, h3, h4⟩
  · rintro ⟨h2, h3, h4⟩
    have hn : value t = n := h2.2.2.1
    refine ⟨t, ⟨fromUtf8_ascii _ fun b hb => unit_digit.ascii (h2.2.1 b hb), hn ▸ h2, by omega, h4⟩, ?_⟩
    rw [parseUInt_dec _ _ h2.2.1, if_pos ⟨h2.1, by omega⟩, hn]

theorem dot_stop {t r : Bytes} : OctetStop t (byte '.' :: r) := by
  intro d r' h hd
  cases h
  exact absurd hd (by decide)

instance : Good ipv4Address := by unfold ipv4Address; infer_instance
instance : Halts ipv4Address := by unfold ipv4Address; infer_instance

/-- The last octet ends where it must. -/
def Ipv4Stop (x : Ipv4) (rest : Bytes) : Prop := OctetStop (dec x.d) rest

theorem eats_ipv4Address {x : Ipv4} : Eats ipv4Address t x rest ↔ Ipv4Text t x ∧ Ipv4Stop x rest := by
  obtain ⟨a, b, c, d⟩ := x
  unfold ipv4Address
  simp only [eats_name, eats_map]
  constructor
  · rintro ⟨⟨⟨⟨a', b'⟩, c'⟩, d'⟩, h, he⟩
    cases he
    obtain ⟨u1, td, rfl, h1, hd⟩ := eats_andThen.1 h
    obtain ⟨u2, dot, w, rfl, h2, h2'⟩ := eats_skipRight.1 h1
    obtain ⟨rfl, -⟩ := eats_elm.1 h2'
    obtain ⟨u3, tc, rfl, h3, hc⟩ := eats_andThen.1 h2
    obtain ⟨u4, dot, w, rfl, h4, h4'⟩ := eats_skipRight.1 h3
    obtain ⟨rfl, -⟩ := eats_elm.1 h4'
    obtain ⟨u5, tb, rfl, h5, hb⟩ := eats_andThen.1 h4
    obtain ⟨ta, dot, w, rfl, ha, h6'⟩ := eats_skipRight.1 h5
    obtain ⟨rfl, -⟩ := eats_elm.1 h6'
    have ha := eats_decOctet.1 ha
    have hb := eats_decOctet.1 hb
    have hc := eats_decOctet.1 hc
    have hd := eats_decOctet.1 hd
    refine ⟨⟨ta, tb, tc, td, rfl, ha.1, hb.1, hc.1, hd.1, ha.2.1, hb.2.1, hc.2.1, hd.2.1⟩, ?_⟩
    have := hd.2.2
    rw [decText_iff.1 hd.1] at this
    exact this
  · rintro ⟨⟨ta, tb, tc, td, rfl, ha, hb, hc, hd, la, lb, lc, ld⟩, hs⟩
    refine ⟨(((a, b), c), d), ?_, rfl⟩
    have e : ∀ {t : Bytes}, Eats (elm (byte '.')) [byte '.'] (byte '.') t := eats_elm.2 ⟨rfl, rfl⟩
    refine eats_andThen.2 ⟨_, td, rfl, eats_skipRight.2 ⟨_, [byte '.'], _, rfl, eats_andThen.2 ⟨_, tc, rfl,
      eats_skipRight.2 ⟨_, [byte '.'], _, rfl, eats_andThen.2 ⟨_, tb, rfl,
      eats_skipRight.2 ⟨ta, [byte '.'], _, rfl, ?_, e⟩, ?_⟩, e⟩, ?_⟩, e⟩, ?_⟩
    · exact eats_decOctet.2 ⟨ha, la, dot_stop⟩
    · exact eats_decOctet.2 ⟨hb, lb, dot_stop⟩
    · exact eats_decOctet.2 ⟨hc, lc, dot_stop⟩
    · refine eats_decOctet.2 ⟨hd, ld, ?_⟩
      rw [decText_iff.1 hd]; exact hs

theorem ipv4Text_iff {x : Ipv4} : Ipv4Text t x ↔
    t = x.show ∧ x.a ≤ 255 ∧ x.b ≤ 255 ∧ x.c ≤ 255 ∧ x.d ≤ 255 := by
  unfold Ipv4Text
  simp only [decText_iff]
  constructor
  · rintro ⟨_, _, _, _, rfl, rfl, rfl, rfl, rfl, h⟩; exact ⟨rfl, h⟩
  · rintro ⟨rfl, h⟩; exact ⟨_, _, _, _, rfl, rfl, rfl, rfl, rfl, h⟩

end OniComb.Uri
