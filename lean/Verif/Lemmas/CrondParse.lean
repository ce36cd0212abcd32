import Verif.Lemmas.Text
import Verif.Spec.Crond

/-!
# Helper lemmas for the cron parser: each parser reads exactly the texts of the specification
-/

namespace OniComb.Crond
open OniComb

/-! ### Elements of `char` -/

theorem char_toNat_inj {a b : Char} (h : a.toNat = b.toNat) : a = b := by
  apply Char.ext; apply UInt32.toNat_inj.1; exact h

theorem isDigit_iff {c : Char} : (Element.isDigit c = true) ↔ 48 ≤ c.toNat ∧ c.toNat ≤ 57 := by
  show Chr.isDigit c = true ↔ _
  simp [Chr.isDigit, Chr.between]

theorem isDigitZero_iff {c : Char} : (Element.isDigitZero c = true) ↔ c = '0' := by
  show Chr.isDigitZero c = true ↔ _
  simp [Chr.isDigitZero]

theorem eats_digit {t rest : List Char} {c : Char} :
    Eats elmDigit t c rest ↔ t = [c] ∧ 48 ≤ c.toNat ∧ c.toNat ≤ 57 := by
  unfold elmDigit; rw [eats_elmPred, isDigit_iff]

theorem eats_digit19 {t rest : List Char} {c : Char} :
    Eats elmDigit19 t c rest ↔ t = [c] ∧ 49 ≤ c.toNat ∧ c.toNat ≤ 57 := by
  unfold elmDigit19 filterNot
  rw [eats_filter, eats_digit]
  have h0 : (!Element.isDigitZero c) = true ↔ c.toNat ≠ 48 := by
    rw [Bool.not_eq_true', ← Bool.not_eq_true, isDigitZero_iff]
    exact not_congr ⟨fun h => h ▸ rfl, fun h => char_toNat_inj h⟩
  rw [h0]
  constructor
  · rintro ⟨⟨h1, h2, h3⟩, h4⟩; exact ⟨h1, by omega, h3⟩
  · rintro ⟨h1, h2, h3⟩; exact ⟨⟨h1, by omega, h3⟩, by omega⟩

theorem eats_in {t rest : List Char} {a b c : Char} :
    Eats (elmIn a b) t c rest ↔ t = [c] ∧ a.toNat ≤ c.toNat ∧ c.toNat ≤ b.toNat := by
  unfold elmIn; rw [eats_elmOfSet]
  simp [setIncl, Element.code]

theorem eats_ofList {t rest l : List Char} {c : Char} :
    Eats (elmOf l) t c rest ↔ t = [c] ∧ c ∈ l := by
  unfold elmOf; rw [eats_elmOfSet]
  simp [setOfList]

/-- A one character parser: reads one character of a class, fails uncommitted on everything else. -/
structure One (p : Parser Char Char) (P : Char → Prop) : Prop where
  eats : ∀ {t c rest}, Eats p t c rest ↔ t = [c] ∧ P c
  fail : ∀ {r}, (∀ c r', r = c :: r' → ¬ P c) → Fail p r .uncommitted
  ret : ∀ {r}, Ret p r

theorem One.congr {p : Parser Char Char} {P Q : Char → Prop} (h : One p P) (hPQ : ∀ c, P c ↔ Q c) :
    One p Q :=
  ⟨fun {t c rest} => by rw [h.eats, hPQ], fun hr => h.fail fun c r' h' => by rw [hPQ]; exact hr c r' h',
   h.ret⟩

theorem one_pred (f : Char → Bool) : One (elmPred f) (fun c => f c = true) :=
  ⟨eats_elmPred, fun h => fail_elmPred.2 ⟨rfl, fun c r' h' => by simpa using h c r' h'⟩, ret_elmPred⟩

theorem one_set (f : Char → Bool) : One (elmOfSet f) (fun c => f c = true) :=
  ⟨eats_elmOfSet, fun h => fail_elmOfSet.2 ⟨rfl, fun c r' h' => by simpa using h c r' h'⟩, ret_elmOfSet⟩

theorem one_elm (x : Char) : One (elm x) (fun c => c.toNat = x.toNat) :=
  (one_pred _).congr fun c => by
    simp only [decide_eq_true_eq]
    exact ⟨fun h => h ▸ rfl, char_toNat_inj⟩

theorem one_digit : One elmDigit (fun c => 48 ≤ c.toNat ∧ c.toNat ≤ 57) :=
  (one_pred _).congr fun _ => isDigit_iff

theorem one_in (a b : Char) : One (elmIn a b) (fun c => a.toNat ≤ c.toNat ∧ c.toNat ≤ b.toNat) :=
  (one_set _).congr fun _ => by simp [setIncl, Element.code]

theorem one_of (l : List Char) : One (elmOf l) (fun c => c ∈ l) :=
  (one_set _).congr fun _ => by simp [setOfList]

theorem one_digit19 : One elmDigit19 (fun c => 49 ≤ c.toNat ∧ c.toNat ≤ 57) where
  eats := eats_digit19
  fail := by
    intro r h
    unfold elmDigit19 filterNot
    rw [fail_filter]
    rcases outcomes elmDigit r with ⟨t, c, rest, h1, h2⟩ | ⟨c', h1⟩ | h1
    · refine .inr ⟨rfl, t, c, rest, h1, h2, ?_⟩
      have h3 := (eats_digit.1 h2)
      obtain ⟨rfl, h4, h5⟩ := h3
      have := h c rest h1
      have h0 : c.toNat = 48 := by omega
      have : Element.isDigitZero c = true := isDigitZero_iff.2 (char_toNat_inj h0)
      simp [this]
    · left
      have := (fail_elmPred.1 h1).1
      subst this; exact h1
    · exact absurd ret_elmPred h1
  ret := by
    intro r
    unfold elmDigit19 filterNot
    rw [ret_filter]
    exact ret_elmPred

/-! ### What a value parser has to satisfy -/

/-- Behind a value: the end or a character that occurs behind values in cron texts. -/
def Follow (r : List Char) : Prop := ∀ c r', r = c :: r' → c ∈ [',', ' ', '-', '/']

/-- A text that cannot start a value. -/
def NoStart (r : List Char) : Prop := ∀ c r', r = c :: r' → c ∈ [',', ' ', '-', '/', '*']

theorem Follow.noStart {r : List Char} (h : Follow r) : NoStart r := by
  intro c r' hr
  have := h c r' hr
  simp only [List.mem_cons, List.not_mem_nil, or_false] at this ⊢
  rcases this with h | h | h | h <;> simp [h]

/-- Two digits: a first and a second character class. -/
structure ValueParser (x : Parser Char CronExpr) (f : Field) : Prop where
  good : Good x
  sound : ∀ {t v rest}, Eats x t v rest → ValueText f t v
  complete : ∀ {t v rest}, ValueText f t v → Follow rest → Eats x t v rest
  fail : ∀ {r}, NoStart r → Fail x r .uncommitted
  ret : ∀ {r}, Ret x r

theorem NoStart.code {r : List Char} (h : NoStart r) (c : Char) (r' : List Char) (hr : r = c :: r') :
    c.toNat = 44 ∨ c.toNat = 32 ∨ c.toNat = 45 ∨ c.toNat = 47 ∨ c.toNat = 42 := by
  have := h c r' hr
  simp only [List.mem_cons, List.not_mem_nil, or_false] at this
  rcases this with rfl | rfl | rfl | rfl | rfl <;> decide

/-! ### Two character alternatives -/

section
variable {p q : Parser Char Char} {P Q : Char → Prop} [Good p] [Good q]

theorem eats_two (hp : One p P) (hq : One q Q) {t : List Char} {v : CronExpr} {rest : List Char}
    {g : Char × Char → CronExpr} :
    Eats (attempt (map (andThen p q) g)) t v rest ↔ ∃ c d, t = [c, d] ∧ P c ∧ Q d ∧ v = g (c, d) := by
  rw [eats_attempt, eats_map]
  constructor
  · rintro ⟨⟨c, d⟩, h, rfl⟩
    obtain ⟨t1, t2, rfl, h1, h2⟩ := eats_andThen.1 h
    obtain ⟨rfl, h3⟩ := hp.eats.1 h1
    obtain ⟨rfl, h4⟩ := hq.eats.1 h2
    exact ⟨c, d, rfl, h3, h4, rfl⟩
  · rintro ⟨c, d, rfl, h1, h2, rfl⟩
    exact ⟨(c, d), eats_andThen.2 ⟨[c], [d], rfl, hp.eats.2 ⟨rfl, h1⟩, hq.eats.2 ⟨rfl, h2⟩⟩, rfl⟩

theorem eats_two_skip (hp : One p P) (hq : One q Q) {t : List Char} {v : CronExpr} {rest : List Char}
    {g : Char → CronExpr} :
    Eats (attempt (map (skipLeft p q) g)) t v rest ↔ ∃ c d, t = [c, d] ∧ P c ∧ Q d ∧ v = g d := by
  rw [eats_attempt, eats_map]
  constructor
  · rintro ⟨d, h, rfl⟩
    obtain ⟨t1, t2, c, rfl, h1, h2⟩ := eats_skipLeft.1 h
    obtain ⟨rfl, h3⟩ := hp.eats.1 h1
    obtain ⟨rfl, h4⟩ := hq.eats.1 h2
    exact ⟨c, d, rfl, h3, h4, rfl⟩
  · rintro ⟨c, d, rfl, h1, h2, rfl⟩
    exact ⟨d, eats_skipLeft.2 ⟨[c], [d], c, rfl, hp.eats.2 ⟨rfl, h1⟩, hq.eats.2 ⟨rfl, h2⟩⟩, rfl⟩

theorem fail_two (hp : One p P) (hq : One q Q) {r : List Char} {g : Char × Char → CronExpr}
    (h : ∀ c d r', r = c :: d :: r' → ¬ (P c ∧ Q d)) :
    Fail (attempt (map (andThen p q) g)) r .uncommitted := by
  refine fail_attempt.2 ⟨rfl, .uncommitted, fail_map.2 (fail_andThen.2 ?_)⟩
  by_cases hc : ∃ c r', r = c :: r' ∧ P c
  · obtain ⟨c, r', rfl, hP⟩ := hc
    refine .inr ⟨[c], c, r', rfl, hp.eats.2 ⟨rfl, hP⟩, hq.fail ?_⟩
    rintro d r'' rfl hQ
    exact h c d r'' rfl ⟨hP, hQ⟩
  · exact .inl (hp.fail fun c r' hr hP => hc ⟨c, r', hr, hP⟩)

theorem fail_two_skip (hp : One p P) (hq : One q Q) {r : List Char} {g : Char → CronExpr}
    (h : ∀ c d r', r = c :: d :: r' → ¬ (P c ∧ Q d)) :
    Fail (attempt (map (skipLeft p q) g)) r .uncommitted := by
  refine fail_attempt.2 ⟨rfl, .uncommitted, fail_map.2 (fail_skipLeft.2 ?_)⟩
  by_cases hc : ∃ c r', r = c :: r' ∧ P c
  · obtain ⟨c, r', rfl, hP⟩ := hc
    refine .inr ⟨[c], c, r', rfl, hp.eats.2 ⟨rfl, hP⟩, hq.fail ?_⟩
    rintro d r'' rfl hQ
    exact h c d r'' rfl ⟨hP, hQ⟩
  · exact .inl (hp.fail fun c r' hr hP => hc ⟨c, r', hr, hP⟩)

theorem ret_two (hp : One p P) (hq : One q Q) {r : List Char} {g : Char × Char → CronExpr} :
    Ret (attempt (map (andThen p q) g)) r :=
  ret_attempt.2 (ret_map.2 (ret_andThen.2 ⟨hp.ret, fun _ _ _ _ _ => hq.ret⟩))

theorem ret_two_skip (hp : One p P) (hq : One q Q) {r : List Char} {g : Char → CronExpr} :
    Ret (attempt (map (skipLeft p q) g)) r :=
  ret_attempt.2 (ret_map.2 (ret_skipLeft.2 ⟨hp.ret, fun _ _ _ _ _ => hq.ret⟩))

end

section
variable {p : Parser Char Char} {P : Char → Prop}

theorem eats_single (hp : One p P) {t : List Char} {v : CronExpr} {rest : List Char} {g : Char → CronExpr} :
    Eats (map p g) t v rest ↔ ∃ c, t = [c] ∧ P c ∧ v = g c := by
  rw [eats_map]
  constructor
  · rintro ⟨c, h, rfl⟩; obtain ⟨rfl, h'⟩ := hp.eats.1 h; exact ⟨c, rfl, h', rfl⟩
  · rintro ⟨c, rfl, h, rfl⟩; exact ⟨c, hp.eats.2 ⟨rfl, h⟩, rfl⟩

theorem fail_single (hp : One p P) {r : List Char} {g : Char → CronExpr}
    (h : ∀ c r', r = c :: r' → ¬ P c) : Fail (map p g) r .uncommitted := fail_map.2 (hp.fail h)

theorem ret_single (hp : One p P) {r : List Char} {g : Char → CronExpr} : Ret (map p g) r :=
  ret_map.2 hp.ret
end

theorem pairVal_eq {c d : Char} (hc : 48 ≤ c.toNat) (hd : 48 ≤ d.toNat) :
    pairVal (c, d) = .value (10 * (c.toNat - '0'.toNat) + (d.toNat - '0'.toNat)) := by
  show CronExpr.value _ = CronExpr.value _
  congr 1
  have h0 : '0'.toNat = 48 := rfl
  simp only [digitVal, h0]
  omega

theorem one_val_eq {c : Char} : oneVal c = .value (c.toNat - '0'.toNat) := rfl

theorem oneVal_eq {c d : Char} (hc : c.toNat = 48) :
    oneVal d = .value (10 * (c.toNat - '0'.toNat) + (d.toNat - '0'.toNat)) := by
  show CronExpr.value _ = CronExpr.value _
  congr 1
  have h0 : '0'.toNat = 48 := rfl
  simp only [digitVal, h0]
  omega

/-! ### The numeric fields -/

theorem follow_ndigit {rest : List Char} (h : Follow rest) (c : Char) (r' : List Char)
    (hr : rest = c :: r') : c.toNat < 48 := by
  have := h.noStart.code c r' hr
  omega

/-- The value of two digits. -/
def twoVal (c d : Char) : Nat := 10 * (c.toNat - '0'.toNat) + (d.toNat - '0'.toNat)

/-- A parser for two digit numbers. -/
structure Two (p : Parser Char CronExpr) (R : Char → Char → Prop) : Prop where
  good : Good p
  eats : ∀ {t v rest}, Eats p t v rest ↔ ∃ c d, t = [c, d] ∧ R c d ∧ v = .value (twoVal c d)
  fail : ∀ {r}, (∀ c d r', r = c :: d :: r' → ¬ R c d) → Fail p r .uncommitted
  ret : ∀ {r}, Ret p r

theorem two_pair {p q : Parser Char Char} {P Q : Char → Prop} [Good p] [Good q] (hp : One p P)
    (hq : One q Q) (hP : ∀ c, P c → 48 ≤ c.toNat) (hQ : ∀ c, Q c → 48 ≤ c.toNat) :
    Two (attempt (map (andThen p q) pairVal)) (fun c d => P c ∧ Q d) where
  good := inferInstance
  eats := by
    intro t v rest
    rw [eats_two hp hq]
    constructor
    · rintro ⟨c, d, rfl, h1, h2, rfl⟩; exact ⟨c, d, rfl, ⟨h1, h2⟩, pairVal_eq (hP _ h1) (hQ _ h2)⟩
    · rintro ⟨c, d, rfl, ⟨h1, h2⟩, rfl⟩
      exact ⟨c, d, rfl, h1, h2, (pairVal_eq (hP _ h1) (hQ _ h2)).symm⟩
  fail := fun h => fail_two hp hq h
  ret := ret_two hp hq

theorem two_zero {q : Parser Char Char} {Q : Char → Prop} [Good q] (hq : One q Q) :
    Two (attempt (map (skipLeft (elm '0') q) oneVal)) (fun c d => c.toNat = 48 ∧ Q d) where
  good := inferInstance
  eats := by
    intro t v rest
    rw [eats_two_skip (one_elm '0') hq]
    constructor
    · rintro ⟨c, d, rfl, h1, h2, rfl⟩; exact ⟨c, d, rfl, ⟨h1, h2⟩, oneVal_eq h1⟩
    · rintro ⟨c, d, rfl, ⟨h1, h2⟩, rfl⟩; exact ⟨c, d, rfl, h1, h2, (oneVal_eq h1).symm⟩
  fail := fun h => fail_two_skip (one_elm '0') hq h
  ret := ret_two_skip (one_elm '0') hq

theorem two_or {p q : Parser Char CronExpr} {R S : Char → Char → Prop} (hp : Two p R) (hq : Two q S) :
    Two (or p q) (fun c d => R c d ∨ S c d) where
  good := by have := hp.good; have := hq.good; infer_instance
  eats := by
    intro t v rest
    rw [eats_or]
    constructor
    · rintro (h | ⟨-, h⟩)
      · obtain ⟨c, d, rfl, h1, h2⟩ := hp.eats.1 h; exact ⟨c, d, rfl, .inl h1, h2⟩
      · obtain ⟨c, d, rfl, h1, h2⟩ := hq.eats.1 h; exact ⟨c, d, rfl, .inr h1, h2⟩
    · rintro ⟨c, d, rfl, h1, rfl⟩
      by_cases hR : R c d
      · exact .inl (hp.eats.2 ⟨c, d, rfl, hR, rfl⟩)
      · refine .inr ⟨hp.fail ?_, hq.eats.2 ⟨c, d, rfl, h1.resolve_left hR, rfl⟩⟩
        intro c' d' r' h; cases h; exact hR
  fail := fun h => fail_or.2 (.inr ⟨hp.fail fun c d r' hr hR => h c d r' hr (.inl hR),
    hq.fail fun c d r' hr hR => h c d r' hr (.inr hR)⟩)
  ret := ret_or.2 ⟨hp.ret, fun _ => hq.ret⟩

theorem value_num {p : Parser Char CronExpr} {q : Parser Char Char} {R : Char → Char → Prop}
    {Q : Char → Prop} [Good q] (hp : Two p R) (hq : One q Q) (f : Field) (hf : f ≠ .weekday)
    (h2 : ∀ c d, R c d ↔ (48 ≤ c.toNat ∧ c.toNat ≤ 57) ∧ (48 ≤ d.toNat ∧ d.toNat ≤ 57) ∧
      f.lo ≤ 10 * (c.toNat - 48) + (d.toNat - 48) ∧ 10 * (c.toNat - 48) + (d.toNat - 48) ≤ f.hi)
    (h1 : ∀ c, Q c ↔ (48 ≤ c.toNat ∧ c.toNat ≤ 57) ∧ f.lo ≤ c.toNat - 48 ∧ c.toNat - 48 ≤ f.hi) :
    ValueParser (or p (map q oneVal)) f where
  good := by have := hp.good; infer_instance
  sound := by
    intro t v rest h
    rw [eats_or, hp.eats, eats_single hq] at h
    rcases h with ⟨c, d, rfl, h, rfl⟩ | ⟨-, c, rfl, h, rfl⟩
    · obtain ⟨h3, h4, h5, h6⟩ := (h2 c d).1 h
      exact .number hf (.two h3.1 h3.2 h4.1 h4.2) h5 h6
    · obtain ⟨h3, h4, h5⟩ := (h1 c).1 h
      exact .number hf (.one h3.1 h3.2) h4 h5
  complete := by
    intro t v rest h hfo
    have key : ∀ t n, Digits t n → f.lo ≤ n → n ≤ f.hi →
        Eats (or p (map q oneVal)) t (.value n) rest := by
      intro t n hd h3 h4
      rw [eats_or, hp.eats, eats_single hq]
      cases hd with
      | @two c d h5 h6 h7 h8 => exact .inl ⟨c, d, rfl, (h2 c d).2 ⟨⟨h5, h6⟩, ⟨h7, h8⟩, h3, h4⟩, rfl⟩
      | @one c h5 h6 =>
        refine .inr ⟨hp.fail ?_, c, rfl, (h1 c).2 ⟨⟨h5, h6⟩, h3, h4⟩, rfl⟩
        intro c' d' r' h hR
        cases h
        have := follow_ndigit hfo d' r' rfl
        have := ((h2 _ _).1 hR).2.1.1
        omega
    cases h with
    | number _ hd h3 h4 => exact key _ _ hd h3 h4
    | _ => exact absurd rfl hf
  fail := by
    intro r h
    have hc := h.code
    refine fail_or.2 (.inr ⟨hp.fail ?_, fail_single hq ?_⟩)
    · intro c d r' hr hR
      have := hc _ _ hr
      have := ((h2 _ _).1 hR).1
      omega
    · intro c r' hr hQ
      have := hc _ _ hr
      have := ((h1 _).1 hQ).1
      omega
  ret := ret_or.2 ⟨hp.ret, fun _ => ret_single hq⟩

theorem mem_codes {l : List Char} {c : Char} : c ∈ l ↔ ∃ x ∈ l, c.toNat = x.toNat :=
  ⟨fun h => ⟨c, h, rfl⟩, fun ⟨_, h, h'⟩ => char_toNat_inj h' ▸ h⟩

theorem one_01 : One (elmOf ['0', '1']) (fun c => 48 ≤ c.toNat ∧ c.toNat ≤ 49) :=
  (one_of _).congr fun c => by
    rw [mem_codes]
    simp only [List.mem_cons, List.not_mem_nil, or_false, exists_eq_or_imp, exists_eq_left,
      show '0'.toNat = 48 from rfl, show '1'.toNat = 49 from rfl]
    omega
theorem one_12 : One (elmOf ['1', '2']) (fun c => 49 ≤ c.toNat ∧ c.toNat ≤ 50) :=
  (one_of _).congr fun c => by
    rw [mem_codes]
    simp only [List.mem_cons, List.not_mem_nil, or_false, exists_eq_or_imp, exists_eq_left,
      show '1'.toNat = 49 from rfl, show '2'.toNat = 50 from rfl]
    omega
theorem one_012 : One (elmOf ['0', '1', '2']) (fun c => 48 ≤ c.toNat ∧ c.toNat ≤ 50) :=
  (one_of _).congr fun c => by
    rw [mem_codes]
    simp only [List.mem_cons, List.not_mem_nil, or_false, exists_eq_or_imp, exists_eq_left,
      show '0'.toNat = 48 from rfl, show '1'.toNat = 49 from rfl, show '2'.toNat = 50 from rfl]
    omega
theorem one_15 : One (elmIn '1' '5') (fun c => 49 ≤ c.toNat ∧ c.toNat ≤ 53) := one_in _ _
theorem one_03 : One (elmIn '0' '3') (fun c => 48 ≤ c.toNat ∧ c.toNat ≤ 51) := one_in _ _
theorem one_17 : One (elmIn '1' '7') (fun c => 49 ≤ c.toNat ∧ c.toNat ≤ 55) := one_in _ _
theorem one_e1 : One (elm '1') (fun c => c.toNat = 49) := one_elm _
theorem one_e2 : One (elm '2') (fun c => c.toNat = 50) := one_elm _
theorem one_e3 : One (elm '3') (fun c => c.toNat = 51) := one_elm _

theorem minDigit_value : ValueParser minDigit .minute :=
  value_num (two_or (two_pair one_15 one_digit (by intros; omega) (by intros; omega))
    (two_zero one_digit)) one_digit .minute (by decide)
    (by intro c d; simp only [Field.lo, Field.hi]; omega)
    (by intro c; simp only [Field.lo, Field.hi]; omega)

theorem hourDigit_value : ValueParser hourDigit .hour :=
  value_num (two_or (two_or (two_pair one_e2 one_03 (by intros; omega) (by intros; omega))
    (two_pair one_e1 one_digit (by intros; omega) (by intros; omega)))
    (two_zero one_digit)) one_digit .hour (by decide)
    (by intro c d; simp only [Field.lo, Field.hi]; omega)
    (by intro c; simp only [Field.lo, Field.hi]; omega)

theorem dayDigit_value : ValueParser dayDigit .day :=
  value_num (two_or (two_or (two_pair one_e3 one_01 (by intros; omega) (by intros; omega))
    (two_pair one_12 one_digit (by intros; omega) (by intros; omega)))
    (two_zero one_digit19)) one_digit19 .day (by decide)
    (by intro c d; simp only [Field.lo, Field.hi]; omega)
    (by intro c; simp only [Field.lo, Field.hi]; omega)

theorem monthDigit_value : ValueParser monthDigit .month :=
  value_num (two_or (two_pair one_e1 one_012 (by intros; omega) (by intros; omega))
    (two_zero one_digit19)) one_digit19 .month (by decide)
    (by intro c d; simp only [Field.lo, Field.hi]; omega)
    (by intro c; simp only [Field.lo, Field.hi]; omega)

/-! ### The weekday field -/

/-- A parser for a list of three letter names. -/
structure Names (p : Parser Char CronExpr) (l : List (List Char × Nat)) : Prop where
  good : Good p
  eats : ∀ {t v rest}, Eats p t v rest ↔ ∃ n, (t, n) ∈ l ∧ v = .value n
  fail : ∀ {r}, (∀ x ∈ l, ¬ x.1 <+: r) → Fail p r .uncommitted
  ret : ∀ {r}, Ret p r

theorem names_one (n : Nat) (s : List Char) : Names (dowName n s) [(s, n)] where
  good := by unfold dowName; infer_instance
  eats := by
    intro t v rest
    unfold dowName tag
    rw [eats_attempt, eats_map]
    simp only [eats_seq, List.mem_singleton, Prod.mk.injEq]
    constructor
    · rintro ⟨_, ⟨rfl, rfl⟩, rfl⟩; exact ⟨n, ⟨rfl, rfl⟩, rfl⟩
    · rintro ⟨_, ⟨rfl, rfl⟩, rfl⟩; exact ⟨_, ⟨rfl, rfl⟩, rfl⟩
  fail := by
    intro r h
    unfold dowName tag
    refine fail_attempt.2 ⟨rfl, ?_⟩
    simp only [fail_map]
    exact fail_seq.2 (by simpa using h)
  ret := by
    intro r
    unfold dowName tag
    exact ret_attempt.2 (ret_map.2 ret_seq)

theorem names_or {p q : Parser Char CronExpr} {l l' : List (List Char × Nat)} (hp : Names p l)
    (hq : Names q l') (hlen : ∀ x ∈ l ++ l', x.1.length = 3)
    (hdis : ∀ x ∈ l, ∀ y ∈ l', x.1 ≠ y.1) : Names (or p q) (l ++ l') where
  good := by have := hp.good; have := hq.good; infer_instance
  eats := by
    intro t v rest
    rw [eats_or, hp.eats, hq.eats]
    constructor
    · rintro (⟨n, h, rfl⟩ | ⟨-, n, h, rfl⟩)
      · exact ⟨n, List.mem_append_left _ h, rfl⟩
      · exact ⟨n, List.mem_append_right _ h, rfl⟩
    · rintro ⟨n, h, rfl⟩
      rcases List.mem_append.1 h with h | h
      · exact .inl ⟨n, h, rfl⟩
      · refine .inr ⟨hp.fail ?_, n, h, rfl⟩
        intro x hx hpre
        have h1 := hlen x (List.mem_append_left _ hx)
        have h2 : t.length = 3 := hlen _ (List.mem_append_right _ h)
        refine hdis x hx _ h ?_
        have := List.prefix_iff_eq_take.1 hpre
        rw [h1, List.take_append_of_le_length (by omega), List.take_of_length_le (by omega)] at this
        exact this
  fail := fun h => fail_or.2 (.inr ⟨hp.fail fun x hx => h x (List.mem_append_left _ hx),
    hq.fail fun x hx => h x (List.mem_append_right _ hx)⟩)
  ret := ret_or.2 ⟨hp.ret, fun _ => hq.ret⟩

theorem weekday_names : Names (or (or (or (or (or (or (dowName 1 ['S', 'U', 'N'])
    (dowName 2 ['M', 'O', 'N'])) (dowName 3 ['T', 'U', 'E'])) (dowName 4 ['W', 'E', 'D']))
    (dowName 5 ['T', 'H', 'U'])) (dowName 6 ['F', 'R', 'I'])) (dowName 7 ['S', 'A', 'T'])) weekdayNames := by
  have h := names_or (names_or (names_or (names_or (names_or (names_or
    (names_one 1 ['S', 'U', 'N']) (names_one 2 ['M', 'O', 'N']) (by decide) (by decide))
    (names_one 3 ['T', 'U', 'E']) (by decide) (by decide))
    (names_one 4 ['W', 'E', 'D']) (by decide) (by decide))
    (names_one 5 ['T', 'H', 'U']) (by decide) (by decide))
    (names_one 6 ['F', 'R', 'I']) (by decide) (by decide))
    (names_one 7 ['S', 'A', 'T']) (by decide) (by decide)
  exact h

/-- The first letters of names are upper case. -/
theorem names_start {r : List Char} (h : ∀ c r', r = c :: r' → c.toNat < 65) :
    ∀ x ∈ weekdayNames, ¬ x.1 <+: r := by
  have key : ∀ x ∈ weekdayNames, ∃ c t, x.1 = c :: t ∧ 65 ≤ c.toNat := by
    intro x hx
    simp only [weekdayNames, List.mem_cons, List.not_mem_nil, or_false] at hx
    rcases hx with rfl | rfl | rfl | rfl | rfl | rfl | rfl <;> exact ⟨_, _, rfl, by decide⟩
  rintro x hx ⟨t', ht⟩
  obtain ⟨c, t, h1, h2⟩ := key x hx
  rw [h1] at ht
  have := h c _ ht.symm
  omega

theorem weekday_value : ValueParser (or dayOfWeekText dayOfWeekDigit) .weekday := by
  have hL : ∀ {t v rest}, Eats (map (elm 'L') fun _ => CronExpr.last) t v rest ↔ t = ['L'] ∧ v = .last := by
    intro t v rest
    rw [eats_map]
    simp only [eats_elm]
    constructor
    · rintro ⟨_, ⟨rfl, rfl⟩, rfl⟩; exact ⟨rfl, rfl⟩
    · rintro ⟨rfl, rfl⟩; exact ⟨_, ⟨rfl, rfl⟩, rfl⟩
  have hsplit : ∀ {t v rest}, Eats (or dayOfWeekText dayOfWeekDigit) t v rest ↔
      (∃ c, t = [c] ∧ (49 ≤ c.toNat ∧ c.toNat ≤ 55) ∧ v = oneVal c) ∨
      (Fail dayOfWeekText (t ++ rest) .uncommitted ∧ ((∃ n, (t, n) ∈ weekdayNames ∧ v = .value n) ∨
        (Fail (or (or (or (or (or (or (dowName 1 ['S', 'U', 'N'])
    (dowName 2 ['M', 'O', 'N'])) (dowName 3 ['T', 'U', 'E'])) (dowName 4 ['W', 'E', 'D']))
    (dowName 5 ['T', 'H', 'U'])) (dowName 6 ['F', 'R', 'I'])) (dowName 7 ['S', 'A', 'T']))
          (t ++ rest) .uncommitted ∧ t = ['L'] ∧ v = .last))) := by
    intro t v rest
    rw [eats_or]
    unfold dayOfWeekText dayOfWeekDigit cache
    rw [eats_single one_17, eats_or, weekday_names.eats, hL]
  have good2 : Good dayOfWeekDigit := by
    unfold dayOfWeekDigit cache
    have := weekday_names.good
    infer_instance
  have good1 : Good dayOfWeekText := by unfold dayOfWeekText cache; infer_instance
  refine ⟨inferInstance, ?_, ?_, ?_, ?_⟩
  · intro t v rest h
    rcases hsplit.1 h with ⟨c, rfl, h1, rfl⟩ | ⟨-, ⟨n, h1, rfl⟩ | ⟨-, rfl, rfl⟩⟩
    · rw [one_val_eq]
      refine .weekday (.one ?_ ?_) ?_ ?_ <;>
        simp only [Field.lo, Field.hi, show '0'.toNat = 48 from rfl, show '9'.toNat = 57 from rfl] <;> omega
    · exact .name h1
    · exact .last
  · intro t v rest h hf
    refine hsplit.2 ?_
    have hfirst : ∀ c r', 65 ≤ c.toNat → Fail dayOfWeekText (c :: r') .uncommitted := by
      intro c r' hc
      refine fail_single one_17 ?_
      rintro c' r'' h
      cases h
      omega
    cases h with
    | number h _ _ _ => exact absurd rfl h
    | @weekday c n hd h1 h2 =>
      cases hd with
      | one h3 h4 =>
        simp only [Field.lo, Field.hi, show '0'.toNat = 48 from rfl, show '9'.toNat = 57 from rfl] at *
        exact .inl ⟨c, rfl, ⟨by omega, by omega⟩, rfl⟩
    | @name t n h =>
      refine .inr ⟨?_, .inl ⟨n, h, rfl⟩⟩
      simp only [weekdayNames, List.mem_cons, List.not_mem_nil, or_false, Prod.mk.injEq] at h
      rcases h with ⟨rfl, rfl⟩ | ⟨rfl, rfl⟩ | ⟨rfl, rfl⟩ | ⟨rfl, rfl⟩ | ⟨rfl, rfl⟩ | ⟨rfl, rfl⟩ |
        ⟨rfl, rfl⟩ <;> exact hfirst _ _ (by decide)
    | last =>
      refine .inr ⟨hfirst _ _ (by decide), .inr ⟨weekday_names.fail ?_, rfl, rfl⟩⟩
      intro x hx
      simp only [weekdayNames, List.mem_cons, List.not_mem_nil, or_false] at hx
      rcases hx with rfl | rfl | rfl | rfl | rfl | rfl | rfl <;> rintro ⟨t', ht⟩ <;>
        simp at ht
  · intro r h
    have hc := h.code
    refine fail_or.2 (.inr ⟨fail_single one_17 ?_, fail_or.2 (.inr ⟨weekday_names.fail ?_, ?_⟩)⟩)
    · intro c r' hr
      have := hc _ _ hr
      omega
    · refine names_start fun c r' hr => ?_
      have := hc _ _ hr
      omega
    · refine fail_map.2 (fail_elm.2 ⟨rfl, ?_⟩)
      intro r' hr
      have := hc _ _ hr
      revert this
      decide
  · intro r
    exact ret_or.2 ⟨ret_single one_17, fun _ =>
      ret_or.2 ⟨weekday_names.ret, fun _ => ret_map.2 ret_elm⟩⟩

/-! ### Items and fields -/

theorem valueText_head {f : Field} {t : List Char} {v : CronExpr} (h : ValueText f t v) :
    ∃ c t', t = c :: t' ∧ 48 ≤ c.toNat := by
  have hd : ∀ {t n}, Digits t n → ∃ c t', t = c :: t' ∧ 48 ≤ c.toNat := by
    intro t n h
    cases h with
    | one h1 _ => exact ⟨_, _, rfl, h1⟩
    | two h1 _ _ _ => exact ⟨_, _, rfl, h1⟩
  cases h with
  | number _ h _ _ => exact hd h
  | weekday h _ _ => exact hd h
  | name h =>
    simp only [weekdayNames, List.mem_cons, List.not_mem_nil, or_false, Prod.mk.injEq] at h
    rcases h with ⟨rfl, rfl⟩ | ⟨rfl, rfl⟩ | ⟨rfl, rfl⟩ | ⟨rfl, rfl⟩ | ⟨rfl, rfl⟩ | ⟨rfl, rfl⟩ |
        ⟨rfl, rfl⟩ <;> exact ⟨_, _, rfl, by decide⟩
  | last => exact ⟨_, _, rfl, by decide⟩

/-- Behind an item: the end, a comma or a space. -/
def FollowItem (r : List Char) : Prop := ∀ c r', r = c :: r' → c ∈ [',', ' ']

/-- Behind a field: the end or a space. -/
def FollowField (r : List Char) : Prop := ∀ c r', r = c :: r' → c = ' '

theorem FollowItem.follow {r : List Char} (h : FollowItem r) : Follow r := by
  intro c r' hr
  have := h c r' hr
  simp only [List.mem_cons, List.not_mem_nil, or_false] at this ⊢
  rcases this with h | h <;> simp [h]

theorem FollowField.item {r : List Char} (h : FollowField r) : FollowItem r := by
  intro c r' hr
  simp [h c r' hr]

theorem follow_cons {c : Char} {r : List Char} (h : c ∈ [',', ' ', '-', '/']) : Follow (c :: r) := by
  intro c' r' hr; cases hr; exact h

section
variable {x : Parser Char CronExpr} {f : Field}

theorem item_good (hx : ValueParser x f) : Good (or (rangeP x) x) := by
  have := hx.good; unfold rangeP rangePer perP; infer_instance

theorem eats_rangePer (hx : ValueParser x f) {t rest : List Char} {v : CronExpr} :
    Eats (rangePer x) t v rest ↔
      (∃ u, t = '/' :: u ∧ Eats x u v rest) ∨
      (t = [] ∧ v = .noOp ∧ ∃ c, Fail (perP x) rest c) := by
  have := hx.good
  unfold rangePer
  rw [eats_map]
  simp only [eats_opt]
  have hper : ∀ {t v}, Eats (perP x) t v rest ↔ ∃ u, t = '/' :: u ∧ Eats x u v rest := by
    intro t v
    unfold perP
    rw [eats_skipLeft]
    constructor
    · rintro ⟨t1, t2, c, rfl, h1, h2⟩
      obtain ⟨rfl, rfl⟩ := eats_elm.1 h1
      exact ⟨t2, rfl, h2⟩
    · rintro ⟨u, rfl, h⟩
      exact ⟨['/'], u, '/', rfl, eats_elm.2 ⟨rfl, rfl⟩, h⟩
  constructor
  · rintro ⟨o, ⟨a, rfl, h⟩ | ⟨rfl, rfl, h⟩, rfl⟩
    · exact .inl (hper.1 h)
    · exact .inr ⟨rfl, rfl, h⟩
  · rintro (h | ⟨rfl, rfl, h⟩)
    · exact ⟨some v, .inl ⟨v, rfl, hper.2 h⟩, rfl⟩
    · exact ⟨none, .inr ⟨rfl, rfl, h⟩, rfl⟩

theorem eats_rangeP (hx : ValueParser x f) {t rest : List Char} {v : CronExpr} :
    Eats (rangeP x) t v rest ↔
      ∃ t1 t2 t3 a b k, t = t1 ++ '-' :: (t2 ++ t3) ∧ v = .range a b k ∧
        Eats x t1 a ('-' :: (t2 ++ t3 ++ rest)) ∧ Eats x t2 b (t3 ++ rest) ∧
        Eats (rangePer x) t3 k rest := by
  have := hx.good
  have : Good (rangePer x) := by unfold rangePer perP; infer_instance
  unfold rangeP
  rw [eats_attempt, eats_map]
  constructor
  · rintro ⟨⟨⟨a, b⟩, k⟩, h, rfl⟩
    obtain ⟨t12, t3, rfl, h1, h3⟩ := eats_andThen.1 h
    obtain ⟨t1, t2, rfl, h1, h2⟩ := eats_andThen.1 h1
    obtain ⟨t1, t1', c, rfl, h1, h4⟩ := eats_skipRight.1 h1
    obtain ⟨rfl, rfl⟩ := eats_elm.1 h4
    exact ⟨t1, t2, t3, a, b, k, by simp, rfl, by simpa using h1, h2, h3⟩
  · rintro ⟨t1, t2, t3, a, b, k, rfl, rfl, h1, h2, h3⟩
    refine ⟨((a, b), k), eats_andThen.2 ⟨t1 ++ '-' :: t2, t3, by simp, ?_, h3⟩, rfl⟩
    refine eats_andThen.2 ⟨t1 ++ ['-'], t2, by simp, ?_, h2⟩
    exact eats_skipRight.2 ⟨t1, ['-'], '-', rfl, by simpa using h1, eats_elm.2 ⟨rfl, rfl⟩⟩

theorem item_sound (hx : ValueParser x f) {t rest : List Char} {v : CronExpr}
    (h : Eats (or (rangeP x) x) t v rest) : ItemText f t v := by
  rcases eats_or.1 h with h | ⟨-, h⟩
  · obtain ⟨t1, t2, t3, a, b, k, rfl, rfl, h1, h2, h3⟩ := (eats_rangeP hx).1 h
    rcases (eats_rangePer hx).1 h3 with ⟨u, rfl, h4⟩ | ⟨rfl, rfl, -⟩
    · have := ItemText.step (hx.sound h1) (hx.sound h2) (hx.sound h4)
      simpa using this
    · have := ItemText.range (hx.sound h1) (hx.sound h2)
      simpa using this
  · exact .value (hx.sound h)

theorem item_complete (hx : ValueParser x f) {t rest : List Char} {v : CronExpr} (h : ItemText f t v)
    (hf : FollowItem rest) : Eats (or (rangeP x) x) t v rest := by
  have := hx.good
  have hper : ∃ c, Fail (perP x) rest c := by
    refine ⟨.uncommitted, ?_⟩
    unfold perP
    refine fail_skipLeft.2 (.inl (fail_elm.2 ⟨rfl, ?_⟩))
    intro r' hr
    have := hf _ _ hr
    revert this; decide
  refine eats_or.2 ?_
  cases h with
  | value hv =>
    refine .inr ⟨?_, hx.complete hv hf.follow⟩
    unfold rangeP
    have : Good (rangePer x) := by unfold rangePer perP; infer_instance
    refine fail_attempt.2 ⟨rfl, .uncommitted, fail_map.2 (fail_andThen.2 (.inl (fail_andThen.2 (.inl
      (fail_skipRight.2 (.inr ⟨t, v, rest, rfl, hx.complete hv hf.follow, fail_elm.2 ⟨rfl, ?_⟩⟩))))))⟩
    intro r' hr
    have := hf _ _ hr
    revert this; decide
  | @range t u a b h1 h2 =>
    refine .inl ((eats_rangeP hx).2 ⟨t, u, [], a, b, .noOp, by simp, rfl,
      hx.complete h1 (follow_cons (by decide)), hx.complete h2 hf.follow,
      (eats_rangePer hx).2 (.inr ⟨rfl, rfl, hper⟩)⟩)
  | @step t u w a b k h1 h2 h3 =>
    exact .inl ((eats_rangeP hx).2 ⟨t, u, '/' :: w, a, b, k, by simp, rfl,
      hx.complete h1 (follow_cons (by decide)), hx.complete h2 (follow_cons (by decide)),
      (eats_rangePer hx).2 (.inl ⟨w, rfl, hx.complete h3 hf.follow⟩)⟩)

theorem item_fail (hx : ValueParser x f) {r : List Char} (h : NoStart r) :
    Fail (or (rangeP x) x) r .uncommitted := by
  have := hx.good
  have : Good (rangePer x) := by unfold rangePer perP; infer_instance
  refine fail_or.2 (.inr ⟨?_, hx.fail h⟩)
  unfold rangeP
  exact fail_attempt.2 ⟨rfl, .uncommitted, fail_map.2 (fail_andThen.2 (.inl (fail_andThen.2 (.inl
    (fail_skipRight.2 (.inl (hx.fail h)))))))⟩

theorem item_ret (hx : ValueParser x f) {r : List Char} : Ret (or (rangeP x) x) r := by
  have := hx.good
  have : Good (rangePer x) := by unfold rangePer perP; infer_instance
  refine ret_or.2 ⟨?_, fun _ => hx.ret⟩
  unfold rangeP
  refine ret_attempt.2 (ret_map.2 (ret_andThen.2 ⟨ret_andThen.2 ⟨ret_skipRight.2 ⟨hx.ret,
    fun _ _ _ _ _ => ret_elm⟩, fun _ _ _ _ _ => hx.ret⟩, fun _ _ _ _ _ => ?_⟩))
  unfold rangePer perP
  exact ret_map.2 (ret_opt.2 (ret_skipLeft.2 ⟨ret_elm, fun _ _ _ _ _ => hx.ret⟩))

theorem itemText_head {t : List Char} {v : CronExpr} (h : ItemText f t v) :
    ∃ c t', t = c :: t' ∧ 48 ≤ c.toNat := by
  cases h with
  | value h => exact valueText_head h
  | range h _ => obtain ⟨c, t', rfl, h'⟩ := valueText_head h; exact ⟨c, _, rfl, h'⟩
  | step h _ _ => obtain ⟨c, t', rfl, h'⟩ := valueText_head h; exact ⟨c, _, rfl, h'⟩

theorem sepMany_sound (hx : ValueParser x f) {t rest : List Char} {vs : List CronExpr}
    (h : SepMany (or (rangeP x) x) (elm ',') t vs rest) :
    ∀ {u e}, ItemText f u e → ItemsText f (u ++ t) (e :: vs) := by
  induction h with
  | nil rest => intro u e hu; simpa using ItemsText.one hu
  | @cons s t t' rest b v vs h1 h2 h3 ih =>
    intro u e hu
    obtain ⟨rfl, rfl⟩ := eats_elm.1 h1
    exact .cons hu (ih (item_sound hx h2))

theorem items_complete (hx : ValueParser x f) {t : List Char} {vs : List CronExpr}
    (h : ItemsText f t vs) : ∀ {rest}, FollowItem rest →
    ∃ t1 t2 v ws, t = t1 ++ t2 ∧ vs = v :: ws ∧ Eats (or (rangeP x) x) t1 v (t2 ++ rest) ∧
      SepMany (or (rangeP x) x) (elm ',') t2 ws rest := by
  induction h with
  | @one t e h =>
    intro rest hf
    exact ⟨t, [], e, [], by simp, rfl, item_complete hx h hf, .nil _⟩
  | @cons t u e es h _ ih =>
    intro rest hf
    obtain ⟨t1, t2, v, ws, rfl, rfl, h1, h2⟩ := ih hf
    refine ⟨t, ',' :: (t1 ++ t2), e, v :: ws, by simp, rfl, item_complete hx h ?_, ?_⟩
    · intro c r' hr; cases hr; simp
    · exact .cons (s := [',']) (b := ',') (eats_elm.2 ⟨rfl, rfl⟩) h1 h2

theorem listTree_eq (es : List CronExpr) : (match es with | [e] => e | es => CronExpr.list es) = listTree es := by
  unfold listTree; rfl

theorem eats_asterisk {t rest : List Char} {v : CronExpr} :
    Eats asterisk t v rest ↔ t = ['*'] ∧ v = .any := by
  unfold asterisk cache
  rw [eats_map]
  simp only [eats_elm]
  constructor
  · rintro ⟨_, ⟨rfl, rfl⟩, rfl⟩; exact ⟨rfl, rfl⟩
  · rintro ⟨rfl, rfl⟩; exact ⟨_, ⟨rfl, rfl⟩, rfl⟩

instance : Good asterisk := by unfold asterisk cache; infer_instance

theorem eats_asteriskPer (hx : ValueParser x f) {t rest : List Char} {v : CronExpr} :
    Eats (asteriskPer x) t v rest ↔ ∃ u k, t = '*' :: '/' :: u ∧ v = .per .any k ∧ Eats x u k rest := by
  have := hx.good
  have : Good (perP x) := by unfold perP; infer_instance
  unfold asteriskPer cache
  rw [eats_attempt, eats_map]
  constructor
  · rintro ⟨⟨d, k⟩, h, rfl⟩
    obtain ⟨t1, t2, rfl, h1, h2⟩ := eats_andThen.1 h
    obtain ⟨rfl, rfl⟩ := eats_asterisk.1 h1
    obtain ⟨t3, u, c, rfl, h3, h4⟩ := eats_skipLeft.1 h2
    obtain ⟨rfl, rfl⟩ := eats_elm.1 h3
    exact ⟨u, k, rfl, rfl, h4⟩
  · rintro ⟨u, k, rfl, rfl, h⟩
    exact ⟨(.any, k), eats_andThen.2 ⟨['*'], '/' :: u, rfl, eats_asterisk.2 ⟨rfl, rfl⟩,
      eats_skipLeft.2 ⟨['/'], u, '/', rfl, eats_elm.2 ⟨rfl, rfl⟩, h⟩⟩, rfl⟩

theorem field_good (hx : ValueParser x f) : Good (digitInstruction x) := by
  have := hx.good
  have := item_good hx
  unfold digitInstruction listP asteriskPer perP cache; infer_instance

theorem field_sound (hx : ValueParser x f) {t rest : List Char} {v : CronExpr}
    (h : Eats (digitInstruction x) t v rest) : FieldText f t v := by
  have := item_good hx
  unfold digitInstruction at h
  rcases eats_or.1 h with h | ⟨-, h⟩
  · rcases eats_or.1 h with h | ⟨-, h⟩
    · unfold listP at h
      rw [eats_attempt, eats_map] at h
      obtain ⟨es, h', rfl⟩ := h
      change FieldText f t (listTree es)
      obtain ⟨t1, t2, t3, v, ws, rfl, rfl, h1, h2, h3⟩ := eats_many1Sep.1 h'
      have hi := sepMany_sound hx h2 (item_sound hx h1)
      rcases h3 with ⟨rfl, -⟩ | ⟨⟨b, h3⟩, -⟩
      · simpa using FieldText.list hi
      · obtain ⟨rfl, rfl⟩ := eats_elm.1 h3
        simpa using FieldText.listComma hi
    · obtain ⟨u, k, rfl, rfl, h'⟩ := (eats_asteriskPer hx).1 h
      exact .per (hx.sound h')
  · obtain ⟨rfl, rfl⟩ := eats_asterisk.1 h
    exact .any

theorem list_fail (hx : ValueParser x f) {r : List Char} (h : NoStart r) :
    Fail (listP (or (rangeP x) x)) r .uncommitted := by
  unfold listP
  exact fail_attempt.2 ⟨rfl, .uncommitted, fail_map.2 (fail_many1Sep.2 ⟨rfl, _, item_fail hx h⟩)⟩

theorem field_complete (hx : ValueParser x f) {t rest : List Char} {v : CronExpr}
    (h : FieldText f t v) (hf : FollowField rest) : Eats (digitInstruction x) t v rest := by
  have := item_good hx
  have := hx.good
  have hfi := hf.item
  unfold digitInstruction
  have star : ∀ r, NoStart ('*' :: r) := by
    intro r c r' hr; cases hr; decide
  cases h with
  | any =>
    refine eats_or.2 (.inr ⟨fail_or.2 (.inr ⟨list_fail hx (star _), ?_⟩), eats_asterisk.2 ⟨rfl, rfl⟩⟩)
    unfold asteriskPer cache perP
    refine fail_attempt.2 ⟨rfl, .uncommitted, fail_map.2 (fail_andThen.2 (.inr ⟨['*'], .any, rest, rfl,
      eats_asterisk.2 ⟨rfl, rfl⟩, fail_skipLeft.2 (.inl (fail_elm.2 ⟨rfl, ?_⟩))⟩))⟩
    intro r' hr
    have := hf _ _ hr
    revert this; decide
  | @per t k h =>
    exact eats_or.2 (.inl (eats_or.2 (.inr ⟨list_fail hx (star _),
      (eats_asteriskPer hx).2 ⟨t, k, rfl, rfl, hx.complete h hfi.follow⟩⟩)))
  | @list t es h =>
    refine eats_or.2 (.inl (eats_or.2 (.inl ?_)))
    unfold listP
    rw [eats_attempt, eats_map]
    refine ⟨es, ?_, (listTree_eq es).symm⟩
    obtain ⟨t1, t2, v, ws, rfl, rfl, h1, h2⟩ := items_complete hx h hfi
    refine eats_many1Sep.2 ⟨t1, t2, [], v, ws, by simp, rfl, h1, h2, .inl ⟨rfl, .uncommitted, ?_⟩⟩
    refine fail_elm.2 ⟨rfl, ?_⟩
    intro r' hr
    have := hf _ _ hr
    revert this; decide
  | @listComma t es h =>
    refine eats_or.2 (.inl (eats_or.2 (.inl ?_)))
    unfold listP
    rw [eats_attempt, eats_map]
    refine ⟨es, ?_, (listTree_eq es).symm⟩
    have hfo : FollowItem ([','] ++ rest) := by intro c r' hr; cases hr; simp
    obtain ⟨t1, t2, v, ws, rfl, rfl, h1, h2⟩ := items_complete hx h hfo
    exact eats_many1Sep.2 ⟨t1, t2, [','], v, ws, by simp, rfl, h1, h2,
      .inr ⟨⟨',', eats_elm.2 ⟨rfl, rfl⟩⟩, .uncommitted, item_fail hx hfi.follow.noStart⟩⟩

theorem field_ret (hx : ValueParser x f) {r : List Char} : Ret (digitInstruction x) r := by
  have := item_good hx
  have := hx.good
  unfold digitInstruction listP asteriskPer perP cache
  refine ret_or.2 ⟨ret_or.2 ⟨ret_attempt.2 (ret_map.2 (ret_many1Sep (fun _ _ => item_ret hx)
    (fun _ _ => ret_elm) (.inl ?_))), fun _ => ret_attempt.2 (ret_map.2 (ret_andThen.2 ⟨ret_map.2 ret_elm,
      fun _ _ _ _ _ => ret_skipLeft.2 ⟨ret_elm, fun _ _ _ _ _ => hx.ret⟩⟩))⟩,
    fun _ => ret_map.2 ret_elm⟩
  rintro t v rest - h rfl
  obtain ⟨c, t', h, -⟩ := itemText_head (item_sound hx h)
  cases h

end

/-! ### The whole expression -/

instance : Good instruction := by
  have := field_good minDigit_value
  have := field_good hourDigit_value
  have := field_good dayDigit_value
  have := field_good monthDigit_value
  have := field_good weekday_value
  unfold instruction; infer_instance

theorem eats_spaced {A : Type} {p : Parser Char A} [Good p] {t rest : List Char} {v : A} :
    Eats (skipRight p (elm ' ')) t v rest ↔ ∃ u, t = u ++ [' '] ∧ Eats p u v (' ' :: rest) := by
  rw [eats_skipRight]
  constructor
  · rintro ⟨t1, t2, w, rfl, h1, h2⟩
    obtain ⟨rfl, rfl⟩ := eats_elm.1 h2
    exact ⟨t1, rfl, h1⟩
  · rintro ⟨u, rfl, h⟩
    exact ⟨u, [' '], ' ', rfl, h, eats_elm.2 ⟨rfl, rfl⟩⟩

theorem eats_instruction {t : List Char} {v : CronExpr} : Eats instruction t v [] ↔ CronText t v := by
  have g1 := field_good minDigit_value
  have g2 := field_good hourDigit_value
  have g3 := field_good dayDigit_value
  have g4 := field_good monthDigit_value
  have g5 := field_good weekday_value
  unfold instruction
  rw [eats_map]
  constructor
  · rintro ⟨⟨⟨⟨⟨a, b⟩, c⟩, d⟩, e⟩, h, rfl⟩
    obtain ⟨u4, te, rfl, h1, he⟩ := eats_andThen.1 h
    obtain ⟨u4, rfl, h2⟩ := eats_spaced.1 h1
    obtain ⟨u3, td, rfl, h3, hd⟩ := eats_andThen.1 h2
    obtain ⟨u3, rfl, h4⟩ := eats_spaced.1 h3
    obtain ⟨u2, tc, rfl, h5, hc⟩ := eats_andThen.1 h4
    obtain ⟨u2, rfl, h6⟩ := eats_spaced.1 h5
    obtain ⟨u1, tb, rfl, h7, hb⟩ := eats_andThen.1 h6
    obtain ⟨ta, rfl, ha⟩ := eats_spaced.1 h7
    have := CronText.mk (field_sound minDigit_value ha) (field_sound hourDigit_value hb)
      (field_sound dayDigit_value hc) (field_sound monthDigit_value hd) (field_sound weekday_value he)
    simpa using this
  · intro h
    cases h with
    | @mk ta tb tc td te a b c d e ha hb hc hd he =>
      have hsp : ∀ r, FollowField (' ' :: r) := by intro r c r' hr; cases hr; rfl
      refine ⟨((((a, b), c), d), e), ?_, rfl⟩
      refine eats_andThen.2 ⟨ta ++ ' ' :: (tb ++ ' ' :: (tc ++ ' ' :: (td ++ [' ']))), te, by simp, ?_,
        field_complete weekday_value he (by intro c r' hr; cases hr)⟩
      refine eats_spaced.2 ⟨ta ++ ' ' :: (tb ++ ' ' :: (tc ++ ' ' :: td)), by simp, ?_⟩
      refine eats_andThen.2 ⟨ta ++ ' ' :: (tb ++ ' ' :: (tc ++ [' '])), td, by simp, ?_,
        field_complete monthDigit_value hd (hsp _)⟩
      refine eats_spaced.2 ⟨ta ++ ' ' :: (tb ++ ' ' :: tc), by simp, ?_⟩
      refine eats_andThen.2 ⟨ta ++ ' ' :: (tb ++ [' ']), tc, by simp, ?_,
        field_complete dayDigit_value hc (hsp _)⟩
      refine eats_spaced.2 ⟨ta ++ ' ' :: tb, by simp, ?_⟩
      refine eats_andThen.2 ⟨ta ++ [' '], tb, by simp, ?_, field_complete hourDigit_value hb (hsp _)⟩
      exact eats_spaced.2 ⟨ta, by simp, field_complete minDigit_value ha (hsp _)⟩

theorem ret_instruction {r : List Char} : Ret (skipRight instruction end_) r := by
  have g1 := field_good minDigit_value
  have g2 := field_good hourDigit_value
  have g3 := field_good dayDigit_value
  have g4 := field_good monthDigit_value
  have g5 := field_good weekday_value
  refine ret_skipRight.2 ⟨?_, fun _ _ _ _ _ => ret_end⟩
  unfold instruction
  refine ret_map.2 (ret_andThen.2 ⟨ret_skipRight.2 ⟨ret_andThen.2 ⟨ret_skipRight.2 ⟨ret_andThen.2
    ⟨ret_skipRight.2 ⟨ret_andThen.2 ⟨ret_skipRight.2 ⟨field_ret minDigit_value, ?_⟩, ?_⟩, ?_⟩, ?_⟩, ?_⟩,
    ?_⟩, ?_⟩, ?_⟩)
  · exact fun _ _ _ _ _ => ret_elm
  · exact fun _ _ _ _ _ => field_ret hourDigit_value
  · exact fun _ _ _ _ _ => ret_elm
  · exact fun _ _ _ _ _ => field_ret dayDigit_value
  · exact fun _ _ _ _ _ => ret_elm
  · exact fun _ _ _ _ _ => field_ret monthDigit_value
  · exact fun _ _ _ _ _ => ret_elm
  · exact fun _ _ _ _ _ => field_ret weekday_value

end OniComb.Crond
