import Verif.Lemmas.TextCount
import Verif.Spec.Uri

/-!
# Helper lemmas for the URI parser: bytes, percent encoding, numbers
-/

namespace OniComb.Uri
open OniComb Rfc

/-! ### Bytes -/

theorem byte_toNat (c : Char) (h : c.toNat < 256) : (byte c).toNat = c.toNat := by
  unfold byte; simp only [UInt8.toNat_ofNat']; omega

theorem toNat_inj {a b : UInt8} (h : a.toNat = b.toNat) : a = b := UInt8.toNat_inj.1 h

theorem ofNat_toNat (n : Nat) (h : n < 256) : (UInt8.ofNat n).toNat = n := by
  simp only [UInt8.toNat_ofNat']; omega

theorem isAlpha_iff {b : UInt8} : Element.isAlpha b = true ↔ Alpha b := by
  show Byte.isAlpha b = true ↔ _
  simp [Byte.isAlpha, Byte.between, Alpha]

theorem isDigit_iff {b : UInt8} : Element.isDigit b = true ↔ Digit b := by
  show Byte.isDigit b = true ↔ _
  simp [Byte.isDigit, Byte.between, Digit]

theorem isHex_iff {b : UInt8} : Element.isHexDigit b = true ↔ Hex b := by
  show Byte.isHexDigit b = true ↔ _
  simp [Byte.isHexDigit, Byte.between, Hex, Digit, or_assoc]

theorem mem_bytes {cs : List Char} (h : ∀ c ∈ cs, c.toNat < 256) {b : UInt8} :
    b ∈ cs.map byte ↔ OneOf cs b := by
  unfold OneOf
  simp only [List.mem_map]
  constructor
  · rintro ⟨c, hc, rfl⟩; exact ⟨c, hc, (byte_toNat c (h c hc)).symm⟩
  · rintro ⟨c, hc, hb⟩; exact ⟨c, hc, toNat_inj ((byte_toNat c (h c hc)).trans hb)⟩

/-! ### Parsers of one unit: a byte of a class or a percent encoded byte -/

/-- The text begins with a byte of the class `P`, or (if `pct`) with a percent encoded byte. -/
def Start (P : UInt8 → Prop) (pct : Prop) (r : Bytes) : Prop :=
  (∃ b r', r = b :: r' ∧ P b) ∨ (pct ∧ ∃ h l r', r = byte '%' :: h :: l :: r' ∧ Hex h ∧ Hex l)

/-- `p` reads exactly one such unit, and fails without commitment otherwise. -/
structure UnitP {A : Type} (p : Parser UInt8 A) (P : UInt8 → Prop) (pct : Prop) : Prop where
  good : Good p
  eats : ∀ {t rest}, (∃ v, Eats p t v rest) ↔
    (∃ b, t = [b] ∧ P b) ∨ (pct ∧ ∃ h l, t = [byte '%', h, l] ∧ Hex h ∧ Hex l)
  soft : ∀ {r c}, Fail p r c → c = .uncommitted
  ret : ∀ {r}, Ret p r
  pc : ¬ P (byte '%')
  ascii : ∀ {b}, P b → b.toNat < 128

section
variable {A B : Type} {p : Parser UInt8 A} {P Q : UInt8 → Prop} {pct pct' : Prop}

theorem UnitP.fail_iff (h : UnitP p P pct) {r : Bytes} {c : Committed} :
    Fail p r c ↔ c = .uncommitted ∧ ¬ Start P pct r := by
  have := h.good
  constructor
  · intro hf
    refine ⟨h.soft hf, ?_⟩
    rintro (⟨b, r', rfl, hb⟩ | ⟨hp, x, y, r', rfl, hx, hy⟩)
    · obtain ⟨v, hv⟩ := (h.eats (t := [b]) (rest := r')).2 (.inl ⟨b, rfl, hb⟩)
      exact not_eats_fail hv hf
    · obtain ⟨v, hv⟩ := (h.eats (t := [byte '%', x, y]) (rest := r')).2 (.inr ⟨hp, x, y, rfl, hx, hy⟩)
      exact not_eats_fail hv hf
  · rintro ⟨rfl, hs⟩
    rcases outcomes p r with ⟨t, v, rest, rfl, hv⟩ | ⟨c, hc⟩ | hr
    · refine absurd ?_ hs
      rcases h.eats.1 ⟨v, hv⟩ with ⟨b, rfl, hb⟩ | ⟨hp, x, y, rfl, hx, hy⟩
      · exact .inl ⟨b, rest, rfl, hb⟩
      · exact .inr ⟨hp, x, y, rest, rfl, hx, hy⟩
    · have := h.soft hc; subst this; exact hc
    · exact absurd h.ret hr

theorem UnitP.fails (h : UnitP p P pct) {r : Bytes} : (∃ c, Fail p r c) ↔ ¬ Start P pct r :=
  ⟨fun ⟨_, hc⟩ => (h.fail_iff.1 hc).2, fun hs => ⟨_, h.fail_iff.2 ⟨rfl, hs⟩⟩⟩

theorem UnitP.congr (h : UnitP p P pct) (hP : ∀ b, P b ↔ Q b) : UnitP p Q pct where
  good := h.good
  eats := by intro t rest; rw [h.eats]; simp only [hP]
  soft := h.soft
  ret := h.ret
  pc := fun hq => h.pc ((hP _).2 hq)
  ascii := fun hq => h.ascii ((hP _).2 hq)

theorem unit_pred (f : UInt8 → Bool) (h0 : f (byte '%') = false)
    (ha : ∀ b, f b = true → b.toNat < 128) : UnitP (elmPred f) (fun b => f b = true) False where
  good := inferInstance
  eats := by
    intro t rest
    simp only [eats_elmPred, false_and, or_false]
  soft := fun h => (fail_elmPred.1 h).1
  ret := ret_elmPred
  pc := by simp [h0]
  ascii := fun h => ha _ h

theorem unit_set (f : UInt8 → Bool) (h0 : f (byte '%') = false)
    (ha : ∀ b, f b = true → b.toNat < 128) : UnitP (elmOfSet f) (fun b => f b = true) False where
  good := inferInstance
  eats := by
    intro t rest
    simp only [eats_elmOfSet, false_and, or_false]
  soft := fun h => (fail_elmOfSet.1 h).1
  ret := ret_elmOfSet
  pc := by simp [h0]
  ascii := fun h => ha _ h

theorem unit_of (cs : List Char) (h : ∀ c ∈ cs, c.toNat < 128 ∧ c.toNat ≠ 37) :
    UnitP (elmOf (cs.map byte)) (OneOf cs) False := by
  have h' : ∀ c ∈ cs, c.toNat < 256 := fun c hc => by have := (h c hc).1; omega
  refine (unit_set (setOfList (cs.map byte)) ?_ ?_).congr fun b => ?_
  · simp only [setOfList, decide_eq_false_iff_not, mem_bytes h']
    intro hm
    obtain ⟨c, hc, he⟩ := List.mem_map.1 hm
    exact (h c hc).2 (by rw [he]; decide)
  · intro b hb
    simp only [setOfList, decide_eq_true_eq, mem_bytes h'] at hb
    obtain ⟨c, hc, he⟩ := List.mem_map.1 hb
    have := (h c hc).1; omega
  · simp only [setOfList, decide_eq_true_eq, mem_bytes h']

theorem unit_alpha : UnitP elmAlpha Alpha False :=
  (unit_pred Element.isAlpha (by decide) (fun b h => by
    have := isAlpha_iff.1 h; simp only [Alpha] at this; omega)).congr fun _ => isAlpha_iff

theorem unit_digit : UnitP elmDigit Digit False :=
  (unit_pred Element.isDigit (by decide) (fun b h => by
    have := isDigit_iff.1 h; simp only [Digit] at this; omega)).congr fun _ => isDigit_iff

theorem unit_hex : UnitP elmHexDigit Hex False :=
  (unit_pred Element.isHexDigit (by decide) (fun b h => by
    have := isHex_iff.1 h; simp only [Hex, Digit] at this; omega)).congr fun _ => isHex_iff

theorem unit_elm (c : Char) (h : c.toNat < 128 ∧ c.toNat ≠ 37) : UnitP (elm (byte c)) (OneOf [c]) False := by
  have h' : (byte c).toNat = c.toNat := byte_toNat c (by omega)
  refine (unit_pred (fun y => decide (y = byte c)) ?_ ?_).congr fun b => ?_
  · simp only [decide_eq_false_iff_not]
    intro he
    have := congrArg UInt8.toNat he
    rw [h', show (byte '%').toNat = 37 from rfl] at this
    omega
  · intro b hb
    simp only [decide_eq_true_eq] at hb
    subst hb; omega
  · simp only [decide_eq_true_eq, OneOf, List.map_cons, List.map_nil, List.mem_singleton]
    constructor
    · rintro rfl; exact h'
    · intro hb; exact toNat_inj (hb.trans h'.symm)

theorem UnitP.or {p' : Parser UInt8 A} (h : UnitP p P pct) (h' : UnitP p' Q pct') :
    UnitP (OniComb.or p p') (fun b => P b ∨ Q b) (pct ∨ pct') where
  good := by have := h.good; have := h'.good; infer_instance
  eats := by
    intro t rest
    simp only [eats_or, exists_or]
    rw [h.eats]
    have e2 : (∃ v, Fail p (t ++ rest) .uncommitted ∧ Eats p' t v rest) ↔
        ¬ Start P pct (t ++ rest) ∧ ∃ v, Eats p' t v rest := by
      rw [h.fail_iff]
      constructor
      · rintro ⟨v, ⟨-, h1⟩, h2⟩; exact ⟨h1, v, h2⟩
      · rintro ⟨h1, v, h2⟩; exact ⟨v, ⟨rfl, h1⟩, h2⟩
    rw [e2, h'.eats]
    constructor
    · rintro ((⟨b, rfl, hb⟩ | ⟨hp, x⟩) | ⟨-, ⟨b, rfl, hb⟩ | ⟨hp, x⟩⟩)
      · exact .inl ⟨b, rfl, .inl hb⟩
      · exact .inr ⟨.inl hp, x⟩
      · exact .inl ⟨b, rfl, .inr hb⟩
      · exact .inr ⟨.inr hp, x⟩
    · rintro (⟨b, rfl, hb⟩ | ⟨hp, x, y, rfl, hx, hy⟩)
      · by_cases hP : P b
        · exact .inl (.inl ⟨b, rfl, hP⟩)
        · have hQ := hb.resolve_left hP
          refine .inr ⟨?_, .inl ⟨b, rfl, hQ⟩⟩
          rintro (⟨b', r', he, hb'⟩ | ⟨-, x, y, r', he, -⟩)
          · cases he; exact hP hb'
          · cases he; exact h'.pc hQ
      · by_cases hp' : pct
        · exact .inl (.inr ⟨hp', x, y, rfl, hx, hy⟩)
        · refine .inr ⟨?_, .inr ⟨hp.resolve_left hp', x, y, rfl, hx, hy⟩⟩
          rintro (⟨b', r', he, hb'⟩ | ⟨h1, -⟩)
          · cases he; exact h.pc hb'
          · exact hp' h1
  soft := by
    intro r c hf
    rcases fail_or.1 hf with ⟨-, hf⟩ | ⟨-, hf⟩
    · cases h.soft hf
    · exact h'.soft hf
  ret := ret_or.2 ⟨h.ret, fun _ => h'.ret⟩
  pc := by rintro (h1 | h1); exacts [h.pc h1, h'.pc h1]
  ascii := by rintro b (h1 | h1); exacts [h.ascii h1, h'.ascii h1]

theorem UnitP.collect (h : UnitP p P pct) : UnitP (OniComb.collect p) P pct where
  good := by have := h.good; infer_instance
  eats := by
    intro t rest
    rw [← h.eats (rest := rest)]
    simp only [eats_collect, exists_eq_left]
  soft := fun hf => by have := h.good; exact h.soft (fail_collect.1 hf)
  ret := ret_collect.2 h.ret
  pc := h.pc
  ascii := h.ascii

theorem UnitP.name (h : UnitP p P pct) (l : String) : UnitP (OniComb.name p l) P pct where
  good := by have := h.good; infer_instance
  eats := by intro t rest; rw [← h.eats (rest := rest)]; simp only [eats_name]
  soft := fun hf => h.soft (fail_name.1 hf)
  ret := ret_name.2 h.ret
  pc := h.pc
  ascii := h.ascii

theorem UnitP.attempt (h : UnitP p P pct) : UnitP (OniComb.attempt p) P pct where
  good := by have := h.good; infer_instance
  eats := by intro t rest; rw [← h.eats (rest := rest)]; simp only [eats_attempt]
  soft := fun hf => (fail_attempt.1 hf).1
  ret := ret_attempt.2 h.ret
  pc := h.pc
  ascii := h.ascii

theorem UnitP.pct_congr (h : UnitP p P pct) (hP : pct ↔ pct') : UnitP p P pct' := by
  have := propext hP; subst this; exact h

theorem UnitP.to {P' : UInt8 → Prop} (h : UnitP p P pct) (hP : ∀ b, P b ↔ P' b) (hp : pct ↔ pct') :
    UnitP p P' pct' := (h.congr hP).pct_congr hp

theorem unit_pctEncoded : UnitP pctEncoded (fun _ => False) True := by
  unfold pctEncoded
  refine UnitP.name (UnitP.collect ?_) _
  exact {
    good := inferInstance
    eats := by
      intro t rest
      simp only [and_false, exists_false, false_or, true_and]
      constructor
      · rintro ⟨⟨⟨a, x⟩, y⟩, h⟩
        rw [eats_andThen] at h
        obtain ⟨t1, t2, rfl, h1, h2⟩ := h
        obtain ⟨t3, t4, rfl, h3, h4⟩ := eats_andThen.1 h1
        obtain ⟨rfl, rfl⟩ := eats_elm.1 h3
        obtain ⟨rfl, h5⟩ := eats_elmPred.1 h4
        obtain ⟨rfl, h6⟩ := eats_elmPred.1 h2
        exact ⟨x, y, rfl, isHex_iff.1 h5, isHex_iff.1 h6⟩
      · rintro ⟨x, y, rfl, hx, hy⟩
        refine ⟨((byte '%', x), y), eats_andThen.2 ⟨[byte '%', x], [y], rfl, ?_, ?_⟩⟩
        · exact eats_andThen.2 ⟨[byte '%'], [x], rfl, eats_elm.2 ⟨rfl, rfl⟩,
            eats_elmPred.2 ⟨rfl, isHex_iff.2 hx⟩⟩
        · exact eats_elmPred.2 ⟨rfl, isHex_iff.2 hy⟩
    soft := by
      intro r c h
      rcases fail_andThen.1 h with h | ⟨_, _, _, -, -, h⟩
      · rcases fail_andThen.1 h with h | ⟨_, _, _, -, -, h⟩
        · exact (fail_elm.1 h).1
        · exact (fail_elmPred.1 h).1
      · exact (fail_elmPred.1 h).1
    ret := NoDiv.ret _ _
    pc := id
    ascii := fun h => h.elim }

theorem unit_unreserved : UnitP unreserved Unreserved False := by
  unfold unreserved
  refine UnitP.name (UnitP.collect (((unit_alpha.or unit_digit).or
    (unit_of ['-', '.', '_', '~'] (by decide))).to (fun b => ?_) (by simp))) _
  simp [Unreserved, or_assoc]

theorem unit_subDelims : UnitP subDelims SubDelim False :=
  UnitP.collect (UnitP.name (unit_of _ (by decide)) _)

theorem unit_subDelims' : UnitP subDelimsWithoutEqAmp
    (OneOf ['!', '$', '\'', '(', ')', '*', '+', ',', ';']) False :=
  UnitP.collect (UnitP.name (unit_of _ (by decide)) _)

theorem unit_pchar : UnitP pchar PcharByte True := by
  unfold pchar
  refine UnitP.name (UnitP.collect ((((unit_unreserved.or unit_pctEncoded).or unit_subDelims).or
    (UnitP.collect (unit_of [':', '@'] (by decide)))).to (fun b => ?_) (by simp))) _
  simp [PcharByte, RegByte]

theorem unit_regChar : UnitP regChar RegByte True := by
  unfold regChar
  refine ((unit_unreserved.attempt.or unit_pctEncoded.attempt).or unit_subDelims).to
    (fun b => ?_) (by simp)
  simp [RegByte]

theorem unit_fragChar : UnitP (or pchar (collect (elmOf (bytes "/?")))) FragByte True :=
  (unit_pchar.or (UnitP.collect (unit_of ['/', '?'] (by decide)))).to (fun b => Iff.rfl) (by simp)

theorem unit_queryChar : UnitP (or pcharWithoutEqAmp (collect (elmOf (bytes "/?")))) QueryByte True := by
  unfold pcharWithoutEqAmp
  refine ((UnitP.name (UnitP.collect (((unit_unreserved.or unit_pctEncoded).or unit_subDelims').or
    (UnitP.collect (unit_of [':', '@'] (by decide))))) _).or
    (UnitP.collect (unit_of ['/', '?'] (by decide)))).to (fun b => ?_) (by simp)
  simp only [QueryByte, FragByte, PcharByte, RegByte, Unreserved, SubDelim, Alpha, Digit, OneOf,
    List.map_cons, List.map_nil, List.mem_cons, List.not_mem_nil, or_false,
    show '!'.toNat = 33 from rfl, show '$'.toNat = 36 from rfl, show '&'.toNat = 38 from rfl,
    show '\''.toNat = 39 from rfl, show '('.toNat = 40 from rfl, show ')'.toNat = 41 from rfl,
    show '*'.toNat = 42 from rfl, show '+'.toNat = 43 from rfl, show ','.toNat = 44 from rfl,
    show ';'.toNat = 59 from rfl, show '='.toNat = 61 from rfl, show ':'.toNat = 58 from rfl,
    show '@'.toNat = 64 from rfl, show '/'.toNat = 47 from rfl, show '?'.toNat = 63 from rfl,
    show '-'.toNat = 45 from rfl, show '.'.toNat = 46 from rfl, show '_'.toNat = 95 from rfl,
    show '~'.toNat = 126 from rfl]
  omega

theorem unit_schemeChar : UnitP (or (or elmAlpha elmDigit) (elmOf (bytes "+-."))) SchemeByte False :=
  ((unit_alpha.or unit_digit).or (unit_of ['+', '-', '.'] (by decide))).to
    (fun b => by simp [SchemeByte, or_assoc]) (by simp)

theorem unit_futureChar : UnitP (or (or unreserved subDelims) (collect (elm (byte ':'))))
    (fun b => RegByte b ∨ OneOf [':'] b) False :=
  ((unit_unreserved.or unit_subDelims).or (UnitP.collect (unit_elm ':' (by decide)))).to
    (fun b => by simp [RegByte]) (by simp)

/-! ### Runs of units -/

/-- A text of units. -/
inductive Units (P : UInt8 → Prop) (pct : Prop) : Bytes → Prop where
  | nil : Units P pct []
  | byte (b : UInt8) (t : Bytes) : P b → Units P pct t → Units P pct (b :: t)
  | pct (h l : UInt8) (t : Bytes) : pct → Hex h → Hex l → Units P pct t →
      Units P pct (byte '%' :: h :: l :: t)

theorem units_true {t : Bytes} : Units P True t ↔ Enc P t := by
  constructor
  · intro h
    induction h with
    | nil => exact .nil
    | byte b t hb _ ih => exact .byte b t hb ih
    | pct h l t _ hh hl _ ih => exact .pct h l t hh hl ih
  · intro h
    induction h with
    | nil => exact .nil
    | byte b t hb _ ih => exact .byte b t hb ih
    | pct h l t hh hl _ ih => exact .pct h l t trivial hh hl ih

theorem units_false {t : Bytes} : Units P False t ↔ ∀ b ∈ t, P b := by
  constructor
  · intro h
    induction h with
    | nil => simp
    | byte b t hb _ ih => simpa [hb] using ih
    | pct h l t hf => exact hf.elim
  · intro h
    induction t with
    | nil => exact .nil
    | cons b t ih => exact .byte b t (h b (by simp)) (ih fun x hx => h x (by simp [hx]))

theorem UnitP.many (h : UnitP p P pct) {t rest : Bytes} : (∃ vs, Many p t vs rest) ↔ Units P pct t := by
  constructor
  · rintro ⟨vs, hm⟩
    induction hm with
    | nil => exact .nil
    | cons he _ ih =>
      rcases h.eats.1 ⟨_, he⟩ with ⟨b, rfl, hb⟩ | ⟨hp, x, y, rfl, hx, hy⟩
      · exact .byte b _ hb ih
      · exact .pct x y _ hp hx hy ih
  · intro hu
    induction hu with
    | nil => exact ⟨[], .nil _⟩
    | byte b t hb _ ih =>
      obtain ⟨vs, ih⟩ := ih
      obtain ⟨v, hv⟩ := (h.eats (t := [b]) (rest := t ++ rest)).2 (.inl ⟨b, rfl, hb⟩)
      exact ⟨v :: vs, .cons hv ih⟩
    | pct x y t hp hx hy _ ih =>
      obtain ⟨vs, ih⟩ := ih
      obtain ⟨v, hv⟩ := (h.eats (t := [byte '%', x, y]) (rest := t ++ rest)).2
        (.inr ⟨hp, x, y, rfl, hx, hy⟩)
      exact ⟨v :: vs, .cons hv ih⟩

theorem UnitP.many_ne (h : UnitP p P pct) {t rest : Bytes} {vs : List A} (hm : Many p t vs rest) :
    vs = [] ↔ t = [] := by
  cases hm with
  | nil => simp
  | @cons t t' _ v vs he _ =>
    simp only [List.cons_ne_nil, List.append_eq_nil_iff, false_iff, not_and]
    rintro rfl
    rcases h.eats.1 ⟨_, he⟩ with ⟨b, h1, -⟩ | ⟨-, x, y, h1, -⟩ <;> cases h1

theorem UnitP.eats_many0 (h : UnitP p P pct) {t rest : Bytes} :
    (∃ vs, Eats (many0 p) t vs rest) ↔ Units P pct t ∧ ¬ Start P pct rest := by
  have := h.good
  rw [← h.many (rest := rest), ← h.fails]
  simp only [OniComb.eats_many0]
  exact ⟨fun ⟨vs, h1, h2⟩ => ⟨⟨vs, h1⟩, h2⟩, fun ⟨⟨vs, h1⟩, h2⟩ => ⟨vs, h1, h2⟩⟩

theorem UnitP.eats_many1 (h : UnitP p P pct) {t rest : Bytes} :
    (∃ vs, Eats (many1 p) t vs rest) ↔ t ≠ [] ∧ Units P pct t ∧ ¬ Start P pct rest := by
  have := h.good
  rw [← h.many (rest := rest), ← h.fails]
  simp only [OniComb.eats_many1]
  constructor
  · rintro ⟨vs, h0, h1, h2⟩; exact ⟨fun ht => h0 ((h.many_ne h1).2 ht), ⟨vs, h1⟩, h2⟩
  · rintro ⟨h0, ⟨vs, h1⟩, h2⟩; exact ⟨vs, fun ht => h0 ((h.many_ne h1).1 ht), h1, h2⟩

theorem UnitP.progress (h : UnitP p P pct) {t rest : Bytes} {v : A} (he : Eats p t v rest) : t ≠ [] := by
  rcases h.eats.1 ⟨_, he⟩ with ⟨b, rfl, -⟩ | ⟨-, x, y, rfl, -⟩ <;> simp

theorem UnitP.ret_many0 (h : UnitP p P pct) {r : Bytes} : Ret (many0 p) r := by
  have := h.good
  exact OniComb.ret_many0 (fun _ _ => h.ret) fun t v rest _ he => h.progress he

theorem UnitP.ret_many1 (h : UnitP p P pct) {r : Bytes} : Ret (many1 p) r := by
  have := h.good
  exact OniComb.ret_many1 (fun _ _ => h.ret) fun t v rest _ he => h.progress he

/-! ### ASCII texts are UTF-8 -/

theorem validUtf8_ascii (t : Bytes) (h : ∀ b ∈ t, b.toNat < 128) : validUtf8 t = true := by
  induction t with
  | nil => rfl
  | cons a r ih =>
    have ha : a.toNat < 128 := h a (by simp)
    unfold validUtf8
    rw [if_pos ha]
    exact ih fun b hb => h b (by simp [hb])

theorem fromUtf8_ascii (t : Bytes) (h : ∀ b ∈ t, b.toNat < 128) : fromUtf8 t = some t := by
  unfold fromUtf8; rw [if_pos (validUtf8_ascii t h)]

theorem hex_ascii {b : UInt8} (h : Hex b) : b.toNat < 128 := by
  simp only [Hex, Digit] at h; omega

theorem Units.ascii (hP : ∀ {b}, P b → b.toNat < 128) {t : Bytes} (h : Units P pct t) :
    ∀ b ∈ t, b.toNat < 128 := by
  induction h with
  | nil => simp
  | byte b t hb _ ih =>
    intro x hx
    rcases List.mem_cons.1 hx with rfl | hx
    · exact hP hb
    · exact ih x hx
  | pct h l t _ hh hl _ ih =>
    intro x hx
    simp only [List.mem_cons] at hx
    rcases hx with rfl | rfl | rfl | hx
    · decide
    · exact hex_ascii hh
    · exact hex_ascii hl
    · exact ih x hx

instance [Good p] : Good (text p) := by unfold text; infer_instance

theorem eats_text {t v rest : Bytes} : Eats (text p) t v rest ↔ fromUtf8 t = some v ∧ ∃ a, Eats p t a rest := by
  unfold text
  rw [eats_mapRes]
  simp only [eats_map, eats_collect]
  constructor
  · rintro ⟨w, ⟨u, ⟨rfl, h⟩, rfl⟩, h2⟩; exact ⟨h2, h⟩
  · rintro ⟨h2, h⟩; exact ⟨t, ⟨t, ⟨rfl, h⟩, rfl⟩, h2⟩

theorem ret_text {r : Bytes} : Ret (text p) r ↔ Ret p r := by
  unfold text; rw [ret_mapRes, ret_map, ret_collect]

theorem fail_text [Good p] {r : Bytes} {c : Committed} (h : Fail p r c) : Fail (text p) r c := by
  unfold text; exact fail_mapRes.2 (.inl (fail_map.2 (fail_collect.2 h)))

theorem UnitP.eats_text0 (h : UnitP p P pct) {t v rest : Bytes} :
    Eats (text (many0 p)) t v rest ↔ v = t ∧ Units P pct t ∧ ¬ Start P pct rest := by
  rw [eats_text, h.eats_many0]
  constructor
  · rintro ⟨h1, h2⟩
    rw [fromUtf8_ascii t (h2.1.ascii h.ascii)] at h1
    exact ⟨(Option.some.inj h1).symm, h2⟩
  · rintro ⟨rfl, h2⟩
    exact ⟨fromUtf8_ascii _ (h2.1.ascii h.ascii), h2⟩

theorem UnitP.eats_text1 (h : UnitP p P pct) {t v rest : Bytes} :
    Eats (text (many1 p)) t v rest ↔ v = t ∧ t ≠ [] ∧ Units P pct t ∧ ¬ Start P pct rest := by
  rw [eats_text, h.eats_many1]
  constructor
  · rintro ⟨h1, h2⟩
    rw [fromUtf8_ascii t (h2.2.1.ascii h.ascii)] at h1
    exact ⟨(Option.some.inj h1).symm, h2⟩
  · rintro ⟨rfl, h2⟩
    exact ⟨fromUtf8_ascii _ (h2.2.1.ascii h.ascii), h2⟩

theorem UnitP.fail_text1 (h : UnitP p P pct) {r : Bytes} (hs : ¬ Start P pct r) :
    Fail (text (many1 p)) r .uncommitted := by
  have := h.good
  exact fail_text (fail_many1.2 ⟨rfl, h.fails.2 hs⟩)

end

/-! ### Starting bytes -/

section
variable {P : UInt8 → Prop} {pct : Prop}

@[simp] theorem start_nil : ¬ Start P pct [] := by
  rintro (⟨b, r', h, -⟩ | ⟨-, x, y, r', h, -⟩) <;> cases h

theorem start_cons {b : UInt8} {r : Bytes} (h1 : ¬ P b) (h2 : b ≠ byte '%') : ¬ Start P pct (b :: r) := by
  rintro (⟨b', r', h, hb⟩ | ⟨-, x, y, r', h, -⟩)
  · cases h; exact h1 hb
  · cases h; exact h2 rfl

end

/-! ### Numbers -/

theorem digitOf_digit {b : UInt8} (h : Digit b) : digitOf 10 b = some (b.toNat - 48) := by
  unfold digitOf
  unfold Digit at h
  simp only [if_pos h, Option.bind_some]
  rw [if_pos (by omega)]

theorem digit_sign {b : UInt8} (h : Digit b) : b ≠ byte '+' ∧ b ≠ byte '-' := by
  unfold Digit at h
  constructor <;> rintro rfl
  · simp [show (byte '+').toNat = 43 from rfl] at h
  · simp [show (byte '-').toNat = 45 from rfl] at h

theorem foldl_ge (t : Bytes) : ∀ acc, acc ≤ t.foldl (fun n b => n * 10 + (b.toNat - 48)) acc := by
  induction t with
  | nil => intro acc; exact Nat.le_refl _
  | cons b t ih =>
    intro acc
    have := ih (acc * 10 + (b.toNat - 48))
    simp only [List.foldl_cons]
    omega

theorem digitsLoop_dec (max : Nat) : ∀ (t : Bytes) (acc : Nat), (∀ b ∈ t, Digit b) → acc ≤ max →
    digitsLoop 10 max acc t =
      if t.foldl (fun n b => n * 10 + (b.toNat - 48)) acc ≤ max then
        some (t.foldl (fun n b => n * 10 + (b.toNat - 48)) acc) else none := by
  intro t
  induction t with
  | nil => intro acc _ h; simp [digitsLoop, h]
  | cons b t ih =>
    intro acc hd hacc
    rw [List.foldl_cons]
    simp only [digitsLoop, digitOf_digit (hd b (by simp)), Option.bind_some]
    by_cases h : acc * 10 + (b.toNat - 48) ≤ max
    · rw [if_pos h]
      exact ih _ (fun x hx => hd x (by simp [hx])) h
    · rw [if_neg h, if_neg]
      have := foldl_ge t (acc * 10 + (b.toNat - 48))
      omega

theorem parseUInt_dec (max : Nat) (t : Bytes) (h : ∀ b ∈ t, Digit b) :
    parseUInt 10 max t = if t ≠ [] ∧ value t ≤ max then some (value t) else none := by
  match t, h with
  | [], _ => simp [parseUInt]
  | [b], h =>
    have hs := digit_sign (h b (by simp))
    unfold parseUInt
    simp only [hs.1, hs.2, or_self, if_false]
    rw [digitsLoop_dec max [b] 0 h (Nat.zero_le _)]
    simp [value]
  | b :: c :: r, h =>
    have hs := digit_sign (h b (by simp))
    unfold parseUInt
    simp only
    rw [if_neg hs.1, digitsLoop_dec max (b :: c :: r) 0 h (Nat.zero_le _)]
    simp [value]

theorem digit_ofNat {d : Nat} (h : d < 10) : Digit (UInt8.ofNat (48 + d)) := by
  unfold Digit; rw [ofNat_toNat _ (by omega)]; omega

theorem dec_spec (n : Nat) : DecText (dec n) n ∧ (0 < n → (dec n).head? ≠ some (byte '0')) := by
  induction n using Nat.strongRecOn with
  | _ n ih =>
    unfold dec
    split
    · rename_i hn
      have hd : (UInt8.ofNat (48 + n)).toNat = 48 + n := ofNat_toNat _ (by omega)
      refine ⟨⟨by simp, ?_, ?_, ?_⟩, ?_⟩
      · simpa using digit_ofNat hn
      · simp only [value, List.foldl_cons, List.foldl_nil, hd]; omega
      · intro h; simpa using h
      · intro hpos h
        simp only [List.head?_cons, Option.some.injEq] at h
        have := congrArg UInt8.toNat h
        rw [hd, show (byte '0').toNat = 48 from rfl] at this
        omega
    · rename_i hn
      obtain ⟨⟨h1, h2, h3, h4⟩, h5⟩ := ih (n / 10) (by omega)
      have hd : (UInt8.ofNat (48 + n % 10)).toNat = 48 + n % 10 := ofNat_toNat _ (by omega)
      have hh : (dec (n / 10) ++ [UInt8.ofNat (48 + n % 10)]).head? = (dec (n / 10)).head? := by
        cases hc : dec (n / 10) with
        | nil => exact absurd hc h1
        | cons b r => simp
      have h6 := h5 (by omega)
      refine ⟨⟨by simp, ?_, ?_, ?_⟩, ?_⟩
      · intro b hb
        rcases List.mem_append.1 hb with hb | hb
        · exact h2 b hb
        · rw [List.mem_singleton] at hb; subst hb; exact digit_ofNat (by omega)
      · unfold value at h3 ⊢
        rw [List.foldl_append, h3]
        simp only [List.foldl_cons, List.foldl_nil, hd]
        omega
      · intro h; rw [hh] at h; exact absurd h h6
      · intro _; rw [hh]; exact h6

theorem value_append (t u : Bytes) : value (t ++ u) =
    u.foldl (fun n b => n * 10 + (b.toNat - 48)) (value t) := by
  unfold value; rw [List.foldl_append]

/-- The digits of a number without leading zeros are unique. -/
theorem decText_unique {t u : Bytes} {n : Nat} (h : DecText t n) (h' : DecText u n) : t = u := by
  have step : ∀ (t : Bytes) (n : Nat), DecText t n →
      t = (if n < 10 then [UInt8.ofNat (48 + n)] else t.dropLast ++ [UInt8.ofNat (48 + n % 10)]) ∧
        (10 ≤ n → DecText t.dropLast (n / 10)) := by
    rintro t n ⟨h1, h2, h3, h4⟩
    obtain ⟨s, b, rfl⟩ : ∃ s b, t = s ++ [b] := ⟨_, _, (List.dropLast_concat_getLast h1).symm⟩
    have hb : Digit b := h2 b (by simp)
    have hb' := hb
    unfold Digit at hb'
    rw [value_append] at h3
    simp only [List.foldl_cons, List.foldl_nil] at h3
    have hbn : b = UInt8.ofNat (48 + n % 10) := toNat_inj (by rw [ofNat_toNat _ (by omega)]; omega)
    simp only [List.dropLast_concat]
    cases s with
    | nil =>
      simp only [value, List.foldl_nil] at h3
      have : n < 10 := by omega
      rw [if_pos this]
      refine ⟨?_, fun h => absurd h (by omega)⟩
      rw [List.nil_append, hbn, Nat.mod_eq_of_lt this]
    | cons x s =>
      have hx0 : x ≠ byte '0' := by
        rintro rfl
        have := h4 (by simp)
        simp at this
      have hx : Digit x := h2 x (by simp)
      have hxn : x.toNat ≠ 48 := fun he => hx0 (toNat_inj he)
      unfold Digit at hx
      have hge : 1 ≤ value (x :: s) := by
        have := foldl_ge s (0 * 10 + (x.toNat - 48))
        simp only [value, List.foldl_cons] at this ⊢
        omega
      rw [if_neg (by omega), ← hbn]
      refine ⟨rfl, fun _ => ⟨by simp, fun y hy => h2 y (List.mem_append_left _ hy), by omega, ?_⟩⟩
      intro h; simp at h; exact absurd h hx0
  induction n using Nat.strongRecOn generalizing t u with
  | _ n ih =>
    obtain ⟨e1, d1⟩ := step t n h
    obtain ⟨e2, d2⟩ := step u n h'
    by_cases hn : n < 10
    · rw [if_pos hn] at e1 e2; rw [e1, e2]
    · rw [if_neg hn] at e1 e2
      rw [e1, e2, ih (n / 10) (by omega) (d1 (by omega)) (d2 (by omega))]

theorem decText_iff {t : Bytes} {n : Nat} : DecText t n ↔ t = dec n :=
  ⟨fun h => decText_unique h (dec_spec n).1, fun h => h ▸ (dec_spec n).1⟩

/-- Digits are leading zeros followed by the digits of their number. -/
theorem digits_zeros (t : Bytes) (h : ∀ b ∈ t, Digit b) (hne : t ≠ []) :
    ∃ z, t = List.replicate z (byte '0') ++ dec (value t) := by
  induction t with
  | nil => exact absurd rfl hne
  | cons b t ih =>
    by_cases h0 : b = byte '0'
    · subst h0
      by_cases ht : t = []
      · subst ht; exact ⟨0, by decide +kernel⟩
      · obtain ⟨z, hz⟩ := ih (fun x hx => h x (by simp [hx])) ht
        refine ⟨z + 1, ?_⟩
        have : value (byte '0' :: t) = value t := by
          simp [value, show (byte '0').toNat = 48 from rfl]
        rw [this, List.replicate_succ, List.cons_append, ← hz]
    · refine ⟨0, ?_⟩
      have : DecText (b :: t) (value (b :: t)) := by
        refine ⟨hne, h, rfl, fun hh => ?_⟩
        simp at hh; exact absurd hh h0
      simpa using decText_iff.1 this

end OniComb.Uri
