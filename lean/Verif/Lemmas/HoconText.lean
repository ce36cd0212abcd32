import Verif.Lemmas.HoconPath

/-! # Helper lemmas: texts of `hocon` values

The grammar may panic (numbers with an exponent), so it is not `Good`.  `softGrammar` is the same grammar
except that it diverges instead; it is `Good`, and where it returns, the grammar returns the same. -/

namespace OniComb.Hocon
open OniComb OniComb.Hocon.Spec
open OniComb.Uri (Bytes byte bytes fromUtf8 parseUInt mapUnwrap text)

variable {A B : Type} {t rest r : Bytes} {c : Committed}

/-! ### The grammar without panics -/

/-- `mapUnwrap` that diverges where `mapUnwrap` panics. -/
def softUnwrap (p : Parser UInt8 A) (f : A → Option B) : Parser UInt8 B :=
  flatMap p fun a => match f a with
    | some b => successful b
    | none => diverging

instance (p : Parser UInt8 A) [Good p] (f : A → Option B) : Good (softUnwrap p f) := by
  have : ∀ a, Good (match f a with
    | some b => successful b
    | none => diverging : Parser UInt8 B) := fun a => by cases f a <;> infer_instance
  unfold softUnwrap
  infer_instance

instance (p : Parser UInt8 A) (f : A → Option B) : Below (softUnwrap p f) (mapUnwrap p f) := ⟨fun s => by
  unfold softUnwrap flatMap mapUnwrap
  cases p s with
  | success v n =>
    dsimp only
    cases f v with
    | none => exact .inl rfl
    | some b => right; simp [successful, Res.addCommit, Res.advanceSuccess]
  | _ => exact .inr rfl⟩

theorem Eats.softUnwrap {p : Parser UInt8 A} [Good p] {f : A → Option B} {v : A} {w : B} (h : Eats p t v rest)
    (hf : f v = some w) : Eats (softUnwrap p f) t w rest := by
  have : ∀ a, Good (match f a with
    | some b => successful b
    | none => diverging : Parser UInt8 B) := fun a => by cases f a <;> infer_instance
  unfold Hocon.softUnwrap
  refine eats_flatMap.2 ⟨t, [], v, by simp, h, ?_⟩
  rw [hf]
  exact eats_successful.2 ⟨rfl, rfl⟩

theorem Fail.softUnwrap {p : Parser UInt8 A} [Good p] {f : A → Option B} (h : Fail p r c) :
    Fail (softUnwrap p f) r c := by
  have : ∀ a, Good (match f a with
    | some b => successful b
    | none => diverging : Parser UInt8 B) := fun a => by cases f a <;> infer_instance
  unfold Hocon.softUnwrap
  exact fail_flatMap.2 (.inl h)

variable (S : Std)

/-- `numberValue` without panics. -/
def softNumber : Parser UInt8 Decimal := softUnwrap number (numberOf S)
/-- `duration` without panics. -/
def softDuration : Parser UInt8 (Decimal × TimeUnit) := andThen (softNumber S) unitP
/-- `simpleConfigValue` without panics. -/
def softSimple : Parser UInt8 Value :=
  spaced (or (or (or (or (or (attempt (map (seq (bytes "null")) fun _ => .null))
    (attempt (map (seq (bytes "true")) fun _ => .bool true)))
    (attempt (map (seq (bytes "false")) fun _ => .bool false)))
    (attempt (map (softDuration S) fun (d, u) => .dur d u))) (attempt (map (softNumber S) .num)))
    stringConfigValue)
/-- `configValue` without panics. -/
def softConfigValue (cv : Parser UInt8 Value) (prop : Parser UInt8 (Bytes × Value)) : Parser UInt8 Value :=
  spaced (or (or (or (or (attempt (arrayConfigValue cv)) (attempt (objectConfigValue prop)))
    (attempt referenceConfigValue)) (attempt (softSimple S))) enumerationConfigValue)
/-- `grammar` without panics. -/
def softGrammar : Nat → Parser UInt8 Value × Parser UInt8 (Bytes × Value)
  | 0 => (diverging, diverging)
  | n + 1 =>
    let cv := lazy fun _ => (softGrammar n).1
    let prop := lazy fun _ => (softGrammar n).2
    (softConfigValue S cv prop, property cv prop)
/-- `hocon` without panics. -/
def softHocon (n : Nat) : Parser UInt8 (List Value) :=
  skipRight (skipLeft spaceOrComment (config (softGrammar S n).1 (softGrammar S n).2)) end_

instance : Good stringConfigValue := by unfold stringConfigValue; infer_instance
instance : Good referenceConfigValue := by unfold referenceConfigValue; infer_instance
instance : Good enumerationConfigValue := by unfold enumerationConfigValue; infer_instance
instance : Good includeMethod := by unfold includeMethod; infer_instance
instance : Good includeConfigValue := by unfold includeConfigValue; infer_instance
instance : Good (softNumber S) := by unfold softNumber; infer_instance
instance : Good (softDuration S) := by unfold softDuration; infer_instance
instance : Good (softSimple S) := by unfold softSimple; infer_instance

section
variable {cv cv' : Parser UInt8 Value} {prop prop' : Parser UInt8 (Bytes × Value)}
instance [Good cv] : Good (array cv) := by unfold array; infer_instance
instance [Good cv] : Good (arrayConfigValue cv) := by unfold arrayConfigValue; infer_instance
instance [Good prop] : Good (object prop) := by unfold object; infer_instance
instance [Good prop] : Good (objectConfigValue prop) := by unfold objectConfigValue; infer_instance
instance [Good cv] [Good prop] : Good (property cv prop) := by unfold property; infer_instance
instance [Good cv] [Good prop] : Good (softConfigValue S cv prop) := by unfold softConfigValue; infer_instance
instance [Good cv] [Good prop] : Good (config cv prop) := by unfold config; infer_instance

theorem good_grammar : ∀ n, Good (softGrammar S n).1 ∧ Good (softGrammar S n).2
  | 0 => ⟨inferInstanceAs (Good diverging), inferInstanceAs (Good diverging)⟩
  | n + 1 => by
    have h1 := (good_grammar n).1
    have h2 := (good_grammar n).2
    exact ⟨inferInstanceAs (Good (softConfigValue S _ _)), inferInstanceAs (Good (property _ _))⟩
instance (n : Nat) : Good (softGrammar S n).1 := (good_grammar S n).1
instance (n : Nat) : Good (softGrammar S n).2 := (good_grammar S n).2
instance (n : Nat) : Good (softHocon S n) := by unfold softHocon; infer_instance

instance {p q : Parser UInt8 A} [Below p q] : Below (spaced p) (spaced q) := by unfold spaced; infer_instance
instance : Below (softNumber S) (numberValue S) := by unfold softNumber numberValue; infer_instance
instance : Below (softDuration S) (duration S) := by unfold softDuration duration; infer_instance
instance : Below (softSimple S) (simpleConfigValue S) := by
  unfold softSimple simpleConfigValue durationValue; infer_instance
instance [Below cv cv'] : Below (array cv) (array cv') := by unfold array; infer_instance
instance [Below cv cv'] : Below (arrayConfigValue cv) (arrayConfigValue cv') := by unfold arrayConfigValue; infer_instance
instance [Below prop prop'] : Below (object prop) (object prop') := by unfold object; infer_instance
instance [Below prop prop'] : Below (objectConfigValue prop) (objectConfigValue prop') := by
  unfold objectConfigValue; infer_instance
instance [Below cv cv'] [Below prop prop'] : Below (property cv prop) (property cv' prop') := by
  unfold property; infer_instance
instance [Below cv cv'] [Below prop prop'] : Below (softConfigValue S cv prop) (configValue S cv' prop') := by
  unfold softConfigValue configValue; infer_instance
instance [Below cv cv'] [Below prop prop'] : Below (configValue S cv prop) (configValue S cv' prop') := by
  unfold configValue; infer_instance
instance [Below cv cv'] [Below prop prop'] : Below (config cv prop) (config cv' prop') := by
  unfold config; infer_instance

theorem soft_below : ∀ n, Below (softGrammar S n).1 (grammar S n).1 ∧ Below (softGrammar S n).2 (grammar S n).2
  | 0 => ⟨inferInstanceAs (Below diverging diverging), inferInstanceAs (Below diverging diverging)⟩
  | n + 1 => by
    have h1 := (soft_below n).1
    have h2 := (soft_below n).2
    exact ⟨inferInstanceAs (Below (softConfigValue S _ _) (configValue S _ _)),
      inferInstanceAs (Below (property _ _) (property _ _))⟩
instance (n : Nat) : Below (softGrammar S n).1 (grammar S n).1 := (soft_below S n).1
instance (n : Nat) : Below (softGrammar S n).2 (grammar S n).2 := (soft_below S n).2
instance (n : Nat) : Below (softHocon S n) (hocon S n) := by unfold softHocon hocon; infer_instance

theorem grammar_mono : ∀ n, Below (grammar S n).1 (grammar S (n + 1)).1 ∧ Below (grammar S n).2 (grammar S (n + 1)).2
  | 0 => ⟨inferInstanceAs (Below diverging _), inferInstanceAs (Below diverging _)⟩
  | n + 1 => by
    have h1 := (grammar_mono n).1
    have h2 := (grammar_mono n).2
    exact ⟨inferInstanceAs (Below (configValue S _ _) (configValue S _ _)),
      inferInstanceAs (Below (property _ _) (property _ _))⟩

theorem below_hocon_succ (n : Nat) : Below (hocon S n) (hocon S (n + 1)) := by
  have h1 := (grammar_mono S n).1
  have h2 := (grammar_mono S n).2
  unfold hocon
  infer_instance

theorem below_hocon {n m : Nat} (h : n ≤ m) : Below (hocon S n) (hocon S m) := by
  induction h with
  | refl => infer_instance
  | step _ ih => exact ih.trans (below_hocon_succ S _)
end

/-! ### Numbers -/

variable {S}

theorem digit_iff {b : UInt8} : Element.isDigit b = true ↔ Digit b := Uri.isDigit_iff

theorem one_digit : OneOfP elmDigit Digit := (one_pred _).congr fun _ => digit_iff

instance (b : UInt8) : Decidable (Digit b) := by unfold Digit; infer_instance

theorem zero_iff {b : UInt8} : Element.isDigitZero b = true ↔ b = byte '0' := by
  show Byte.isDigitZero b = true ↔ _
  simp only [Byte.isDigitZero, Byte.is, beq_iff_eq]
  exact ⟨fun h => Uri.toNat_inj h, fun h => by rw [h]; rfl⟩

theorem eats_digit19 {v : UInt8} : Eats elmDigit19 t v rest ↔ t = [v] ∧ Digit v ∧ v ≠ byte '0' := by
  unfold elmDigit19 filterNot
  rw [eats_filter, one_digit.eats, Bool.not_eq_true', ← Bool.not_eq_true, zero_iff, and_assoc]

theorem fail_digit19 (h : NoHead (fun b => Digit b ∧ b ≠ byte '0') r) : Fail elmDigit19 r .uncommitted := by
  unfold elmDigit19 filterNot
  refine fail_filter.2 ?_
  rcases outcomes (elmDigit : Parser UInt8 UInt8) r with ⟨t, v, rest, rfl, h1⟩ | ⟨c, h1⟩ | h1
  · right
    refine ⟨rfl, t, v, rest, rfl, h1, ?_⟩
    obtain ⟨rfl, h2⟩ := one_digit.eats.1 h1
    have h3 := h v rest rfl
    have : v = byte '0' := by by_contra h4; exact h3 ⟨h2, h4⟩
    simp [zero_iff.2 this]
  · left
    rw [(one_digit.fail.1 h1).1] at h1; exact h1
  · exact absurd one_digit.ret h1

theorem digit_ascii {b : UInt8} (h : Digit b) : b.toNat < 128 := by unfold Digit at h; omega

theorem intText_ascii {i : Bytes} (h : IntText i) : ∀ b ∈ i, b.toNat < 128 := by
  rcases h with rfl | ⟨b, ds, rfl, h1, -, h2⟩
  · decide
  · intro x hx
    rcases List.mem_cons.1 hx with rfl | hx
    · exact digit_ascii h1
    · exact digit_ascii (h2 x hx)

theorem eats_integer {i : Bytes} (h : IntText i) (hr : NoHead Digit rest) : Eats integer i i rest := by
  unfold integer
  rcases h with rfl | ⟨b, ds, rfl, h1, h2, h3⟩
  · refine Eats.or_right (fail_collect.2 (Fail.andThen (fail_digit19 (noHead_cons.2 ?_)))) ?_
    · exact fun h => h.2 rfl
    · exact eats_collect.2 ⟨rfl, _, eats_elm.2 ⟨rfl, rfl⟩⟩
  · refine Eats.or_left (eats_collect.2 ⟨rfl, (b, ds), ?_⟩)
    exact Eats.andThen (t1 := [b]) (eats_digit19.2 ⟨rfl, h1, h2⟩) (one_digit.eats_many0.2 ⟨rfl, h3, hr⟩)

theorem fracText_ascii {f : Bytes} (h : FracText f) : ∀ b ∈ f, b.toNat < 128 := by
  obtain ⟨ds, rfl, -, h2⟩ := h
  intro x hx
  rcases List.mem_cons.1 hx with rfl | hx
  · decide
  · exact digit_ascii (h2 x hx)

theorem eats_frac {f : Bytes} (h : FracText f) (hr : NoHead Digit rest) : Eats (text frac) f f rest := by
  refine Uri.eats_text.2 ⟨Uri.fromUtf8_ascii _ (fracText_ascii h), ?_⟩
  obtain ⟨ds, rfl, h1, h2⟩ := h
  exact ⟨_, Eats.andThen (t1 := [byte '.']) (eats_elm.2 ⟨rfl, rfl⟩) (one_digit.eats_many1.2 ⟨rfl, h1, h2, hr⟩)⟩

theorem expText_ascii {e : Bytes} (h : ExpText e) : ∀ b ∈ e, b.toNat < 128 := by
  obtain ⟨c, s, ds, rfl, h1, h2, -, h3⟩ := h
  intro x hx
  rcases List.mem_cons.1 hx with rfl | hx
  · rcases h1 with rfl | rfl <;> decide
  · rcases List.mem_append.1 hx with hx | hx
    · rcases h2 with rfl | rfl | rfl
      · cases hx
      · rw [List.mem_singleton.1 hx]; decide
      · rw [List.mem_singleton.1 hx]; decide
    · exact digit_ascii (h3 x hx)

theorem eats_exp {e : Bytes} (h : ExpText e) (hr : NoHead Digit rest) : Eats (text exp) e e rest := by
  refine Uri.eats_text.2 ⟨Uri.fromUtf8_ascii _ (expText_ascii h), ?_⟩
  obtain ⟨ch, s, ds, rfl, h1, h2, h3, h4⟩ := h
  obtain ⟨d, ds', rfl⟩ := List.exists_cons_of_ne_nil h3
  have hd : Digit d := h4 d (by simp)
  have hs : ∃ o, Eats (opt (elmOf (bytes "+-"))) s o (d :: ds' ++ rest) := by
    rcases h2 with rfl | rfl | rfl
    · refine ⟨none, eats_opt.2 (.inr ⟨rfl, rfl, _, (one_of _).fail.2 ⟨rfl, noHead_cons.2 ?_⟩⟩)⟩
      intro hm
      exact (by decide : ∀ b ∈ bytes "+-", ¬ Digit b) d hm hd
    · exact ⟨_, eats_opt.2 (.inl ⟨_, rfl, (one_of _).eats.2 ⟨rfl, by decide⟩⟩)⟩
    · exact ⟨_, eats_opt.2 (.inl ⟨_, rfl, (one_of _).eats.2 ⟨rfl, by decide⟩⟩)⟩
  obtain ⟨o, hs⟩ := hs
  have h5 : ch ∈ bytes "eE" := by rcases h1 with rfl | rfl <;> decide
  refine ⟨((ch, o), d :: ds'), ?_⟩
  unfold exp
  have h6 : Eats (andThen (elmOf (bytes "eE")) (opt (elmOf (bytes "+-")))) ([ch] ++ s) (ch, o) (d :: ds' ++ rest) :=
    Eats.andThen ((one_of _).eats.2 ⟨rfl, h5⟩) hs
  exact Eats.andThen (t1 := [ch] ++ s) h6 (one_digit.eats_many1.2 ⟨rfl, h3, h4, hr⟩)

instance (b : UInt8) : Decidable (NumByte b) := by unfold NumByte; infer_instance

theorem expText_head {e : Bytes} (h : ExpText e) : NoHead (fun b => Digit b ∨ b = byte '.') (e ++ r) := by
  obtain ⟨ch, s, ds, rfl, h1, -⟩ := h
  refine noHead_cons.2 ?_
  rcases h1 with rfl | rfl <;> decide

/-- The text of an optional part. -/
def optText (o : Option Bytes) : Bytes := o.getD []

theorem eats_numberBare {i : Bytes} {f e : Option Bytes} {s : Option UInt8} (hi : IntText i)
    (hs : ∀ b, s = some b → b = byte '-')
    (hf : ∀ x, f = some x → FracText x) (he : ∀ x, e = some x → ExpText x) (hr : NoHead NumByte rest) :
    Eats numberBare (((s.toList ++ i) ++ optText f) ++ optText e) (((s, i), f), e) rest := by
  have hE : Eats (opt (text exp)) (optText e) e rest := by
    cases e with
    | none =>
      refine eats_opt.2 (.inr ⟨rfl, rfl, .uncommitted, Uri.fail_text ?_⟩)
      refine Fail.andThen (Fail.andThen ((one_of _).fail.2 ⟨rfl, hr.mono fun b hb => ?_⟩))
      exact (by decide : ∀ b ∈ bytes "eE", NumByte b) b hb
    | some x => exact eats_opt.2 (.inl ⟨x, rfl, eats_exp (he x rfl) (hr.mono fun _ => .inl)⟩)
  have hE' : NoHead (fun b => Digit b ∨ b = byte '.') (optText e ++ rest) := by
    cases e with
    | none => exact hr.mono fun b hb => by rcases hb with hb | hb <;> simp [NumByte, hb]
    | some x => exact expText_head (he x rfl)
  have hF : Eats (opt (text frac)) (optText f) f (optText e ++ rest) := by
    cases f with
    | none =>
      refine eats_opt.2 (.inr ⟨rfl, rfl, .uncommitted, Uri.fail_text ?_⟩)
      exact Fail.andThen (fail_elm.2 ⟨rfl, fun r' h => hE' _ _ h (.inr rfl)⟩)
    | some x => exact eats_opt.2 (.inl ⟨x, rfl, eats_frac (hf x rfl) (hE'.mono fun _ => .inl)⟩)
  have hF' : NoHead Digit (optText f ++ (optText e ++ rest)) := by
    cases f with
    | none => exact hE'.mono fun _ => .inl
    | some x =>
      obtain ⟨ds, rfl, -⟩ := hf x rfl
      exact noHead_cons.2 (by decide)
  have hI : Eats (mapRes integer fromUtf8) i i (optText f ++ (optText e ++ rest)) :=
    eats_mapRes.2 ⟨i, eats_integer hi hF', Uri.fromUtf8_ascii _ (intText_ascii hi)⟩
  have hS : Eats (opt (elm (byte '-'))) s.toList s (i ++ (optText f ++ (optText e ++ rest))) := by
    cases s with
    | none =>
      refine eats_opt.2 (.inr ⟨rfl, rfl, .uncommitted, fail_elm.2 ⟨rfl, ?_⟩⟩)
      intro r' h
      rcases hi with rfl | ⟨b, ds, rfl, h1, -⟩
      · cases h
      · cases h; revert h1; decide
    | some b => rw [hs b rfl]; exact eats_opt.2 (.inl ⟨_, rfl, eats_elm.2 ⟨rfl, rfl⟩⟩)
  unfold numberBare
  have h1 := Eats.andThen hS hI
  have h2 := Eats.andThen h1 hF
  exact Eats.andThen h2 hE

theorem intText_head {i : Bytes} (h : IntText i) : ∃ b ds, i = b :: ds ∧ Digit b := by
  rcases h with rfl | ⟨b, ds, rfl, h1, -⟩
  · exact ⟨_, [], rfl, by decide⟩
  · exact ⟨b, ds, rfl, h1⟩

theorem digit_quiet {b : UInt8} (h : Digit b) : b ∉ bytes " \t\r\n#/" := fun hb =>
  (by decide : ∀ b ∈ bytes " \t\r\n#/", ¬ Digit b) b hb h

theorem noNum_blanks {b2 : Bytes} (h2 : Blanks b2) (hr : NoHead NumByte rest) : NoHead NumByte (b2 ++ rest) := by
  cases b2 with
  | nil => exact hr
  | cons b b2 =>
    refine noHead_cons.2 ?_
    exact (by decide : ∀ b ∈ bytes " \t\r\n", ¬ NumByte b) b (h2 b (by simp))

theorem eats_number {i b2 : Bytes} {f e : Option Bytes} {s : Option UInt8} (hi : IntText i)
    (hs : ∀ b, s = some b → b = byte '-')
    (hf : ∀ x, f = some x → FracText x) (he : ∀ x, e = some x → ExpText x) (h2 : Gap b2)
    (hr : NoHead NumByte (b2 ++ rest)) (hq : Quiet rest) :
    Eats number ((((s.toList ++ i) ++ optText f) ++ optText e) ++ b2) (s, i, f, e) rest := by
  unfold number
  refine eats_map.2 ⟨(((s, i), f), e), ?_, rfl⟩
  refine eats_spaced' h2 ?_ hq (eats_numberBare hi hs hf he hr)
  obtain ⟨b, ds, rfl, hb⟩ := intText_head hi
  cases s with
  | none => exact noHead_cons.2 (digit_quiet hb)
  | some x => rw [hs x rfl]; exact noHead_cons.2 (by decide)

theorem decimalText_parts (h : DecimalText t) : ∃ i f, IntText i ∧ (∀ x, f = some x → FracText x) ∧ t = i ++ optText f := by
  rcases h with h | ⟨i, f, rfl, hi, hf⟩
  · exact ⟨t, none, h, by simp, by simp [optText]⟩
  · exact ⟨i, some f, hi, by rintro x ⟨⟩; exact hf, rfl⟩

theorem eats_softNumber {b2 : Bytes} {d : Decimal} (ht : DecimalText t) (hd : S.parseDecimal t = some d) (h2 : Gap b2)
    (hr : NoHead NumByte (b2 ++ rest)) (hq : Quiet rest) : Eats (softNumber S) (t ++ b2) d rest := by
  obtain ⟨i, f, hi, hf, rfl⟩ := decimalText_parts ht
  have := eats_number (s := none) (e := none) hi (by simp) hf (by simp) h2 hr hq
  unfold softNumber
  refine Eats.softUnwrap (by simpa [optText] using this) ?_
  cases f with
  | none => simpa [numberOf, optText] using hd
  | some x => simpa [numberOf, optText] using hd

end OniComb.Hocon
