import Verif.Lemmas.ToysList

/-! # Helper lemmas: the expressions of the toys parser -/

set_option linter.unusedSectionVars false

namespace OniComb.Toys.Parse
open OniComb.Calc.Spec (Blank Digits)
open OniComb.Calc (BlankC blank_split blank_cut blank_nil)
open OniComb.Toys.Text
variable {A B : Type} {t r rest : List Char} {S : Std}

/-! ### First characters -/

theorem digit_solid {c : Char} (h : '0' ≤ c ∧ c ≤ '9') : ¬ BlankC c ∧ c ≠ '=' ∧ c ≠ '(' := by
  refine ⟨?_, ?_, ?_⟩
  · rintro (rfl | rfl | rfl | rfl) <;> revert h <;> decide
  all_goals rintro rfl; revert h; decide

/-- The first character of an integer. -/
theorem intText_head {i : Int} (h : IntText i t) : ∃ c r, t = c :: r ∧ (c = '-' ∨ '0' ≤ c ∧ c ≤ '9') := by
  cases h with
  | @pos ds h _ =>
    cases t with
    | nil => exact absurd rfl h.1
    | cons c r => exact ⟨c, r, rfl, .inr (digits_cons h)⟩
  | neg h _ => exact ⟨'-', _, rfl, .inl rfl⟩

/-- The characters an operand begins with. -/
def Opener (S : Std) (c : Char) : Prop :=
  c = '(' ∨ c = '-' ∨ c = '"' ∨ c = '[' ∨ BlankC c ∨ isDigit S c = true ∨ Start c

theorem isDigit_ascii {c : Char} (h : c.toNat < 128) : isDigit S c = Chr.isDigit c := by
  unfold isDigit; rw [if_pos h]

theorem start_ne {c : Char} (h : Start c) : c ≠ '=' ∧ c ≠ '(' ∧ c ≠ '"' ∧ c ≠ '-' ∧ c ≠ '[' ∧ isDigit S c = false := by
  refine ⟨?_, ?_, ?_, ?_, ?_, ?_⟩
  case refine_6 =>
    rw [isDigit_ascii (part_ascii (.inl h)), ← Bool.not_eq_true, digit_iff]
    unfold Start at h
    rintro ⟨h1, h2⟩
    rcases h with ⟨h, -⟩ | ⟨h, -⟩ | rfl
    · exact absurd (Char.le_trans h h2) (by decide)
    · exact absurd (Char.le_trans h h2) (by decide)
    · revert h2; decide
  all_goals rintro rfl; revert h; unfold Start; decide

theorem ident_starts {n : Name} (h : Ident n) {r : List Char} : Solid (n.toList ++ r) ∧ NoHead (· = '=') (n.toList ++ r) := by
  refine ⟨(identL_solid h).app, ?_⟩
  obtain ⟨c, r', e, hc, -⟩ := h
  rw [e]; exact noHead_cons.2 (start_ne (S := ⟨fun _ => false⟩) hc).1

theorem starts_prim {lax : Bool} : Starts (Prim lax) := by
  intro e t h
  cases h with
  | paren => exact ⟨solid_cons (by decide), noHead_cons.2 (by decide)⟩
  | int h =>
    obtain ⟨c, r, rfl, h'⟩ := intText_head h
    rcases h' with rfl | h'
    · exact ⟨solid_cons (by decide), noHead_cons.2 (by decide)⟩
    · exact ⟨solid_cons (digit_solid h').1, noHead_cons.2 (digit_solid h').2.1⟩
  | str h =>
    obtain ⟨r, rfl⟩ := strText_solid h
    exact ⟨solid_cons (by decide), noHead_cons.2 (by decide)⟩
  | call h => exact ident_starts h
  | labelled h => exact ident_starts h
  | array => exact ⟨solid_cons (by decide), noHead_cons.2 (by decide)⟩
  | tru => exact ⟨solid_cons (by decide), noHead_cons.2 (by decide)⟩
  | fls => exact ⟨solid_cons (by decide), noHead_cons.2 (by decide)⟩
  | var h => simpa using ident_starts h (r := [])

theorem starts_ex {lax : Bool} : Starts (Ex lax) := starts_prim.chain.chain.chain.chain

/-! ### A name in front of brackets -/

section call
variable {q : Parser Char A} [Good q] {f : Name × A → B}

theorem call_sound {R : A → List Char → Prop} (hq : ∀ v t rest, Eats q t v rest → Pad R v t) {v : B}
    (h : Eats (attempt (spaced (map (andThen ident q) f))) t v rest) :
    Pad (fun v t => ∃ n w a u, v = f (n, w) ∧ Ident n ∧ Blank a ∧ t = n.toList ++ (a ++ u) ∧ R w u) v t := by
  refine spaced_sound (fun t rest h => ?_) (eats_attempt.1 h)
  obtain ⟨⟨n, w⟩, h', rfl⟩ := eats_map.1 h
  obtain ⟨t1, t2, rfl, h1, h2⟩ := eats_andThen.1 h'
  obtain ⟨a, b, rfl, ha, hn, -, hb, -⟩ := eats_ident.1 h1
  obtain ⟨a', u, b', rfl, ha', hb', hu⟩ := hq _ _ _ h2
  exact ⟨a, n.toList ++ ((b ++ a') ++ u), b', by simp, ha, hb', n, w, b ++ a', u, rfl, hn, bapp hb ha', rfl, hu⟩

theorem call_takes {n : Name} {a u : List Char} {w : A} (hn : Ident n) (ha : Blank a) (hu : Solid u)
    (hp : NoHead Part u) (hq : ∀ rest, Takes q u w rest) :
    Takes (attempt (spaced (map (andThen ident q) f))) (n.toList ++ (a ++ u)) (f (n, w)) rest := by
  intro a' b' r' e ha' hb' hr'
  refine Eats.attempt ((spaced_takes (ident_starts hn).1 ?_) a' b' r' e ha' hb' hr')
  obtain ⟨d, r, rfl, hd, hr⟩ := blank_split rest
  have h1 := (ident_takes (rest := a ++ (u ++ (d ++ r))) hn (noHead_blank_app ha (fun c => part_not_blank)
    ((noHead_append hu.1).2 hp))).reads
  refine ⟨d, r, rfl, hd, ?_⟩
  have := (reads_andThen hu h1 (hq _) ha hd hr).map f
  simpa using this

theorem fail_call_name {n : Name} {b v : List Char} {l : Char} {C D : Type} {f : Name × A → D}
    {z : Parser Char C} [Good z] (hn : Ident n) (hb : Blank b) (hp : NoHead Part (b ++ v)) (hv : NoHead BlankC v)
    (hl : NoHead (· = l) v) :
    Fail (attempt (spaced (map (andThen ident (surround (punct l) q z)) f))) (n.toList ++ (b ++ v)) .uncommitted := by
  refine fail_attempt_of (c := .uncommitted) (fail_spaced.2 ⟨[], _, rfl, blank_nil, (ident_starts hn).1.2, ?_⟩)
  have h1 := ident_takes hn hp [] b v rfl blank_nil hb hv
  have := h1.andThen_fail (q := surround (punct l) q z) (Fail.surround (by simpa using fail_punct blank_nil hv hl))
  exact Fail.map f (by simpa using this)

theorem fail_call {a : List Char} (ha : Blank a) (hr : NoHead BlankC r) (h : NoHead Start r) :
    Fail (attempt (spaced (map (andThen ident q) f))) (a ++ r) .uncommitted := by
  refine fail_attempt_of (c := .uncommitted) (fail_spaced.2 ⟨a, r, rfl, ha, hr, Fail.map f (Fail.andThen ?_)⟩)
  simpa using fail_ident blank_nil h hr

theorem ret_call {f : Name × A → B} (hq : ∀ r', r'.length < r.length → Ret q r') :
    Ret (attempt (spaced (map (andThen ident q) f))) r := by
  refine ret_attempt.2 (ret_spaced fun r' h' => ret_map.2 (ret_andThen.2 ⟨ret_ident, fun t v rest e h => hq _ ?_⟩))
  have := h'.length_le
  have h2 := List.length_pos_iff.2 (ident_ne h)
  rw [e] at this
  simp only [List.length_append] at this
  omega

end call

theorem ret_brackets {q : Parser Char A} [Good q] {l z : Char} (hq : ∀ r', r' <:+ r → r'.length < r.length → Ret q r') :
    Ret (surround (punct l) q (punct z)) r := by
  unfold surround
  refine ret_skipLeft.2 ⟨ret_punct, fun t v rest e h => ret_skipRight.2 ⟨hq _ ⟨t, e.symm⟩ ?_, fun _ _ _ _ _ => ret_punct⟩⟩
  have h2 := List.length_pos_iff.2 (punct_ne h)
  rw [e, List.length_append]; omega

/-! ### Labelled parameters -/

section param
variable {ex : Parser Char Expr} [Good ex]

instance : Good (labelledParam ex) := by unfold labelledParam; infer_instance

theorem labelledParam_sound {E : Expr → List Char → Prop} (hex : ∀ e t rest, Eats ex t e rest → Pad E e t)
    (x : Name × Expr) (t rest : List Char) (h : Eats (labelledParam ex) t x rest) : Pad (Param true E) x t := by
  obtain ⟨n, e⟩ := x
  obtain ⟨t1, t2, rfl, h1, h2⟩ := eats_andThen.1 h
  obtain ⟨t3, t4, c, rfl, h3, h4⟩ := eats_skipRight.1 h1
  obtain ⟨a, b, rfl, ha, hn, -, hb, -⟩ := eats_ident.1 h3
  obtain ⟨rfl, -⟩ := eats_elm.1 h4
  obtain ⟨a', u, b', rfl, ha', hb', hu⟩ := hex _ _ _ h2
  exact ⟨a, n.toList ++ (b ++ '=' :: (a' ++ u)), b', by simp, ha, hb', .mk hn hb ha' (.inl rfl) hu⟩

theorem param_solid {lax : Bool} {E : Expr → List Char → Prop} (x : Name × Expr) (t : List Char)
    (h : Param lax E x t) : Solid t := by
  cases h with
  | mk hn => exact (ident_starts hn).1

theorem param_mono {lax : Bool} {E E' : Expr → List Char → Prop} {x : Name × Expr} {t : List Char}
    (h : Param lax E x t) (hE : ∀ e u, E e u → u.length ≤ t.length → E' e u) : Param lax E' x t := by
  cases h with
  | mk hn ha hb hl h => exact .mk hn ha hb hl (hE _ _ h (by simp; omega))

theorem labelledParam_reads {E : Expr → List Char → Prop}
    (hex : ∀ e t rest, E e t → Follow F0 rest → Reads ex t e rest)
    (x : Name × Expr) (t rest : List Char) (h : Param false E x t) (hr : Follow F0 rest) :
    Reads (labelledParam ex) t x rest := by
  cases h with
  | @mk n e a b t hn ha hb hl h =>
    obtain rfl : b = [] := by simpa using hl
    obtain ⟨w, r, rfl, hw, h1⟩ := hex _ _ _ h hr
    refine ⟨w, r, rfl, hw, ?_⟩
    have h2 := ident_takes (rest := a ++ '=' :: (t ++ (w ++ r))) hn (noHead_blank_app ha (fun c => part_not_blank)
      (noHead_cons.2 (by unfold Part Start; decide))) [] a _ rfl blank_nil ha (noHead_cons.2 (by decide))
    have h3 : Eats (skipRight ident (elm '=')) ((n.toList ++ a) ++ ['=']) n ((t ++ w) ++ r) :=
      Eats.skipRight (w := '=') (by simpa using h2) (eats_elm.2 ⟨rfl, rfl⟩)
    have := Eats.andThen h3 h1
    simpa [labelledParam] using this

theorem fail_labelledParam (hb : NoHead BlankC r) (h : NoHead Start r) : Fail (labelledParam ex) r .uncommitted := by
  unfold labelledParam
  exact Fail.andThen (Fail.skipRight (by simpa using fail_ident blank_nil h hb))

theorem ret_labelledParam (hex : ∀ r', r' <:+ r → r'.length < r.length → Ret ex r') : Ret (labelledParam ex) r := by
  unfold labelledParam
  refine ret_andThen.2 ⟨ret_skipRight.2 ⟨ret_ident, fun _ _ _ _ _ => ret_elm⟩, fun t v rest e h => hex _ ⟨t, e.symm⟩ ?_⟩
  obtain ⟨t3, t4, c, rfl, h3, h4⟩ := eats_skipRight.1 h
  have h2 := List.length_pos_iff.2 (ident_ne h3)
  rw [e]
  simp only [List.length_append]
  omega

end param

/-! ### Operands -/

section primary
variable {ex : Parser Char Expr} [Good ex]

instance : Good (functionCall ex) := by unfold functionCall; infer_instance
instance : Good (labelledCall ex) := by unfold labelledCall; infer_instance
instance : Good (arrayLiteral ex) := by unfold arrayLiteral; infer_instance
instance : Good (primary S ex) := by unfold primary; infer_instance

theorem primary_sound (hex : ∀ e t rest, Eats ex t e rest → Pad (Ex true) e t) (e : Expr) (t rest : List Char)
    (h : Eats (primary S ex) t e rest) : Pad (Prim true) e t := by
  unfold primary at h
  rw [eats_name] at h
  simp only [eats_or] at h
  have hlist : ∀ {t rest es a b}, Eats (many0Sep ex (punct ',')) t es rest → Blank a → Blank b →
      Listing (Ex true) es (a ++ (t ++ b)) := fun h ha hb => many0Sep_sound hex h ha hb
  rcases h with ((((((h | ⟨-, h⟩) | ⟨-, h⟩) | ⟨-, h⟩) | ⟨-, h⟩) | ⟨-, h⟩) | ⟨-, h⟩) | ⟨hbool, h⟩
  · obtain ⟨e, h', rfl⟩ := eats_map.1 h
    obtain ⟨t1, t2, w, rfl, h1, h2⟩ := eats_skipRight.1 h'
    obtain ⟨t3, t4, w', rfl, h3, h4⟩ := eats_skipLeft.1 h1
    obtain ⟨a1, b1, rfl, ha1, hb1, -⟩ := eats_punct h3
    obtain ⟨a2, b2, rfl, ha2, hb2, -⟩ := eats_punct h2
    obtain ⟨a', u, b', rfl, ha', hb', hu⟩ := hex _ _ _ h4
    exact ⟨a1, '(' :: ((b1 ++ a') ++ (u ++ ((b' ++ a2) ++ [')']))), b2, by simp, ha1, hb2,
      .paren (bapp hb1 ha') hu (bapp hb' ha2)⟩
  · refine (integer_sound h).mono ?_
    rintro u ⟨i, rfl, h'⟩; exact .int h'
  · obtain ⟨s, rfl, h'⟩ := eats_stringLiteral.1 h
    exact Pad.of (.str h')
  · unfold functionCall at h
    refine (call_sound (fun v t rest h => brackets_sound hlist h) (eats_name.1 h)).mono ?_
    rintro u ⟨n, es, a, u', rfl, hn, ha, rfl, ⟨u, rfl, hu⟩⟩
    exact .call hn ha hu
  · unfold labelledCall at h
    refine (call_sound (fun v t rest h => brackets_sound
      (R := fun ps t => Listing (Param true (Ex true)) ps t ∧ ps ≠ [])
      (fun h ha hb => many1Sep_sound (labelledParam_sound hex) h ha hb) h) (eats_name.1 h)).mono ?_
    rintro u ⟨n, es, a, u', rfl, hn, ha, rfl, ⟨u, rfl, hu, hne⟩⟩
    exact .labelled hn ha hne hu
  · unfold arrayLiteral at h
    refine spaced_sound (fun t rest h => ?_) (eats_name.1 h)
    obtain ⟨es, h', rfl⟩ := eats_map.1 h
    obtain ⟨a, u, b, rfl, ha, hb, u', rfl, hu⟩ := brackets_sound hlist h'
    exact ⟨a, _, b, rfl, ha, hb, .array hu⟩
  · refine (boolLiteral_sound h).mono ?_
    rintro u (⟨rfl, rfl⟩ | ⟨rfl, rfl⟩)
    · exact .tru
    · exact .fls
  · unfold identifier at h
    obtain ⟨n, h', rfl⟩ := eats_map.1 (eats_name.1 h)
    obtain ⟨a, b, rfl, ha, hn, -, hb, -⟩ := eats_ident.1 h'
    have hbool : Fail boolLiteral (a ++ (n.toList ++ (b ++ rest))) .uncommitted := by
      rcases fail_or.1 hbool with ⟨h1, -⟩ | ⟨-, h1⟩
      · cases h1
      · simpa using h1
    exact ⟨a, _, b, rfl, ha, hb, .var hn ((bool_readable ha hn hbool).imp id fun h => ⟨rfl, h⟩)⟩

theorem fail_paren {B : Type} {f : Expr → B} (h : NoHead (fun c => BlankC c ∨ c = '(') r) :
    Fail (map (skipRight (skipLeft (punct '(') ex) (punct ')')) f) r .uncommitted := by
  refine Fail.map f (Fail.skipRight (Fail.skipLeft ?_))
  simpa using fail_punct (c := '(') blank_nil (h.mono fun c hc => .inl hc) (h.mono fun c hc => .inr hc)

theorem fail_array {a : List Char} (ha : Blank a) (hb : NoHead BlankC r) (h : NoHead (· = '[') r) :
    Fail (arrayLiteral ex) (a ++ r) .uncommitted := by
  unfold arrayLiteral
  refine fail_name.2 (fail_spaced.2 ⟨a, r, rfl, ha, hb, Fail.map _ (Fail.surround ?_)⟩)
  simpa using fail_punct (c := '[') blank_nil hb h

/-- Nothing that does not begin like an operand is read. -/
theorem fail_primary (h : NoHead (Opener S) r) : Fail (primary S ex) r .uncommitted := by
  have hb : NoHead BlankC r := h.mono fun c hc => by unfold Opener; tauto
  have hs : NoHead Start r := h.mono fun c hc => by unfold Opener; tauto
  unfold primary
  refine fail_name.2 (Fail.or (Fail.or (Fail.or (Fail.or (Fail.or (Fail.or (Fail.or (fail_paren ?_) (fail_integer ?_))
    (fail_stringLiteral ?_)) ?_) ?_) ?_) (fail_boolLiteral ?_ ?_)) ?_)
  · exact h.mono fun c hc => by unfold Opener; tauto
  · exact h.mono fun c hc => by unfold Opener; tauto
  · exact h.mono fun c hc => by unfold Opener; tauto
  · exact fail_name.2 (by simpa using fail_call blank_nil hb hs)
  · exact fail_name.2 (by simpa using fail_call blank_nil hb hs)
  · simpa using fail_array (ex := ex) blank_nil hb (h.mono fun c hc => by unfold Opener; tauto)
  · exact h.mono fun c hc => by
      rcases hc with rfl | hc
      · exact .inr (.inr (.inr (.inr (.inr (.inr (by unfold Start; decide))))))
      · unfold Opener; tauto
  · rintro ⟨u, rfl⟩
    exact h 't' _ rfl (.inr (.inr (.inr (.inr (.inr (.inr (by unfold Start; decide)))))))
  · exact fail_name.2 (Fail.map _ (by simpa using fail_ident blank_nil hs hb))

theorem follow4_digit (h : Follow F4 rest) : NoHead (fun c => isDigit S c = true) rest := by
  obtain ⟨⟨a, u, rfl, ha, hu⟩, -⟩ := h
  intro c r e hc
  have key : ∀ d, F4 d ∨ BlankC d → ¬ isDigit S d = true := by
    intro d hd
    rw [isDigit_ascii]
    · revert d; rintro d (hd | rfl | rfl | rfl | rfl)
      · revert d; decide
      all_goals decide
    · rcases hd with hd | rfl | rfl | rfl | rfl
      · revert d; decide
      all_goals decide
  cases a with
  | nil => exact key c (.inl (hu c r e)) hc
  | cons d a =>
    injection e with e _
    subst e
    exact key d (.inr (ha d (by simp))) hc

/-- Behind a name comes no bracket. -/
theorem follow_bracket (hr : Follow F4 rest) :
    ∃ b v, rest = b ++ v ∧ Blank b ∧ NoHead BlankC v ∧ NoHead (· = '(') v ∧ NoHead (· = '[') v := by
  obtain ⟨⟨a, u, rfl, ha, hu⟩, -⟩ := hr
  exact ⟨a, u, rfl, ha, noHead_of hu (by decide), noHead_of hu (by decide), noHead_of hu (by decide)⟩

theorem strong_primary {N : Nat} (hex : ∀ e t rest, Ex false e t → t.length ≤ N → Follow F0 rest → Reads ex t e rest)
    (hfail : ∀ r, NoHead (Opener S) r → Fail ex r .uncommitted)
    (e : Expr) (t rest : List Char) (h : Prim false e t) (hN : t.length ≤ N + 1) (hr : Follow F4 rest) :
    Reads (primary S ex) t e rest := by
  have hclose : ∀ (z : Char) X, z = ')' ∨ z = ']' → NoHead (Opener S) (z :: X) := by
    intro z X hz
    refine noHead_cons.2 ?_
    have : isDigit S z = false := by
      rcases hz with rfl | rfl <;> rw [isDigit_ascii (by decide)] <;> decide
    unfold Opener Start
    rw [this]
    rcases hz with rfl | rfl <;> decide
  have hlist : ∀ {es u} {z : Char}, u.length ≤ N → z = ')' ∨ z = ']' → Listing (Ex false) es u → ∀ X,
      ∃ a m b, u = a ++ (m ++ b) ∧ Blank a ∧ Blank b ∧ NoHead BlankC (m ++ (b ++ z :: X)) ∧
      Eats (many0Sep ex (punct ',')) m es (b ++ z :: X) := by
    intro es u z hu hz h X
    refine listing0_reads (P := fun e t => Ex false e t ∧ t.length ≤ N) (fun x t h => (starts_ex _ _ h.1).1)
      (fun x t rest h hr => hex _ _ _ h.1 h.2 hr) ?_ ?_ ?_ (fun X => ⟨_, hfail _ (hclose z X hz)⟩)
      (listing_mono h fun x u' h h' => ⟨h, by omega⟩) X
    all_goals rcases hz with rfl | rfl <;> first | decide | (unfold Part Start; decide)
  have hparen : NoHead (fun c => BlankC c ∨ c = '(') t → Fail (map (skipRight (skipLeft (punct '(') ex) (punct ')'))
      Expr.parenthesized) (t ++ rest) .uncommitted := fun h' =>
    fail_paren ((noHead_append (starts_prim _ _ h).1.1).2 h')
  have hname : ∀ {n : Name} {u : List Char}, Ident n →
      Fail (map (skipRight (skipLeft (punct '(') ex) (punct ')')) Expr.parenthesized) (n.toList ++ u) .uncommitted ∧
      Fail (integer S) (n.toList ++ u) .uncommitted ∧ Fail stringLiteral (n.toList ++ u) .uncommitted ∧
      Fail (arrayLiteral ex) (n.toList ++ u) .uncommitted := by
    intro n u hn
    obtain ⟨c, r, e, hc, -⟩ := hn
    obtain ⟨h1, h2, h3, h4, h5, h6⟩ := start_ne (S := S) hc
    have hb := start_not_blank hc
    rw [e]
    refine ⟨fail_paren (noHead_cons.2 (by simp [h2, hb])), fail_integer (noHead_cons.2 (by simp [h4, hb, h6])),
      fail_stringLiteral (noHead_cons.2 h3), ?_⟩
    simpa using fail_array (ex := ex) blank_nil (noHead_cons.2 hb) (noHead_cons.2 h5)
  have hcalls : ∀ {n : Name}, Ident n → Fail (functionCall ex) (n.toList ++ rest) .uncommitted ∧
      Fail (labelledCall ex) (n.toList ++ rest) .uncommitted := by
    intro n hn
    have hp := hr.2
    obtain ⟨b, v, rfl, hb, hv, h1, h2⟩ := follow_bracket hr
    exact ⟨fail_name.2 (fail_call_name (z := punct ')') hn hb hp hv h1),
      fail_name.2 (fail_call_name (z := punct ']') hn hb hp hv h2)⟩
  have lift : ∀ {p : Parser Char Expr}, Reads p t e rest →
      (∀ w r, rest = w ++ r → Eats p (t ++ w) e r → Eats (primary S ex) (t ++ w) e r) → Reads (primary S ex) t e rest := by
    rintro p ⟨w, r, e1, hw, h1⟩ h2
    exact ⟨w, r, e1, hw, h2 w r e1 h1⟩
  cases h with
  | @paren e a t b ha h hb =>
    simp only [List.length_append, List.length_cons] at hN
    obtain ⟨d, r, rfl, hd, hr'⟩ := blank_split rest
    refine ⟨d, r, rfl, hd, ?_⟩
    unfold primary
    refine eats_name.2 (Eats.or_left (Eats.or_left (Eats.or_left (Eats.or_left (Eats.or_left (Eats.or_left
      (Eats.or_left ?_)))))))
    have h1 := punct_takes (c := '(') (rest := a ++ (t ++ (b ++ ')' :: (d ++ r)))) (by decide) [] a _ rfl blank_nil ha
      (starts_ex _ _ h).1.append
    have h2 := hex _ _ (b ++ ([')'] ++ (d ++ r))) h (by omega) (follow_cons hb (by decide) (by unfold Part Start; decide))
    have h3 := reads_skipRight (solid_cons (by decide)) h2 (punct_takes (c := ')') (by decide)) hb hd hr'
    have h4 : Eats (skipLeft (punct '(') (skipRight ex (punct ')'))) (('(' :: a) ++ (t ++ (b ++ ([')'] ++ d)))) e r :=
      Eats.skipLeft (by simpa using h1) h3
    obtain ⟨t1, t2, v, e0, h5, h6⟩ := eats_skipLeft.1 h4
    obtain ⟨t3, t4, v', e1, h7, h8⟩ := eats_skipRight.1 h6
    have h9 := (Eats.skipRight (Eats.skipLeft (t1 := t1) (t2 := t3) (by rw [e1] at h5; simpa using h5) h7) h8).map Expr.parenthesized
    have e3 : '(' :: (a ++ (t ++ (b ++ [')']))) ++ d = t1 ++ t3 ++ t4 := by
      rw [List.append_assoc t1, ← e1, ← e0]; simp
    rw [e3]; exact h9
  | @int i t h =>
    refine lift (integer_takes (S := S) h (follow4_digit hr)).reads fun w r e1 h1 => ?_
    unfold primary
    refine eats_name.2 (Eats.or_left (Eats.or_left (Eats.or_left (Eats.or_left (Eats.or_left (Eats.or_left
      (Eats.or_right ?_ h1)))))))
    rw [List.append_assoc, ← e1]
    refine hparen ?_
    obtain ⟨c, r', rfl, h2⟩ := intText_head h
    refine noHead_cons.2 ?_
    rcases h2 with rfl | h2
    · decide
    · have := digit_solid h2; simp [this]
  | @str s t h =>
    refine lift (Reads.of (eats_stringLiteral.2 ⟨s, rfl, h⟩)) fun w r e1 h1 => ?_
    unfold primary
    obtain ⟨r', rfl⟩ := strText_solid h
    refine eats_name.2 (Eats.or_left (Eats.or_left (Eats.or_left (Eats.or_left (Eats.or_left
      (Eats.or_right (Fail.or ?_ (fail_integer (noHead_cons.2 ?_))) h1))))))
    · rw [List.append_assoc, ← e1]; exact hparen (noHead_cons.2 (by decide))
    · rw [isDigit_ascii (by decide)]; decide
  | @call n es a u hn ha hu =>
    obtain ⟨h1, h2, h3, h4⟩ := hname (u := (a ++ '(' :: (u ++ [')'])) ++ rest) hn
    simp only [List.length_append, List.length_cons, List.length_nil] at hN
    have : Takes (functionCall ex) (n.toList ++ (a ++ '(' :: (u ++ [')']))) (.functionCall n es) rest := by
      intro a' b' r' e ha' hb' hr'
      exact eats_name.2 (call_takes (f := fun x => Expr.functionCall x.1 x.2) hn ha (solid_cons (by decide))
        (noHead_cons.2 (by unfold Part Start; decide)) (fun rest => brackets_takes (by decide) (by decide)
          (hlist (by omega) (.inl rfl) hu)) a' b' r' e ha' hb' hr')
    refine lift this.reads fun w r e1 h => ?_
    unfold primary
    refine eats_name.2 (Eats.or_left (Eats.or_left (Eats.or_left (Eats.or_left (Eats.or_right ?_ h)))))
    rw [List.append_assoc, ← e1, List.append_assoc]
    exact Fail.or (Fail.or h1 h2) h3
  | @labelled n ps a u hn ha hne hu =>
    obtain ⟨h1, h2, h3, h4⟩ := hname (u := (a ++ '[' :: (u ++ [']'])) ++ rest) hn
    simp only [List.length_append, List.length_cons, List.length_nil] at hN
    have hlist1 : ∀ X, ∃ a m b, u = a ++ (m ++ b) ∧ Blank a ∧ Blank b ∧ NoHead BlankC (m ++ (b ++ ']' :: X)) ∧
        Eats (many1Sep (labelledParam ex) (punct ',')) m ps (b ++ ']' :: X) := by
      intro X
      refine listing1_reads (P := Param false (fun e t => Ex false e t ∧ t.length ≤ N)) param_solid
        (labelledParam_reads fun e t rest h hr => hex _ _ _ h.1 h.2 hr) (by decide) (by unfold Part Start; decide)
        (by decide) (fun X => ⟨_, fail_labelledParam (noHead_cons.2 (by decide))
          (noHead_cons.2 (by unfold Start; decide))⟩)
        (listing_mono hu fun x u' h h' => param_mono h fun e u'' h2 h3 => ⟨h2, by omega⟩) hne X
    have : Takes (labelledCall ex) (n.toList ++ (a ++ '[' :: (u ++ [']']))) (.labelledCall n ps) rest := by
      intro a' b' r' e ha' hb' hr'
      exact eats_name.2 (call_takes (f := fun x => Expr.labelledCall x.1 x.2) hn ha (solid_cons (by decide))
        (noHead_cons.2 (by unfold Part Start; decide)) (fun rest => brackets_takes (by decide) (by decide)
          hlist1) a' b' r' e ha' hb' hr')
    refine lift this.reads fun w r e1 h => ?_
    unfold primary
    refine eats_name.2 (Eats.or_left (Eats.or_left (Eats.or_left (Eats.or_right ?_ h))))
    rw [List.append_assoc, ← e1, List.append_assoc]
    refine Fail.or (Fail.or (Fail.or h1 h2) h3) (fail_name.2 ?_)
    have := fail_call_name (q := many0Sep ex (punct ',')) (z := punct ')') (l := '(')
      (f := fun x : Name × List Expr => Expr.functionCall x.1 x.2) (v := '[' :: (u ++ [']'] ++ rest)) hn ha
      (noHead_blank_app ha (fun c => part_not_blank) (noHead_cons.2 (by unfold Part Start; decide)))
      (noHead_cons.2 (by decide)) (noHead_cons.2 (by decide))
    simpa using this
  | @array es u hu =>
    simp only [List.length_append, List.length_cons, List.length_nil] at hN
    have h0 : Takes (arrayLiteral ex) ('[' :: (u ++ [']'])) (.arrayLiteral es) rest := by
      intro a' b' r' e ha' hb' hr'
      refine eats_name.2 (spaced_takes (solid_cons (by decide)) ?_ a' b' r' e ha' hb' hr')
      obtain ⟨w, r, e1, hw, h1⟩ := (brackets_takes (l := '[') (z := ']') (rest := rest) (by decide) (by decide)
        (hlist (u := u) (by omega) (.inr rfl) hu)).reads
      exact ⟨w, r, e1, hw, h1.map _⟩
    refine lift h0.reads fun w r e1 h => ?_
    unfold primary
    have hb : ∀ {u : List Char}, NoHead BlankC ('[' :: u) := noHead_cons.2 (by decide)
    have hs : ∀ {u : List Char}, NoHead Start ('[' :: u) := noHead_cons.2 (by unfold Start; decide)
    refine eats_name.2 (Eats.or_left (Eats.or_left (Eats.or_right (Fail.or (Fail.or (Fail.or (Fail.or ?_
      (fail_integer (noHead_cons.2 ?_))) (fail_stringLiteral (noHead_cons.2 (by decide)))) (fail_name.2 ?_))
      (fail_name.2 ?_)) h)))
    · rw [List.append_assoc, ← e1]; exact hparen (noHead_cons.2 (by decide))
    · rw [isDigit_ascii (by decide)]; decide
    · simpa using fail_call (q := surround (punct '(') (many0Sep ex (punct ',')) (punct ')'))
        (f := fun x => Expr.functionCall x.1 x.2) blank_nil (hb (u := u ++ [']'] ++ w ++ r)) hs
    · simpa using fail_call (q := surround (punct '[') (many1Sep (labelledParam ex) (punct ',')) (punct ']'))
        (f := fun x => Expr.labelledCall x.1 x.2) blank_nil (hb (u := u ++ [']'] ++ w ++ r)) hs
  | tru =>
    have hn : Ident "true" := ⟨'t', "rue".toList, rfl, by unfold Start; decide, by unfold Part Start; decide⟩
    obtain ⟨h1, h2, h3, h4⟩ := hname (u := rest) hn
    obtain ⟨h5, h6⟩ := hcalls hn
    refine lift (boolLiteral_takes (b := true)).reads fun w r e1 h => ?_
    unfold primary
    refine eats_name.2 (Eats.or_left (Eats.or_right ?_ h))
    rw [List.append_assoc, ← e1]
    exact Fail.or (Fail.or (Fail.or (Fail.or (Fail.or h1 h2) h3) h5) h6) h4
  | fls =>
    have hn : Ident "false" := ⟨'f', "alse".toList, rfl, by unfold Start; decide, by unfold Part Start; decide⟩
    obtain ⟨h1, h2, h3, h4⟩ := hname (u := rest) hn
    obtain ⟨h5, h6⟩ := hcalls hn
    refine lift (boolLiteral_takes (b := false)).reads fun w r e1 h => ?_
    unfold primary
    refine eats_name.2 (Eats.or_left (Eats.or_right ?_ h))
    rw [List.append_assoc, ← e1]
    exact Fail.or (Fail.or (Fail.or (Fail.or (Fail.or h1 h2) h3) h5) h6) h4
  | @var n hn hl =>
    obtain ⟨h1, h2, h3, h4⟩ := hname (u := rest) hn
    obtain ⟨h5, h6⟩ := hcalls hn
    have hread : Readable n := by
      rcases hl with h | ⟨h, -⟩
      · exact h
      · cases h
    have : Takes identifier n.toList (.symbol n) rest := by
      intro a' b' r' e ha' hb' hr'
      exact eats_name.2 ((ident_takes hn hr.2 a' b' r' e ha' hb' hr').map _)
    refine lift this.reads fun w r e1 h => ?_
    unfold primary
    refine eats_name.2 (Eats.or_right ?_ h)
    rw [List.append_assoc, ← e1]
    refine Fail.or (Fail.or (Fail.or (Fail.or (Fail.or (Fail.or h1 h2) h3) h5) h6) h4) (fail_boolLiteral ?_ ?_)
    · obtain ⟨c, r', e2, hc, -⟩ := hn
      rw [e2]
      refine noHead_cons.2 ?_
      rintro (rfl | hb)
      · exact hread.1 r' e2
      · exact start_not_blank hc hb
    · intro hp
      refine hread.2 ?_
      have hall := identL_part hn
      have hp2 := hr.2
      obtain ⟨u, hu⟩ := hp
      -- `true` stands inside the name, because what follows the name is not part of a name
      have key : ∀ (k m : List Char), k ++ u = m ++ rest → (∀ c ∈ k, Part c) → k <+: m := by
        intro k
        induction k with
        | nil => intro m _ _; exact List.nil_prefix
        | cons c k ih =>
          intro m hm hk
          cases m with
          | nil => exact absurd (hk c (by simp)) (hp2 c _ hm.symm)
          | cons d m =>
            injection hm with h1 h2
            subst h1
            exact List.cons_prefix_cons.2 ⟨rfl, ih m h2 fun x hx => hk x (by simp [hx])⟩
      exact key _ _ hu (by unfold Part Start; decide)

theorem primary_ret (hex : ∀ r', r'.length < r.length → Ret ex r') : Ret (primary S ex) r := by
  unfold primary functionCall labelledCall arrayLiteral
  have hlist : ∀ r', r'.length < r.length → Ret (many0Sep ex (punct ',')) r' := fun r' hr' =>
    ret_many0Sep (fun r'' h => hex _ (by have := h.length_le; omega)) (fun _ _ => ret_punct)
      (.inr fun _ _ _ _ h => punct_ne h)
  have hlist1 : ∀ r', r'.length < r.length → Ret (many1Sep (labelledParam ex) (punct ',')) r' := fun r' hr' =>
    ret_many1Sep (fun r'' h => ret_labelledParam fun r3 _ h3 => hex _ (by have := h.length_le; omega))
      (fun _ _ => ret_punct) (.inr fun _ _ _ _ h => punct_ne h)
  refine ret_name.2 (ret_or.2 ⟨ret_or.2 ⟨ret_or.2 ⟨ret_or.2 ⟨ret_or.2 ⟨ret_or.2 ⟨ret_or.2 ⟨?_, fun _ => ret_integer⟩,
    fun _ => ret_stringLiteral⟩, fun _ => ?_⟩, fun _ => ?_⟩, fun _ => ?_⟩, fun _ => ret_boolLiteral⟩, fun _ => ?_⟩)
  · refine ret_map.2 (ret_skipRight.2 ⟨ret_skipLeft.2 ⟨ret_punct, fun t v rest e h => hex _ ?_⟩,
      fun _ _ _ _ _ => ret_punct⟩)
    have h2 := List.length_pos_iff.2 (punct_ne h)
    rw [e, List.length_append]; omega
  · exact ret_name.2 (ret_call fun r' h' => ret_brackets fun r'' _ h'' => hlist _ (by omega))
  · exact ret_name.2 (ret_call fun r' h' => ret_brackets fun r'' _ h'' => hlist1 _ (by omega))
  · refine ret_name.2 (ret_spaced fun r' h' => ret_map.2 (ret_brackets fun r'' _ h'' => hlist _ ?_))
    have := h'.length_le
    omega
  · exact ret_name.2 (ret_map.2 ret_ident)

end primary

/-! ### Expressions -/

section expression
variable {ex : Parser Char Expr} [Good ex]

instance : Good (multitive S ex) := by unfold multitive; infer_instance
instance : Good (moditive S ex) := by unfold moditive; infer_instance
instance : Good (additive S ex) := by unfold additive; infer_instance
instance good_exprStep : Good (exprStep S ex) := by unfold exprStep comparative; infer_instance

instance good_expression : ∀ n, Good (expression S n)
  | 0 => inferInstanceAs (Good diverging)
  | n + 1 => by
    have := good_expression n
    exact good_exprStep (ex := lazy fun _ => expression S n)

theorem exprStep_sound (hex : ∀ e t rest, Eats ex t e rest → Pad (Ex true) e t) (e : Expr) (t rest : List Char)
    (h : Eats (exprStep S ex) t e rest) : Pad (Ex true) e t := by
  refine chain_sound cmpOp_like (fun e u rest h => ?_) (eats_name.1 (eats_name.1 h))
  refine chain_sound addOp_like (fun e u rest h => ?_) (eats_name.1 h)
  refine chain_sound modOp_like (fun e u rest h => ?_) (eats_name.1 h)
  exact chain_sound mulOp_like (primary_sound hex) (eats_name.1 h)

theorem expression_sound : ∀ (n : Nat) (e : Expr) (t rest : List Char), Eats (expression S n) t e rest → Pad (Ex true) e t
  | 0, _, _, _, h => nomatch h
  | n + 1, e, t, rest, h => exprStep_sound (ex := lazy fun _ => expression S n) (expression_sound n) e t rest h

theorem exprStep_reads {N : Nat} (hex : ∀ e t rest, Ex false e t → t.length ≤ N → Follow F0 rest → Reads ex t e rest)
    (hfail : ∀ r, NoHead (Opener S) r → Fail ex r .uncommitted)
    (e : Expr) (t rest : List Char) (h : Ex false e t) (hN : t.length ≤ N + 1) (hr : Follow F0 rest) :
    Reads (exprStep S ex) t e rest := by
  have nm : ∀ {p : Parser Char Expr} {l : String} {t e rest}, Reads p t e rest → Reads (name p l) t e rest := by
    rintro p l t e rest ⟨w, r, h1, h2, h3⟩; exact ⟨w, r, h1, h2, eats_name.2 h3⟩
  let P0 : Expr → List Char → Prop := fun e u => Prim false e u ∧ u.length ≤ N + 1
  have s0 : Starts P0 := fun e u h => starts_prim _ _ h.1
  have r0 : ∀ e u rest, P0 e u → Follow F4 rest → Reads (primary S ex) u e rest := fun e u rest h hr =>
    strong_primary hex hfail e u rest h.1 h.2 hr
  have r1 : ∀ e u rest, Chain P0 MulOp e u → Follow F3 rest → Reads (multitive S ex) u e rest := fun e u rest h hr =>
    nm (chain_reads mulOp_like s0 r0 (by decide) (by rintro o c w h; cases h <;> decide) (by decide) h hr)
  have r2 : ∀ e u rest, Chain (Chain P0 MulOp) ModOp e u → Follow F2 rest → Reads (moditive S ex) u e rest :=
    fun e u rest h hr =>
    nm (chain_reads modOp_like s0.chain r1 (by decide) (by rintro o c w h; cases h; decide) (by decide) h hr)
  have r3 : ∀ e u rest, Chain (Chain (Chain P0 MulOp) ModOp) AddOp e u → Follow F1 rest →
      Reads (additive S ex) u e rest := fun e u rest h hr =>
    nm (chain_reads addOp_like s0.chain.chain r2 (by decide) (by rintro o c w h; cases h <;> decide) (by decide) h hr)
  refine nm (nm (chain_reads cmpOp_like s0.chain.chain.chain r3 (by decide)
    (by rintro o c w h; cases h <;> decide) (by decide) ?_ hr))
  exact chain_mono h fun e u h h1 => chain_mono h fun e u h h2 => chain_mono h fun e u h h3 =>
    chain_mono h fun e u h h4 => ⟨h, by omega⟩

theorem fail_exprStep (h : NoHead (Opener S) r) : Fail (exprStep S ex) r .uncommitted :=
  fail_name.2 (fail_name.2 (Fail.chainLeft1 (fail_name.2 (Fail.chainLeft1 (fail_name.2 (Fail.chainLeft1
    (fail_name.2 (Fail.chainLeft1 (fail_primary h)))))))))

theorem fail_expression {n : Nat} (h : NoHead (Opener S) r) : Fail (expression S (n + 1)) r .uncommitted :=
  fail_exprStep (ex := lazy fun _ => expression S n) h

theorem expression_reads : ∀ (n : Nat) (e : Expr) (t rest : List Char), Ex false e t → t.length < n →
    Follow F0 rest → Reads (expression S n) t e rest
  | 0, _, _, _, _, h, _ => absurd h (Nat.not_lt_zero _)
  | n + 1, e, t, rest, h, hn, hr => by
    cases n with
    | zero =>
      have : t = [] := List.length_eq_zero_iff.1 (by omega)
      exact absurd this (starts_ex _ _ h).1.1
    | succ n =>
      exact exprStep_reads (ex := lazy fun _ => expression S (n + 1)) (N := n)
        (fun e u rest h hu hf => expression_reads (n + 1) e u rest h (by omega) hf) (fun r h => fail_expression h)
        e t rest h (by omega) hr

theorem exprStep_ret (hex : ∀ r', r'.length < r.length → Ret ex r') : Ret (exprStep S ex) r :=
  ret_name.2 (ret_name.2 (chain_ret cmpOp_like fun r1 h1 => ret_name.2 (chain_ret addOp_like fun r2 h2 =>
    ret_name.2 (chain_ret modOp_like fun r3 h3 => ret_name.2 (chain_ret mulOp_like fun r4 h4 =>
      primary_ret fun r' h' => hex r' (by
        have := h1.length_le; have := h2.length_le; have := h3.length_le; have := h4.length_le; omega))))))

theorem expression_ret : ∀ (n : Nat) (r : List Char), r.length < n → Ret (expression S n) r
  | 0, _, h => absurd h (Nat.not_lt_zero _)
  | n + 1, r, h => exprStep_ret (ex := lazy fun _ => expression S n) fun r' hr' => expression_ret n r' (by omega)

theorem exprStep_mono : Monotone (exprStep S) := by
  intro p q h
  unfold exprStep comparative additive moditive multitive primary functionCall labelledCall labelledParam arrayLiteral
    spaced
  infer_instance

end expression

end OniComb.Toys.Parse
