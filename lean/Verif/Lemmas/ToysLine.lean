import Verif.Lemmas.ToysExpr

/-! # Helper lemmas: the statements of the toys parser -/

set_option linter.unusedSectionVars false

namespace OniComb
variable {I A B C : Type} {p : Parser I A} {q : Parser I B} {z : Parser I C} [Good p] [Good q] [Good z]
  {t rest : List I}

theorem eats_left_right {v : B} :
    Eats (skipRight (skipLeft p q) z) t v rest ↔ Eats (skipLeft p (skipRight q z)) t v rest := by
  constructor
  · intro h
    obtain ⟨t1, t2, w, rfl, h1, h2⟩ := eats_skipRight.1 h
    obtain ⟨t3, t4, w', rfl, h3, h4⟩ := eats_skipLeft.1 h1
    rw [List.append_assoc]
    exact Eats.skipLeft (v := w') (by rw [List.append_assoc]; exact h3) (h4.skipRight h2)
  · intro h
    obtain ⟨t1, t2, w, rfl, h1, h2⟩ := eats_skipLeft.1 h
    obtain ⟨t3, t4, w', rfl, h3, h4⟩ := eats_skipRight.1 h2
    rw [← List.append_assoc]
    exact Eats.skipRight (Eats.skipLeft (by rw [List.append_assoc] at h1; exact h1) h3) h4

theorem eats_left_left {v : C} :
    Eats (skipLeft (skipLeft p q) z) t v rest ↔ Eats (skipLeft p (skipLeft q z)) t v rest := by
  constructor
  · intro h
    obtain ⟨t1, t2, w, rfl, h1, h2⟩ := eats_skipLeft.1 h
    obtain ⟨t3, t4, w', rfl, h3, h4⟩ := eats_skipLeft.1 h1
    rw [List.append_assoc]
    exact Eats.skipLeft (v := w') (by rw [List.append_assoc]; exact h3) (h4.skipLeft h2)
  · intro h
    obtain ⟨t1, t2, w, rfl, h1, h2⟩ := eats_skipLeft.1 h
    obtain ⟨t3, t4, w', rfl, h3, h4⟩ := eats_skipLeft.1 h2
    rw [← List.append_assoc]
    exact Eats.skipLeft (Eats.skipLeft (by rw [List.append_assoc] at h1; exact h1) h3) h4

end OniComb

namespace OniComb.Toys.Parse
open OniComb.Calc.Spec (Blank Digits)
open OniComb.Calc (BlankC blank_split blank_cut blank_nil)
open OniComb.Toys.Text
variable {t r rest : List Char} {S : Std} {ex ln : Parser Char Expr} [Good ex] [Good ln]

instance : Good (println ex) := by unfold println; infer_instance
instance : Good (whileLine ex ln) := by unfold whileLine; infer_instance
instance : Good (forParams ex) := by unfold forParams; infer_instance
instance : Good (forLine ex ln) := by unfold forLine; infer_instance
instance : Good (ifLine ex ln) := by unfold ifLine; infer_instance
instance : Good (block ln) := by unfold block; infer_instance
instance : Good (assignment ex) := by unfold assignment; infer_instance
instance : Good (expressionLine ex) := by unfold expressionLine; infer_instance
instance good_lineStep : Good (lineStep ex ln) := by unfold lineStep; infer_instance

/-- Statements, whatever they end in. -/
def AnyLine (e : Expr) (t : List Char) : Prop := ∃ o, Line true o e t

/-! ### What is read is a statement -/

section sound
variable {e : Expr}

theorem paren_sound (hex : ∀ e t rest, Eats ex t e rest → Pad (Ex true) e t)
    (h : Eats (surround (punct '(') ex (punct ')')) t e rest) :
    ∃ a b u c d, t = a ++ '(' :: (b ++ (u ++ (c ++ ')' :: d))) ∧ Blank a ∧ Blank b ∧ Ex true e u ∧ Blank c ∧ Blank d := by
  unfold surround at h
  obtain ⟨t1, t2, w, rfl, h1, h2⟩ := eats_skipLeft.1 h
  obtain ⟨t3, t4, w', rfl, h3, h4⟩ := eats_skipRight.1 h2
  obtain ⟨a1, b1, rfl, ha1, hb1, -⟩ := eats_punct h1
  obtain ⟨a2, b2, rfl, ha2, hb2, -⟩ := eats_punct h4
  obtain ⟨a', u, b', rfl, ha', hb', hu⟩ := hex _ _ _ h3
  exact ⟨a1, b1 ++ a', u, b' ++ a2, b2, by simp, ha1, bapp hb1 ha', hu, bapp hb' ha2, hb2⟩

theorem println_sound (hex : ∀ e t rest, Eats ex t e rest → Pad (Ex true) e t)
    (h : Eats (println ex) t e rest) : Pad AnyLine e t := by
  refine spaced_sound (fun t rest h => ?_) (eats_attempt.1 (eats_name.1 h))
  obtain ⟨e, h', rfl⟩ := eats_map.1 h
  obtain ⟨t1, t2, w, rfl, h1, h2⟩ := eats_skipRight.1 h'
  obtain ⟨t3, t4, w', rfl, h3, h4⟩ := eats_skipLeft.1 h1
  obtain ⟨rfl, -⟩ := eats_tag.1 h3
  obtain ⟨a, b, u, c, d, rfl, ha, hb, hu, hc, hd⟩ := paren_sound hex h4
  obtain ⟨a2, b2, rfl, ha2, hb2, -⟩ := eats_punct h2
  refine ⟨[], "println".toList ++ (a ++ '(' :: (b ++ (u ++ (c ++ ')' :: ((d ++ a2) ++ [';']))))), b2, ?_, blank_nil,
    hb2, false, .println ha hb hu hc (bapp hd ha2)⟩
  simp

theorem whileLine_sound (hex : ∀ e t rest, Eats ex t e rest → Pad (Ex true) e t)
    (hln : ∀ e t rest, Eats ln t e rest → Pad AnyLine e t) (h : Eats (whileLine ex ln) t e rest) : Pad AnyLine e t := by
  refine spaced_sound (fun t rest h => ?_) (eats_attempt.1 (eats_name.1 h))
  obtain ⟨⟨e, s⟩, h', rfl⟩ := eats_map.1 h
  obtain ⟨t1, t2, rfl, h1, h2⟩ := eats_andThen.1 h'
  obtain ⟨t3, t4, w', rfl, h3, h4⟩ := eats_skipLeft.1 h1
  obtain ⟨a0, b0, rfl, -, ha0, -, hb0, -⟩ := eats_word.1 h3
  obtain ⟨a, b, u, c, d, rfl, ha, hb, hu, hc, hd⟩ := paren_sound hex h4
  obtain ⟨a2, v, b2, rfl, ha2, hb2, o, hv⟩ := hln _ _ _ h2
  refine ⟨a0, "while".toList ++ ((b0 ++ a) ++ '(' :: (b ++ (u ++ (c ++ ')' :: ((d ++ a2) ++ v))))), b2, ?_, ha0,
    hb2, o, .whileDo (bapp hb0 ha) hb hu hc (bapp hd ha2) hv⟩
  simp

theorem ifLine_sound (hex : ∀ e t rest, Eats ex t e rest → Pad (Ex true) e t)
    (hln : ∀ e t rest, Eats ln t e rest → Pad AnyLine e t) (h : Eats (ifLine ex ln) t e rest) : Pad AnyLine e t := by
  refine spaced_sound (fun t rest h => ?_) (eats_attempt.1 (eats_name.1 h))
  obtain ⟨⟨⟨e, s⟩, s'⟩, h', rfl⟩ := eats_map.1 h
  obtain ⟨t1, t2, rfl, h1, h2⟩ := eats_andThen.1 h'
  obtain ⟨t3, t4, rfl, h3, h4⟩ := eats_andThen.1 h1
  obtain ⟨t5, t6, w', rfl, h5, h6⟩ := eats_skipLeft.1 (eats_left_left.1 (eats_left_right.1 h3))
  obtain ⟨t7, t8, w', rfl, h7, h8⟩ := eats_skipRight.1 h5
  obtain ⟨rfl, -⟩ := eats_tag.1 h7
  have hb0 := (eats_space.1 h8).1
  obtain ⟨a, b, u, c, d, rfl, ha, hb, hu, hc, hd⟩ := paren_sound hex (t := t6) (e := e) (rest := t4 ++ (t2 ++ rest)) h6
  obtain ⟨a2, v, b2, rfl, ha2, hb2, o, hv⟩ := hln _ _ _ h4
  rcases eats_opt.1 h2 with ⟨s1, rfl, h2'⟩ | ⟨rfl, rfl, -⟩
  · obtain ⟨t9, t10, w', rfl, h9, h10⟩ := eats_skipLeft.1 h2'
    obtain ⟨a3, b3, rfl, -, ha3, -, hb3, -⟩ := eats_word.1 h9
    obtain ⟨a4, x, b4, rfl, ha4, hb4, o', hx⟩ := hln _ _ _ h10
    refine ⟨[], "if".toList ++ ((t8 ++ a) ++ '(' :: (b ++ (u ++ (c ++ ')' :: ((d ++ a2) ++ (v ++ ((b2 ++ a3) ++
      ("else".toList ++ ((b3 ++ a4) ++ x))))))))), b4, ?_, blank_nil, hb4, o', .ifElse (bapp hb0 ha) hb hu hc
      (bapp hd ha2) hv (.inl rfl) (bapp hb2 ha3) (bapp hb3 ha4) hx⟩
    simp
  · refine ⟨[], "if".toList ++ ((t8 ++ a) ++ '(' :: (b ++ (u ++ (c ++ ')' :: ((d ++ a2) ++ v))))), b2, ?_, blank_nil,
      hb2, true, .ifThen (bapp hb0 ha) hb hu hc (bapp hd ha2) hv⟩
    simp

theorem forLine_sound (hex : ∀ e t rest, Eats ex t e rest → Pad (Ex true) e t)
    (hln : ∀ e t rest, Eats ln t e rest → Pad AnyLine e t) (h : Eats (forLine ex ln) t e rest) : Pad AnyLine e t := by
  refine spaced_sound (fun t rest h => ?_) (eats_attempt.1 (eats_name.1 h))
  obtain ⟨⟨⟨⟨n, e⟩, e'⟩, s⟩, h', rfl⟩ := eats_map.1 h
  obtain ⟨t1, t2, rfl, h1, h2⟩ := eats_andThen.1 h'
  obtain ⟨t5, t6, w', rfl, h5, h6⟩ := eats_skipLeft.1 h1
  obtain ⟨t7, t8, w', rfl, h7, h8⟩ := eats_skipRight.1 h5
  obtain ⟨rfl, -⟩ := eats_tag.1 h7
  have hb0 := (eats_space.1 h8).1
  obtain ⟨a9, v, b9, rfl, ha9, hb9, o, hv⟩ := hln _ _ _ h2
  obtain ⟨p1, q1, w', rfl, k1, l1⟩ := eats_skipRight.1 h6
  obtain ⟨a6, b6, rfl, ha6, hb6, -⟩ := eats_punct l1
  obtain ⟨p2, u2, w', rfl, k2, l2⟩ := eats_skipRight.1 k1
  have hu2 := (eats_space.1 l2).1
  obtain ⟨p3, q3, rfl, k3, l3⟩ := eats_andThen.1 k2
  obtain ⟨a5, y, b5, rfl, ha5, hb5, hy⟩ := hex _ _ _ l3
  obtain ⟨p4, q4, w', rfl, k4, l4⟩ := eats_skipRight.1 k3
  obtain ⟨a4, b4, rfl, -, ha4, -, hb4, -⟩ := eats_word.1 l4
  obtain ⟨p5, q5, rfl, k5, l5⟩ := eats_andThen.1 k4
  obtain ⟨a3, x, b3, rfl, ha3, hb3, hx⟩ := hex _ _ _ l5
  obtain ⟨p6, q6, ⟨⟨⟨⟩, w1⟩, ⟨⟩⟩, rfl, k6, l6⟩ := eats_skipRight.1 k5
  obtain ⟨u4, u5, rfl, m1, m2⟩ := eats_andThen.1 l6
  obtain ⟨u6, u7, rfl, m3, m4⟩ := eats_andThen.1 m1
  obtain ⟨rfl, -⟩ := eats_tag.1 m4
  have hu6 := (eats_space.1 m3).1
  have hu5 := (eats_space.1 m2).1
  obtain ⟨p7, q7, w', rfl, k7, l7⟩ := eats_skipLeft.1 k6
  obtain ⟨a1, b1, rfl, ha1, hb1, -⟩ := eats_punct k7
  obtain ⟨a2, b2, rfl, ha2, hn, -, hb2, -⟩ := eats_ident.1 l7
  refine ⟨[], "for".toList ++ ((t8 ++ a1) ++ '(' :: ((b1 ++ a2) ++ (n.toList ++ ((b2 ++ u6) ++ ("in".toList ++ ((u5 ++ a3) ++
    (x ++ ((b3 ++ a4) ++ ("to".toList ++ ((b4 ++ a5) ++ (y ++ ((b5 ++ (u2 ++ a6)) ++ ')' :: ((b6 ++ a9) ++ v))))))))))))),
    b9, ?_, blank_nil, hb9, o, .forDo (bapp hb0 ha1) (bapp hb1 ha2) hn (bapp hb2 hu6) (.inl rfl) (bapp hu5 ha3) hx
      (bapp hb3 ha4) (.inl rfl) (bapp hb4 ha5) hy (bapp hb5 (bapp hu2 ha6)) (bapp hb6 ha9) hv⟩
  simp

theorem assignment_sound (hex : ∀ e t rest, Eats ex t e rest → Pad (Ex true) e t)
    (h : Eats (assignment ex) t e rest) : Pad AnyLine e t := by
  refine spaced_sound (fun t rest h => ?_) (eats_attempt.1 (eats_name.1 h))
  obtain ⟨⟨n, e⟩, h', rfl⟩ := eats_map.1 h
  obtain ⟨t1, t2, w, rfl, h1, h2⟩ := eats_skipRight.1 h'
  obtain ⟨t3, t4, rfl, h3, h4⟩ := eats_andThen.1 h1
  obtain ⟨t5, t6, w, rfl, h5, h6⟩ := eats_skipRight.1 h3
  obtain ⟨a1, b1, rfl, ha1, hn, -, hb1, -⟩ := eats_ident.1 h5
  obtain ⟨a2, b2, rfl, ha2, hb2, -⟩ := eats_punct h6
  obtain ⟨a3, u, b3, rfl, ha3, hb3, hu⟩ := hex _ _ _ h4
  obtain ⟨a4, b4, rfl, ha4, hb4, -⟩ := eats_punct h2
  refine ⟨a1, n.toList ++ ((b1 ++ a2) ++ '=' :: ((b2 ++ a3) ++ (u ++ ((b3 ++ a4) ++ [';'])))), b4, ?_, ha1, hb4, false,
    .assign hn (bapp hb1 ha2) (bapp hb2 ha3) hu (bapp hb3 ha4)⟩
  simp

theorem expressionLine_sound (hex : ∀ e t rest, Eats ex t e rest → Pad (Ex true) e t)
    (h : Eats (expressionLine ex) t e rest) : Pad AnyLine e t := by
  obtain ⟨t1, t2, w, rfl, h1, h2⟩ := eats_skipRight.1 (eats_attempt.1 (eats_name.1 h))
  obtain ⟨a3, u, b3, rfl, ha3, hb3, hu⟩ := hex _ _ _ h1
  obtain ⟨a4, b4, rfl, ha4, hb4, -⟩ := eats_punct h2
  exact ⟨a3, u ++ ((b3 ++ a4) ++ [';']), b4, by simp, ha3, hb4, false, .expr hu (bapp hb3 ha4) (.inl rfl)⟩

theorem body_pad {lax : Bool} {es : List Expr} {v c : List Char} (hc : Blank c) (h : Body lax es v) :
    Body lax es (c ++ v) := by
  cases h with
  | nil ha => exact .nil (bapp hc ha)
  | cons ha h1 h2 h3 =>
    have := Body.cons (bapp hc ha) h1 h2 h3
    simpa using this

theorem many_body (hln : ∀ e t rest, Eats ln t e rest → Pad AnyLine e t) {t rest : List Char} {es : List Expr}
    (h : Many ln t es rest) : ∀ {b : List Char}, Blank b → Body true es (t ++ b) := by
  induction h with
  | nil => intro b hb; exact .nil hb
  | cons h1 _ ih =>
    intro b hb
    obtain ⟨a1, u, b1, rfl, ha1, hb1, o, hu⟩ := hln _ _ _ h1
    have := Body.cons ha1 hu (body_pad hb1 (ih hb)) (.inl rfl)
    simpa using this

theorem block_sound (hln : ∀ e t rest, Eats ln t e rest → Pad AnyLine e t) (h : Eats (block ln) t e rest) :
    Pad (fun e t => ∃ es u, e = .block es ∧ t = '{' :: (u ++ ['}']) ∧ Body true es u) e t := by
  refine spaced_sound (fun t rest h => ?_) (eats_name.1 h)
  obtain ⟨es, h', rfl⟩ := eats_map.1 h
  have key : ∀ {t rest es a b}, Eats (many0 ln) t es rest → Blank a → Blank b → Body true es (a ++ (t ++ b)) := by
    intro t rest es a b h ha hb
    exact body_pad ha (many_body hln (eats_many0.1 h).1 hb)
  obtain ⟨a, u, b, rfl, ha, hb, u', rfl, hu⟩ := brackets_sound key h'
  exact ⟨a, _, b, rfl, ha, hb, es, u', rfl, rfl, hu⟩

theorem lineStep_sound (hex : ∀ e t rest, Eats ex t e rest → Pad (Ex true) e t)
    (hln : ∀ e t rest, Eats ln t e rest → Pad AnyLine e t) (e : Expr) (t rest : List Char)
    (h : Eats (lineStep ex ln) t e rest) : Pad AnyLine e t := by
  refine spaced_sound (fun t rest h => ?_) (eats_name.1 h)
  simp only [eats_or] at h
  rcases h with (((((h | ⟨-, h⟩) | ⟨-, h⟩) | ⟨-, h⟩) | ⟨-, h⟩) | ⟨-, h⟩) | ⟨-, h⟩
  · exact println_sound hex h
  · exact whileLine_sound hex hln h
  · exact ifLine_sound hex hln h
  · exact forLine_sound hex hln h
  · exact assignment_sound hex h
  · exact expressionLine_sound hex h
  · refine (block_sound hln h).mono ?_
    rintro u ⟨es, u', rfl, rfl, hu⟩
    exact ⟨false, .block hu⟩

end sound

/-! ### First characters -/

theorem line_solid {lax o : Bool} {e : Expr} {t : List Char} (h : Line lax o e t) : Solid t := by
  cases h with
  | println => exact solid_cons (by decide)
  | whileDo => exact solid_cons (by decide)
  | ifThen => exact solid_cons (by decide)
  | ifElse => exact solid_cons (by decide)
  | forDo => exact solid_cons (by decide)
  | assign hn => exact (ident_starts hn).1
  | expr h => exact (starts_ex _ _ h).1.app
  | block => exact solid_cons (by decide)

theorem pad_ne {e : Expr} {t : List Char} (h : Pad AnyLine e t) : t ≠ [] := by
  obtain ⟨a, u, b, rfl, -, -, o, h⟩ := h
  have := (line_solid h).1
  simp [this]

/-- A text without the character in front of which the other text stops. -/
theorem prefix_cut {k r u X : List Char} {z : Char} (h : k ++ r = u ++ z :: X) (hz : z ∉ k) : k <+: u := by
  rcases List.append_eq_append_iff.1 h with ⟨a, rfl, -⟩ | ⟨a, rfl, h2⟩
  · exact List.prefix_append _ _
  · cases a with
    | nil => simp
    | cons c a =>
      injection h2 with h2 _
      subst h2
      exact absurd (by simp) hz

theorem blank_not_mem {b : List Char} {z : Char} (hb : Blank b) (hz : ¬ BlankC z) : z ∉ b := fun h => hz (hb z h)

/-- What looks like a statement with a keyword does so before its semicolon. -/
theorem keyword_cut {k : String} {T X : List Char} (hk : ';' ∉ k.toList) (h : Keyword k (T ++ ';' :: X)) :
    Keyword k (T ++ [';']) := by
  obtain ⟨b, r, hb, e⟩ := h
  have e2 : (k.toList ++ (b ++ ['('])) ++ r = T ++ ';' :: X := by rw [e]; simp
  obtain ⟨s, rfl⟩ := prefix_cut e2 (by simp [hk, blank_not_mem (z := ';') hb (by decide)])
  exact ⟨b, s ++ [';'], hb, by simp⟩

theorem reserved_cut {T X : List Char} (h : LooksReserved (T ++ ';' :: X)) : LooksReserved (T ++ [';']) := by
  obtain ⟨k, hk, h⟩ := h
  exact ⟨k, hk, keyword_cut ((by decide : ∀ k ∈ ["println", "while", "if", "for"], ';' ∉ k.toList) k hk) h⟩

theorem else_cut {u X : List Char} (h : ElseFollows (u ++ '}' :: X)) : ElseFollows u := by
  obtain ⟨b, r, hb, e⟩ := h
  have e2 : (b ++ "else".toList) ++ r = u ++ '}' :: X := by rw [e]; simp
  obtain ⟨s, rfl⟩ := prefix_cut e2 (by simp [blank_not_mem (z := '}') hb (by decide)])
  exact ⟨b, s, hb, by simp⟩

theorem else_pad {w r : List Char} (hw : Blank w) (h : ElseFollows r) : ElseFollows (w ++ r) := by
  obtain ⟨b, s, hb, rfl⟩ := h
  exact ⟨w ++ b, s, bapp hw hb, by simp⟩

/-! ### Statements with a keyword are tried only where the keyword stands -/

section kw
variable {A : Type} {z : Parser Char A} [Good z]

theorem fail_kw {k : String} (h : ¬ Keyword k r) :
    (∃ c, Fail (tag k.toList) r c) ∨ ∃ b v, r = k.toList ++ (b ++ v) ∧ Blank b ∧ NoHead BlankC v ∧ NoHead (· = '(') v := by
  by_cases hp : k.toList <+: r
  · obtain ⟨s, rfl⟩ := hp
    obtain ⟨b, v, rfl, hb, hv⟩ := blank_split s
    refine .inr ⟨b, v, rfl, hb, hv, ?_⟩
    rintro c v' rfl rfl
    exact h ⟨b, v', hb, rfl⟩
  · exact .inl (fail_tag.2 hp)

theorem fail_println (hr : NoHead BlankC r) (h : ¬ Keyword "println" r) : Fail (println ex) r .uncommitted := by
  have key : ∃ c, Fail (skipLeft (tag "println".toList) (surround (punct '(') ex (punct ')'))) r c := by
    rcases fail_kw h with ⟨c, h⟩ | ⟨b, v, rfl, hb, hv, hv'⟩
    · exact ⟨c, h.skipLeft⟩
    · exact ⟨.uncommitted, Eats.skipLeft_fail (eats_tag.2 ⟨rfl, rfl⟩) (Fail.surround (fail_punct hb hv hv'))⟩
  obtain ⟨c, h⟩ := key
  exact fail_name.2 (fail_attempt_of (fail_spaced.2 ⟨[], r, rfl, blank_nil, hr, Fail.map _ h.skipRight⟩))

theorem fail_whileLine (hr : NoHead BlankC r) (h : ¬ Keyword "while" r) : Fail (whileLine ex ln) r .uncommitted := by
  have key : ∃ c, Fail (skipLeft (word "while") (surround (punct '(') ex (punct ')'))) r c := by
    rcases fail_kw h with ⟨c, h⟩ | ⟨b, v, rfl, hb, hv, hv'⟩
    · exact ⟨c, Fail.skipLeft (fail_spaced.2 ⟨[], r, rfl, blank_nil, hr, h⟩)⟩
    · have h1 := word_takes (k := "while".toList) (rest := b ++ v) (solid_cons (by decide)) [] b v rfl blank_nil hb hv
      have h2 := Eats.skipLeft_fail (q := surround (punct '(') ex (punct ')')) h1
        (Fail.surround (by simpa using fail_punct blank_nil hv hv'))
      exact ⟨.uncommitted, by simpa [word] using h2⟩
  obtain ⟨c, h⟩ := key
  exact fail_name.2 (fail_attempt_of (fail_spaced.2 ⟨[], r, rfl, blank_nil, hr, Fail.map _ h.andThen⟩))

theorem fail_tag_space {k : String} (h : ¬ Keyword k r)
    (hz : ∀ v, NoHead BlankC v → NoHead (· = '(') v → ∃ c, Fail z v c) :
    ∃ c, Fail (skipLeft (skipRight (tag k.toList) space) z) r c := by
  rcases fail_kw h with ⟨c, h⟩ | ⟨b, v, rfl, hb, hv, hv'⟩
  · exact ⟨c, h.skipRight.skipLeft⟩
  · obtain ⟨c, h⟩ := hz v hv hv'
    refine ⟨c, ?_⟩
    have h1 : Eats (skipRight (tag k.toList) space) (k.toList ++ b) k.toList v :=
      Eats.skipRight (w := ()) (eats_tag.2 ⟨rfl, rfl⟩) (eats_space.2 ⟨hb, hv⟩)
    simpa using Eats.skipLeft_fail h1 h

theorem fail_ifLine (hr : NoHead BlankC r) (h : ¬ Keyword "if" r) : Fail (ifLine ex ln) r .uncommitted := by
  obtain ⟨c, h⟩ := fail_tag_space (z := punct '(') h
    fun v h1 h2 => ⟨_, by simpa using fail_punct blank_nil h1 h2⟩
  exact fail_name.2 (fail_attempt_of (fail_spaced.2 ⟨[], r, rfl, blank_nil, hr,
    Fail.map _ h.skipLeft.skipRight.andThen.andThen⟩))

theorem fail_forLine (hr : NoHead BlankC r) (h : ¬ Keyword "for" r) : Fail (forLine ex ln) r .uncommitted := by
  obtain ⟨c, h⟩ := fail_tag_space (z := forParams ex) h
    fun v h1 h2 => ⟨.uncommitted, by
      have : Fail (punct '(') v .uncommitted := by simpa using fail_punct blank_nil h1 h2
      exact this.skipLeft.skipRight.andThen.skipRight.andThen.skipRight.skipRight⟩
  exact fail_name.2 (fail_attempt_of (fail_spaced.2 ⟨[], r, rfl, blank_nil, hr, Fail.map _ h.andThen⟩))

end kw

/-! ### An expression statement is not an assignment -/

/-- An equals sign behind blanks is the first of two. -/
def EqOk (Y : List Char) : Prop := ∀ b v, Blank b → Y = b ++ '=' :: v → ∃ v', v = '=' :: v'

/-- An equals sign behind a name at the start is the first of two. -/
def HeadOk (P : Expr → List Char → Prop) : Prop := ∀ e t, P e t → ∀ Y, NoHead Part Y → EqOk Y →
  ∀ n b v, Ident n → Blank b → t ++ Y = n.toList ++ (b ++ '=' :: v) → ∃ v', v = '=' :: v'

theorem identL_unique {k m X Y : List Char} (h : k ++ X = m ++ Y) (hk : ∀ c ∈ k, Part c) (hm : ∀ c ∈ m, Part c)
    (hX : NoHead Part X) (hY : NoHead Part Y) : k = m ∧ X = Y := by
  induction k generalizing m with
  | nil =>
    cases m with
    | nil => exact ⟨rfl, h⟩
    | cons c m => exact absurd (hm c (by simp)) (hX c _ h)
  | cons c k ih =>
    cases m with
    | nil => exact absurd (hk c (by simp)) (hY c _ h.symm)
    | cons d m =>
      injection h with h1 h2
      subst h1
      obtain ⟨rfl, h3⟩ := ih h2 (fun x hx => hk x (by simp [hx])) (fun x hx => hm x (by simp [hx]))
      exact ⟨rfl, h3⟩

theorem noHead_blank_cons {b v : List Char} {c : Char} (hb : Blank b) (hc : ¬ Part c) : NoHead Part (b ++ c :: v) :=
  noHead_blank_app hb (fun _ => part_not_blank) (noHead_cons.2 hc)

theorem not_part_eq : ¬ Part '=' := by unfold Part Start; decide

theorem headOk_prim {lax : Bool} : HeadOk (Prim lax) := by
  intro e t h Y hY hE n b v hn hb heq
  have hname : ∀ {m : Name} {X : List Char}, Ident m → NoHead Part X → m.toList ++ X = n.toList ++ (b ++ '=' :: v) →
      X = b ++ '=' :: v := fun hm hX h =>
    (identL_unique h (identL_part hm) (identL_part hn) hX (noHead_blank_cons hb not_part_eq)).2
  have hother : ∀ {c : Char} {X : List Char}, c :: X = n.toList ++ (b ++ '=' :: v) → Start c := by
    intro c X h
    obtain ⟨d, r, e, hd, -⟩ := hn
    rw [e] at h
    injection h with h _
    exact h ▸ hd
  have hbr : ∀ {a X : List Char} {c : Char}, Blank a → ¬ BlankC c → c ≠ '=' → a ++ c :: X ≠ b ++ '=' :: v := by
    intro a X c ha hc hne h
    obtain ⟨a', rfl, h2⟩ := blank_cut h.symm hb (noHead_cons.2 hc)
    cases a' with
    | nil => injection h2 with h2 _; exact hne h2.symm
    | cons d a' =>
      injection h2 with h2 _
      exact absurd (ha d (by simp)) (by rw [← h2]; decide)
  cases h with
  | paren => exact absurd (hother heq) (by unfold Start; decide)
  | int h =>
    obtain ⟨c, r, rfl, h'⟩ := intText_head h
    have := hother heq
    rcases h' with rfl | h'
    · exact absurd this (by unfold Start; decide)
    · have h1 := (start_ne (S := ⟨fun _ => false⟩) this).2.2.2.2.2
      rw [isDigit_of h'] at h1
      cases h1
  | str h =>
    obtain ⟨r, rfl⟩ := strText_solid h
    exact absurd (hother heq) (by unfold Start; decide)
  | @call m es a u hm ha _ =>
    have h1 := hname hm (X := a ++ '(' :: (u ++ ([')'] ++ Y))) (noHead_blank_cons ha (by unfold Part Start; decide))
      (by rw [← heq]; simp)
    exact absurd h1 (hbr ha (by decide) (by decide))
  | @labelled m es a u hm ha _ _ =>
    have h1 := hname hm (X := a ++ '[' :: (u ++ ([']'] ++ Y))) (noHead_blank_cons ha (by unfold Part Start; decide))
      (by rw [← heq]; simp)
    exact absurd h1 (hbr ha (by decide) (by decide))
  | array => exact absurd (hother heq) (by unfold Start; decide)
  | tru => exact hE b v hb (hname (m := "true") ⟨'t', "rue".toList, rfl, by unfold Start; decide, by unfold Part Start; decide⟩ hY heq)
  | fls => exact hE b v hb (hname (m := "false") ⟨'f', "alse".toList, rfl, by unfold Start; decide, by unfold Part Start; decide⟩ hY heq)
  | var hm _ => exact hE b v hb (hname hm hY heq)

theorem headOk_chain {P : Expr → List Char → Prop} {O : Operator → List Char → Prop} (h : HeadOk P)
    (hO : ∀ o w, O o w → ∃ c w', w = c :: w' ∧ ¬ BlankC c ∧ ¬ Part c ∧ (c = '=' → ∃ w'', w' = '=' :: w'')) :
    HeadOk (Chain P O) := by
  intro e t hc
  induction hc with
  | one h1 => exact h _ _ h1
  | @op o l r t a w b u _ ha hw hb hu ih =>
    intro Y hY hE n b' v hn hb' heq
    obtain ⟨c, w', rfl, h1, h2, h3⟩ := hO _ _ hw
    refine ih (a ++ c :: (w' ++ (b ++ (u ++ Y)))) (noHead_blank_cons ha h2) ?_ n b' v hn hb' (by rw [← heq]; simp)
    intro b1 v1 hb1 e1
    obtain ⟨a', rfl, e2⟩ := blank_cut e1.symm hb1 (noHead_cons.2 h1)
    cases a' with
    | nil =>
      injection e2 with e2 e3
      obtain ⟨w'', rfl⟩ := h3 e2.symm
      exact ⟨_, e3⟩
    | cons d a' =>
      injection e2 with e2 _
      exact absurd (ha d (by simp)) (by rw [← e2]; decide)

theorem headOk_ex {lax : Bool} : HeadOk (Ex lax) := by
  refine headOk_chain (headOk_chain (headOk_chain (headOk_chain headOk_prim ?_) ?_) ?_) ?_
  all_goals
    intro o w h
    cases h <;> exact ⟨_, _, rfl, by decide, by unfold Part Start; decide, by simp⟩

theorem ident_split {r : List Char} (h : ¬ NoHead Start r) : ∃ n X, Ident n ∧ r = String.toList n ++ X ∧ NoHead Part X := by
  cases r with
  | nil => exact absurd noHead_nil h
  | cons c r =>
    have hc : Start c := by
      by_contra hc
      exact h (noHead_cons.2 hc)
    obtain ⟨t, rest, rfl, -, ht, hr⟩ := takeWhile_cut identPart r
    refine ⟨String.ofList (c :: t), rest, ⟨c, t, by simp, hc, fun d hd => part_iff.1 (ht d hd)⟩, by simp, ?_⟩
    exact hr.mono fun d hd => part_iff.2 hd

theorem fail_assignment_start (hb : NoHead BlankC r) (h : NoHead Start r) : Fail (assignment ex) r .uncommitted := by
  refine fail_name.2 (fail_attempt_of (c := .uncommitted) (fail_spaced.2 ⟨[], r, rfl, blank_nil, hb, Fail.map _ ?_⟩))
  exact Fail.skipRight (Fail.andThen (Fail.skipRight (by simpa using fail_ident blank_nil h hb)))

theorem fail_assignment (hfail : ∀ r, NoHead (Opener S) r → Fail ex r .uncommitted) {lax : Bool} {e : Expr}
    {t Y : List Char}
    (h : Ex lax e t) (hY : NoHead Part Y) (hE : EqOk Y) : Fail (assignment ex) (t ++ Y) .uncommitted := by
  have hb : NoHead BlankC (t ++ Y) := (starts_ex _ _ h).1.append
  by_cases hs : NoHead Start (t ++ Y)
  · exact fail_assignment_start hb hs
  · obtain ⟨n, X, hn, e1, hX⟩ := ident_split hs
    obtain ⟨b, v, rfl, hb', hv⟩ := blank_split X
    have h1 : Eats ident (n.toList ++ b) n v := by
      simpa using ident_takes hn hX [] b v rfl blank_nil hb' hv
    refine fail_name.2 (fail_attempt_of (c := .uncommitted) (fail_spaced.2 ⟨[], t ++ Y, rfl, blank_nil, hb, Fail.map _ ?_⟩))
    refine Fail.skipRight ?_
    rw [e1, ← List.append_assoc]
    by_cases hq : NoHead (· = '=') v
    · exact Fail.andThen (Eats.skipRight_fail h1 (by simpa using fail_punct blank_nil hv hq))
    · cases v with
      | nil => exact absurd noHead_nil hq
      | cons c v =>
        have hc : c = '=' := by
          by_contra hc
          exact hq (noHead_cons.2 hc)
        subst hc
        obtain ⟨v', rfl⟩ := headOk_ex e t h Y hY hE n b v hn hb' e1
        have h2 : Eats (punct '=') ['='] ['='] ('=' :: v') := by
          simpa using punct_takes (c := '=') (rest := '=' :: v') (by decide) [] [] ('=' :: v') rfl blank_nil blank_nil
            (noHead_cons.2 (by decide))
        have h3 : Eats (skipRight ident (punct '=')) ((n.toList ++ b) ++ ['=']) n ('=' :: v') :=
          Eats.skipRight (by simpa using h1) h2
        have h4 : Fail ex ('=' :: v') .uncommitted := hfail _ (noHead_cons.2 (by
          unfold Opener
          rw [isDigit_ascii (by decide)]
          unfold Start
          decide))
        simpa using h3.andThen_fail h4

end OniComb.Toys.Parse
