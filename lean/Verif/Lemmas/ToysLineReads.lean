import Verif.Lemmas.ToysLine

/-! # Helper lemmas: the statements of the strict language are read -/

set_option linter.unusedSectionVars false

namespace OniComb
variable {I A B : Type} {p : Parser I A} {q : Parser I B} [Good p] [Good q] {t1 t2 R rest : List I} {v : A} {w : B}

theorem Eats.andThen' (h1 : Eats p t1 v R) (h2 : Eats q t2 w rest) (h : R = t2 ++ rest) :
    Eats (OniComb.andThen p q) (t1 ++ t2) (v, w) rest := Eats.andThen (h ▸ h1) h2

theorem Eats.skipLeft' (h1 : Eats p t1 v R) (h2 : Eats q t2 w rest) (h : R = t2 ++ rest) :
    Eats (OniComb.skipLeft p q) (t1 ++ t2) w rest := Eats.skipLeft (h ▸ h1) h2

theorem Eats.skipRight' (h1 : Eats p t1 v R) (h2 : Eats q t2 w rest) (h : R = t2 ++ rest) :
    Eats (OniComb.skipRight p q) (t1 ++ t2) v rest := Eats.skipRight (h ▸ h1) h2

theorem Eats.text {t1 t2 : List I} (h : Eats p t1 v rest) (e : t1 = t2) : Eats p t2 v rest := e ▸ h

end OniComb

namespace OniComb.Toys.Parse
open OniComb.Calc.Spec (Blank Digits)
open OniComb.Calc (BlankC blank_split blank_cut blank_nil)
open OniComb.Toys.Text
variable {A : Type} {t r rest : List Char} {S : Std} {ex ln : Parser Char Expr} [Good ex] [Good ln]

/-! ### Nothing is read where no statement begins -/

theorem not_keyword {k : String} {c : Char} {k' : List Char} (hk : k.toList = c :: k') (h : NoHead (· = c) r) :
    ¬ Keyword k r := by
  rintro ⟨b, s, -, rfl⟩
  rw [hk] at h
  exact h c _ rfl rfl

theorem fail_keywords (hb : NoHead BlankC r) (h : ¬ LooksReserved r) :
    Fail (or (or (or (println ex) (whileLine ex ln)) (ifLine ex ln)) (forLine ex ln)) r .uncommitted :=
  Fail.or (Fail.or (Fail.or (fail_println hb fun h' => h ⟨_, by simp, h'⟩) (fail_whileLine hb fun h' => h ⟨_, by simp, h'⟩))
    (fail_ifLine hb fun h' => h ⟨_, by simp, h'⟩)) (fail_forLine hb fun h' => h ⟨_, by simp, h'⟩)

theorem not_reserved (h : NoHead Start r) : ¬ LooksReserved r := by
  rintro ⟨k, hk, b, s, -, rfl⟩
  simp only [List.mem_cons, List.not_mem_nil, or_false] at hk
  rcases hk with rfl | rfl | rfl | rfl
  all_goals exact h _ _ rfl (by unfold Start; decide)

theorem fail_block {a : List Char} (ha : Blank a) (hb : NoHead BlankC r) (h : NoHead (· = '{') r) :
    Fail (block ln) (a ++ r) .uncommitted := by
  refine fail_name.2 (fail_spaced.2 ⟨a, r, rfl, ha, hb, Fail.map _ (Fail.surround ?_)⟩)
  simpa using fail_punct blank_nil hb h

theorem fail_lineStep (hfail : ∀ r, NoHead (Opener S) r → Fail ex r .uncommitted) (h : NoHead (Opener S) r)
    (h' : NoHead (· = '{') r) : Fail (lineStep ex ln) r .uncommitted := by
  have hb : NoHead BlankC r := h.mono fun c hc => by unfold Opener; tauto
  have hs : NoHead Start r := h.mono fun c hc => by unfold Opener; tauto
  refine fail_name.2 (fail_spaced.2 ⟨[], r, rfl, blank_nil, hb, ?_⟩)
  refine Fail.or (Fail.or (Fail.or (fail_keywords hb (not_reserved hs)) (fail_assignment_start hb hs))
    (fail_name.2 (fail_attempt_of (hfail r h).skipRight))) ?_
  simpa using fail_block (ln := ln) blank_nil hb h'

/-! ### The statements -/

theorem kw_takes {p : Parser Char A} [Good p] {v : A} {l : String} (hs : Solid t)
    (h : ∀ w r, rest = w ++ r → Blank w → NoHead BlankC r → Eats p (t ++ w) v r) :
    Takes (name (attempt (spaced p)) l) t v rest := by
  intro a b r e ha hb hr
  refine eats_name.2 (Eats.attempt (spaced_takes hs ?_ a b r e ha hb hr))
  obtain ⟨w, r', e', hw, hr'⟩ := blank_split rest
  exact ⟨w, r', e', hw, h w r' e' hw hr'⟩

section reads
variable {N : Nat} (hex : ∀ e t rest, Ex false e t → t.length ≤ N + 1 → Follow F0 rest → Reads ex t e rest)
  (hfail : ∀ r, NoHead (Opener S) r → Fail ex r .uncommitted)
  (hln : ∀ o e t rest, Line false o e t → t.length ≤ N → (o = true → ¬ ElseFollows rest) → Takes ln t e rest)
  (hstop : ∀ X, ∃ c, Fail ln ('}' :: X) c)
include hex

theorem paren_reads {e : Expr} {a b u c d X : List Char} (ha : Blank a) (hb : Blank b) (hu : Ex false e u)
    (hN : u.length ≤ N + 1) (hc : Blank c) (hd : Blank d) (hX : NoHead BlankC X) :
    Eats (surround (punct '(') ex (punct ')')) (a ++ '(' :: (b ++ (u ++ (c ++ ')' :: d)))) e X := by
  have h1 := punct_takes (c := '(') (rest := b ++ (u ++ (c ++ ([')'] ++ (d ++ X))))) (by decide) a b _ rfl ha hb
    (starts_ex _ _ hu).1.append
  have h2 := hex _ _ (c ++ ([')'] ++ (d ++ X))) hu hN (follow_cons hc (by decide) (by unfold Part Start; decide))
  have h3 := reads_skipRight (solid_cons (by decide)) h2 (punct_takes (c := ')') (by decide)) hc hd hX
  have h4 : Eats (surround (punct '(') ex (punct ')')) ((a ++ ([ '('] ++ b)) ++ (u ++ (c ++ ([')'] ++ d)))) e X := by
    unfold surround
    exact Eats.skipLeft (v := ['(']) (by simpa using h1) h3
  simpa using h4

theorem println_takes {e : Expr} {a b u c d : List Char} (ha : Blank a) (hb : Blank b) (hu : Ex false e u)
    (hN : u.length ≤ N + 1) (hc : Blank c) (hd : Blank d) :
    Takes (println ex) ("println".toList ++ (a ++ '(' :: (b ++ (u ++ (c ++ ')' :: (d ++ [';'])))))) (.println e) rest := by
  refine kw_takes (solid_cons (by decide)) fun w r e1 hw hr => ?_
  have h1 := paren_reads hex (X := ';' :: (w ++ r)) ha hb hu hN hc hd (noHead_cons.2 (by decide))
  have h2 := punct_takes (c := ';') (rest := w ++ r) (by decide) [] w r rfl blank_nil hw hr
  have h3 := (Eats.skipRight (Eats.skipLeft (p := tag "println".toList) (eats_tag.2 ⟨rfl, rfl⟩)
    (by simpa using h1)) h2).map Expr.println
  simpa using h3

include hln

theorem whileLine_takes {o : Bool} {e s : Expr} {a b u c d v : List Char} (ha : Blank a) (hb : Blank b)
    (hu : Ex false e u) (hN : u.length ≤ N + 1) (hc : Blank c) (hd : Blank d) (hv : Line false o s v)
    (hN' : v.length ≤ N) (hr : o = true → ¬ ElseFollows rest) :
    Takes (whileLine ex ln) ("while".toList ++ (a ++ '(' :: (b ++ (u ++ (c ++ ')' :: (d ++ v)))))) (.while e s) rest := by
  refine kw_takes (solid_cons (by decide)) fun w r e1 hw hr' => ?_
  have h0 := word_takes (k := "while".toList) (rest := a ++ '(' :: (b ++ (u ++ (c ++ ')' :: (d ++ (v ++ (w ++ r)))))))
    (solid_cons (by decide)) [] a _ rfl blank_nil ha (noHead_cons.2 (by decide))
  have h1 := paren_reads hex (X := v ++ (w ++ r)) blank_nil hb hu hN hc hd (line_solid hv).append
  have h2 := hln _ _ _ rest hv hN' hr [] w r e1 blank_nil hw hr'
  exact (((Eats.skipLeft' h0 h1 (by simp)).andThen' h2 (by simp)).map
    fun x : Expr × Expr => Expr.while x.1 x.2).text (by simp)

theorem ifHead {e s : Expr} {o : Bool} {a b u c d v w r : List Char} (ha : Blank a) (hb : Blank b)
    (hu : Ex false e u) (hN : u.length ≤ N + 1) (hc : Blank c) (hd : Blank d) (hv : Line false o s v)
    (hN' : v.length ≤ N) (hr : o = true → ¬ ElseFollows (w ++ r)) (hw : Blank w) (hr' : NoHead BlankC r) :
    Eats (andThen (skipRight (skipLeft (skipLeft (skipRight (tag "if".toList) space) (punct '(')) ex) (punct ')')) ln)
      ("if".toList ++ (a ++ '(' :: (b ++ (u ++ (c ++ ')' :: (d ++ (v ++ w))))))) (e, s) r := by
  have h0 : Eats (skipRight (tag "if".toList) space) ("if".toList ++ a) "if".toList
      ('(' :: (b ++ (u ++ (c ++ ')' :: (d ++ (v ++ (w ++ r))))))) :=
    Eats.skipRight (w := ()) (eats_tag.2 ⟨rfl, rfl⟩) (eats_space.2 ⟨ha, noHead_cons.2 (by decide)⟩)
  have h1 := paren_reads hex (X := v ++ (w ++ r)) blank_nil hb hu hN hc hd (line_solid hv).append
  have h2 := hln _ _ _ (w ++ r) hv hN' hr [] w r rfl blank_nil hw hr'
  have h4 : Eats (skipRight (skipLeft (skipLeft (skipRight (tag "if".toList) space) (punct '(')) ex) (punct ')'))
      (("if".toList ++ a) ++ ('(' :: (b ++ (u ++ (c ++ ')' :: d))))) e (v ++ (w ++ r)) := by
    refine eats_left_right.2 (eats_left_left.2 ?_)
    exact Eats.skipLeft (v := "if".toList) (by simpa using h0) (by simpa [surround] using h1)
  have h3 := Eats.andThen (t2 := v ++ w) (by simpa using h4) (by simpa using h2)
  simpa using h3

theorem ifThen_takes {o : Bool} {e s : Expr} {a b u c d v : List Char} (ha : Blank a) (hb : Blank b)
    (hu : Ex false e u) (hN : u.length ≤ N + 1) (hc : Blank c) (hd : Blank d) (hv : Line false o s v)
    (hN' : v.length ≤ N) (hr : ¬ ElseFollows rest) :
    Takes (ifLine ex ln) ("if".toList ++ (a ++ '(' :: (b ++ (u ++ (c ++ ')' :: (d ++ v)))))) (.if e s none) rest := by
  refine kw_takes (solid_cons (by decide)) fun w r e1 hw hr' => ?_
  subst e1
  have h1 := ifHead hex hln ha hb hu hN hc hd hv hN' (fun _ => hr) hw hr'
  have h2 : Eats (opt (skipLeft (word "else") ln)) [] none r := by
    have h3 : ¬ "else".toList <+: r := by
      rintro ⟨s, rfl⟩
      exact hr (else_pad hw ⟨[], s, blank_nil, rfl⟩)
    obtain ⟨c, h4⟩ := fail_word (a := []) blank_nil hr' h3
    exact eats_opt.2 (.inr ⟨rfl, rfl, c, Fail.skipLeft h4⟩)
  have h3 := (Eats.andThen (by simpa using h1) h2).map
    fun x : (Expr × Expr) × Option Expr => Expr.if x.1.1 x.1.2 x.2
  simpa using h3

theorem ifElse_takes {o' : Bool} {e s s' : Expr} {a b u c d v f g x : List Char} (ha : Blank a) (hb : Blank b)
    (hu : Ex false e u) (hN : u.length ≤ N + 1) (hc : Blank c) (hd : Blank d) (hv : Line false false s v)
    (hN' : v.length ≤ N) (hf : Blank f) (hg : Blank g) (hx : Line false o' s' x) (hN'' : x.length ≤ N)
    (hr : o' = true → ¬ ElseFollows rest) :
    Takes (ifLine ex ln) ("if".toList ++ (a ++ '(' :: (b ++ (u ++ (c ++ ')' :: (d ++ (v ++
      (f ++ ("else".toList ++ (g ++ x)))))))))) (.if e s (some s')) rest := by
  refine kw_takes (solid_cons (by decide)) fun w r e1 hw hr' => ?_
  have h1 := ifHead hex hln (w := f) (r := "else".toList ++ (g ++ (x ++ (w ++ r)))) ha hb hu hN hc hd hv hN'
    (fun h => nomatch h) hf (noHead_cons.2 (by decide))
  have h2 := word_takes (k := "else".toList) (rest := g ++ (x ++ (w ++ r))) (solid_cons (by decide)) [] g _ rfl blank_nil
    hg (line_solid hx).append
  have h3 := hln _ _ _ rest hx hN'' hr [] w r e1 blank_nil hw hr'
  have h4 : Eats (opt (skipLeft (word "else") ln)) (("else".toList ++ g) ++ (x ++ w)) (some s') r :=
    eats_opt.2 (.inl ⟨s', rfl, Eats.skipLeft (v := "else".toList) (by simpa [word] using h2) (by simpa using h3)⟩)
  have h5 := (Eats.andThen (by simpa using h1) h4).map
    fun x : (Expr × Expr) × Option Expr => Expr.if x.1.1 x.1.2 x.2
  simpa using h5

theorem forLine_takes {o : Bool} {n : Name} {e e' s : Expr} {a b c d t f g u h i v : List Char} (ha : Blank a)
    (hb : Blank b) (hn : Ident n) (hc : Blank c) (hc' : c ≠ []) (hd : Blank d) (ht : Ex false e t)
    (hN1 : t.length ≤ N + 1) (hf : Blank f) (hf' : f ≠ []) (hg : Blank g) (hu : Ex false e' u)
    (hN2 : u.length ≤ N + 1) (hh : Blank h) (hi : Blank i) (hv : Line false o s v) (hN3 : v.length ≤ N)
    (hr : o = true → ¬ ElseFollows rest) :
    Takes (forLine ex ln) ("for".toList ++ (a ++ '(' :: (b ++ (n.toList ++ (c ++ ("in".toList ++ (d ++
        (t ++ (f ++ ("to".toList ++ (g ++ (u ++ (h ++ ')' :: (i ++ v)))))))))))))) (forLoop n e e' s) rest := by
  refine kw_takes (solid_cons (by decide)) fun w r e1 hw hr' => ?_
  have k10 := hln _ _ _ rest hv hN3 hr [] w r e1 blank_nil hw hr'
  -- the end of the parameters
  have k9 := punct_takes (c := ')') (rest := i ++ (v ++ (w ++ r))) (by decide) [] i _ rfl blank_nil hi (line_solid hv).append
  obtain ⟨h1, h2, rfl, -, k7⟩ := (hex _ _ (h ++ ')' :: (i ++ (v ++ (w ++ r)))) hu hN2
    (follow_cons hh (by decide) (by unfold Part Start; decide))).cut (noHead_cons.2 (by decide))
  have k8 : Eats space h2 () (')' :: (i ++ (v ++ (w ++ r)))) := eats_space.2 ⟨bright hh, noHead_cons.2 (by decide)⟩
  obtain ⟨f1, f2, rfl, -, k5⟩ := (hex _ _ (f ++ ("to".toList ++ (g ++ (u ++ ((h1 ++ h2) ++ ')' :: (i ++ (v ++ (w ++ r)))))))) ht hN1
    (follow_blank hf hf' (by decide))).cut (noHead_cons.2 (by decide))
  have k6 := word_takes (k := "to".toList) (rest := g ++ (u ++ ((h1 ++ h2) ++ ')' :: (i ++ (v ++ (w ++ r))))))
    (solid_cons (by decide)) f2 g _ rfl (bright hf) hg (starts_ex _ _ hu).1.append
  have k4 : Eats (andThen (andThen space (tag "in".toList)) space) ("in".toList ++ d) (((), "in".toList), ())
      (t ++ ((f1 ++ f2) ++ ("to".toList ++ (g ++ (u ++ ((h1 ++ h2) ++ ')' :: (i ++ (v ++ (w ++ r))))))))) := by
    refine Eats.andThen (t1 := [] ++ "in".toList) (Eats.andThen (eats_space.2 ⟨blank_nil, noHead_cons.2 (by decide)⟩)
      (eats_tag.2 ⟨rfl, rfl⟩)) (eats_space.2 ⟨hd, (starts_ex _ _ ht).1.append⟩)
  have k3 := ident_takes (rest := c ++ ("in".toList ++ (d ++ (t ++ ((f1 ++ f2) ++ ("to".toList ++ (g ++ (u ++ ((h1 ++ h2) ++
    ')' :: (i ++ (v ++ (w ++ r)))))))))))) hn (by
      cases c with
      | nil => exact absurd rfl hc'
      | cons x c => exact noHead_cons.2 fun hx => part_not_blank hx (hc x (by simp))) [] c _ rfl blank_nil hc
    (noHead_cons.2 (by decide))
  have k2 := punct_takes (c := '(') (rest := b ++ (n.toList ++ (c ++ ("in".toList ++ (d ++ (t ++ ((f1 ++ f2) ++ ("to".toList ++
    (g ++ (u ++ ((h1 ++ h2) ++ ')' :: (i ++ (v ++ (w ++ r)))))))))))))) (by decide) [] b _ rfl blank_nil hb (ident_starts hn).1.2
  have k1 : Eats (skipRight (tag "for".toList) space) ("for".toList ++ a) "for".toList ('(' :: (b ++ (n.toList ++ (c ++ ("in".toList ++ (d ++ (t ++ ((f1 ++ f2) ++ ("to".toList ++
    (g ++ (u ++ ((h1 ++ h2) ++ ')' :: (i ++ (v ++ (w ++ r))))))))))))))) :=
    Eats.skipRight (w := ()) (eats_tag.2 ⟨rfl, rfl⟩) (eats_space.2 ⟨ha, noHead_cons.2 (by decide)⟩)
  have m1 := (((((((Eats.skipLeft' k2 k3 (by simp)).skipRight' k4 (by simp)).andThen' k5 (by simp)).skipRight' k6
    (by simp)).andThen' k7 (by simp)).skipRight' k8 (by simp)).skipRight' k9 (by simp))
  exact (((Eats.skipLeft' (q := forParams ex) k1 m1 (by simp)).andThen' k10 (by simp)).map
    fun x : ((Name × Expr) × Expr) × Expr => forLoop x.1.1.1 x.1.1.2 x.1.2 x.2).text (by simp)

omit hln in
theorem assignment_takes {n : Name} {e : Expr} {a b t c : List Char} (hn : Ident n) (ha : Blank a) (hb : Blank b)
    (ht : Ex false e t) (hN : t.length ≤ N + 1) (hc : Blank c) :
    Takes (assignment ex) (n.toList ++ (a ++ '=' :: (b ++ (t ++ (c ++ [';']))))) (.assignment n e) rest := by
  refine kw_takes (ident_starts hn).1 fun w r e1 hw hr' => ?_
  have k1 := ident_takes (rest := a ++ '=' :: (b ++ (t ++ (c ++ ([';'] ++ (w ++ r)))))) hn (noHead_blank_cons ha not_part_eq) [] a _ rfl
    blank_nil ha (noHead_cons.2 (by decide))
  have k2 := punct_takes (c := '=') (rest := b ++ (t ++ (c ++ ([';'] ++ (w ++ r))))) (by decide) [] b _ rfl blank_nil hb
    (starts_ex _ _ ht).1.append
  obtain ⟨c1, c2, rfl, -, k3⟩ := (hex _ _ (c ++ ([';'] ++ (w ++ r))) ht hN (follow_cons hc (by decide) (by unfold Part Start; decide))).cut
    (noHead_cons.2 (by decide))
  have k4 := punct_takes (c := ';') (rest := w ++ r) (by decide) c2 w r rfl (bright hc) hw hr'
  exact ((((Eats.skipRight' k1 k2 (by simp)).andThen' k3 (by simp)).skipRight' k4 (by simp)).map
    fun x : Name × Expr => Expr.assignment x.1 x.2).text (by simp)

omit hln in
theorem expressionLine_reads {e : Expr} {t a : List Char} (ht : Ex false e t) (hN : t.length ≤ N + 1) (ha : Blank a) :
    Reads (expressionLine ex) (t ++ (a ++ [';'])) e rest := by
  obtain ⟨w, r, rfl, hw, hr⟩ := blank_split rest
  refine ⟨w, r, rfl, hw, eats_name.2 (Eats.attempt ?_)⟩
  have := reads_skipRight (solid_cons (by decide)) (hex _ _ (a ++ ([';'] ++ (w ++ r))) ht hN
    (follow_cons ha (by decide) (by unfold Part Start; decide))) (punct_takes (c := ';') (by decide)) ha hw hr
  simpa using this

omit hex
include hstop

theorem body_reads {es : List Expr} : ∀ {u : List Char}, Body false es u → u.length ≤ N → ∀ X, ∃ a m b, u = a ++ (m ++ b) ∧
    Blank a ∧ Blank b ∧ NoHead BlankC (m ++ (b ++ '}' :: X)) ∧ Eats (many0 ln) m es (b ++ '}' :: X) := by
  have key : ∀ {u : List Char}, Body false es u → u.length ≤ N → ∀ X, ∃ a m, u = a ++ m ∧
    Blank a ∧ NoHead BlankC (m ++ '}' :: X) ∧ Many ln m es ('}' :: X) := by
    induction es with
    | nil =>
      intro u h hu X
      cases h with
      | nil ha => exact ⟨u, [], by simp, ha, noHead_cons.2 (by decide), .nil _⟩
    | cons e es ih =>
      intro u h hu X
      cases h with
      | @cons o e es a t u ha h1 h2 h3 =>
        simp only [List.length_append] at hu
        obtain ⟨a1, m1, rfl, ha1, hm1, hm⟩ := ih h2 (by omega) X
        refine ⟨a, (t ++ a1) ++ m1, by simp, ha, ?_, .cons ?_ hm⟩
        · rw [List.append_assoc, List.append_assoc]; exact (line_solid h1).append
        · have := hln _ _ _ (a1 ++ (m1 ++ '}' :: X)) h1 (by omega) (fun ho hE => ?_) [] a1 (m1 ++ '}' :: X) rfl blank_nil ha1 hm1
          · simpa using this
          · rw [← List.append_assoc] at hE
            rcases h3 with h3 | h3 | h3
            · cases h3
            · rw [h3] at ho; cases ho
            · exact h3 (else_cut hE)
  intro u h hu X
  obtain ⟨a, m, rfl, ha, hm, h1⟩ := key h hu X
  exact ⟨a, m, [], by simp, ha, blank_nil, hm, eats_many0.2 ⟨h1, hstop X⟩⟩

theorem block_takes {es : List Expr} {u : List Char} (h : Body false es u) (hN : u.length ≤ N) :
    Takes (block ln) ('{' :: (u ++ ['}'])) (.block es) rest := by
  intro a b r e ha hb hr
  refine eats_name.2 (spaced_takes (solid_cons (by decide)) ?_ a b r e ha hb hr)
  obtain ⟨w, r, e1, hw, h1⟩ := (brackets_takes (l := '{') (z := '}') (rest := rest) (by decide) (by decide)
    (body_reads hln hstop h hN)).reads
  exact ⟨w, r, e1, hw, h1.map _⟩

include hex hfail

theorem lineStep_reads {o : Bool} {e : Expr} {t rest : List Char} (h : Line false o e t) (hN : t.length ≤ N + 1)
    (hr : o = true → ¬ ElseFollows rest) : Takes (lineStep ex ln) t e rest := by
  intro a0 b0 r0 e0 ha0 hb0 hr0
  refine eats_name.2 (spaced_takes (line_solid h) ?_ a0 b0 r0 e0 ha0 hb0 hr0)
  have lift : ∀ {p q : Parser Char Expr}, Reads p t e rest →
      (∀ w r, rest = w ++ r → Eats p (t ++ w) e r → Eats q (t ++ w) e r) → Reads q t e rest := by
    rintro p q ⟨w, r, e1, hw, h1⟩ h2
    exact ⟨w, r, e1, hw, h2 w r e1 h1⟩
  have hsolid : NoHead BlankC (t ++ rest) := (line_solid h).append
  cases h with
  | @println e a b t c d ha hb ht hc hd =>
    simp only [List.length_append, List.length_cons] at hN
    refine lift (println_takes hex ha hb ht (by omega) hc hd).reads fun w r e1 h1 => ?_
    exact (((((h1.or_left).or_left).or_left).or_left).or_left).or_left
  | @whileDo o e s a b t c d u ha hb ht hc hd hu =>
    simp only [List.length_append, List.length_cons] at hN
    refine lift (whileLine_takes hex hln ha hb ht (by omega) hc hd hu (by omega) hr).reads fun w r e1 h1 => ?_
    refine Eats.or_left (Eats.or_left (Eats.or_left (Eats.or_left (Eats.or_left (Eats.or_right ?_ h1)))))
    rw [List.append_assoc, ← e1]
    exact fail_println hsolid (not_keyword rfl (noHead_cons.2 (by decide)))
  | @ifThen o e s a b t c d u ha hb ht hc hd hu =>
    simp only [List.length_append, List.length_cons] at hN
    refine lift (ifThen_takes hex hln ha hb ht (by omega) hc hd hu (by omega) (hr rfl)).reads fun w r e1 h1 => ?_
    refine Eats.or_left (Eats.or_left (Eats.or_left (Eats.or_left (Eats.or_right ?_ h1))))
    rw [List.append_assoc, ← e1]
    exact Fail.or (fail_println hsolid (not_keyword rfl (noHead_cons.2 (by decide))))
      (fail_whileLine hsolid (not_keyword rfl (noHead_cons.2 (by decide))))
  | @ifElse o o' e s s' a b t c d u f g v ha hb ht hc hd hu ho hf hg hv =>
    simp only [List.length_append, List.length_cons] at hN
    obtain rfl : o = false := by simpa using ho
    refine lift (ifElse_takes hex hln ha hb ht (by omega) hc hd hu (by omega) hf hg hv (by omega) hr).reads
      fun w r e1 h1 => ?_
    refine Eats.or_left (Eats.or_left (Eats.or_left (Eats.or_left (Eats.or_right ?_ h1))))
    rw [List.append_assoc, ← e1]
    exact Fail.or (fail_println hsolid (not_keyword rfl (noHead_cons.2 (by decide))))
      (fail_whileLine hsolid (not_keyword rfl (noHead_cons.2 (by decide))))
  | @forDo o n e e' s a b c d t f g u h i v ha hb hn hc hc' hd ht hf hf' hg hu hh hi hv =>
    simp only [List.length_append, List.length_cons] at hN
    refine lift (forLine_takes hex hln ha hb hn hc (by simpa using hc') hd ht (by omega) hf (by simpa using hf') hg hu
      (by omega) hh hi hv (by omega) hr).reads fun w r e1 h1 => ?_
    refine Eats.or_left (Eats.or_left (Eats.or_left (Eats.or_right ?_ h1)))
    rw [List.append_assoc, ← e1]
    exact Fail.or (Fail.or (fail_println hsolid (not_keyword rfl (noHead_cons.2 (by decide))))
      (fail_whileLine hsolid (not_keyword rfl (noHead_cons.2 (by decide)))))
      (fail_ifLine hsolid (not_keyword rfl (noHead_cons.2 (by decide))))
  | @assign n e a b t c hn ha hb ht hc =>
    simp only [List.length_append, List.length_cons] at hN
    refine lift (assignment_takes hex hn ha hb ht (by omega) hc).reads fun w r e1 h1 => ?_
    refine Eats.or_left (Eats.or_left (Eats.or_right ?_ h1))
    rw [List.append_assoc, ← e1]
    refine fail_keywords hsolid ?_
    rintro ⟨k, hk, b', r', hb', e2⟩
    have hk' : ∀ c ∈ k.toList, Part c := by
      simp only [List.mem_cons, List.not_mem_nil, or_false] at hk
      rcases hk with rfl | rfl | rfl | rfl <;> unfold Part Start <;> decide
    have e3 : n.toList ++ (a ++ '=' :: (b ++ (t ++ (c ++ [';'])) ++ rest)) = k.toList ++ (b' ++ '(' :: r') := by
      rw [← e2]; simp
    obtain ⟨-, e4⟩ := identL_unique e3 (identL_part hn) hk' (noHead_blank_cons ha not_part_eq)
      (noHead_blank_cons hb' (by unfold Part Start; decide))
    obtain ⟨x, rfl, e5⟩ := blank_cut e4 ha (noHead_cons.2 (by decide))
    cases x with
    | nil => injection e5 with e5 _; revert e5; decide
    | cons y x =>
      injection e5 with e5 _
      exact absurd (hb' y (by simp)) (by rw [← e5]; decide)
  | @expr e t a ht ha hl =>
    simp only [List.length_append, List.length_cons] at hN
    refine lift (expressionLine_reads hex ht (by omega) ha) fun w r e1 h1 => ?_
    refine Eats.or_left (Eats.or_right ?_ h1)
    rw [List.append_assoc, ← e1]
    refine Fail.or (fail_keywords hsolid ?_) ?_
    · intro h2
      have h3 : ¬ LooksReserved (t ++ (a ++ [';'])) := by simpa using hl
      refine h3 ?_
      rw [← List.append_assoc]
      refine reserved_cut (X := rest) ?_
      simpa using h2
    · have := fail_assignment hfail (Y := a ++ ';' :: rest) ht (noHead_blank_cons ha (by unfold Part Start; decide)) (by
        intro b v hb e2
        obtain ⟨x, rfl, e5⟩ := blank_cut e2.symm hb (noHead_cons.2 (by decide))
        cases x with
        | nil => injection e5 with e5 _; exact absurd e5 (by decide)
        | cons y x =>
          injection e5 with e5 _
          exact absurd (ha y (by simp)) (by rw [← e5]; decide))
      simpa using this
  | @block es u hu =>
    simp only [List.length_append, List.length_cons] at hN
    refine lift (block_takes hln hstop hu (by omega)).reads fun w r e1 h1 => ?_
    refine Eats.or_right ?_ h1
    have hO : ∀ {X : List Char}, NoHead (Opener S) ('{' :: X) := noHead_cons.2 (by
      unfold Opener
      rw [isDigit_ascii (by decide)]
      unfold Start
      decide)
    have hs : ∀ {X : List Char}, NoHead Start ('{' :: X) := noHead_cons.2 (by unfold Start; decide)
    have hb : ∀ {X : List Char}, NoHead BlankC ('{' :: X) := noHead_cons.2 (by decide)
    exact Fail.or (Fail.or (fail_keywords hb (not_reserved hs)) (fail_assignment_start hb hs))
      (fail_name.2 (fail_attempt_of (hfail _ hO).skipRight))

end reads

end OniComb.Toys.Parse
