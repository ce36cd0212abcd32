import Verif.Lemmas.ToysLineReads

/-! # Helper lemmas: the programs of the toys parser -/

set_option linter.unusedSectionVars false

namespace OniComb
variable {I A : Type}

/-- What `parse` returns for a parser that need not read everything. -/
theorem parse_ok {p : Parser I A} [Good p] {r : List I} {v : A} :
    parse p r = .ok v ↔ ∃ t rest, r = t ++ rest ∧ Eats p t v rest := by
  unfold parse
  constructor
  · intro h
    cases h1 : p ⟨r, 0⟩ with
    | success w n =>
      rw [h1] at h
      obtain ⟨t, rest, h2, -, h3⟩ := success_split h1
      cases h
      exact ⟨t, rest, h2, h3⟩
    | _ => rw [h1] at h; cases h
  · rintro ⟨t, rest, rfl, h⟩
    rw [h]; rfl

/-- Two recursive parsers, unrolled equally often. -/
theorem below_fixN_both {F G : Parser I A → Parser I A} (h : ∀ p q, Below p q → Below (F p) (G q)) :
    ∀ n, Below (fixN F n) (fixN G n)
  | 0 => ⟨fun _ => .inl rfl⟩
  | n + 1 => h _ _ ⟨(below_fixN_both h n).out⟩

end OniComb

namespace OniComb.Toys.Parse
open OniComb.Calc.Spec (Blank Digits)
open OniComb.Calc (BlankC blank_split blank_cut blank_nil)
open OniComb.Toys.Text
variable {A : Type} {t r rest : List Char} {S : Std}

/-! ### Statements -/

section line
variable {ex ln : Parser Char Expr} [Good ex] [Good ln]

theorem ret_kw {p : Parser Char A} [Good p] {l : String} (h : ∀ r', r' <:+ r → Ret p r') :
    Ret (name (attempt (spaced p)) l) r := ret_name.2 (ret_attempt.2 (ret_spaced h))

theorem ret_paren (hex : ∀ r', r' <:+ r → Ret ex r') : Ret (surround (punct '(') ex (punct ')')) r :=
  ret_brackets fun r' h _ => hex r' h

theorem eats_surround_ne {q : Parser Char A} [Good q] {l z : Char} {v : A} (h : Eats (surround (punct l) q (punct z)) t v rest) :
    t ≠ [] := by
  unfold surround at h
  obtain ⟨t1, t2, w, rfl, h1, h2⟩ := eats_skipLeft.1 h
  have := punct_ne h1
  simp [this]

theorem lineStep_ret (hex : ∀ r', r'.length ≤ r.length → Ret ex r') (hln : ∀ r', r'.length < r.length → Ret ln r')
    (hprog : ∀ t e rest, Eats ln t e rest → t ≠ []) : Ret (lineStep ex ln) r := by
  have suf : ∀ {r' r'' : List Char}, r' <:+ r'' → r'.length ≤ r''.length := fun h => h.length_le
  have hlen : ∀ {a b r' : List Char}, r' = a ++ b → a ≠ [] → r'.length ≤ r.length → b.length < r.length := by
    rintro a b r' rfl ha h
    have := List.length_pos_iff.2 ha
    rw [List.length_append] at h; omega
  have hle : ∀ {a b r' : List Char}, r' = a ++ b → r'.length ≤ r.length → b.length ≤ r.length := by
    rintro a b r' rfl h
    rw [List.length_append] at h; omega
  refine ret_name.2 (ret_spaced fun r0 h0 => ?_)
  have h0 := suf h0
  refine ret_or.2 ⟨ret_or.2 ⟨ret_or.2 ⟨ret_or.2 ⟨ret_or.2 ⟨ret_or.2 ⟨?_, fun _ => ?_⟩, fun _ => ?_⟩, fun _ => ?_⟩,
    fun _ => ?_⟩, fun _ => ?_⟩, fun _ => ?_⟩
  · refine ret_kw fun r1 h1 => ret_map.2 (ret_skipRight.2 ⟨ret_skipLeft.2 ⟨ret_tag, fun t v rest e _ => ?_⟩,
      fun _ _ _ _ _ => ret_punct⟩)
    have h1 := suf h1
    exact ret_paren fun r' h' => hex r' (by have := suf h'; have := hle e (by omega); omega)
  · refine ret_kw fun r1 h1 => ret_map.2 (ret_andThen.2 ⟨ret_skipLeft.2 ⟨ret_word, fun t v rest e _ => ?_⟩, ?_⟩)
    · have h1 := suf h1
      exact ret_paren fun r' h' => hex r' (by have := suf h'; have := hle e (by omega); omega)
    · intro t v rest e h
      have h1 := suf h1
      obtain ⟨t1, t2, w, rfl, -, h3⟩ := eats_skipLeft.1 h
      have := eats_surround_ne h3
      exact hln _ (hlen e (by simp [this]) (by omega))
  · refine ret_kw fun r1 h1 => ret_map.2 (ret_andThen.2 ⟨ret_andThen.2 ⟨ret_skipRight.2 ⟨ret_skipLeft.2 ⟨ret_skipLeft.2
      ⟨ret_skipRight.2 ⟨ret_tag, fun _ _ _ _ _ => ret_space⟩, fun _ _ _ _ _ => ret_punct⟩, fun t v rest e _ => ?_⟩,
      fun _ _ _ _ _ => ret_punct⟩, fun t v rest e h => ?_⟩, fun t v rest e h => ret_opt.2 (ret_skipLeft.2 ⟨ret_word,
      fun t' v' rest' e' h' => ?_⟩)⟩)
    · have h1 := suf h1
      exact hex _ (hle e (by omega))
    · have h1 := suf h1
      obtain ⟨t1, t2, w, rfl, h2, h3⟩ := eats_skipRight.1 h
      have := punct_ne h3
      exact hln _ (hlen e (by simp [this]) (by omega))
    · have h1 := suf h1
      obtain ⟨t1, t2, rfl, h2, h3⟩ := eats_andThen.1 h
      have := hprog _ _ _ h3
      have := hlen e (by simp [this]) (by omega)
      rw [e', List.length_append] at this
      exact hln _ (by omega)
  · refine ret_kw fun r1 h1 => ret_map.2 (ret_andThen.2 ⟨ret_skipLeft.2 ⟨ret_skipRight.2 ⟨ret_tag,
      fun _ _ _ _ _ => ret_space⟩, fun t v rest e _ => ?_⟩, fun t v rest e h => ?_⟩)
    · have h1 := suf h1
      have hrest := hle e (by omega)
      unfold forParams
      refine ret_skipRight.2 ⟨ret_skipRight.2 ⟨ret_andThen.2 ⟨ret_skipRight.2 ⟨ret_andThen.2 ⟨ret_skipRight.2 ⟨ret_skipLeft.2
        ⟨ret_punct, fun _ _ _ _ _ => ret_ident⟩, fun _ _ _ _ _ => ret_andThen.2 ⟨ret_andThen.2 ⟨ret_space,
        fun _ _ _ _ _ => ret_tag⟩, fun _ _ _ _ _ => ret_space⟩⟩, fun t' v' rest' e' _ => hex _ (hle e' hrest)⟩,
        fun _ _ _ _ _ => ret_word⟩, fun t' v' rest' e' _ => hex _ (hle e' hrest)⟩, fun _ _ _ _ _ => ret_space⟩,
        fun _ _ _ _ _ => ret_punct⟩
    · have h1 := suf h1
      obtain ⟨t1, t2, w, rfl, h2, h3⟩ := eats_skipLeft.1 h
      obtain ⟨t3, t4, w', rfl, h4, h5⟩ := eats_skipRight.1 h3
      have := punct_ne h5
      exact hln _ (hlen e (by simp [this]) (by omega))
  · refine ret_kw fun r1 h1 => ret_map.2 (ret_skipRight.2 ⟨ret_andThen.2 ⟨ret_skipRight.2 ⟨ret_ident,
      fun _ _ _ _ _ => ret_punct⟩, fun t v rest e _ => ?_⟩, fun _ _ _ _ _ => ret_punct⟩)
    have h1 := suf h1
    exact hex _ (hle e (by omega))
  · exact ret_name.2 (ret_attempt.2 (ret_skipRight.2 ⟨hex _ h0, fun _ _ _ _ _ => ret_punct⟩))
  · refine ret_name.2 (ret_spaced fun r1 h1 => ret_map.2 (ret_brackets fun r2 h2 h3 => ret_many0 (fun r' h' => hln r' ?_)
      fun t v rest _ h => hprog t v rest h))
    have h1 := suf h1; have h2 := suf h2; have h' := suf h'
    omega

end line

instance good_line (m : Nat) : ∀ k, Good (fixN (lineStep (expression S m)) k)
  | 0 => inferInstanceAs (Good diverging)
  | k + 1 => by
    have := good_line m k
    exact good_lineStep (ln := lazy fun _ => fixN (lineStep (expression S m)) k)

instance {n : Nat} : Good (line S n) := by unfold line; infer_instance

theorem fixLine_sound (m : Nat) : ∀ (k : Nat) (e : Expr) (t rest : List Char),
    Eats (fixN (lineStep (expression S m)) k) t e rest → Pad AnyLine e t
  | 0, _, _, _, h => nomatch h
  | k + 1, e, t, rest, h => lineStep_sound (ln := lazy fun _ => fixN (lineStep (expression S m)) k) (expression_sound m)
      (fixLine_sound m k) e t rest h

theorem line_sound (n : Nat) (e : Expr) (t rest : List Char) (h : Eats (line S n) t e rest) : Pad AnyLine e t :=
  fixLine_sound n n e t rest h

theorem fixLine_ret (m : Nat) : ∀ (k : Nat) (r : List Char), k ≤ m → r.length < k →
    Ret (fixN (lineStep (expression S m)) k) r
  | 0, _, _, h => absurd h (Nat.not_lt_zero _)
  | k + 1, r, hk, h => lineStep_ret (ln := lazy fun _ => fixN (lineStep (expression S m)) k)
      (fun r' hr' => expression_ret m r' (by omega)) (fun r' hr' => fixLine_ret m k r' (by omega) (by omega))
      (fun t e rest h => pad_ne (fixLine_sound m k e t rest h))

theorem line_ret (n : Nat) (r : List Char) (h : r.length < n) : Ret (line S n) r := fixLine_ret n n r (Nat.le_refl _) h

theorem fail_fixLine {m k : Nat} (hm : 0 < m) (hk : 0 < k) (h : NoHead (Opener S) r) (h' : NoHead (· = '{') r) :
    Fail (fixN (lineStep (expression S m)) k) r .uncommitted := by
  obtain ⟨m, rfl⟩ : ∃ m', m = m' + 1 := ⟨m - 1, by omega⟩
  obtain ⟨k, rfl⟩ : ∃ k', k = k' + 1 := ⟨k - 1, by omega⟩
  exact fail_lineStep (ln := lazy fun _ => fixN (lineStep (expression S (m + 1))) k) (fun r h => fail_expression h) h h'

theorem noOpener_brace {X : List Char} : NoHead (Opener S) ('}' :: X) := noHead_cons.2 (by
  unfold Opener
  rw [isDigit_ascii (by decide)]
  unfold Start
  decide)

theorem fixLine_reads (m : Nat) : ∀ (k : Nat) (o : Bool) (e : Expr) (t rest : List Char), k ≤ m → Line false o e t →
    t.length < k → (o = true → ¬ ElseFollows rest) → Takes (fixN (lineStep (expression S m)) k) t e rest
  | 0, _, _, _, _, _, _, h, _ => absurd h (Nat.not_lt_zero _)
  | 1, o, e, t, rest, _, h, hn, _ => by
    have : t = [] := List.length_eq_zero_iff.1 (by omega)
    exact absurd this (line_solid h).1
  | k + 2, o, e, t, rest, hk, h, hn, hr => by
    refine lineStep_reads (S := S) (ln := lazy fun _ => fixN (lineStep (expression S m)) (k + 1)) (N := k)
      (fun e t rest h ht hf => expression_reads m e t rest h (by omega) hf) (fun r h => ?_)
      (fun o e t rest h ht hr => fixLine_reads m (k + 1) o e t rest (by omega) h (by omega) hr)
      (fun X => ⟨_, fail_fixLine (by omega) (by omega) noOpener_brace (noHead_cons.2 (by decide))⟩) h (by omega) hr
    obtain ⟨m, rfl⟩ : ∃ m', m = m' + 1 := ⟨m - 1, by omega⟩
    exact fail_expression h

theorem line_reads (n : Nat) (o : Bool) (e : Expr) (t rest : List Char) (h : Line false o e t) (hn : t.length < n)
    (hr : o = true → ¬ ElseFollows rest) : Takes (line S n) t e rest :=
  fixLine_reads n n o e t rest (Nat.le_refl _) h hn hr

theorem line_block {n : Nat} {es : List Expr} {u : List Char} (h : Body false es u) (hN : u.length < n) :
    Takes (block (line S n)) ('{' :: (u ++ ['}'])) (.block es) rest :=
  block_takes (N := n - 1) (fun o e t rest h ht hr => line_reads n o e t rest h (by omega) hr)
    (fun X => ⟨_, fail_fixLine (by omega) (by omega) noOpener_brace (noHead_cons.2 (by decide))⟩) h (by omega)

/-! ### Definitions -/

instance : Good define := by unfold define; infer_instance
instance {n : Nat} : Good (functionDefinition S n) := by unfold functionDefinition; infer_instance
instance {n : Nat} : Good (globalVariableDefinition S n) := by unfold globalVariableDefinition; infer_instance
instance {n : Nat} : Good (topLevelDefinition S n) := by unfold topLevelDefinition; infer_instance
instance {n : Nat} : Good (program S n) := by unfold program; infer_instance
instance {n : Nat} : Good (lines S n) := by unfold lines; infer_instance

theorem ident_sound (n : Name) (t rest : List Char) (h : Eats ident t n rest) : Pad IsName n t := by
  obtain ⟨a, b, rfl, ha, hn, -, hb, -⟩ := eats_ident.1 h
  exact ⟨a, n.toList, b, rfl, ha, hb, hn, rfl⟩

theorem isName_solid (n : Name) (t : List Char) (h : IsName n t) : Solid t := by
  obtain ⟨hn, rfl⟩ := h; exact identL_solid hn

theorem global_sound {n : Nat} {e : Expr} (h : Eats (globalVariableDefinition S n) t e rest) : Pad (Def true) e t := by
  refine spaced_sound (fun t rest h => ?_) (eats_name.1 h)
  obtain ⟨⟨m, e⟩, h', rfl⟩ := eats_map.1 h
  obtain ⟨t1, t2, w, rfl, h1, h2⟩ := eats_skipRight.1 h'
  obtain ⟨t3, t4, rfl, h3, h4⟩ := eats_andThen.1 h1
  obtain ⟨t5, t6, w, rfl, h5, h6⟩ := eats_skipRight.1 h3
  obtain ⟨t7, t8, w, rfl, h7, h8⟩ := eats_skipLeft.1 h5
  obtain ⟨a0, b0, rfl, -, ha0, -, hb0, -⟩ := eats_word.1 h7
  obtain ⟨a1, b1, rfl, ha1, hn, -, hb1, -⟩ := eats_ident.1 h8
  obtain ⟨a2, b2, rfl, ha2, hb2, -⟩ := eats_punct h6
  obtain ⟨a3, u, b3, rfl, ha3, hb3, hu⟩ := expression_sound _ _ _ _ h4
  obtain ⟨a4, b4, rfl, ha4, hb4, -⟩ := eats_punct h2
  refine ⟨a0, "global".toList ++ ((b0 ++ a1) ++ (m.toList ++ ((b1 ++ a2) ++ '=' :: ((b2 ++ a3) ++ (u ++ ((b3 ++ a4) ++ [';'])))))),
    b4, ?_, ha0, hb4, .glob (bapp hb0 ha1) hn (bapp hb1 ha2) (bapp hb2 ha3) hu (bapp hb3 ha4)⟩
  simp

theorem function_sound {n : Nat} {e : Expr} (h : Eats (functionDefinition S n) t e rest) : Pad (Def true) e t := by
  refine spaced_sound (fun t rest h => ?_) (eats_name.1 h)
  obtain ⟨⟨⟨m, ns⟩, bl⟩, h', rfl⟩ := eats_map.1 h
  obtain ⟨t1, t2, rfl, h1, h2⟩ := eats_andThen.1 h'
  obtain ⟨t3, t4, rfl, h3, h4⟩ := eats_andThen.1 h1
  obtain ⟨a9, v', b9, rfl, ha9, hb9, es, v, rfl, rfl, hv⟩ := block_sound (line_sound n) h2
  obtain ⟨a5, u', b5, rfl, ha5, hb5, u, rfl, hu⟩ := brackets_sound (R := Listing IsName)
    (fun h ha hb => many0Sep_sound ident_sound h ha hb) h4
  obtain ⟨t5, t6, w, rfl, h5, h6⟩ := eats_skipRight.1 h3
  have hb6 := (eats_space.1 h6).1
  obtain ⟨t7, t8, w, rfl, h7, h8⟩ := eats_skipLeft.1 h5
  obtain ⟨a1, b1, rfl, ha1, hn, -, hb1, -⟩ := eats_ident.1 h8
  obtain ⟨t9, t10, w, rfl, h9, h10⟩ := eats_skipLeft.1 h7
  have hb10 := (eats_space.1 h10).1
  obtain ⟨t11, t12, w, rfl, h11, h12⟩ := eats_skipLeft.1 h9
  have hb11 := (eats_space.1 h11).1
  obtain ⟨rfl, -⟩ := eats_tag.1 h12
  refine ⟨t11, "fn".toList ++ ((t10 ++ a1) ++ (m.toList ++ ((b1 ++ (t6 ++ a5)) ++ '(' :: (u ++ ')' :: ((b5 ++ a9) ++ '{' ::
    (v ++ ['}'])))))), b9, ?_, hb11, hb9, .func (bapp hb10 ha1) hn (bapp hb1 (bapp hb6 ha5)) hu (bapp hb5 ha9) hv⟩
  simp

theorem top_sound {n : Nat} (e : Expr) (t rest : List Char) (h : Eats (topLevelDefinition S n) t e rest) :
    Pad (Def true) e t := by
  rcases eats_or.1 (eats_name.1 h) with h | ⟨-, h⟩
  · exact global_sound h
  · exact function_sound h

theorem def_solid {lax : Bool} {e : Expr} {t : List Char} (h : Def lax e t) : Solid t := by
  cases h with
  | glob => exact solid_cons (by decide)
  | func => exact solid_cons (by decide)

theorem spaced_takes' {p : Parser Char A} [Good p] {v : A} (hs : Solid t)
    (h : ∀ w r, rest = w ++ r → Blank w → NoHead BlankC r → Eats p (t ++ w) v r) : Takes (spaced p) t v rest := by
  refine spaced_takes hs ?_
  obtain ⟨w, r', e', hw, hr'⟩ := blank_split rest
  exact ⟨w, r', e', hw, h w r' e' hw hr'⟩

theorem fail_global {n : Nat} {a : List Char} (ha : Blank a) (hb : NoHead BlankC r) (h : NoHead (· = 'g') r) :
    Fail (globalVariableDefinition S n) (a ++ r) .uncommitted := by
  refine fail_name.2 (fail_spaced.2 ⟨a, r, rfl, ha, hb, Fail.map _ (Fail.skipRight (Fail.andThen (Fail.skipRight
    (Fail.skipLeft ?_))))⟩)
  have := fail_word_head (x := 'g') (k := "lobal".toList) (a := []) blank_nil hb h
  exact this

theorem fail_function {n : Nat} (hb : NoHead BlankC r) (h : NoHead (· = 'f') r) :
    Fail (functionDefinition S n) r .uncommitted := by
  refine fail_name.2 (fail_spaced.2 ⟨[], r, rfl, blank_nil, hb, Fail.map _ (Fail.andThen (Fail.andThen (Fail.skipRight
    (Fail.skipLeft (Fail.skipLeft ?_)))))⟩)
  have h1 : Eats space [] () r := eats_space.2 ⟨blank_nil, hb⟩
  exact h1.skipLeft_fail (fail_tag_head (x := 'f') (l := ['n']) h)

theorem fail_top {n : Nat} (hb : NoHead BlankC r) (h : NoHead (fun c => c = 'g' ∨ c = 'f') r) :
    Fail (topLevelDefinition S n) r .uncommitted :=
  fail_name.2 (Fail.or (by simpa using fail_global (a := []) blank_nil hb (h.mono fun c hc => .inl hc))
    (fail_function hb (h.mono fun c hc => .inr hc)))

theorem top_takes {n : Nat} {e : Expr} (h : Def false e t) (hn : t.length < n) :
    Takes (topLevelDefinition S n) t e rest := by
  intro a0 b0 r0 e0 ha0 hb0 hr0
  unfold topLevelDefinition
  have hs := def_solid h
  cases h with
  | @glob m e a b c t d ha hm hb hc ht hd =>
    simp only [List.length_append, List.length_cons] at hn
    refine eats_name.2 (Eats.or_left (eats_name.2 ?_))
    refine spaced_takes' hs (fun w r e1 hw hr => ?_) a0 b0 r0 e0 ha0 hb0 hr0
    have k0 := word_takes (k := "global".toList) (rest := a ++ (m.toList ++ (b ++ '=' :: (c ++ (t ++ (d ++ ([';'] ++ (w ++ r)))))))) (solid_cons (by decide))
      [] a _ rfl blank_nil ha (ident_starts hm).1.2
    have k1 := ident_takes (rest := b ++ '=' :: (c ++ (t ++ (d ++ ([';'] ++ (w ++ r)))))) hm (noHead_blank_cons hb not_part_eq) [] b _ rfl
      blank_nil hb (noHead_cons.2 (by decide))
    have k2 := punct_takes (c := '=') (rest := c ++ (t ++ (d ++ ([';'] ++ (w ++ r))))) (by decide) [] c _ rfl blank_nil hc
      (starts_ex _ _ ht).1.append
    obtain ⟨d1, d2, rfl, -, k3⟩ := (expression_reads (S := S) n _ _ (d ++ ([';'] ++ (w ++ r))) ht (by omega)
      (follow_cons hd (by decide) (by unfold Part Start; decide))).cut (noHead_cons.2 (by decide))
    have k4 := punct_takes (c := ';') (rest := w ++ r) (by decide) d2 w r rfl (bright hd) hw hr
    exact ((((Eats.skipLeft' k0 k1 (by simp)).skipRight' k2 (by simp)).andThen' k3 (by simp)).skipRight' k4 (by simp)).map
      (fun x : Name × Expr => Expr.globalVariableDefinition x.1 x.2) |>.text (by simp only [List.append_assoc, List.nil_append, List.cons_append])
  | @func m ns es a b u c v ha hm hb hu hc hv =>
    simp only [List.length_append, List.length_cons] at hn
    refine eats_name.2 (Eats.or_right ?_ (eats_name.2 ?_))
    · have := fail_global (S := S) (n := n) (a := a0) (r := "fn".toList ++ (a ++ (m.toList ++ (b ++ '(' :: (u ++ ')' :: (c ++ '{' :: (v ++ ['}'])))))) ++ (b0 ++ r0)) ha0
        (noHead_cons.2 (by decide)) (noHead_cons.2 (by decide))
      simpa using this
    refine spaced_takes' hs (fun w r e1 hw hr => ?_) a0 b0 r0 e0 ha0 hb0 hr0
    let T := u ++ ')' :: (c ++ '{' :: (v ++ '}' :: (w ++ r)))
    have k0 : Eats space [] () ("fn".toList ++ (a ++ (m.toList ++ (b ++ '(' :: T)))) :=
      eats_space.2 ⟨blank_nil, noHead_cons.2 (by decide)⟩
    have k1 : Eats (tag "fn".toList) "fn".toList "fn".toList (a ++ (m.toList ++ (b ++ '(' :: T))) := eats_tag.2 ⟨rfl, rfl⟩
    have k2 : Eats space a () (m.toList ++ (b ++ '(' :: T)) := eats_space.2 ⟨ha, (ident_starts hm).1.2⟩
    have k3 := ident_takes (rest := b ++ '(' :: T) hm (noHead_blank_cons hb (by unfold Part Start; decide)) [] b _ rfl
      blank_nil hb (noHead_cons.2 (by decide))
    have k4 : Eats space [] () ('(' :: T) := eats_space.2 ⟨blank_nil, noHead_cons.2 (by decide)⟩
    have k5 := brackets_takes (l := '(') (z := ')') (q := many0Sep ident (punct ',')) (rest := c ++ '{' :: (v ++ '}' :: (w ++ r)))
      (by decide) (by decide) (u := u) (v := ns) (fun X => listing0_reads (P := IsName) isName_solid (by
        rintro x t rest ⟨hx, rfl⟩ hf
        exact (ident_takes hx hf.2).reads) (by decide) (by unfold Part Start; decide) (by decide)
        (fun X => ⟨_, fail_ident (a := []) (r := ')' :: X) blank_nil (noHead_cons.2 (by unfold Start; decide))
          (noHead_cons.2 (by decide))⟩) hu X) [] c _ rfl blank_nil hc (noHead_cons.2 (by decide))
    have k6 := line_block (S := S) (n := n) (rest := w ++ r) hv (by omega) [] w r rfl blank_nil hw hr
    have m1 := ((((k0.skipLeft' k1 (by simp)).skipLeft' k2 (by simp)).skipLeft' k3 (by simp)).skipRight' k4 (by simp))
    exact ((Eats.andThen' (p := define) m1 k5 (by simp [T])).andThen' k6 (by simp)).map
      (fun x : (Name × List Name) × Expr => Expr.functionDefinition x.1.1 x.1.2 x.2) |>.text (by simp only [List.append_assoc, List.nil_append, List.cons_append])

/-! ### Programs -/

theorem prog_pad {lax : Bool} {es : List Expr} {v c : List Char} (hc : Blank c) (h : Text.Prog lax es v) :
    Text.Prog lax es (c ++ v) := by
  cases h with
  | nil ha => exact .nil (bapp hc ha)
  | cons ha h1 h2 =>
    have := Text.Prog.cons (bapp hc ha) h1 h2
    simpa using this

theorem many_prog {n : Nat} {es : List Expr} (h : Many (topLevelDefinition S n) t es rest) : Text.Prog true es t := by
  induction h with
  | nil => exact .nil blank_nil
  | cons h1 _ ih =>
    obtain ⟨a1, u, b1, rfl, ha1, hb1, hu⟩ := top_sound _ _ _ h1
    have := Text.Prog.cons ha1 hu (prog_pad hb1 ih)
    simpa using this

theorem program_sound {n : Nat} {e : Expr} (h : Eats (program S n) t e rest) :
    ∃ es, e = .program es ∧ Text.Prog true es t ∧ ∃ c, Fail (topLevelDefinition S n) rest c := by
  obtain ⟨t1, t2, w, rfl, h1, h2⟩ := eats_skipLeft.1 h
  obtain ⟨es, h3, rfl⟩ := eats_map.1 h2
  obtain ⟨h4, h5⟩ := eats_many0.1 h3
  exact ⟨es, rfl, prog_pad (eats_space.1 h1).1 (many_prog h4), h5⟩

theorem program_reads {n : Nat} {es : List Expr} (h : Text.Prog false es t) (hn : t.length < n) (hb : NoHead BlankC rest)
    (hf : ∃ c, Fail (topLevelDefinition S n) rest c) : Eats (program S n) t (.program es) rest := by
  have key : ∀ {es : List Expr} {t : List Char}, Text.Prog false es t → t.length < n → ∃ a m, t = a ++ m ∧ Blank a ∧
      NoHead BlankC (m ++ rest) ∧ Many (topLevelDefinition S n) m es rest := by
    intro es t h
    induction h with
    | @nil a ha => intro _; exact ⟨a, [], by simp, ha, hb, .nil _⟩
    | @cons e es a t u ha h1 _ ih =>
      intro hn
      simp only [List.length_append] at hn
      obtain ⟨a1, m1, rfl, ha1, hm1, h3⟩ := ih (by omega)
      refine ⟨a, (t ++ a1) ++ m1, by simp, ha, ?_, .cons ?_ h3⟩
      · rw [List.append_assoc, List.append_assoc]; exact (def_solid h1).append
      · have := top_takes (S := S) (n := n) h1 (by omega) [] a1 (m1 ++ rest) rfl blank_nil ha1 hm1
        simpa using this
  obtain ⟨a, m, rfl, ha, hm, h1⟩ := key h hn
  exact Eats.skipLeft (v := ()) (eats_space.2 ⟨ha, hm⟩) (Eats.map _ (eats_many0.2 ⟨h1, hf⟩))

theorem define_ret : Ret define r :=
  ret_skipRight.2 ⟨ret_skipLeft.2 ⟨ret_skipLeft.2 ⟨ret_skipLeft.2 ⟨ret_space, fun _ _ _ _ _ => ret_tag⟩,
    fun _ _ _ _ _ => ret_space⟩, fun _ _ _ _ _ => ret_ident⟩, fun _ _ _ _ _ => ret_space⟩

theorem top_ret {n : Nat} (hn : r.length < n) : Ret (topLevelDefinition S n) r := by
  have hle : ∀ {a b r' : List Char}, r' = a ++ b → r' <:+ r → b.length < n := by
    rintro a b r' rfl h
    have := h.length_le
    rw [List.length_append] at this; omega
  refine ret_name.2 (ret_or.2 ⟨ret_name.2 (ret_spaced fun r1 h1 => ret_map.2 ?_),
    fun _ => ret_name.2 (ret_spaced fun r1 h1 => ret_map.2 ?_)⟩)
  · exact ret_skipRight.2 ⟨ret_andThen.2 ⟨ret_skipRight.2 ⟨ret_skipLeft.2 ⟨ret_word, fun _ _ _ _ _ => ret_ident⟩,
      fun _ _ _ _ _ => ret_punct⟩, fun t v rest e _ => expression_ret n _ (hle e h1)⟩, fun _ _ _ _ _ => ret_punct⟩
  · refine ret_andThen.2 ⟨ret_andThen.2 ⟨define_ret, fun _ _ _ _ _ => ret_brackets fun r' _ _ => ret_many0Sep
      (fun _ _ => ret_ident) (fun _ _ => ret_punct) (.inr fun _ _ _ _ h => punct_ne h)⟩, fun t v rest e _ => ?_⟩
    have hr := hle e h1
    refine ret_name.2 (ret_spaced fun r2 h2 => ret_map.2 (ret_brackets fun r3 h3 _ => ret_many0 (fun r' h' => line_ret n r' ?_)
      fun t v rest _ h => pad_ne (line_sound n v t rest h)))
    have := h2.length_le; have := h3.length_le; have := h'.length_le
    omega

theorem top_ne {n : Nat} {e : Expr} (h : Eats (topLevelDefinition S n) t e rest) : t ≠ [] := by
  obtain ⟨a, u, b, rfl, -, -, h⟩ := top_sound _ _ _ h
  have := (def_solid h).1
  simp [this]

theorem program_ret {n : Nat} (hn : r.length < n) : Ret (program S n) r := by
  refine ret_skipLeft.2 ⟨ret_space, fun t v rest e _ => ret_map.2 (ret_many0 (fun r' h' => top_ret ?_)
    fun _ _ _ _ h => top_ne h)⟩
  have := h'.length_le
  rw [e, List.length_append] at hn
  omega

theorem lines_ret {n : Nat} (hn : r.length < n) : Ret (lines S n) r := by
  refine ret_skipRight.2 ⟨ret_skipRight.2 ⟨ret_many1 (fun r' h' => line_ret n r' ?_)
    fun t v rest _ h => pad_ne (line_sound n v t rest h), fun _ _ _ _ _ => ret_space⟩, fun _ _ _ _ _ => ret_end⟩
  have := h'.length_le
  omega

theorem lines_sound {n : Nat} {es : List Expr} (h : parse (lines S n) r = .ok es) : es ≠ [] ∧ Body true es r := by
  obtain ⟨t1, t2, w, rfl, h1, h2⟩ := eats_skipRight.1 (parse_end_ok.1 h)
  obtain ⟨h3, h4, -⟩ := eats_many1.1 h1
  exact ⟨h3, many_body (line_sound n) h4 (eats_space.1 h2).1⟩

theorem lines_reads {n : Nat} {es : List Expr} (hes : es ≠ []) (h : Body false es r) (hn : r.length < n) :
    parse (lines S n) r = .ok es := by
  have hfail : ∃ c, Fail (line S n) [] c := ⟨_, fail_fixLine (by omega) (by omega) noHead_nil' noHead_nil'⟩
  have step : ∀ {o : Bool} {e : Expr} {es : List Expr} {a t a1 m1 : List Char}, Line false o e t → t.length < n → Blank a → Blank a1 →
      NoHead BlankC m1 → (o = true → ¬ ElseFollows (a1 ++ m1)) → Many (line S n) m1 es [] →
      Many (line S n) (a ++ (t ++ (a1 ++ m1))) (e :: es) [] := by
    intro o e es a t a1 m1 h ht ha ha1 hm1 ho hm
    have := line_reads (S := S) n o e t (a1 ++ m1) h ht ho a a1 m1 rfl ha ha1 hm1
    have := Many.cons (by simpa using this) hm
    simpa using this
  have key : ∀ {es : List Expr} {u : List Char}, Body false es u → u.length < n → ∃ a m, u = a ++ m ∧ Blank a ∧
      NoHead BlankC m ∧ Many (line S n) m es [] := by
    intro es
    induction es with
    | nil =>
      intro u h hu
      cases h with
      | nil ha => exact ⟨u, [], by simp, ha, noHead_nil', .nil _⟩
    | cons e es ih =>
      intro u h hu
      cases h with
      | @cons o e es a t u ha h1 h2 h3 =>
        simp only [List.length_append] at hu
        obtain ⟨a1, m1, rfl, ha1, hm1, hm⟩ := ih h2 (by omega)
        refine ⟨a, t ++ (a1 ++ m1), by simp, ha, (line_solid h1).append, ?_⟩
        have := step (a := []) h1 (by omega) blank_nil ha1 hm1 (fun ho hE => ?_) hm
        · simpa using this
        · rcases h3 with h3 | h3 | h3
          · cases h3
          · rw [h3] at ho; cases ho
          · exact h3 hE
  cases h with
  | nil => exact absurd rfl hes
  | @cons o e es a t u ha h1 h2 h3 =>
    simp only [List.length_append] at hn
    obtain ⟨a1, m1, rfl, ha1, hm1, hm⟩ := key h2 (by omega)
    have h4 := step (a := a) h1 (by omega) ha ha1 hm1 (fun ho hE => by
      rcases h3 with h3 | h3 | h3
      · cases h3
      · rw [h3] at ho; cases ho
      · exact h3 hE) hm
    refine parse_end_ok.2 ?_
    have h5 : Eats (many1 (line S n)) (a ++ (t ++ (a1 ++ m1))) (e :: es) [] := eats_many1.2 ⟨by simp, h4, hfail⟩
    have := Eats.skipRight (p := many1 (line S n)) (q := space) (t2 := []) (w := ()) h5 (eats_space.2 ⟨blank_nil, noHead_nil'⟩)
    simpa using this

/-! ### Variables that cannot be read -/

theorem chain_all {P : Expr → List Char → Prop} {O : Operator → List Char → Prop} {Q : Expr → Prop} {e : Expr}
    (h : Chain P O e t) (hP : ∀ e u, P e u → u.length ≤ t.length → Q e) (hQ : ∀ o l r, Q l → Q r → Q (.binary o l r)) :
    Q e := by
  induction h with
  | one h => exact hP _ _ h (Nat.le_refl _)
  | op _ _ _ _ h2 ih =>
    simp only [List.length_append] at hP
    exact hQ _ _ _ (ih fun e u h hu => hP e u h (by omega)) (hP _ _ h2 (by omega))

theorem ex_all {lax : Bool} {Q : Expr → Prop} {e : Expr} (h : Ex lax e t)
    (hP : ∀ e u, Prim lax e u → u.length ≤ t.length → Q e) (hQ : ∀ o l r, Q l → Q r → Q (.binary o l r)) : Q e :=
  chain_all h (fun _ _ h h1 => chain_all h (fun _ _ h h2 => chain_all h (fun _ _ h h3 => chain_all h (fun _ _ h h4 =>
    hP _ _ h (by omega)) hQ) hQ) hQ) hQ

theorem commas_mem {P : A → List Char → Prop} {xs : List A} (h : Commas P xs t) : ∀ x ∈ xs, ∃ u, P x u ∧ u.length ≤ t.length := by
  induction h with
  | one h =>
    intro x hx
    obtain rfl := List.mem_singleton.1 hx
    exact ⟨_, h, Nat.le_refl _⟩
  | cons h _ _ _ ih =>
    intro x hx
    simp only [List.length_append, List.length_cons]
    rcases List.mem_cons.1 hx with rfl | hx
    · exact ⟨_, h, by omega⟩
    · obtain ⟨u, h1, h2⟩ := ih x hx
      exact ⟨u, h1, by omega⟩

theorem listing_mem {P : A → List Char → Prop} {xs : List A} (h : Listing P xs t) : ∀ x ∈ xs, ∃ u, P x u ∧ u.length ≤ t.length := by
  intro x hx
  cases h with
  | empty => cases hx
  | plain _ h _ | trailing _ h _ _ =>
    obtain ⟨u, h1, h2⟩ := commas_mem h x hx
    simp only [List.length_append, List.length_cons]
    exact ⟨u, h1, by omega⟩

theorem prim_mentions {n : Name} : ∀ (N : Nat) (e : Expr) (t : List Char), t.length ≤ N → Prim true e t → Mentions n e →
    Readable n ∨ n.toList <+: "fals".toList := by
  intro N
  induction N with
  | zero => intro e t h hp; exact absurd (List.length_eq_zero_iff.1 (Nat.le_zero.1 h)) (starts_prim _ _ hp).1.1
  | succ N ih =>
    have hex : ∀ e t, t.length ≤ N → Ex true e t → Mentions n e → Readable n ∨ n.toList <+: "fals".toList := by
      intro e t ht h
      refine ex_all h (fun e u hu hl => ih e u (by omega) hu) ?_
      rintro o l r h1 h2 (_ | h | h)
      · exact h1 h
      · exact h2 h
    intro e t ht hp hm
    cases hp with
    | paren _ h _ =>
      simp only [List.length_append, List.length_cons] at ht
      cases hm with
      | paren hm => exact hex _ _ (by omega) h hm
    | int => cases hm
    | str => cases hm
    | call _ _ h =>
      simp only [List.length_append, List.length_cons] at ht
      cases hm with
      | call he hm =>
        obtain ⟨u, h1, h2⟩ := listing_mem h _ he
        exact hex _ _ (by omega) h1 hm
    | labelled _ _ _ h =>
      simp only [List.length_append, List.length_cons] at ht
      cases hm with
      | labelled he hm =>
        obtain ⟨u, h1, h2⟩ := listing_mem h _ he
        cases h1 with
        | mk _ _ _ _ h1 =>
          simp only [List.length_append, List.length_cons] at h2
          exact hex _ _ (by omega) h1 hm
    | array h =>
      simp only [List.length_append, List.length_cons] at ht
      cases hm with
      | array he hm =>
        obtain ⟨u, h1, h2⟩ := listing_mem h _ he
        exact hex _ _ (by omega) h1 hm
    | tru => cases hm
    | fls => cases hm
    | var _ h =>
      cases hm
      exact h.imp id And.right

theorem ex_mentions {n : Name} {e : Expr} (h : Ex true e t) (hm : Mentions n e) : Readable n ∨ n.toList <+: "fals".toList := by
  revert hm
  refine ex_all h (fun e u hu _ => prim_mentions _ e u (Nat.le_refl _) hu) ?_
  rintro o l r h1 h2 (_ | h | h)
  · exact h1 h
  · exact h2 h

/-! ### Arithmetic -/

theorem arith_num {k : Nat} {i : Int} (h : Arith k i t) : ∃ e, Num e i ∧
    (match k with
      | 0 => Chain (Chain (Chain (Prim false) MulOp) ModOp) AddOp e t
      | 1 => Chain (Prim false) MulOp e t
      | _ => Prim false e t) := by
  induction h with
  | lit h =>
    refine ⟨_, .lit _ ?_, .int h⟩
    cases h with
    | pos _ h => exact h
    | neg _ h => exact h
  | paren ha _ hb ih =>
    obtain ⟨e, h1, h2⟩ := ih
    exact ⟨_, .paren h1, .paren ha (.one h2) hb⟩
  | product _ ih => obtain ⟨e, h1, h2⟩ := ih; exact ⟨e, h1, .one h2⟩
  | sum _ ih => obtain ⟨e, h1, h2⟩ := ih; exact ⟨e, h1, .one (.one h2)⟩
  | @add i j t a b u _ ha hb _ hf ih1 ih2 =>
    obtain ⟨e1, h1, h2⟩ := ih1
    obtain ⟨e2, h3, h4⟩ := ih2
    exact ⟨_, .add h1 h3 hf, .op (w := ['+']) h2 ha .add hb (.one h4)⟩
  | @sub i j t a b u _ ha hb _ hf ih1 ih2 =>
    obtain ⟨e1, h1, h2⟩ := ih1
    obtain ⟨e2, h3, h4⟩ := ih2
    exact ⟨_, .sub h1 h3 hf, .op (w := ['-']) h2 ha .sub hb (.one h4)⟩
  | @mul i j t a b u _ ha hb _ hf ih1 ih2 =>
    obtain ⟨e1, h1, h2⟩ := ih1
    obtain ⟨e2, h3, h4⟩ := ih2
    exact ⟨_, .mul h1 h3 hf, .op (w := ['*']) h2 ha .mul hb h4⟩
  | @div i j t a b u _ ha hb _ hj hf ih1 ih2 =>
    obtain ⟨e1, h1, h2⟩ := ih1
    obtain ⟨e2, h3, h4⟩ := ih2
    exact ⟨_, .div h1 h3 hj hf, .op (w := ['/']) h2 ha .div hb h4⟩

theorem arith_ex {i : Int} (h : Arith 0 i t) : ∃ e, Num e i ∧ Ex false e t := by
  obtain ⟨e, h1, h2⟩ := arith_num h
  exact ⟨e, h1, .one h2⟩

/-! ### How deep the grammar is unrolled -/

theorem below_expression {n m : Nat} (h : n ≤ m) : Below (expression S n) (expression S m) := below_fixN exprStep_mono h

theorem below_lineStep {ex ex' ln ln' : Parser Char Expr} [Below ex ex'] [Below ln ln'] :
    Below (lineStep ex ln) (lineStep ex' ln') := by
  unfold lineStep println whileLine ifLine forLine forParams assignment expressionLine block spaced
  infer_instance

theorem below_line {n m : Nat} (h : n ≤ m) : Below (line S n) (line S m) := by
  have := below_expression (S := S) h
  have h1 : Below (line S n) (fixN (lineStep (expression S m)) n) :=
    below_fixN_both (fun p q _ => below_lineStep) n
  exact h1.trans (below_fixN (fun p q _ => below_lineStep) h)

theorem below_program {n m : Nat} (h : n ≤ m) : Below (program S n) (program S m) := by
  have := below_expression (S := S) h
  have := below_line (S := S) h
  unfold program topLevelDefinition globalVariableDefinition functionDefinition block spaced
  infer_instance

theorem below_lines {n m : Nat} (h : n ≤ m) : Below (lines S n) (lines S m) := by
  have := below_line (S := S) h
  unfold lines
  infer_instance

end OniComb.Toys.Parse
