import Verif.Lemmas.Calculator

/-!
# Properties of the calculator example

`S` stands for `rust_decimal` and the digits of the `regex` crate; `Lawful S` says that `Decimal::from_str`
rejects texts that are not ASCII.  `n` is how often `lazy(primary)` and `lazy(expr)` are unrolled, more than the
length of the text being as good as any number (`c63_depth`).
-/

namespace OniComb.Calc
open OniComb.Calc.Spec

variable {D : Type} (S : Std D) [Lawful S]

/-- Integers, for the examples: digits without a fraction. -/
def intStd : Std Int where
  digit _ := false
  dec t := if t ≠ [] ∧ ∀ c ∈ t, '0' ≤ c ∧ c ≤ '9' then some (t.foldl (fun n c => 10 * n + (c.toNat - 48 : Nat)) 0) else none
  add a b := some (a + b)
  sub a b := some (a - b)
  mul a b := some (a * b)
  div a b := if b = 0 then none else some (a / b)
  minusOne := -1

instance : Lawful intStd where
  ascii t d h c hc := by
    unfold intStd at h
    dsimp only at h
    split at h
    · rename_i h'; exact (digit_iff (S := intStd).1 (h'.2 c hc)).2
    · cases h

/-! ### C63: conventional arithmetic -/

/-- The calculator accepts exactly the texts of the grammar, and returns the expression of the grammar: `*` and `/`
bind tighter than `+` and `-`, signs tighter still, and operations of equal strength associate to the left. -/
theorem c63_language (n : Nat) (t : List Char) (hn : t.length < n) (e : Expr D) :
    parse (calculator S n) t = .ok e ↔ Sum S e t := calculator_iff hn

/-- Every input is answered with an expression or an error. -/
theorem c63_total (n : Nat) (t : List Char) (hn : t.length < n) :
    (∃ e, parse (calculator S n) t = .ok e) ∨ ∃ e, parse (calculator S n) t = .err e := by
  have hr := calculator_ret (S := S) hn
  have hs := Good.safe (calculator S n) ⟨t, 0⟩ (Nat.zero_le _)
  unfold parse
  unfold Ret at hr
  cases h : calculator S n ⟨t, 0⟩ with
  | success v m => exact .inl ⟨v, rfl⟩
  | failure e c => exact .inr ⟨e, rfl⟩
  | panic => rw [h] at hs; exact absurd hs (by simp [SafeAt])
  | diverge => exact absurd h hr

/-- How deep the grammar is unrolled does not matter. -/
theorem c63_depth (n m : Nat) (t : List Char) (hn : t.length < n) (hm : t.length < m) :
    parse (calculator S n) t = parse (calculator S m) t := by
  have key : ∀ n m, n ≤ m → t.length < n → parse (calculator S n) t = parse (calculator S m) t := by
    intro n m hnm hn
    have := below_fixN (calculator_mono (S := S)) hnm
    have hb : Below (calculator S n) (calculator S m) := by
      unfold calculator additive multitive; infer_instance
    have hr := calculator_ret (S := S) hn
    unfold parse
    rw [hb.eq hr]
  rcases Nat.le_total n m with h | h
  · exact key n m h hn
  · exact (key m n h hm).symm

/-- No text has two readings. -/
theorem c63_unambiguous (t : List Char) (e e' : Expr D) (h : Sum S e t) (h' : Sum S e' t) : e = e' := by
  have h1 := (c63_language S (t.length + 1) t (Nat.lt_succ_self _) e).2 h
  have h2 := (c63_language S (t.length + 1) t (Nat.lt_succ_self _) e').2 h'
  rw [h1] at h2
  cases h2; rfl

example : Sum intStd (.sub (.sub (.value 1) (.multiply (.value 2) (.value 3))) (.value 4)) "1-2*3-4".toList := by
  have d : ∀ c, '0' ≤ c ∧ c ≤ '9' → Numeral [c] := fun c h => .whole ⟨by simp, by simpa using h⟩
  have num : ∀ c (k : Int), '0' ≤ c ∧ c ≤ '9' → intStd.dec [c] = some k → Prim intStd (.value k) [c] :=
    fun c k h h' => .num (d c h) h'
  have h1 := num '1' 1 (by decide) (by decide)
  have h2 := num '2' 2 (by decide) (by decide)
  have h3 := num '3' 3 (by decide) (by decide)
  have h4 := num '4' 4 (by decide) (by decide)
  exact .sub (a := []) (b := []) (.sub (a := []) (b := []) (.one (.one h1)) blank_nil blank_nil
    (.mul (a := []) (b := []) (.one h2) blank_nil blank_nil h3)) blank_nil blank_nil (.one h4)

/-! #### Values -/

/-- The category of the grammar a level belongs to. -/
def At (k : Nat) : Expr D → List Char → Prop := match k with
  | 0 => Sum S
  | 1 => Term S
  | _ => Prim S

omit [Lawful S] in
theorem at_down {k j : Nat} (h : j ≤ k) {e : Expr D} {t : List Char} (ht : At S k e t) : At S j e t := by
  have h2 : ∀ m, At S (m + 2) e t ↔ Prim S e t := fun m => Iff.rfl
  match k, j, h with
  | 0, 0, _ => exact ht
  | 1, 0, _ => exact Sum.one ht
  | 1, 1, _ => exact ht
  | k + 2, 0, _ => exact .one (.one ht)
  | k + 2, 1, _ => exact Term.one ht
  | k + 2, j + 2, _ => exact ht

omit [Lawful S] in
theorem wrapped_at {P : List Char → Prop} {b : Bool} {k j : Nat} {r : Option D} {t : List Char} (h : Wrapped b P t)
    (hb : b = false → j ≤ k) (hP : ∀ u, P u → ∃ e, At S k e u ∧ eval S e = r) : ∃ e, At S j e t ∧ eval S e = r := by
  unfold Wrapped at h
  split at h
  · obtain ⟨w, x, u, y, z, hw, hx, hu, hy, hz, rfl⟩ := h
    obtain ⟨e, h1, h2⟩ := hP u hu
    refine ⟨.parenthesized e, at_down S (k := j + 2) (by omega) ?_, h2⟩
    exact Prim.paren hw hx (at_down S (Nat.zero_le _) h1) hy hz
  · rename_i hb'
    obtain ⟨e, h1, h2⟩ := hP t h
    exact ⟨e, at_down S (hb (by simpa using hb')) h1, h2⟩

omit [Lawful S] in
theorem layout_at (neg : D → D) (hneg : ∀ x, S.mul x S.minusOne = some (neg x)) : ∀ (a : Arith) (t : List Char),
    a.Readable S → a.Layout t → ∃ e, At S a.level e t ∧ eval S e = a.value S neg
  | .num s, t, hr, hl => by
    obtain rfl : t = s := hl
    obtain ⟨hn, hd⟩ := hr
    cases hd' : S.dec t with
    | none => exact absurd hd' hd
    | some d => exact ⟨.value d, Prim.num hn hd', by simp [eval, Arith.value, hd']⟩
  | .neg a, t, hr, hl => by
    obtain ⟨u, rfl, hu⟩ := hl
    obtain ⟨e, h1, h2⟩ := wrapped_at S (j := 2) hu (by simp) fun v hv => layout_at neg hneg a v hr hv
    refine ⟨.minus e, Prim.neg h1, ?_⟩
    simp only [eval, h2, Arith.value]
    cases a.value S neg with
    | none => rfl
    | some d => simp [hneg]
  | .bin o a b, t, hr, hl => by
    obtain ⟨u, x, y, v, rfl, hx, hy, hu, hv⟩ := hl
    obtain ⟨e1, h1, h2⟩ := wrapped_at S (j := o.level) hu (by simp) fun v hv => layout_at neg hneg a v hr.1 hv
    obtain ⟨e2, h3, h4⟩ := wrapped_at S (j := o.level + 1) hv (by simp; omega) fun v hv => layout_at neg hneg b v hr.2 hv
    cases o with
    | add => exact ⟨.add e1 e2, Sum.add h1 hx hy h3, by simp only [eval, h2, h4]; rfl⟩
    | sub => exact ⟨.sub e1 e2, Sum.sub h1 hx hy h3, by simp only [eval, h2, h4]; rfl⟩
    | mul => exact ⟨.multiply e1 e2, Term.mul h1 hx hy h3, by simp only [eval, h2, h4]; rfl⟩
    | div => exact ⟨.divide e1 e2, Term.div h1 hx hy h3, by simp only [eval, h2, h4]; rfl⟩

theorem layout_text : ∀ a : Arith, a.Layout a.text
  | .num _ => rfl
  | .neg a => ⟨_, rfl, by
      unfold Wrapped wrap
      split
      · exact ⟨[], [], a.text, [], [], blank_nil, blank_nil, layout_text a, blank_nil, blank_nil, rfl⟩
      · exact layout_text a⟩
  | .bin o a b => ⟨wrap (a.level < o.level) a.text, [], [], wrap (b.level ≤ o.level) b.text, rfl, blank_nil, blank_nil,
    by
      unfold Wrapped wrap
      split
      · exact ⟨[], [], a.text, [], [], blank_nil, blank_nil, layout_text a, blank_nil, blank_nil, rfl⟩
      · exact layout_text a,
    by
      unfold Wrapped wrap
      split
      · exact ⟨[], [], b.text, [], [], blank_nil, blank_nil, layout_text b, blank_nil, blank_nil, rfl⟩
      · exact layout_text b⟩

/-- Writing arithmetic down with as few parentheses as the conventions allow, parsing and evaluating it gives its
value, provided multiplication by -1 negates (`none`: some operation has no result and panics). -/
theorem c63_value (neg : D → D) (hneg : ∀ x, S.mul x S.minusOne = some (neg x)) (a : Arith) (hr : a.Readable S)
    (n : Nat) (hn : a.text.length < n) :
    ∃ e, parse (calculator S n) a.text = .ok e ∧ eval S e = a.value S neg := by
  obtain ⟨e, h1, h2⟩ := layout_at S neg hneg a _ hr (layout_text a)
  exact ⟨e, (c63_language S n _ hn e).2 (at_down S (Nat.zero_le _) h1), h2⟩

example : ∀ x : Int, intStd.mul x intStd.minusOne = some (-x) := by intro x; simp [intStd]

/-- `(1 - 2) * -3 - 4`. -/
example : let a : Arith := .bin .sub (.bin .mul (.bin .sub (.num ['1']) (.num ['2'])) (.neg (.num ['3']))) (.num ['4'])
    a.Readable intStd ∧ a.text = "(1-2)*-3-4".toList ∧ a.value intStd (-·) = some (-1) := by
  have d : ∀ c, '0' ≤ c ∧ c ≤ '9' → Numeral [c] := fun c h => .whole ⟨by simp, by simpa using h⟩
  refine ⟨⟨⟨⟨⟨d _ (by decide), by decide⟩, ⟨d _ (by decide), by decide⟩⟩, d _ (by decide), by decide⟩,
    d _ (by decide), by decide⟩, by decide, by decide⟩

/-! ### C75: blanks -/

/-- Blanks do not change the result where the grammar has them: around binary operations and around parentheses.
The full property, blanks between any tokens, does not hold (`c75_blanks_violated`): they are rejected at the
beginning and the end of the text and after a sign, unless there is a parenthesis. -/
theorem c75_blanks_partial (neg : D → D) (hneg : ∀ x, S.mul x S.minusOne = some (neg x)) (a : Arith)
    (hr : a.Readable S) (t : List Char) (ht : a.Layout t) (n : Nat) (hn : t.length < n) :
    ∃ e, parse (calculator S n) t = .ok e ∧ eval S e = a.value S neg := by
  obtain ⟨e, h1, h2⟩ := layout_at S neg hneg a _ hr ht
  exact ⟨e, (c63_language S n _ hn e).2 (at_down S (Nat.zero_le _) h1), h2⟩

example : (Arith.bin .mul (.bin .add (.num ['1']) (.num ['2'])) (.num ['3'])).Layout " ( 1 +2)\t*  3".toList :=
  ⟨" ( 1 +2)".toList, ['\t'], [' ', ' '], ['3'], by decide, by simp [Blank], by simp [Blank],
    ⟨[' '], [' '], "1 +2".toList, [], [], by simp [Blank], by simp [Blank],
      ⟨['1'], [' '], [], ['2'], by decide, by simp [Blank], by simp [Blank], rfl, rfl⟩, by simp [Blank], by simp [Blank],
      by decide⟩, rfl⟩

omit [Lawful S] in
/-- A text that begins with a blank has a parenthesis. -/
theorem sum_blank {e : Expr D} {c : Char} {t : List Char} (h : Sum S e (c :: t)) (hc : BlankC c) : '(' ∈ c :: t := by
  have prim : ∀ (e : Expr D) t c r, Prim S e t → t = c :: r → BlankC c → '(' ∈ t := by
    intro e t c r h e1 hc
    cases h with
    | num hn _ =>
      obtain ⟨d, r', rfl, hd⟩ := numeral_head hn
      injection e1 with e1 _
      exact absurd (e1 ▸ hc) (digit_ne hd).1
    | neg _ => injection e1 with e1 _; subst e1; exact absurd hc (by decide)
    | pos _ => injection e1 with e1 _; subst e1; exact absurd hc (by decide)
    | paren => simp
  have chain : ∀ (P : Expr D → List Char → Prop) (x y : Char) (fx fy : Expr D → Expr D → Expr D), Strips P →
      (∀ (e : Expr D) t c r, P e t → t = c :: r → BlankC c → '(' ∈ t) →
      ∀ (e : Expr D) t c r, Chain P x y fx fy e t → t = c :: r → BlankC c → '(' ∈ t := by
    rintro P x y fx fy hs hP e t c r ⟨e1, t1, ops, t2, rfl, h1, h2, -⟩ e2 hc
    cases t1 with
    | nil => exact absurd h1 (hs.2 _)
    | cons d t1 =>
      injection e2 with e2 _
      have := hP e1 (d :: t1) d t1 h1 rfl (e2 ▸ hc)
      exact List.mem_append_left _ this
  have term : ∀ (e : Expr D) t c r, Term S e t → t = c :: r → BlankC c → '(' ∈ t := fun e t c r h =>
    chain _ _ _ _ _ strips_prim prim e t c r (term_iff.1 h)
  exact chain _ _ _ _ _ strips_term term e _ c t (sum_iff.1 h) rfl hc

/-- A blank in front of a number is an error. -/
theorem c75_blanks_violated (d : D) (h1 : S.dec ['1'] = some d) (n : Nat) (hn : 2 < n) :
    parse (calculator S n) "1".toList = .ok (.value d) ∧ ∃ e, parse (calculator S n) " 1".toList = .err e := by
  constructor
  · refine (c63_language S n _ (by simpa using by omega) _).2 (.one (.one (.num (.whole ⟨by simp, ?_⟩) h1)))
    intro c hc
    rcases List.mem_singleton.1 hc with rfl
    decide
  · rcases c63_total S n " 1".toList (by simpa using hn) with ⟨e, h⟩ | h
    · have := sum_blank S (c := ' ') (t := ['1']) ((c63_language S n _ (by simpa using hn) e).1 h) (.inl rfl)
      exact absurd this (by decide)
    · exact h

example : intStd.dec ['1'] = some 1 := by decide

omit [Lawful S] in
/-- A text ends with a digit or has a parenthesis. -/
theorem sum_end {e : Expr D} {t : List Char} (h : Sum S e t) :
    ')' ∈ t ∨ ∃ x d, t = x ++ [d] ∧ '0' ≤ d ∧ d ≤ '9' := by
  have digits : ∀ a, Digits a → ∃ x d, a = x ++ [d] ∧ '0' ≤ d ∧ d ≤ '9' := by
    intro a ha
    refine ⟨a.dropLast, a.getLast ha.1, (List.dropLast_concat_getLast ha.1).symm, ha.2 _ (List.getLast_mem _)⟩
  have prim : ∀ n (e : Expr D) t, t.length ≤ n → Prim S e t →
      ')' ∈ t ∨ ∃ x d, t = x ++ [d] ∧ '0' ≤ d ∧ d ≤ '9' := by
    intro n
    induction n with
    | zero =>
      intro e t hn h
      obtain rfl : t = [] := List.length_eq_zero_iff.1 (by omega)
      exact absurd h (strips_prim.2 _)
    | succ n ih =>
      intro e t hn h
      cases h with
      | num hn _ =>
        cases hn with
        | whole ha => exact .inr (digits _ ha)
        | @frac a b _ hb =>
          obtain ⟨x, d, rfl, hd⟩ := digits _ hb
          exact .inr ⟨a ++ '.' :: x, d, by simp, hd⟩
      | neg h =>
        simp only [List.length_cons] at hn
        rcases ih _ _ (by omega) h with h | ⟨x, d, rfl, hd⟩
        · exact .inl (List.mem_cons_of_mem _ h)
        · exact .inr ⟨'-' :: x, d, rfl, hd⟩
      | pos h =>
        simp only [List.length_cons] at hn
        rcases ih _ _ (by omega) h with h | ⟨x, d, rfl, hd⟩
        · exact .inl (List.mem_cons_of_mem _ h)
        · exact .inr ⟨'+' :: x, d, rfl, hd⟩
      | paren => exact .inl (by simp)
  have behind : ∀ (y u : List Char), (')' ∈ u ∨ ∃ x d, u = x ++ [d] ∧ '0' ≤ d ∧ d ≤ '9') →
      (')' ∈ y ++ u ∨ ∃ x d, y ++ u = x ++ [d] ∧ '0' ≤ d ∧ d ≤ '9') := by
    rintro y u (h | ⟨x, d, rfl, hd⟩)
    · exact .inl (List.mem_append_right _ h)
    · exact .inr ⟨y ++ x, d, by simp, hd⟩
  have term : ∀ (e : Expr D) t, Term S e t → ')' ∈ t ∨ ∃ x d, t = x ++ [d] ∧ '0' ≤ d ∧ d ≤ '9' := by
    intro e t h
    cases h with
    | one h => exact prim _ _ _ (Nat.le_refl _) h
    | @mul l r t a b u _ _ _ h =>
      have := behind (t ++ (a ++ '*' :: b)) _ (prim _ _ _ (Nat.le_refl _) h)
      simpa using this
    | @div l r t a b u _ _ _ h =>
      have := behind (t ++ (a ++ '/' :: b)) _ (prim _ _ _ (Nat.le_refl _) h)
      simpa using this
  cases h with
  | one h => exact term _ _ h
  | @add l r t a b u _ _ _ h =>
    have := behind (t ++ (a ++ '+' :: b)) _ (term _ _ h)
    simpa using this
  | @sub l r t a b u _ _ _ h =>
    have := behind (t ++ (a ++ '-' :: b)) _ (term _ _ h)
    simpa using this

/-- So it is for every text: without parentheses, a blank in front of it or behind it is always an error, also if
the text alone is an expression. -/
theorem c75_blanks_general_violated (t : List Char) (c : Char) (hc : BlankC c) (n : Nat) (hn : t.length + 1 < n) :
    ('(' ∉ t → ∃ e, parse (calculator S n) (c :: t) = .err e) ∧
    (')' ∉ t → ∃ e, parse (calculator S n) (t ++ [c]) = .err e) := by
  refine ⟨fun h => ?_, fun h => ?_⟩
  · rcases c63_total S n (c :: t) (by simpa using hn) with ⟨e, he⟩ | he
    · have := sum_blank S ((c63_language S n _ (by simpa using hn) e).1 he) hc
      rcases List.mem_cons.1 this with rfl | this
      · exact absurd hc (by decide)
      · exact absurd this h
    · exact he
  · rcases c63_total S n (t ++ [c]) (by simpa using hn) with ⟨e, he⟩ | he
    · rcases sum_end S ((c63_language S n _ (by simpa using hn) e).1 he) with h1 | ⟨x, d, h1, h2⟩
      · rcases List.mem_append.1 h1 with h1 | h1
        · exact absurd h1 h
        · obtain rfl := List.mem_singleton.1 h1
          exact absurd hc (by decide)
      · have := (List.append_inj' h1 rfl).2
        injection this with this _
        subst this
        exact absurd hc (digit_ne h2).1
    · exact he

example : BlankC ' ' ∧ '(' ∉ "1+2".toList ∧ ')' ∉ "1+2".toList := by decide

end OniComb.Calc
