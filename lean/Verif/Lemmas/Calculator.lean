import Verif.Lemmas.CalcChain
import Verif.Lemmas.Below

/-! # Helper lemmas: the grammar of the calculator -/

set_option linter.unusedSectionVars false

namespace OniComb.Calc
open OniComb.Calc.Spec
variable {D : Type} {S : Std D}

/-! ### The grammar with chains -/

theorem term_chain : ∀ {e : Expr D} {t : List Char}, Term S e t → Chain (Prim S) '*' '/' .multiply .divide e t
  | _, _, .one h => Chain.one h
  | _, _, .mul h ha hb hp => (term_chain h).snoc ha hb (.inl ⟨rfl, rfl⟩) hp
  | _, _, .div h ha hb hp => (term_chain h).snoc ha hb (.inr ⟨rfl, rfl⟩) hp

theorem sum_chain : ∀ {e : Expr D} {t : List Char}, Sum S e t → Chain (Term S) '+' '-' .add .sub e t
  | _, _, .one h => Chain.one h
  | _, _, .add h ha hb hp => (sum_chain h).snoc ha hb (.inl ⟨rfl, rfl⟩) hp
  | _, _, .sub h ha hb hp => (sum_chain h).snoc ha hb (.inr ⟨rfl, rfl⟩) hp

theorem items_term {ops : List ((Expr D → Expr D → Expr D) × Expr D)} {t2 : List Char}
    (h : Items (Prim S) '*' '/' .multiply .divide ops t2) :
    ∀ {e : Expr D} {t : List Char}, Term S e t → Term S (applyLeft e ops) (t ++ t2) := by
  induction h with
  | nil => intro e t h; simpa [applyLeft] using h
  | @cons a b u t c f r ops ha hb hs hp _ ih =>
    intro e t0 h
    have : Term S (f e r) (t0 ++ (a ++ c :: (b ++ u))) := by
      rcases hs with ⟨rfl, rfl⟩ | ⟨rfl, rfl⟩
      · exact .mul h ha hb hp
      · exact .div h ha hb hp
    simpa [applyLeft] using ih this

theorem items_sum {ops : List ((Expr D → Expr D → Expr D) × Expr D)} {t2 : List Char}
    (h : Items (Term S) '+' '-' .add .sub ops t2) :
    ∀ {e : Expr D} {t : List Char}, Sum S e t → Sum S (applyLeft e ops) (t ++ t2) := by
  induction h with
  | nil => intro e t h; simpa [applyLeft] using h
  | @cons a b u t c f r ops ha hb hs hp _ ih =>
    intro e t0 h
    have : Sum S (f e r) (t0 ++ (a ++ c :: (b ++ u))) := by
      rcases hs with ⟨rfl, rfl⟩ | ⟨rfl, rfl⟩
      · exact .add h ha hb hp
      · exact .sub h ha hb hp
    simpa [applyLeft] using ih this

theorem term_iff {e : Expr D} {t : List Char} : Term S e t ↔ Chain (Prim S) '*' '/' .multiply .divide e t := by
  refine ⟨term_chain, ?_⟩
  rintro ⟨e1, t1, ops, t2, rfl, h1, h2, rfl⟩
  exact items_term h2 (.one h1)

theorem sum_iff {e : Expr D} {t : List Char} : Sum S e t ↔ Chain (Term S) '+' '-' .add .sub e t := by
  refine ⟨sum_chain, ?_⟩
  rintro ⟨e1, t1, ops, t2, rfl, h1, h2, rfl⟩
  exact items_sum h2 (.one h1)

theorem numeral_head {t : List Char} (h : Numeral t) : ∃ c r, t = c :: r ∧ '0' ≤ c ∧ c ≤ '9' := by
  have key : ∀ {a : List Char}, Digits a → ∃ c r, a = c :: r ∧ '0' ≤ c ∧ c ≤ '9' := by
    intro a ha
    cases a with
    | nil => exact absurd rfl ha.1
    | cons c r => exact ⟨c, r, rfl, ha.2 c (by simp)⟩
  cases h with
  | whole h => exact key h
  | frac h _ =>
    obtain ⟨c, r, rfl, hc⟩ := key h
    exact ⟨c, _, rfl, hc⟩

theorem digit_ne {c : Char} (h : '0' ≤ c ∧ c ≤ '9') :
    ¬ BlankC c ∧ c ≠ '+' ∧ c ≠ '-' ∧ c ≠ '*' ∧ c ≠ '/' ∧ c ≠ '(' ∧ c ≠ ')' := by
  refine ⟨?_, ?_, ?_, ?_, ?_, ?_, ?_⟩
  · rintro (rfl | rfl | rfl | rfl) <;> revert h <;> decide
  all_goals rintro rfl; revert h; decide

theorem strips_prim : Strips (Prim S) := by
  have cons : ∀ {c : Char} {t w u : List Char}, c :: t = w ++ u → Blank w → ¬ BlankC c → w = [] := by
    intro c t w u e hw hc
    cases w with
    | nil => rfl
    | cons d w =>
      injection e with e _
      exact absurd (e ▸ hw d (by simp)) hc
  constructor
  · intro e w u h hw
    generalize ht : w ++ u = t at h
    cases h with
    | num hn hd =>
      obtain ⟨c, r, rfl, hc⟩ := numeral_head hn
      have := cons ht.symm hw (digit_ne hc).1
      subst this
      rw [List.nil_append] at ht
      subst ht
      exact .num hn hd
    | neg h =>
      have := cons ht.symm hw (by decide)
      subst this
      rw [List.nil_append] at ht
      subst ht
      exact .neg h
    | pos h =>
      have := cons ht.symm hw (by decide)
      subst this
      rw [List.nil_append] at ht
      subst ht
      exact .pos h
    | paren ha hb h hc hd =>
      obtain ⟨a', rfl, rfl⟩ := blank_cut ht hw (noHead_cons.2 (by decide))
      exact .paren (fun c hc => ha c (by simp [hc])) hb h hc hd
  · intro e h
    generalize ht : ([] : List Char) = t at h
    cases h with
    | num hn hd => obtain ⟨c, r, rfl, hc⟩ := numeral_head hn; cases ht
    | neg h => cases ht
    | pos h => cases ht
    | paren ha hb h hc hd => simp at ht

theorem strips_term : Strips (Term S) := by
  have : Term S = Chain (Prim S) '*' '/' .multiply .divide := by funext e t; exact propext term_iff
  rw [this]
  exact strips_prim.chain

theorem strips_sum : Strips (Sum S) := by
  have : Sum S = Chain (Term S) '+' '-' .add .sub := by funext e t; exact propext sum_iff
  rw [this]
  exact strips_term.chain

/-! ### The parsers -/

instance good_additive {p : Parser Char (Expr D)} [Good p] : Good (additive p) := by
  unfold additive multitive
  rw [mulOp_eq, addOp_eq]
  infer_instance

variable [L : Lawful S]

instance good_step {p : Parser Char (Expr D)} [Good p] : Good (primaryStep S p) := by
  unfold primaryStep primaryOf primary0
  infer_instance

instance good_primary : ∀ n, Good (fixN (primaryStep S) n)
  | 0 => inferInstanceAs (Good diverging)
  | n + 1 => by
    have := good_primary n
    exact good_step (p := lazy fun _ => fixN (primaryStep S) n)

/-! ### Only the grammar is read -/

theorem additive_sound {p : Parser Char (Expr D)} [Good p] (hp : ∀ e u rest, Eats p u e rest → Prim S e u)
    {e : Expr D} {t rest : List Char} (h : Eats (additive p) t e rest) : Sum S e t := by
  unfold additive multitive at h
  rw [mulOp_eq, addOp_eq] at h
  refine sum_iff.2 (chain_sound (by decide) (fun e u rest h => ?_) h)
  exact term_iff.2 (chain_sound (by decide) hp h)

theorem step_sound {p : Parser Char (Expr D)} [Good p] (hp : ∀ e u rest, Eats p u e rest → Prim S e u)
    {e : Expr D} {t rest : List Char} (h : Eats (primaryStep S p) t e rest) : Prim S e t := by
  unfold primaryStep primaryOf at h
  rcases eats_or.1 h with h | ⟨-, h⟩
  · obtain ⟨⟨c, e'⟩, h', rfl⟩ := eats_map.1 h
    obtain ⟨t1, t2, rfl, h1, h2⟩ := eats_andThen.1 h'
    obtain ⟨rfl, hc⟩ := ((one_elm '+').or (one_elm '-')).eats.1 h1
    rcases hc with rfl | rfl
    · exact .pos (hp _ _ _ h2)
    · exact .neg (hp _ _ _ h2)
  · unfold primary0 at h
    rcases eats_or.1 h with h | ⟨-, h⟩
    · obtain ⟨e', h', rfl⟩ := eats_map.1 h
      unfold surround at h'
      obtain ⟨l, m, ⟨⟨⟨⟩, c⟩, ⟨⟩⟩, rfl, hl, hm⟩ := eats_skipLeft.1 h'
      obtain ⟨t, z, ⟨⟨⟨⟩, c'⟩, ⟨⟩⟩, rfl, ht, hz⟩ := eats_skipRight.1 hm
      obtain ⟨l1, b, rfl, hl1, hb⟩ := eats_andThen.1 hl
      obtain ⟨a, l2, rfl, ha, hl2⟩ := eats_andThen.1 hl1
      obtain ⟨z1, d, rfl, hz1, hd⟩ := eats_andThen.1 hz
      obtain ⟨c0, z2, rfl, hc, hz2⟩ := eats_andThen.1 hz1
      obtain ⟨rfl, rfl⟩ := eats_elm.1 hl2
      obtain ⟨rfl, rfl⟩ := eats_elm.1 hz2
      have := Prim.paren (S := S) (eats_space.1 ha).1 (eats_space.1 hb).1
        (additive_sound hp (t := t) (e := e') (rest := (c0 ++ [')'] ++ d) ++ rest) ht) (eats_space.1 hc).1
        (eats_space.1 hd).1
      simpa using this
    · exact value_sound h

theorem primary_sound : ∀ (n : Nat) (e : Expr D) (t rest : List Char), Eats (fixN (primaryStep S) n) t e rest → Prim S e t
  | 0, _, _, _, h => nomatch h
  | n + 1, _, _, _, h => step_sound (p := lazy fun _ => fixN (primaryStep S) n) (primary_sound n) h

/-! ### All of the grammar is read -/

/-- What may follow an operand. -/
def AfterPrim (c : Char) : Prop := c = '+' ∨ c = '-' ∨ c = '*' ∨ c = '/' ∨ c = ')'
/-- What may follow a product. -/
def AfterTerm (c : Char) : Prop := c = '+' ∨ c = '-' ∨ c = ')'
/-- What may follow a sum. -/
def AfterSum (c : Char) : Prop := c = ')'

theorem additive_reads {p : Parser Char (Expr D)} [Good p] {N : Nat}
    (hp : ∀ e u rest, Prim S e u → u.length ≤ N → Follow AfterPrim rest → Reads p u e rest)
    {e : Expr D} {t rest : List Char} (h : Sum S e t) (hN : t.length ≤ N) (hr : Follow AfterSum rest) :
    Reads (additive p) t e rest := by
  unfold additive multitive
  rw [mulOp_eq, addOp_eq]
  have hprim : Strips (fun (e : Expr D) u => Prim S e u ∧ u.length ≤ N) :=
    ⟨fun e w u h hw => ⟨strips_prim.1 e w u h.1 hw, by have := h.2; simp only [List.length_append] at this; omega⟩,
      fun e h => strips_prim.2 e h.1⟩
  have hterm : Strips (fun (e : Expr D) u => Term S e u ∧ u.length ≤ N) :=
    ⟨fun e w u h hw => ⟨strips_term.1 e w u h.1 hw, by have := h.2; simp only [List.length_append] at this; omega⟩,
      fun e h => strips_term.2 e h.1⟩
  refine chain_reads (P := fun e u => Term S e u ∧ u.length ≤ N) (F := AfterTerm) (G := AfterSum) (by decide)
    (by decide) (by decide) hterm ?_ (fun c h => .inr (.inr h)) (.inl rfl) (.inr (.inl rfl)) ?_
    ((sum_iff.1 h).mono fun e u h1 h2 => ⟨h1, by omega⟩) hr
  · rintro e u rest ⟨h1, h2⟩ hf
    refine chain_reads (P := fun e u => Prim S e u ∧ u.length ≤ N) (F := AfterPrim) (G := AfterTerm) (by decide)
      (by decide) (by decide) hprim (fun e u rest h hf => hp e u rest h.1 h.2 hf) ?_ (.inr (.inr (.inl rfl)))
      (.inr (.inr (.inr (.inl rfl)))) ?_ ((term_iff.1 h1).mono fun e u h3 h4 => ⟨h3, by omega⟩) hf
    · rintro c (rfl | rfl | rfl) <;> simp [AfterPrim]
    · rintro c (rfl | rfl | rfl) <;> decide
  · rintro c rfl; decide

theorem fail_sign {p : Parser Char (Expr D)} [Good p] {r : List Char}
    (h : NoHead (fun c => c = '+' ∨ c = '-') r) :
    Fail (map (andThen (or (elm '+') (elm '-')) p) fun x => unary x.1 x.2) r .uncommitted :=
  fail_map.2 (Fail.andThen (((one_elm '+').or (one_elm '-')).fail.2 ⟨rfl, h⟩))

theorem step_reads {p : Parser Char (Expr D)} [Good p] {N : Nat}
    (hp : ∀ e u rest, Prim S e u → u.length ≤ N → Follow AfterPrim rest → Reads p u e rest)
    {e : Expr D} {t rest : List Char} (h : Prim S e t) (hN : t.length ≤ N + 1) (hr : Follow AfterPrim rest) :
    Reads (primaryStep S p) t e rest := by
  unfold primaryStep primaryOf
  cases h with
  | num hn hd =>
    refine ⟨[], rest, rfl, blank_nil, ?_⟩
    rw [List.append_nil]
    obtain ⟨c, r, hcr, hc⟩ := numeral_head hn
    have hne := digit_ne hc
    refine Eats.or_right (fail_sign (by rw [hcr]; exact noHead_cons.2 (by simp [hne.2.1, hne.2.2.1]))) ?_
    refine Eats.or_right (fail_map.2 (Fail.surround (Fail.andThen (Eats.andThen_fail (v := ()) (t1 := [])
      (t2 := t ++ rest) ?_ ?_)))) ?_
    · exact eats_space.2 ⟨blank_nil, by rw [hcr]; exact noHead_cons.2 hne.1⟩
    · exact fail_elm.2 ⟨rfl, by rw [hcr]; intro r'; simp [hne.2.2.2.2.2.1]⟩
    · refine value_complete hn hd ?_
      obtain ⟨a, u, rfl, ha, hu⟩ := hr
      intro c r' e h
      have hdot : ∀ c, (c = ' ' ∨ c = '\t' ∨ c = '\r' ∨ c = '\n' ∨ c = '+' ∨ c = '-' ∨ c = '*' ∨ c = '/' ∨ c = ')') →
          ¬ (isDigit S c = true ∨ c = '.') := by
        intro c hc
        have : c.toNat < 128 := by rcases hc with rfl | rfl | rfl | rfl | rfl | rfl | rfl | rfl | rfl <;> decide
        unfold isDigit
        rw [if_pos this]
        rcases hc with rfl | rfl | rfl | rfl | rfl | rfl | rfl | rfl | rfl <;> decide
      cases a with
      | nil => exact hdot c (by have := hu c r' e; unfold AfterPrim at this; tauto) h
      | cons d a =>
        injection e with e _
        subst e
        exact hdot d (by have := ha d (by simp); tauto) h
  | @neg e t h =>
    obtain ⟨w, r, rfl, hw, he⟩ := hp _ _ _ h (by simpa using hN) hr
    refine ⟨w, r, rfl, hw, Eats.or_left (eats_map.2 ⟨('-', e), ?_, rfl⟩)⟩
    exact Eats.andThen (t1 := ['-']) (((one_elm '+').or (one_elm '-')).eats.2 ⟨rfl, .inr rfl⟩) he
  | @pos e t h =>
    obtain ⟨w, r, rfl, hw, he⟩ := hp _ _ _ h (by simpa using hN) hr
    refine ⟨w, r, rfl, hw, Eats.or_left (eats_map.2 ⟨('+', e), ?_, rfl⟩)⟩
    exact Eats.andThen (t1 := ['+']) (((one_elm '+').or (one_elm '-')).eats.2 ⟨rfl, .inl rfl⟩) he
  | @paren e a b t c d ha hb h hc hd =>
    obtain ⟨b', t', rfl, hb', hne, hnb, h'⟩ := strips_sum.split h
    obtain ⟨w, r, rfl, hw, hnw⟩ := blank_split rest
    simp only [List.length_append, List.length_cons] at hN
    obtain ⟨w1, r1, e1, hw1, he⟩ := additive_reads (p := p) hp h' (by omega)
      (rest := c ++ ')' :: (d ++ (w ++ r))) ⟨c, _, rfl, hc, fun x u hx => by injection hx with hx _; exact hx.symm⟩
    obtain ⟨c', rfl, rfl⟩ := blank_cut e1.symm hw1 (noHead_cons.2 (by decide))
    have hc' : Blank c' := fun x hx => hc x (by simp [hx])
    refine ⟨w, r, rfl, hw, ?_⟩
    have hl : Eats (andThen (andThen space (elm '(')) space) ((a ++ ['(']) ++ (b ++ b')) (((), '('), ())
        ((t' ++ w1) ++ (((c' ++ [')']) ++ (d ++ w)) ++ r)) := by
      refine Eats.andThen (Eats.andThen (eats_space.2 ⟨ha, ?_⟩) (eats_elm.2 ⟨rfl, rfl⟩))
        (eats_space.2 ⟨Blank.append hb hb', ?_⟩)
      · exact noHead_cons.2 (by decide)
      · rw [List.append_assoc]; exact (noHead_append hne).2 hnb
    have hz : Eats (andThen (andThen space (elm ')')) space) ((c' ++ [')']) ++ (d ++ w)) (((), ')'), ()) r := by
      refine Eats.andThen (Eats.andThen (eats_space.2 ⟨hc', ?_⟩) (eats_elm.2 ⟨rfl, rfl⟩))
        (eats_space.2 ⟨Blank.append hd hw, hnw⟩)
      exact noHead_cons.2 (by decide)
    have hm : Eats (lazy fun _ => additive p) (t' ++ w1) e (((c' ++ [')']) ++ (d ++ w)) ++ r) := by
      have e3 : ((c' ++ [')']) ++ (d ++ w)) ++ r = c' ++ ')' :: (d ++ (w ++ r)) := by simp
      rw [e3]
      exact he
    have := Eats.map Expr.parenthesized (Eats.surround hl hm hz)
    have e2 : (a ++ '(' :: (b ++ (b' ++ t' ++ (w1 ++ c' ++ ')' :: d)))) ++ w =
        ((a ++ ['(']) ++ (b ++ b')) ++ ((t' ++ w1) ++ ((c' ++ [')']) ++ (d ++ w))) := by simp
    rw [e2]
    refine Eats.or_right (fail_sign ?_) (Eats.or_left this)
    intro x u hx hs
    cases a with
    | nil =>
      simp only [List.nil_append, List.cons_append] at hx
      injection hx with hx _
      subst hx
      revert hs; decide
    | cons y a =>
      simp only [List.cons_append] at hx
      injection hx with hx _
      subst hx
      rcases ha y (by simp) with rfl | rfl | rfl | rfl <;> revert hs <;> decide

theorem primary_reads : ∀ (n : Nat) (e : Expr D) (t rest : List Char), Prim S e t → t.length < n →
    Follow AfterPrim rest → Reads (fixN (primaryStep S) n) t e rest
  | 0, _, _, _, _, h, _ => absurd h (Nat.not_lt_zero _)
  | n + 1, e, t, rest, h, hn, hr => by
    cases n with
    | zero =>
      have : t = [] := List.length_eq_zero_iff.1 (by omega)
      exact absurd (this ▸ h) (strips_prim.2 e)
    | succ n =>
      exact step_reads (p := lazy fun _ => fixN (primaryStep S) (n + 1)) (N := n)
        (fun e u rest h hu hf => primary_reads (n + 1) e u rest h (by omega) hf) h (by omega) hr

/-! ### The parsers return -/

theorem additive_ret {p : Parser Char (Expr D)} [Good p] {r : List Char} (hp : ∀ r', r' <:+ r → Ret p r') :
    Ret (additive p) r := by
  unfold additive multitive
  rw [mulOp_eq, addOp_eq]
  refine chain_ret (by decide) fun r' h' => ?_
  exact chain_ret (by decide) fun r'' h'' => hp r'' (h''.trans h')

theorem ret_bracket {c : Char} {r : List Char} : Ret (andThen (andThen space (elm c)) space) r :=
  ret_andThen.2 ⟨ret_andThen.2 ⟨ret_space, fun _ _ _ _ _ => ret_elm⟩, fun _ _ _ _ _ => ret_space⟩

theorem step_ret {p : Parser Char (Expr D)} [Good p] {r : List Char}
    (hp : ∀ r', r'.length < r.length → Ret p r') : Ret (primaryStep S p) r := by
  unfold primaryStep primaryOf primary0
  refine ret_or.2 ⟨ret_map.2 (ret_andThen.2 ⟨((one_elm '+').or (one_elm '-')).ret, ?_⟩), fun _ => ?_⟩
  · intro t1 v t2 e h
    obtain ⟨rfl, -⟩ := ((one_elm '+').or (one_elm '-')).eats.1 h
    exact hp _ (by rw [e]; simp)
  · refine ret_or.2 ⟨ret_map.2 ?_, fun _ => value_ret⟩
    unfold surround
    refine ret_skipLeft.2 ⟨ret_bracket, ?_⟩
    intro t1 v t2 e h
    refine ret_skipRight.2 ⟨?_, fun _ _ _ _ _ => ret_bracket⟩
    refine additive_ret (p := p) fun r' h' => hp r' ?_
    obtain ⟨⟨v0, c⟩, v2⟩ := v
    obtain ⟨u, b, rfl, hu, -⟩ := eats_andThen.1 h
    obtain ⟨a, o, rfl, -, ho⟩ := eats_andThen.1 hu
    obtain ⟨rfl, -⟩ := eats_elm.1 ho
    have := h'.length_le
    rw [e]
    simp only [List.length_append, List.length_cons, List.length_nil]
    omega

theorem primary_ret : ∀ (n : Nat) (r : List Char), r.length < n → Ret (fixN (primaryStep S) n) r
  | 0, _, h => absurd h (Nat.not_lt_zero _)
  | n + 1, r, h => step_ret (p := lazy fun _ => fixN (primaryStep S) n) fun r' hr' => primary_ret n r' (by omega)

theorem calculator_ret {n : Nat} {t : List Char} (h : t.length < n) : Ret (calculator S n) t := by
  unfold calculator
  refine ret_skipRight.2 ⟨additive_ret fun r' h' => primary_ret n r' ?_, fun _ _ _ _ _ => ret_end⟩
  have := h'.length_le
  omega

theorem calculator_iff {n : Nat} {t : List Char} (h : t.length < n) {e : Expr D} :
    parse (calculator S n) t = .ok e ↔ Sum S e t := by
  unfold calculator
  rw [parse_end_ok]
  constructor
  · intro he
    exact additive_sound (primary_sound n) he
  · intro hs
    obtain ⟨w, r, e1, -, he⟩ := additive_reads (p := fixN (primaryStep S) n)
      (fun e u rest h1 hu hf => primary_reads n e u rest h1 (by omega) hf) hs (Nat.le_refl _)
      (rest := []) ⟨[], [], rfl, blank_nil, fun _ _ h => nomatch h⟩
    rw [eq_comm, List.append_eq_nil_iff] at e1
    obtain ⟨rfl, rfl⟩ := e1
    simpa using he

instance : Good (calculator S n) := by unfold calculator; infer_instance

theorem calculator_mono : Monotone (primaryStep S) := by
  intro p q h
  unfold primaryStep primaryOf primary0 additive multitive
  infer_instance

end OniComb.Calc
