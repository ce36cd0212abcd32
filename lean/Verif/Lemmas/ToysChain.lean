import Verif.Lemmas.ToysToken

/-! # Helper lemmas: chains of operands in the toys parser -/

set_option linter.unusedSectionVars false

namespace OniComb.Toys.Parse
open OniComb.Calc.Spec (Blank Digits)
open OniComb.Calc (BlankC blank_split blank_cut blank_nil)
open OniComb.Toys.Text

/-- The text goes on with blanks and then ends or has a character of the given kind; a name cannot go on there. -/
def Follow (F : Char → Prop) (r : List Char) : Prop :=
  (∃ a u, r = a ++ u ∧ Blank a ∧ ∀ c u', u = c :: u' → F c) ∧ NoHead Part r

theorem Follow.mono {F G : Char → Prop} {r : List Char} (h : Follow G r) (hGF : ∀ c, G c → F c) : Follow F r := by
  obtain ⟨⟨a, u, h1, h2, h3⟩, h4⟩ := h
  exact ⟨⟨a, u, h1, h2, fun c u' e => hGF c (h3 c u' e)⟩, h4⟩

theorem follow_cons {F : Char → Prop} {a r : List Char} {c : Char} (ha : Blank a) (hF : F c) (hc : ¬ Part c) :
    Follow F (a ++ c :: r) := by
  refine ⟨⟨a, c :: r, rfl, ha, fun _ _ e => by cases e; exact hF⟩, ?_⟩
  cases a with
  | nil => exact noHead_cons.2 hc
  | cons d a => exact noHead_cons.2 fun h => part_not_blank h (ha d (by simp))

theorem follow_blank {F : Char → Prop} {a r : List Char} {c : Char} (ha : Blank a) (ha' : a ≠ []) (hF : F c) :
    Follow F (a ++ c :: r) := by
  refine ⟨⟨a, c :: r, rfl, ha, fun _ _ e => by cases e; exact hF⟩, ?_⟩
  cases a with
  | nil => exact absurd rfl ha'
  | cons d a => exact noHead_cons.2 fun h => part_not_blank h (ha d (by simp))

theorem follow_nil {F : Char → Prop} {a : List Char} (ha : Blank a) : Follow F a := by
  refine ⟨⟨a, [], by simp, ha, fun _ _ e => by cases e⟩, ?_⟩
  cases a with
  | nil => exact noHead_nil
  | cons d a => exact noHead_cons.2 fun h => part_not_blank h (ha d (by simp))

theorem follow_cut {F : Char → Prop} {r w u : List Char} (h : Follow F r) (hF : ∀ c, F c → ¬ BlankC c)
    (e : r = w ++ u) (hw : Blank w) : ∃ a v, u = a ++ v ∧ Blank a ∧ ∀ c v', v = c :: v' → F c := by
  obtain ⟨⟨a, v, h1, h2, h3⟩, -⟩ := h
  have hv : NoHead BlankC v := fun c v' hv hc => hF c (h3 c v' hv) hc
  rw [h1] at e
  obtain ⟨b, rfl, h4⟩ := blank_cut e.symm hw hv
  exact ⟨b, v, h4, bright h2, h3⟩

/-- What is needed of the parser of the operators `O`; `G` can follow the chain. -/
structure OpLike (op : Parser Char (Expr → Expr → Expr)) (O : Operator → List Char → Prop) (G : Char → Prop) :
    Prop where
  sound : ∀ {t f rest}, Eats op t f rest →
    ∃ a w b o, t = a ++ (w ++ b) ∧ Blank a ∧ Blank b ∧ O o w ∧ f = Expr.binary o
  reads : ∀ {o a w b rest}, O o w → Blank a → Blank b → NoHead BlankC rest → NoHead (· = '=') rest →
    Eats op (a ++ (w ++ b)) (Expr.binary o) rest
  sign : ∀ {o w}, O o w → ∃ c w', w = c :: w' ∧ ¬ BlankC c ∧ ¬ Part c
  stop : ∀ {a u}, Blank a → (∀ c u', u = c :: u' → G c) → Fail op (a ++ u) .uncommitted
  ret : ∀ {r}, Ret op r

/-- Texts of operands. -/
def Starts (P : Expr → List Char → Prop) : Prop := ∀ e t, P e t → Solid t ∧ NoHead (· = '=') t

variable {P Q : Expr → List Char → Prop} {O : Operator → List Char → Prop}

/-- `(op operand)*`. -/
inductive Items (P : Expr → List Char → Prop) (O : Operator → List Char → Prop) :
    List (Operator × Expr) → List Char → Prop where
  | nil : Items P O [] []
  | cons {a w b u t : List Char} {o : Operator} {r : Expr} {ops : List (Operator × Expr)} : Blank a → O o w →
      Blank b → P r u → Items P O ops t → Items P O ((o, r) :: ops) (a ++ (w ++ (b ++ (u ++ t))))

/-- The expression of a chain. -/
def build : Expr → List (Operator × Expr) → Expr
  | e, [] => e
  | e, (o, r) :: ops => build (.binary o e r) ops

theorem build_append (e : Expr) (ops ops' : List (Operator × Expr)) :
    build e (ops ++ ops') = build (build e ops) ops' := by
  induction ops generalizing e with
  | nil => rfl
  | cons o ops ih => obtain ⟨o, r⟩ := o; exact ih _

theorem build_applyLeft (e : Expr) (ops : List (Operator × Expr)) :
    applyLeft e (ops.map fun x => (Expr.binary x.1, x.2)) = build e ops := by
  induction ops generalizing e with
  | nil => rfl
  | cons o ops ih => obtain ⟨o, r⟩ := o; exact ih _

theorem Items.append {ops ops' : List (Operator × Expr)} {t t' : List Char}
    (h : Items P O ops t) (h' : Items P O ops' t') : Items P O (ops ++ ops') (t ++ t') := by
  induction h with
  | nil => exact h'
  | cons ha hw hb hp _ ih => simpa using Items.cons ha hw hb hp ih

/-- A chain as a list. -/
theorem chain_items {e : Expr} {t : List Char} (h : Chain P O e t) :
    ∃ e1 t1 ops t2, t = t1 ++ t2 ∧ P e1 t1 ∧ Items P O ops t2 ∧ e = build e1 ops := by
  induction h with
  | one h => exact ⟨_, _, [], [], by simp, h, .nil, rfl⟩
  | @op o l r t a w b u _ ha hw hb hr ih =>
    obtain ⟨e1, t1, ops, t2, rfl, h1, h2, rfl⟩ := ih
    refine ⟨e1, t1, ops ++ [(o, r)], t2 ++ (a ++ (w ++ (b ++ u))), by simp, h1, ?_, ?_⟩
    · simpa using h2.append (.cons ha hw hb hr .nil)
    · rw [build_append]; rfl

theorem items_chain {ops : List (Operator × Expr)} {t2 : List Char} (h : Items P O ops t2) :
    ∀ {e1 : Expr} {t1 : List Char}, Chain P O e1 t1 → Chain P O (build e1 ops) (t1 ++ t2) := by
  induction h with
  | nil => intro e1 t1 h; simpa [build] using h
  | cons ha hw hb hp _ ih =>
    intro e1 t1 h
    have := ih (.op h ha hw hb hp)
    simpa [build] using this

theorem Items.mono {N : Nat} {ops : List (Operator × Expr)} {t : List Char}
    (h : Items P O ops t) (hPQ : ∀ e u, P e u → u.length ≤ N → Q e u) (hN : t.length ≤ N) : Items Q O ops t := by
  induction h with
  | nil => exact .nil
  | cons ha hw hb hp _ ih =>
    simp only [List.length_append] at hN
    exact .cons ha hw hb (hPQ _ _ hp (by omega)) (ih (by omega))

theorem chain_mono {e : Expr} {t : List Char} (h : Chain P O e t)
    (hPQ : ∀ e u, P e u → u.length ≤ t.length → Q e u) : Chain Q O e t := by
  obtain ⟨e1, t1, ops, t2, rfl, h1, h2, rfl⟩ := chain_items h
  exact items_chain (h2.mono hPQ (by simp)) (.one (hPQ _ _ h1 (by simp)))

theorem Starts.chain (h : Starts P) : Starts (Chain P O) := by
  intro e t hc
  obtain ⟨e1, t1, ops, t2, rfl, h1, -, -⟩ := chain_items hc
  obtain ⟨h2, h3⟩ := h _ _ h1
  exact ⟨h2.app, (noHead_append h2.1).2 h3⟩

section
variable {p : Parser Char Expr} [Good p] {op : Parser Char (Expr → Expr → Expr)} [Good op] {F G : Char → Prop}

theorem items_follow (hop : OpLike op O G) (hGF : ∀ c, G c → F c) (hOF : ∀ o c w, O o (c :: w) → F c)
    {rest : List Char} (hr : Follow G rest) {ops : List (Operator × Expr)} {t : List Char} (h : Items P O ops t) :
    Follow F (t ++ rest) := by
  cases h with
  | nil => exact hr.mono hGF
  | @cons a w b u t o r ops ha hw hb hu hit =>
    obtain ⟨c, w', rfl, h1, h2⟩ := hop.sign hw
    have := follow_cons (F := F) (a := a) (r := w' ++ (b ++ (u ++ t)) ++ rest) ha (hOF _ _ _ hw) h2
    simpa using this

theorem items_reads (hop : OpLike op O G) (hs : Starts P)
    (hp : ∀ e u rest, P e u → Follow F rest → Reads p u e rest)
    (hGF : ∀ c, G c → F c) (hOF : ∀ o c w, O o (c :: w) → F c) (hG : ∀ c, G c → ¬ BlankC c)
    {rest : List Char} (hr : Follow G rest) {ops : List (Operator × Expr)} {t2 : List Char}
    (h : Items P O ops t2) : ∀ w r, t2 ++ rest = w ++ r → Blank w →
      ∃ t2' w' r', r = t2' ++ r' ∧ t2 ++ w' = w ++ t2' ∧ rest = w' ++ r' ∧ Blank w' ∧
        OpMany p op t2' (ops.map fun x => (Expr.binary x.1, x.2)) r' ∧ ChainStop p op r' := by
  induction h with
  | nil =>
    intro w r e hw
    obtain ⟨a, v, rfl, h1, h2⟩ := follow_cut hr hG e hw
    exact ⟨[], w, a ++ v, rfl, by simp, e, hw, .nil _, .inl (hop.stop h1 h2)⟩
  | @cons a x b u t o r0 ops ha hx hb hpu hit ih =>
    intro w r e hw
    obtain ⟨c, x', rfl, hc, -⟩ := hop.sign hx
    rw [List.append_assoc, List.append_assoc] at e
    obtain ⟨a', rfl, rfl⟩ := blank_cut e.symm hw (noHead_cons.2 hc)
    obtain ⟨h1, h2⟩ := hs _ _ hpu
    obtain ⟨w1, r1, e1, hw1, hpe⟩ := hp _ _ _ hpu (items_follow hop hGF hOF hr hit)
    obtain ⟨t2', w', r', rfl, e3, e4, hw', hm, hst⟩ := ih w1 r1 e1 hw1
    refine ⟨(a' ++ (c :: x' ++ b)) ++ ((u ++ w1) ++ t2'), w', r', ?_, ?_, e4, hw', ?_, hst⟩
    · simp only [List.append_assoc, List.cons_append, List.append_cancel_left_eq, List.cons.injEq, true_and]
      exact e1
    · simp only [List.append_assoc, List.cons_append, List.append_cancel_left_eq, List.cons.injEq, true_and]
      exact e3
    · refine .cons ?_ hpe hm
      refine hop.reads hx (bright ha) hb ?_ ?_
      · rw [List.append_assoc]; exact h1.append
      · rw [List.append_assoc]; exact (noHead_append h1.1).2 h2

theorem chain_reads (hop : OpLike op O G) (hs : Starts P)
    (hp : ∀ e u rest, P e u → Follow F rest → Reads p u e rest)
    (hGF : ∀ c, G c → F c) (hOF : ∀ o c w, O o (c :: w) → F c) (hG : ∀ c, G c → ¬ BlankC c)
    {e : Expr} {t rest : List Char} (h : Chain P O e t) (hr : Follow G rest) :
    Reads (chainLeft1 p op) t e rest := by
  obtain ⟨e1, t1, ops, t2, rfl, h1, h2, rfl⟩ := chain_items h
  obtain ⟨w1, r1, e2, hw1, hpe⟩ := hp _ _ _ h1 (items_follow hop hGF hOF hr h2)
  obtain ⟨t2', w', r', rfl, e3, e4, hw', hm, hst⟩ := items_reads hop hs hp hGF hOF hG hr h2 w1 r1 e2 hw1
  refine ⟨w', r', e4, hw', eats_chainLeft1.2 ⟨t1 ++ w1, e1, t2', _, ?_, hpe, hm, (build_applyLeft _ _).symm, hst⟩⟩
  simp [e3]

theorem opMany_chain (hop : OpLike op O G) (hp : ∀ e u rest, Eats p u e rest → Pad P e u)
    {ops : List ((Expr → Expr → Expr) × Expr)} {t rest : List Char} (h : OpMany p op t ops rest) :
    ∀ {e : Expr} {t1 : List Char}, Pad (Chain P O) e t1 → Pad (Chain P O) (applyLeft e ops) (t1 ++ t) := by
  induction h with
  | nil => intro e t1 h; simpa [applyLeft] using h
  | cons h1 h2 _ ih =>
    intro e t1 h
    obtain ⟨a, w, b, o, rfl, ha, hb, ho, rfl⟩ := hop.sound h1
    obtain ⟨a1, u1, b1, rfl, ha1, hb1, hu1⟩ := h
    obtain ⟨a2, u2, b2, rfl, ha2, hb2, hu2⟩ := hp _ _ _ h2
    have : Pad (Chain P O) (Expr.binary o e _) (a1 ++ ((u1 ++ ((b1 ++ a) ++ (w ++ ((b ++ a2) ++ u2)))) ++ b2)) :=
      ⟨_, _, _, rfl, ha1, hb2, .op hu1 (bapp hb1 ha) ho (bapp hb ha2) hu2⟩
    have := ih this
    simpa [applyLeft] using this

theorem chain_sound (hop : OpLike op O G) (hp : ∀ e u rest, Eats p u e rest → Pad P e u)
    {e : Expr} {t rest : List Char} (h : Eats (chainLeft1 p op) t e rest) : Pad (Chain P O) e t := by
  obtain ⟨t1, e1, t2, ops, rfl, h1, h2, rfl, -⟩ := eats_chainLeft1.1 h
  exact opMany_chain hop hp h2 ((hp _ _ _ h1).mono fun u h => .one h)

theorem chain_ret (hop : OpLike op O G) {r : List Char} (hp : ∀ r', r' <:+ r → Ret p r') :
    Ret (chainLeft1 p op) r := by
  refine ret_chainLeft1 (ret_many1Sep hp (fun _ _ => hop.ret) (.inr fun t f rest _ h => ?_))
  obtain ⟨a, w, b, o, rfl, -, -, hw, -⟩ := hop.sound h
  obtain ⟨c, w', rfl, -⟩ := hop.sign hw
  simp

end

/-! ### The operators -/

instance {c : Char} : Good (sign c) := by unfold sign; infer_instance
instance : Good mulOp := by unfold mulOp; infer_instance
instance : Good modOp := by unfold modOp; infer_instance
instance : Good addOp := by unfold addOp; infer_instance
instance : Good cmpOp := by unfold cmpOp; infer_instance

section
variable {t r rest : List Char} {c : Char}

theorem eats_sign {v : Char} : Eats (sign c) t v rest ↔ ∃ a b, t = a ++ ([c] ++ b) ∧ v = c ∧ Blank a ∧
    ¬ BlankC c ∧ Blank b ∧ NoHead BlankC rest := by
  unfold sign
  rw [eats_spaced]
  constructor
  · rintro ⟨a, u, b, rfl, h1, h2, h3, h4, h5⟩
    obtain ⟨rfl, rfl⟩ := (one_elm c).eats.1 h3
    exact ⟨a, b, rfl, rfl, h1, noHead_cons.1 h2, h4, h5⟩
  · rintro ⟨a, b, rfl, rfl, h1, h2, h4, h5⟩
    exact ⟨a, [v], b, rfl, h1, noHead_cons.2 h2, (one_elm v).eats.2 ⟨rfl, rfl⟩, h4, h5⟩

theorem fail_sign {a : List Char} (ha : Blank a) (hr : NoHead BlankC r) (h : NoHead (· = c) r) :
    Fail (sign c) (a ++ r) .uncommitted :=
  fail_spaced.2 ⟨a, r, rfl, ha, hr, (one_elm c).fail.2 ⟨rfl, h⟩⟩

theorem ret_sign : Ret (sign c) r := ret_spaced fun _ _ => (one_elm c).ret

end

/-- What can follow an expression: `)`, `]`, `,`, `;` or the word `to`. -/
abbrev F0 (c : Char) : Prop := c ∈ [')', ']', ',', ';', 't']
/-- What can follow an operand of a comparison. -/
abbrev F1 (c : Char) : Prop := c ∈ [')', ']', ',', ';', 't', '&', '|', '<', '>', '!', '=']
/-- What can follow an operand of a sum. -/
abbrev F2 (c : Char) : Prop := c ∈ [')', ']', ',', ';', 't', '&', '|', '<', '>', '!', '=', '+', '-']
/-- What can follow an operand of a remainder. -/
abbrev F3 (c : Char) : Prop := c ∈ [')', ']', ',', ';', 't', '&', '|', '<', '>', '!', '=', '+', '-', '%']
/-- What can follow an operand of a product. -/
abbrev F4 (c : Char) : Prop :=
  c ∈ [')', ']', ',', ';', 't', '&', '|', '<', '>', '!', '=', '+', '-', '%', '*', '/']

theorem noHead_of {G H : Char → Prop} {u : List Char} (h : ∀ c u', u = c :: u' → G c) (hGH : ∀ c, G c → ¬ H c) :
    NoHead H u := fun c u' e hc => hGH c (h c u' e) hc

theorem mulOp_like : OpLike mulOp MulOp F3 where
  sound := by
    intro t f rest h
    unfold mulOp at h
    obtain ⟨c, h1, rfl⟩ := eats_map.1 h
    rcases eats_or.1 h1 with h2 | ⟨-, h2⟩
    · obtain ⟨a, b, rfl, rfl, h3, -, h4, -⟩ := eats_sign.1 h2
      exact ⟨a, _, b, _, rfl, h3, h4, .mul, rfl⟩
    · obtain ⟨a, b, rfl, rfl, h3, -, h4, -⟩ := eats_sign.1 h2
      exact ⟨a, _, b, _, rfl, h3, h4, .div, rfl⟩
  reads := by
    intro o a w b rest ho ha hb hr _
    unfold mulOp
    cases ho with
    | mul => exact eats_map.2 ⟨'*', .or_left (eats_sign.2 ⟨a, b, rfl, rfl, ha, by decide, hb, hr⟩), rfl⟩
    | div =>
      refine eats_map.2 ⟨'/', .or_right ?_ (eats_sign.2 ⟨a, b, rfl, rfl, ha, by decide, hb, hr⟩), rfl⟩
      rw [List.append_assoc]
      exact fail_sign ha (noHead_cons.2 (by decide)) (noHead_cons.2 (by decide))
  sign := by
    intro o w h
    cases h <;> exact ⟨_, _, rfl, by decide, by unfold Part Start; decide⟩
  stop := by
    intro a u ha hu
    unfold mulOp
    exact (Fail.or (fail_sign ha (noHead_of hu (by decide)) (noHead_of hu (by decide)))
      (fail_sign ha (noHead_of hu (by decide)) (noHead_of hu (by decide)))).map _
  ret := by
    intro r
    exact ret_map.2 (ret_or.2 ⟨ret_sign, fun _ => ret_sign⟩)

theorem modOp_like : OpLike modOp ModOp F2 where
  sound := by
    intro t f rest h
    unfold modOp at h
    obtain ⟨c, h1, rfl⟩ := eats_map.1 h
    obtain ⟨a, b, rfl, rfl, h3, -, h4, -⟩ := eats_sign.1 h1
    exact ⟨a, _, b, _, rfl, h3, h4, .mod, rfl⟩
  reads := by
    intro o a w b rest ho ha hb hr _
    unfold modOp
    cases ho with
    | mod => exact eats_map.2 ⟨'%', eats_sign.2 ⟨a, b, rfl, rfl, ha, by decide, hb, hr⟩, rfl⟩
  sign := by
    intro o w h
    cases h <;> exact ⟨_, _, rfl, by decide, by unfold Part Start; decide⟩
  stop := by
    intro a u ha hu
    unfold modOp
    exact (fail_sign ha (noHead_of hu (by decide)) (noHead_of hu (by decide))).map _
  ret := by
    intro r
    exact ret_map.2 ret_sign

theorem addOp_like : OpLike addOp AddOp F1 where
  sound := by
    intro t f rest h
    unfold addOp at h
    obtain ⟨c, h1, rfl⟩ := eats_map.1 h
    rcases eats_or.1 h1 with h2 | ⟨-, h2⟩
    · obtain ⟨a, b, rfl, rfl, h3, -, h4, -⟩ := eats_sign.1 h2
      exact ⟨a, _, b, _, rfl, h3, h4, .add, rfl⟩
    · obtain ⟨a, b, rfl, rfl, h3, -, h4, -⟩ := eats_sign.1 h2
      exact ⟨a, _, b, _, rfl, h3, h4, .sub, rfl⟩
  reads := by
    intro o a w b rest ho ha hb hr _
    unfold addOp
    cases ho with
    | add => exact eats_map.2 ⟨'+', .or_left (eats_sign.2 ⟨a, b, rfl, rfl, ha, by decide, hb, hr⟩), rfl⟩
    | sub =>
      refine eats_map.2 ⟨'-', .or_right ?_ (eats_sign.2 ⟨a, b, rfl, rfl, ha, by decide, hb, hr⟩), rfl⟩
      rw [List.append_assoc]
      exact fail_sign ha (noHead_cons.2 (by decide)) (noHead_cons.2 (by decide))
  sign := by
    intro o w h
    cases h <;> exact ⟨_, _, rfl, by decide, by unfold Part Start; decide⟩
  stop := by
    intro a u ha hu
    unfold addOp
    exact (Fail.or (fail_sign ha (noHead_of hu (by decide)) (noHead_of hu (by decide)))
      (fail_sign ha (noHead_of hu (by decide)) (noHead_of hu (by decide)))).map _
  ret := by
    intro r
    exact ret_map.2 (ret_or.2 ⟨ret_sign, fun _ => ret_sign⟩)

section
variable {t r rest w : List Char}

theorem eats_atag {v : List Char} : Eats (attempt (tag w)) t v rest ↔ t = w ∧ v = w := by
  rw [eats_attempt, eats_tag]

theorem fail_atag (h : ¬ w <+: r) : Fail (attempt (tag w)) r .uncommitted := by
  obtain ⟨c, hc⟩ := fail_tag.2 h
  exact fail_attempt_of hc

/-- The alternatives of `comparative`. -/
theorem cmp_alts {v : List Char} (hs : ∃ o, CmpOp o v) (h : NoHead (· = '=') rest) :
    Eats (or (or (or (or (or (or (or (attempt (tag "&&".toList)) (attempt (tag "||".toList)))
      (attempt (tag "<=".toList))) (attempt (tag ">=".toList))) (attempt (tag "<".toList)))
      (attempt (tag ">".toList))) (attempt (tag "!=".toList))) (tag "==".toList)) v v rest := by
  have two : ∀ x y : Char, y = '=' → ¬ [x, y] <+: x :: rest := by
    rintro x y rfl ⟨r', e⟩
    cases rest with
    | nil => simp at e
    | cons c rest =>
      simp only [List.cons_append, List.nil_append, List.cons.injEq, true_and] at e
      exact noHead_cons.1 h e.1.symm
  have hd : ∀ (x y : Char) (l l' : List Char), x ≠ y → ¬ x :: l <+: y :: l' := by
    rintro x y l l' hxy ⟨r', e⟩
    exact hxy (List.cons.inj e).1
  have ok : ∀ k : List Char, Eats (attempt (tag k)) k k rest := fun k => eats_atag.2 ⟨rfl, rfl⟩
  obtain ⟨o, hs⟩ := hs
  cases hs with
  | and => exact .or_left (.or_left (.or_left (.or_left (.or_left (.or_left (.or_left (ok _)))))))
  | or =>
    exact .or_left (.or_left (.or_left (.or_left (.or_left (.or_left
      (.or_right (fail_atag (hd _ _ _ _ (by decide))) (ok _)))))))
  | le =>
    exact .or_left (.or_left (.or_left (.or_left (.or_left
      (.or_right (.or (fail_atag (hd _ _ _ _ (by decide))) (fail_atag (hd _ _ _ _ (by decide)))) (ok _))))))
  | ge =>
    exact .or_left (.or_left (.or_left (.or_left
      (.or_right (.or (.or (fail_atag (hd _ _ _ _ (by decide))) (fail_atag (hd _ _ _ _ (by decide))))
        (fail_atag (hd _ _ _ _ (by decide)))) (ok _)))))
  | lt =>
    exact .or_left (.or_left (.or_left
      (.or_right (.or (.or (.or (fail_atag (hd _ _ _ _ (by decide))) (fail_atag (hd _ _ _ _ (by decide))))
        (fail_atag (two _ _ rfl))) (fail_atag (hd _ _ _ _ (by decide)))) (ok _))))
  | gt =>
    exact .or_left (.or_left
      (.or_right (.or (.or (.or (.or (fail_atag (hd _ _ _ _ (by decide))) (fail_atag (hd _ _ _ _ (by decide))))
        (fail_atag (hd _ _ _ _ (by decide)))) (fail_atag (two _ _ rfl))) (fail_atag (hd _ _ _ _ (by decide)))) (ok _)))
  | ne =>
    exact .or_left
      (.or_right (.or (.or (.or (.or (.or (fail_atag (hd _ _ _ _ (by decide))) (fail_atag (hd _ _ _ _ (by decide))))
        (fail_atag (hd _ _ _ _ (by decide)))) (fail_atag (hd _ _ _ _ (by decide))))
        (fail_atag (hd _ _ _ _ (by decide)))) (fail_atag (hd _ _ _ _ (by decide)))) (ok _))
  | eq =>
    exact .or_right (.or (.or (.or (.or (.or (.or (fail_atag (hd _ _ _ _ (by decide)))
        (fail_atag (hd _ _ _ _ (by decide))))
        (fail_atag (hd _ _ _ _ (by decide)))) (fail_atag (hd _ _ _ _ (by decide))))
        (fail_atag (hd _ _ _ _ (by decide)))) (fail_atag (hd _ _ _ _ (by decide))))
        (fail_atag (hd _ _ _ _ (by decide)))) (eats_tag.2 ⟨rfl, rfl⟩)

end

theorem noHead_blank_app {P : Char → Prop} {b rest : List Char} (hb : Blank b) (hP : ∀ c, P c → ¬ BlankC c)
    (h : NoHead P rest) : NoHead P (b ++ rest) := by
  cases b with
  | nil => exact h
  | cons c b => exact noHead_cons.2 fun hc => hP c hc (hb c (by simp))

theorem cmpOp_like : OpLike cmpOp CmpOp F0 where
  sound := by
    intro t f rest h
    unfold cmpOp at h
    obtain ⟨v, h1, rfl⟩ := eats_map.1 h
    obtain ⟨a, u, b, rfl, ha, -, h2, hb, -⟩ := eats_spaced.1 h1
    refine ⟨a, u, b, cmpOperator v, rfl, ha, hb, ?_, rfl⟩
    simp only [eats_or, eats_atag, eats_tag] at h2
    rcases h2 with ((((((⟨rfl, rfl⟩ | ⟨-, rfl, rfl⟩) | ⟨-, rfl, rfl⟩) | ⟨-, rfl, rfl⟩) | ⟨-, rfl, rfl⟩) |
      ⟨-, rfl, rfl⟩) | ⟨-, rfl, rfl⟩) | ⟨-, rfl, rfl⟩
    · exact .and
    · exact .or
    · exact .le
    · exact .ge
    · exact .lt
    · exact .gt
    · exact .ne
    · exact .eq
  reads := by
    intro o a w b rest ho ha hb hr hr'
    unfold cmpOp
    refine eats_map.2 ⟨w, eats_spaced.2 ⟨a, w, b, rfl, ha, ?_, cmp_alts ⟨o, ho⟩
      (noHead_blank_app hb (by rintro c rfl; decide) hr'), hb, hr⟩, ?_⟩
    · cases ho <;> exact noHead_cons.2 (by decide)
    · cases ho <;> rfl
  sign := by
    intro o w h
    cases h <;> exact ⟨_, _, rfl, by decide, by unfold Part Start; decide⟩
  stop := by
    intro a u ha hu
    unfold cmpOp
    have k : ∀ (x : Char) (l : List Char), ¬ F0 x → Fail (tag (x :: l)) u .uncommitted := fun x l hx =>
      fail_tag_head (noHead_of hu fun c hc e => hx (e ▸ hc))
    have k' : ∀ (x : Char) (l : List Char), ¬ F0 x → Fail (attempt (tag (x :: l))) u .uncommitted := fun x l hx =>
      fail_attempt_of (k x l hx)
    refine (fail_spaced.2 ⟨a, u, rfl, ha, noHead_of hu (by decide), ?_⟩).map _
    exact .or (.or (.or (.or (.or (.or (.or (k' _ _ (by decide)) (k' _ _ (by decide))) (k' _ _ (by decide)))
      (k' _ _ (by decide))) (k' _ _ (by decide))) (k' _ _ (by decide))) (k' _ _ (by decide))) (k _ _ (by decide))
  ret := by
    intro r
    refine ret_map.2 (ret_spaced fun r _ => ?_)
    have k : ∀ w : List Char, Ret (attempt (tag w)) r := fun w => ret_attempt.2 ret_tag
    simp only [ret_or, k, ret_tag, implies_true, and_self]

end OniComb.Toys.Parse
