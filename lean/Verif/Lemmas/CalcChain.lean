import Verif.Lemmas.CalcValue

/-! # Helper lemmas: chains of operands in the calculator -/

set_option linter.unusedSectionVars false

namespace OniComb.Calc
open OniComb.Calc.Spec
variable {D : Type}

/-- The shape of the two operators. -/
def opOf (x y : Char) (fx fy : Expr D → Expr D → Expr D) : Parser Char (Expr D → Expr D → Expr D) :=
  map (skipRight (skipLeft space (or (elm x) (elm y))) space) fun c => if c = x then fx else fy

theorem mulOp_eq : (mulOp : Parser Char (Expr D → Expr D → Expr D)) = opOf '*' '/' .multiply .divide := rfl
theorem addOp_eq : (addOp : Parser Char (Expr D → Expr D → Expr D)) = opOf '+' '-' .add .sub := rfl

variable {x y : Char} {fx fy : Expr D → Expr D → Expr D}

instance : Good (opOf x y fx fy) := by unfold opOf; infer_instance

/-- The operator that a sign stands for. -/
def Sign (x y : Char) (fx fy : Expr D → Expr D → Expr D) (c : Char) (f : Expr D → Expr D → Expr D) : Prop :=
  c = x ∧ f = fx ∨ c = y ∧ f = fy

theorem eats_op (hxy : x ≠ y) {t rest : List Char} {f : Expr D → Expr D → Expr D} :
    Eats (opOf x y fx fy) t f rest ↔ ∃ a c b, t = a ++ c :: b ∧ Blank a ∧ NoHead BlankC (c :: b) ∧ Blank b ∧
      Sign x y fx fy c f ∧ NoHead BlankC rest := by
  unfold opOf
  rw [eats_map]
  constructor
  · rintro ⟨c, h, rfl⟩
    obtain ⟨t1, b, u, rfl, h1, h2⟩ := eats_skipRight.1 h
    obtain ⟨a, s, u', rfl, h3, h4⟩ := eats_skipLeft.1 h1
    obtain ⟨h2a, h2b⟩ := eats_space.1 h2
    obtain ⟨h3a, h3b⟩ := eats_space.1 h3
    obtain ⟨rfl, hc⟩ := ((one_elm x).or (one_elm y)).eats.1 h4
    refine ⟨a, c, b, by simp, h3a, ?_, h2a, ?_, h2b⟩
    · simpa [noHead_cons] using h3b
    · rcases hc with rfl | rfl
      · exact .inl ⟨rfl, by simp⟩
      · exact .inr ⟨rfl, by simp [hxy.symm]⟩
  · rintro ⟨a, c, b, rfl, h1, h2, h3, h4, h5⟩
    have hc : c = x ∨ c = y := by rcases h4 with ⟨rfl, -⟩ | ⟨rfl, -⟩ <;> simp
    refine ⟨c, ?_, ?_⟩
    · have := Eats.skipRight (p := skipLeft space (or (elm x) (elm y))) (q := space) (t1 := a ++ [c]) (t2 := b)
        (rest := rest) (v := c) (w := ())
        (Eats.skipLeft (v := ()) (eats_space.2 ⟨h1, by simpa [noHead_cons] using h2⟩)
          (((one_elm x).or (one_elm y)).eats.2 ⟨rfl, hc⟩)) (eats_space.2 ⟨h3, h5⟩)
      simpa using this
    · rcases h4 with ⟨rfl, rfl⟩ | ⟨rfl, rfl⟩
      · simp
      · simp [hxy.symm]

theorem fail_op {a r : List Char} (ha : Blank a) (hr : NoHead (fun c => c = x ∨ c = y ∨ BlankC c) r) :
    Fail (opOf x y fx fy) (a ++ r) .uncommitted := by
  unfold opOf
  refine fail_map.2 (Fail.skipRight (Eats.skipLeft_fail (v := ())
    (eats_space.2 ⟨ha, hr.mono fun c h => .inr (.inr h)⟩) ?_))
  exact (((one_elm x).or (one_elm y)).fail).2 ⟨rfl, hr.mono fun c h => h.elim .inl fun h => .inr (.inl h)⟩

theorem ret_op {r : List Char} : Ret (opOf x y fx fy) r := by
  unfold opOf
  refine ret_map.2 (ret_skipRight.2 ⟨ret_skipLeft.2 ⟨ret_space, fun _ _ _ _ _ => ?_⟩, fun _ _ _ _ _ => ret_space⟩)
  exact ((one_elm x).or (one_elm y)).ret

theorem op_ne (hxy : x ≠ y) {t rest : List Char} {f : Expr D → Expr D → Expr D}
    (h : Eats (opOf x y fx fy) t f rest) : t ≠ [] := by
  obtain ⟨a, c, b, rfl, -⟩ := (eats_op hxy).1 h
  simp

/-! ### Chains as lists of operands -/

variable {P Q : Expr D → List Char → Prop}

/-- `(op operand)*`. -/
inductive Items (P : Expr D → List Char → Prop) (x y : Char) (fx fy : Expr D → Expr D → Expr D) :
    List ((Expr D → Expr D → Expr D) × Expr D) → List Char → Prop where
  | nil : Items P x y fx fy [] []
  | cons {a b u t : List Char} {c : Char} {f : Expr D → Expr D → Expr D} {r : Expr D}
      {ops : List ((Expr D → Expr D → Expr D) × Expr D)} : Blank a → Blank b → Sign x y fx fy c f → P r u →
      Items P x y fx fy ops t → Items P x y fx fy ((f, r) :: ops) (a ++ c :: (b ++ (u ++ t)))

/-- `operand (op operand)*`, evaluated from the left. -/
def Chain (P : Expr D → List Char → Prop) (x y : Char) (fx fy : Expr D → Expr D → Expr D) (e : Expr D)
    (t : List Char) : Prop :=
  ∃ e1 t1 ops t2, t = t1 ++ t2 ∧ P e1 t1 ∧ Items P x y fx fy ops t2 ∧ e = applyLeft e1 ops

theorem Items.append {ops ops' : List ((Expr D → Expr D → Expr D) × Expr D)} {t t' : List Char}
    (h : Items P x y fx fy ops t) (h' : Items P x y fx fy ops' t') : Items P x y fx fy (ops ++ ops') (t ++ t') := by
  induction h with
  | nil => exact h'
  | cons ha hb hs hp _ ih => simpa using Items.cons ha hb hs hp ih

theorem applyLeft_append {A : Type} (e : A) (ops ops' : List ((A → A → A) × A)) :
    applyLeft e (ops ++ ops') = applyLeft (applyLeft e ops) ops' := by
  induction ops generalizing e with
  | nil => rfl
  | cons o ops ih => obtain ⟨f, y⟩ := o; exact ih (f e y)

theorem Chain.one {e : Expr D} {t : List Char} (h : P e t) : Chain P x y fx fy e t :=
  ⟨e, t, [], [], by simp, h, .nil, rfl⟩

theorem Chain.snoc {l r : Expr D} {t a b u : List Char} {c : Char} {f : Expr D → Expr D → Expr D}
    (h : Chain P x y fx fy l t) (ha : Blank a) (hb : Blank b) (hs : Sign x y fx fy c f) (hr : P r u) :
    Chain P x y fx fy (f l r) (t ++ (a ++ c :: (b ++ u))) := by
  obtain ⟨e1, t1, ops, t2, rfl, h1, h2, rfl⟩ := h
  refine ⟨e1, t1, ops ++ [(f, r)], t2 ++ (a ++ c :: (b ++ u)), by simp, h1, ?_, ?_⟩
  · have := h2.append (Items.cons ha hb hs hr .nil)
    simpa using this
  · rw [applyLeft_append]; rfl

theorem Items.mono {N : Nat} {ops : List ((Expr D → Expr D → Expr D) × Expr D)} {t : List Char}
    (h : Items P x y fx fy ops t) (hPQ : ∀ e u, P e u → u.length ≤ N → Q e u) (hN : t.length ≤ N) :
    Items Q x y fx fy ops t := by
  induction h with
  | nil => exact .nil
  | cons ha hb hs hp _ ih =>
    simp only [List.length_append, List.length_cons] at hN
    exact .cons ha hb hs (hPQ _ _ hp (by omega)) (ih (by omega))

theorem Chain.mono {e : Expr D} {t : List Char} (h : Chain P x y fx fy e t)
    (hPQ : ∀ e u, P e u → u.length ≤ t.length → Q e u) : Chain Q x y fx fy e t := by
  obtain ⟨e1, t1, ops, t2, rfl, h1, h2, rfl⟩ := h
  exact ⟨e1, t1, ops, t2, rfl, hPQ _ _ h1 (by simp), h2.mono hPQ (by simp), rfl⟩

/-- Blanks in front of an operand do not belong to it. -/
def Strips (P : Expr D → List Char → Prop) : Prop :=
  (∀ e w u, P e (w ++ u) → Blank w → P e u) ∧ ∀ e, ¬ P e []

/-- A text of an operand without its blanks. -/
theorem Strips.split (hs : Strips P) {e : Expr D} {t : List Char} (h : P e t) :
    ∃ a u, t = a ++ u ∧ Blank a ∧ u ≠ [] ∧ NoHead BlankC u ∧ P e u := by
  obtain ⟨a, u, rfl, h1, h2⟩ := blank_split t
  have h3 := hs.1 _ _ _ h h1
  exact ⟨a, u, rfl, h1, fun e => hs.2 _ (e ▸ h3), h2, h3⟩

theorem Strips.chain (hs : Strips P) : Strips (Chain P x y fx fy) := by
  constructor
  · rintro e w u ⟨e1, t1, ops, t2, h, h1, h2, rfl⟩ hw
    obtain ⟨a, v, rfl, h3, h4, h5, h6⟩ := hs.split h1
    rw [List.append_assoc] at h
    have hv : NoHead BlankC (v ++ t2) := (noHead_append h4).2 h5
    obtain ⟨a', rfl, h8⟩ := blank_cut h hw hv
    refine ⟨e1, a' ++ v, ops, t2, by rw [h8]; simp, hs.1 _ w _ (by simpa using h1) hw, h2, rfl⟩
  · rintro e ⟨e1, t1, ops, t2, h, h1, h2, rfl⟩
    rw [eq_comm, List.append_eq_nil_iff] at h
    exact hs.2 _ (h.1 ▸ h1)

/-- The text goes on with blanks and then ends or has a character of the given kind. -/
def Follow (F : Char → Prop) (r : List Char) : Prop :=
  ∃ a u, r = a ++ u ∧ Blank a ∧ ∀ c u', u = c :: u' → F c

/-- The parser reads the text and possibly some blanks after it. -/
def Reads (p : Parser Char (Expr D)) (t : List Char) (e : Expr D) (rest : List Char) : Prop :=
  ∃ w r, rest = w ++ r ∧ Blank w ∧ Eats p (t ++ w) e r

theorem follow_noHead {F : Char → Prop} {r w u : List Char} (h : Follow F r) (hF : ∀ c, F c → ¬ BlankC c)
    (e : r = w ++ u) (hw : Blank w) : ∃ a v, u = a ++ v ∧ Blank a ∧ ∀ c v', v = c :: v' → F c := by
  obtain ⟨a, v, h1, h2, h3⟩ := h
  have hv : NoHead BlankC v := fun c v' hv hc => hF c (h3 c v' hv) hc
  rw [h1] at e
  obtain ⟨b, rfl, h4⟩ := blank_cut e.symm hw hv
  exact ⟨b, v, h4, fun c hc => h2 c (by simp [hc]), h3⟩

section
variable {p : Parser Char (Expr D)} [Good p] {F G : Char → Prop}

theorem items_reads (hxy : x ≠ y) (hbx : ¬ BlankC x) (hby : ¬ BlankC y) (hs : Strips P)
    (hp : ∀ e u rest, P e u → Follow F rest → Reads p u e rest)
    (hGF : ∀ c, G c → F c) (hxF : F x) (hyF : F y) (hG : ∀ c, G c → c ≠ x ∧ c ≠ y ∧ ¬ BlankC c)
    {rest : List Char} (hr : Follow G rest) {ops : List ((Expr D → Expr D → Expr D) × Expr D)} {t2 : List Char}
    (h : Items P x y fx fy ops t2) : ∀ w r, t2 ++ rest = w ++ r → Blank w →
      ∃ t2' w' r', r = t2' ++ r' ∧ t2 ++ w' = w ++ t2' ∧ rest = w' ++ r' ∧ Blank w' ∧
        OpMany p (opOf x y fx fy) t2' ops r' ∧ ChainStop p (opOf x y fx fy) r' := by
  induction h with
  | nil =>
    intro w r e hw
    obtain ⟨a, v, rfl, h1, h2⟩ := follow_noHead hr (fun c h => (hG c h).2.2) e hw
    refine ⟨[], w, a ++ v, rfl, by simp, e, hw, .nil _, .inl (fail_op h1 ?_)⟩
    intro c v' hv hc
    obtain ⟨g1, g2, g3⟩ := hG c (h2 c v' hv)
    rcases hc with h | h | h
    · exact g1 h
    · exact g2 h
    · exact g3 h
  | @cons a b u t c f r0 ops ha hb hsg hpu hit ih =>
    intro w r e hw
    have hcF : F c ∧ ¬ BlankC c := by rcases hsg with ⟨rfl, -⟩ | ⟨rfl, -⟩ <;> exact ⟨‹_›, ‹_›⟩
    have hc := hcF.2
    rw [List.append_assoc, List.cons_append] at e
    obtain ⟨a', rfl, rfl⟩ := blank_cut e.symm hw (noHead_cons.2 hc)
    obtain ⟨bu, u', rfl, h1, h2, h3, h4⟩ := hs.split hpu
    have hfol : Follow F (t ++ rest) := by
      cases hit with
      | nil =>
        obtain ⟨a1, v, hr1, hr2, hr3⟩ := hr
        exact ⟨a1, v, hr1, hr2, fun c v' h => hGF c (hr3 c v' h)⟩
      | @cons a1 b1 u1 t1 c1 f1 r1 ops1 ha1 hb1 hsg1 hpu1 hit1 =>
        refine ⟨a1, c1 :: (b1 ++ (u1 ++ t1)) ++ rest, by simp, ha1, ?_⟩
        intro c v' h
        injection h with h _
        subst h
        rcases hsg1 with ⟨rfl, -⟩ | ⟨rfl, -⟩
        · exact hxF
        · exact hyF
    obtain ⟨w1, r1, e1, hw1, hpe⟩ := hp _ _ _ h4 hfol
    obtain ⟨t2', w', r', rfl, e3, e4, hw', hm, hst⟩ := ih w1 r1 e1 hw1
    have hwa : Blank a' := fun c hc => ha c (by simp [hc])
    refine ⟨(a' ++ c :: (b ++ bu)) ++ ((u' ++ w1) ++ t2'), w', r', ?_, ?_, e4, hw', ?_, hst⟩
    · simp only [List.append_assoc, List.cons_append, List.append_cancel_left_eq, List.cons.injEq, true_and]
      exact e1
    · simp only [List.append_assoc, List.cons_append, List.append_cancel_left_eq, List.cons.injEq, true_and]
      exact e3
    · refine .cons ?_ hpe hm
      refine (eats_op hxy).2 ⟨a', c, b ++ bu, rfl, hwa, noHead_cons.2 hc, Blank.append hb h1, hsg, ?_⟩
      rw [List.append_assoc]
      exact (noHead_append h2).2 h3

theorem chain_reads (hxy : x ≠ y) (hbx : ¬ BlankC x) (hby : ¬ BlankC y) (hs : Strips P)
    (hp : ∀ e u rest, P e u → Follow F rest → Reads p u e rest)
    (hGF : ∀ c, G c → F c) (hxF : F x) (hyF : F y) (hG : ∀ c, G c → c ≠ x ∧ c ≠ y ∧ ¬ BlankC c)
    {e : Expr D} {t rest : List Char} (h : Chain P x y fx fy e t) (hr : Follow G rest) :
    Reads (chainLeft1 p (opOf x y fx fy)) t e rest := by
  obtain ⟨e1, t1, ops, t2, rfl, h1, h2, rfl⟩ := h
  have hfol : Follow F (t2 ++ rest) := by
    cases h2 with
    | nil =>
      obtain ⟨a1, v, hr1, hr2, hr3⟩ := hr
      exact ⟨a1, v, hr1, hr2, fun c v' h => hGF c (hr3 c v' h)⟩
    | @cons a1 b1 u1 t1 c1 f1 r1 ops1 ha1 hb1 hsg1 hpu1 hit1 =>
      refine ⟨a1, c1 :: (b1 ++ (u1 ++ t1)) ++ rest, by simp, ha1, ?_⟩
      intro c v' h
      injection h with h _
      subst h
      rcases hsg1 with ⟨rfl, -⟩ | ⟨rfl, -⟩
      · exact hxF
      · exact hyF
  obtain ⟨w1, r1, e2, hw1, hpe⟩ := hp _ _ _ h1 hfol
  obtain ⟨t2', w', r', rfl, e3, e4, hw', hm, hst⟩ := items_reads hxy hbx hby hs hp hGF hxF hyF hG hr h2 w1 r1 e2 hw1
  refine ⟨w', r', e4, hw', eats_chainLeft1.2 ⟨t1 ++ w1, e1, t2', ops, ?_, hpe, hm, rfl, hst⟩⟩
  simp [e3]

theorem opMany_items (hxy : x ≠ y) (hp : ∀ e u rest, Eats p u e rest → P e u)
    {ops : List ((Expr D → Expr D → Expr D) × Expr D)} {t rest : List Char}
    (h : OpMany p (opOf x y fx fy) t ops rest) : Items P x y fx fy ops t := by
  induction h with
  | nil => exact .nil
  | cons h1 h2 _ ih =>
    obtain ⟨a, c, b, rfl, ha, -, hb, hs, -⟩ := (eats_op hxy).1 h1
    have := Items.cons ha hb hs (hp _ _ _ h2) ih
    simpa using this

theorem chain_sound (hxy : x ≠ y) (hp : ∀ e u rest, Eats p u e rest → P e u) {e : Expr D} {t rest : List Char}
    (h : Eats (chainLeft1 p (opOf x y fx fy)) t e rest) : Chain P x y fx fy e t := by
  obtain ⟨t1, e1, t2, ops, rfl, h1, h2, rfl, -⟩ := eats_chainLeft1.1 h
  exact ⟨e1, t1, ops, t2, rfl, hp _ _ _ h1, opMany_items hxy hp h2, rfl⟩

theorem chain_ret (hxy : x ≠ y) {r : List Char} (hp : ∀ r', r' <:+ r → Ret p r') :
    Ret (chainLeft1 p (opOf x y fx fy)) r :=
  ret_chainLeft1 (ret_many1Sep hp (fun _ _ => ret_op) (.inr fun _ _ _ _ h => op_ne hxy h))

end
end OniComb.Calc
