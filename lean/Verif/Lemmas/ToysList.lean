import Verif.Lemmas.ToysChain

/-! # Helper lemmas: lists with commas in the toys parser -/

set_option linter.unusedSectionVars false

namespace OniComb.Toys.Parse
open OniComb.Calc.Spec (Blank Digits)
open OniComb.Calc (BlankC blank_split blank_cut blank_nil)
open OniComb.Toys.Text
variable {A : Type} {P Q : A → List Char → Prop} {p : Parser Char A} [Good p]

theorem commas_mono {N : Nat} {xs : List A} {t : List Char} (h : Commas P xs t)
    (hPQ : ∀ x u, P x u → u.length ≤ N → Q x u) (hN : t.length ≤ N) : Commas Q xs t := by
  induction h with
  | one h => exact .one (hPQ _ _ h hN)
  | cons h ha hb _ ih =>
    simp only [List.length_append, List.length_cons] at hN
    exact .cons (hPQ _ _ h (by omega)) ha hb (ih (by omega))

theorem listing_mono {xs : List A} {t : List Char} (h : Listing P xs t)
    (hPQ : ∀ x u, P x u → u.length ≤ t.length → Q x u) : Listing Q xs t := by
  cases h with
  | empty h => exact .empty h
  | plain ha h hb => exact .plain ha (commas_mono h hPQ (by simp; omega)) hb
  | trailing ha h hb hc => exact .trailing ha (commas_mono h hPQ (by simp; omega)) hb hc

theorem commas_ne {xs : List A} {t : List Char} (h : Commas P xs t) : xs ≠ [] := by cases h <;> simp

theorem commas_solid (hs : ∀ x t, P x t → Solid t) {xs : List A} {t : List Char} (h : Commas P xs t) : Solid t := by
  cases h with
  | one h => exact hs _ _ h
  | cons h => exact (hs _ _ h).app

/-! ### What the list parsers read is a list -/

theorem sepMany_sound (hp : ∀ x t rest, Eats p t x rest → Pad P x t) {t2 r : List Char} {xs : List A}
    (h : SepMany p (punct ',') t2 xs r) : ∀ {x : A} {t1 : List Char}, Pad P x t1 →
      Pad (Commas P) (x :: xs) (t1 ++ t2) := by
  induction h with
  | nil => intro x t1 h; rw [List.append_nil]; obtain ⟨a, u, b, h1, h2, h3, h4⟩ := h; exact ⟨a, u, b, h1, h2, h3, .one h4⟩
  | cons h1 h2 _ ih =>
    intro x t1 h
    obtain ⟨a1, b1, rfl, ha1, hb1, -⟩ := eats_punct h1
    obtain ⟨a', u', b', e, ha', hb', hu'⟩ := ih (hp _ _ _ h2)
    obtain ⟨a0, u0, b0, rfl, ha0, hb0, hu0⟩ := h
    refine ⟨a0, u0 ++ ((b0 ++ a1) ++ ',' :: ((b1 ++ a') ++ u')), b', ?_, ha0, hb',
      .cons hu0 (bapp hb0 ha1) (bapp hb1 ha') hu'⟩
    simp [e]

theorem many1Sep_sound (hp : ∀ x t rest, Eats p t x rest → Pad P x t) {t rest : List Char} {xs : List A}
    (h : Eats (many1Sep p (punct ',')) t xs rest) {a b : List Char} (ha : Blank a) (hb : Blank b) :
    Listing P xs (a ++ (t ++ b)) ∧ xs ≠ [] := by
  obtain ⟨t1, t2, t3, v, ws, rfl, rfl, h1, h2, h3⟩ := eats_many1Sep.1 h
  obtain ⟨a', u', b', e, ha', hb', hu'⟩ := sepMany_sound hp h2 (hp _ _ _ h1)
  refine ⟨?_, by simp⟩
  rcases h3 with ⟨rfl, -⟩ | ⟨⟨w, h3⟩, -⟩
  · have := Listing.plain (bapp ha ha') hu' (bapp hb' hb)
    have e2 : a ++ (t1 ++ (t2 ++ []) ++ b) = a ++ a' ++ (u' ++ (b' ++ b)) := by
      have : a ++ (t1 ++ (t2 ++ []) ++ b) = a ++ ((t1 ++ t2) ++ b) := by simp
      rw [this, e]; simp
    rw [e2]; exact this
  · obtain ⟨a1, b1, rfl, ha1, hb1, -⟩ := eats_punct h3
    have := Listing.trailing (bapp ha ha') hu' (bapp hb' ha1) (bapp hb1 hb)
    have e2 : a ++ (t1 ++ (t2 ++ (a1 ++ ',' :: b1)) ++ b) = a ++ a' ++ (u' ++ (b' ++ a1 ++ ',' :: (b1 ++ b))) := by
      have : a ++ (t1 ++ (t2 ++ (a1 ++ ',' :: b1)) ++ b) = a ++ ((t1 ++ t2) ++ (a1 ++ ',' :: (b1 ++ b))) := by simp
      rw [this, e]; simp
    rw [e2]; exact this

theorem many0Sep_sound (hp : ∀ x t rest, Eats p t x rest → Pad P x t) {t rest : List Char} {xs : List A}
    (h : Eats (many0Sep p (punct ',')) t xs rest) {a b : List Char} (ha : Blank a) (hb : Blank b) :
    Listing P xs (a ++ (t ++ b)) := by
  rcases eats_many0Sep.1 h with ⟨rfl, rfl, -⟩ | h
  · exact .empty (bapp ha hb)
  · exact (many1Sep_sound hp h ha hb).1

/-- Something between two signs. -/
theorem brackets_sound {B : Type} {q : Parser Char B} [Good q] {R : B → List Char → Prop} {l z : Char}
    (hq : ∀ {t rest v a b}, Eats q t v rest → Blank a → Blank b → R v (a ++ (t ++ b))) {t rest : List Char} {v : B}
    (h : Eats (surround (punct l) q (punct z)) t v rest) :
    Pad (fun v t => ∃ u, t = l :: (u ++ [z]) ∧ R v u) v t := by
  unfold surround at h
  obtain ⟨t1, t2, w, rfl, h1, h2⟩ := eats_skipLeft.1 h
  obtain ⟨t3, t4, w', rfl, h3, h4⟩ := eats_skipRight.1 h2
  obtain ⟨a1, b1, rfl, ha1, hb1, -⟩ := eats_punct h1
  obtain ⟨a2, b2, rfl, ha2, hb2, -⟩ := eats_punct h4
  exact ⟨a1, l :: ((b1 ++ (t3 ++ a2)) ++ [z]), b2, by simp, ha1, hb2, _, rfl, hq h3 hb1 ha2⟩

/-! ### Lists are read -/

theorem commas_reads (hs : ∀ x t, P x t → Solid t)
    (hp : ∀ x t rest, P x t → Follow F0 rest → Reads p t x rest) {xs : List A} {u tail : List Char}
    (h : Commas P xs u) (ht : Follow F0 tail) : ∃ w r x ws t1 t2, tail = w ++ r ∧ Blank w ∧ xs = x :: ws ∧
      u ++ w = t1 ++ t2 ∧ Eats p t1 x (t2 ++ r) ∧ SepMany p (punct ',') t2 ws r := by
  induction h with
  | @one x t h =>
    obtain ⟨w, r, e, hw, h1⟩ := hp _ _ _ h ht
    exact ⟨w, r, x, [], t ++ w, [], e, hw, rfl, by simp, h1, .nil _⟩
  | @cons x xs t a b u h ha hb hu ih =>
    obtain ⟨w, r, x', ws, t1, t2, rfl, hw, rfl, e, h1, h2⟩ := ih
    have hf : Follow F0 (a ++ ',' :: (b ++ (u ++ (w ++ r)))) := follow_cons ha (by decide) (by unfold Part Start; decide)
    obtain ⟨w1, a', rfl, -, h3⟩ := (hp _ _ _ h hf).cut (noHead_cons.2 (by decide))
    refine ⟨w, r, x, x' :: ws, t ++ w1, (a' ++ ',' :: b) ++ (t1 ++ t2), rfl, hw, rfl, ?_, ?_, ?_⟩
    · simp [← e]
    · have e2 : (a' ++ ',' :: b) ++ (t1 ++ t2) ++ r = a' ++ ',' :: (b ++ (u ++ (w ++ r))) := by
        rw [← e]; simp
      rw [e2]; exact h3
    · refine .cons (b := [',']) ?_ h1 h2
      have h4 := punct_takes (c := ',') (rest := b ++ (t1 ++ (t2 ++ r))) (by decide) a' b (t1 ++ (t2 ++ r)) rfl
        (bright ha) hb (by
          have e3 : t1 ++ (t2 ++ r) = u ++ (w ++ r) := by
            rw [← List.append_assoc, ← e]; simp
          rw [e3]; exact (commas_solid hs hu).append)
      exact h4

/-- The list parser reads a list up to its closing sign. -/
theorem listing1_reads (hs : ∀ x t, P x t → Solid t)
    (hp : ∀ x t rest, P x t → Follow F0 rest → Reads p t x rest) {z : Char} (hz : F0 z) (hz' : ¬ Part z)
    (hzc : z ≠ ',') (hf : ∀ X, ∃ c, Fail p (z :: X) c) {xs : List A} {u : List Char} (h : Listing P xs u)
    (hne : xs ≠ []) (X : List Char) :
    ∃ a m b, u = a ++ (m ++ b) ∧ Blank a ∧ Blank b ∧ NoHead BlankC (m ++ (b ++ z :: X)) ∧
      Eats (many1Sep p (punct ',')) m xs (b ++ z :: X) := by
  have hzb : ¬ BlankC z := (by decide : ∀ c, F0 c → ¬ BlankC c) z hz
  cases h with
  | empty h => exact absurd rfl hne
  | @plain _ a u b ha h hb =>
    obtain ⟨w, r, x, ws, t1, t2, e1, hw, rfl, e2, h1, h2⟩ :=
      commas_reads hs hp h (follow_cons (r := X) hb hz hz')
    obtain ⟨b', rfl, rfl⟩ := blank_cut e1.symm hw (noHead_cons.2 hzb)
    refine ⟨a, u ++ w, b', by simp, ha, bright hb, ?_, ?_⟩
    · rw [List.append_assoc]; exact (commas_solid hs h).append
    · refine eats_many1Sep.2 ⟨t1, t2, [], x, ws, by simp [e2], rfl, h1, h2, .inl ⟨rfl, .uncommitted, ?_⟩⟩
      exact fail_punct (bright hb) (noHead_cons.2 hzb) (noHead_cons.2 hzc)
  | @trailing _ a u b c ha h hb hc =>
    obtain ⟨w, r, x, ws, t1, t2, e1, hw, rfl, e2, h1, h2⟩ :=
      commas_reads hs hp h (follow_cons (F := F0) (r := c ++ z :: X) hb (c := ',') (by decide) (by unfold Part Start; decide))
    obtain ⟨b', rfl, rfl⟩ := blank_cut e1.symm hw (noHead_cons.2 (by decide))
    refine ⟨a, (u ++ w) ++ (b' ++ ',' :: c), [], by simp, ha, blank_nil, ?_, ?_⟩
    · rw [List.append_assoc, List.append_assoc]; exact (commas_solid hs h).append
    · refine eats_many1Sep.2 ⟨t1, t2, b' ++ ',' :: c, x, ws, by simp [e2], rfl, by simpa using h1, by simpa using h2,
        .inr ⟨⟨[','], ?_⟩, hf X⟩⟩
      exact punct_takes (c := ',') (rest := c ++ z :: X) (by decide) b' c (z :: X) rfl (bright hb) hc (noHead_cons.2 hzb)

theorem listing0_reads (hs : ∀ x t, P x t → Solid t)
    (hp : ∀ x t rest, P x t → Follow F0 rest → Reads p t x rest) {z : Char} (hz : F0 z) (hz' : ¬ Part z)
    (hzc : z ≠ ',') (hf : ∀ X, ∃ c, Fail p (z :: X) c) {xs : List A} {u : List Char} (h : Listing P xs u)
    (X : List Char) :
    ∃ a m b, u = a ++ (m ++ b) ∧ Blank a ∧ Blank b ∧ NoHead BlankC (m ++ (b ++ z :: X)) ∧
      Eats (many0Sep p (punct ',')) m xs (b ++ z :: X) := by
  have hzb : ¬ BlankC z := (by decide : ∀ c, F0 c → ¬ BlankC c) z hz
  by_cases hne : xs = []
  · subst hne
    cases h with
    | empty h =>
      exact ⟨u, [], [], by simp, h, blank_nil, noHead_cons.2 hzb, eats_many0Sep.2 (.inl ⟨rfl, rfl, hf X⟩)⟩
    | plain _ h _ => exact absurd rfl (commas_ne h)
    | trailing _ h _ _ => exact absurd rfl (commas_ne h)
  · obtain ⟨a, m, b, h1, h2, h3, h4, h5⟩ := listing1_reads hs hp hz hz' hzc hf h hne X
    exact ⟨a, m, b, h1, h2, h3, h4, eats_many0Sep.2 (.inr h5)⟩

theorem brackets_takes {B : Type} {q : Parser Char B} [Good q] {l z : Char} (hl : ¬ BlankC l) (hz : ¬ BlankC z)
    {u rest : List Char} {v : B}
    (h : ∀ X, ∃ a m b, u = a ++ (m ++ b) ∧ Blank a ∧ Blank b ∧ NoHead BlankC (m ++ (b ++ z :: X)) ∧
      Eats q m v (b ++ z :: X)) : Takes (surround (punct l) q (punct z)) (l :: (u ++ [z])) v rest := by
  rintro a0 b0 r rfl ha0 hb0 hr
  obtain ⟨a, m, b, rfl, ha, hb, h1, h2⟩ := h (b0 ++ r)
  have e1 := punct_takes (c := l) (rest := a ++ (m ++ (b ++ z :: (b0 ++ r)))) hl a0 a _ rfl ha0 ha h1
  have e3 := punct_takes (c := z) (rest := b0 ++ r) hz b b0 r rfl hb hb0 hr
  have := Eats.surround (l := punct l) (p := q) (q := punct z) (t1 := a0 ++ ([l] ++ a)) (t2 := m)
    (t3 := b ++ ([z] ++ b0)) (rest := r) (by simpa using e1) (by simpa using h2) e3
  simpa using this

end OniComb.Toys.Parse
