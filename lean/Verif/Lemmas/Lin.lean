import Verif.Lemmas.Fair

/-! # Helper lemmas: parsers whose steps are bounded by a multiple of what is left -/

namespace OniComb.Steps
open OniComb
variable {I A B C : Type} {a a' w w' lo : Nat}

/-- Every run takes at most `a` steps for each element that is left, and `w`. -/
structure Lin (a w : Nat) (c : Counted I A) : Prop where
  fits : ∀ s v n, s.offset ≤ s.input.length → c.run s = .success v n → n ≤ left s
  le : ∀ s, s.offset ≤ s.input.length → c.steps s ≤ a * left s + w

theorem Fair.lin {E S : I → Prop} {c : Counted I A} (h : Fair a w lo E S c) : Lin a w c where
  fits := fun s v n hs hr => (h.ok s v n hs hr).2.1
  le := by
    intro s hs
    by_cases hr : ∃ v n, c.run s = .success v n
    · obtain ⟨v, n, hr⟩ := hr
      obtain ⟨-, h2, h3⟩ := h.ok s v n hs hr
      have := Nat.mul_le_mul_left a h2
      rcases h3 with h3 | ⟨h3, -⟩ <;> omega
    · exact h.other s hs fun v n h => hr ⟨v, n, h⟩

theorem Lin.mono {c : Counted I A} (h : Lin a w c) (ha : a ≤ a') (hw : w ≤ w') : Lin a' w' c where
  fits := h.fits
  le := fun s hs => by
    have := h.le s hs
    have := Nat.mul_le_mul_right (left s) ha
    omega

theorem Lin.unary {G : Parser I A → Parser I B} (hG : ∀ p s v n, G p s = .success v n → ∃ v', p s = .success v' n)
    {c : Counted I A} (h : Lin a w c) : Lin a w (.unary G c) where
  fits := fun s v n hs hr => by
    obtain ⟨v', hv⟩ := hG c.run s v n hr
    exact h.fits s v' n hs hv
  le := h.le

theorem Lin.both {c : Counted I C} {p : Counted I A} {q : Counted I B} (hc : Both c p q) (hp : Lin a w p) (hq : Lin a' w' q) :
    Lin (a + a') (w + w') c where
  fits := by
    intro s v n hs hr
    obtain ⟨v1, n1, v2, n2, h1, h2, rfl⟩ := hc.ok s v n hr
    have h3 := hp.fits s v1 n1 hs h1
    have h4 := hq.fits _ v2 n2 (fits_advance hs h3) h2
    have := left_advance h3
    omega
  le := by
    intro s hs
    have hl : (a + a') * left s = a * left s + a' * left s := Nat.add_mul _ _ _
    have h1 := hp.le s hs
    by_cases hr : ∃ v n, p.run s = .success v n
    · obtain ⟨v, n, hr⟩ := hr
      have h3 := hp.fits s v n hs hr
      have h4 := hq.le _ (fits_advance hs h3)
      have h5 := left_advance h3
      have h6 : a' * left (s.advanceBy n) ≤ a' * left s := Nat.mul_le_mul_left _ (by omega)
      rw [hc.steps_ok hr]
      omega
    · rw [hc.steps_other fun v n h => hr ⟨v, n, h⟩]
      omega

theorem Lin.or {p q : Counted I A} (hp : Lin a w p) (hq : Lin a' w' q) : Lin (a + a') (w + w') (.or p q) where
  fits := by
    intro s v n hs h
    have h : OniComb.or p.run q.run s = .success v n := h
    simp only [OniComb.or] at h
    cases hp' : p.run s with
    | success v' n' => simp only [hp', Res.success.injEq] at h; exact h.2 ▸ hp.fits s v' n' hs hp'
    | failure e st =>
      cases st with
      | committed => simp [hp'] at h
      | uncommitted => simp only [hp'] at h; exact hq.fits s v n hs h
    | _ => simp [hp'] at h
  le := by
    intro s hs
    have hl : (a + a') * left s = a * left s + a' * left s := Nat.add_mul _ _ _
    have h1 := hp.le s hs
    have h2 := hq.le s hs
    show p.steps s + (p.run s).onUncommitted (q.steps s) ≤ _
    cases p.run s with
    | failure e st => cases st <;> simp only [Res.onUncommitted] <;> omega
    | _ => simp only [Res.onUncommitted]; omega

theorem Lin.opt {p : Counted I A} (h : Lin a w p) : Lin a (w + 1) (.opt p) :=
  (Lin.or (h.unary same_optional.ok) (fair_successful (none : Option A)).lin).mono (Nat.le_refl _) (Nat.le_refl _)

theorem same_name (l : String) : Same (I := I) (A := A) (name · l) where
  ok := by
    intro p s v n h
    simp only [name] at h
    cases hp : p s with
    | success v' n' => simp only [hp, Res.success.injEq] at h; exact ⟨v', by rw [h.2]⟩
    | failure e c => simp only [hp] at h; split at h <;> cases h
    | _ => simp [hp] at h
  done := by intro p s v n _ _ h; simp [name, h]
  fail := by
    intro p s e st _ h
    simp only [name] at h
    cases hp : p s with
    | failure e' c => exact ⟨e', c, rfl⟩
    | _ => simp [hp] at h

theorem mapRes_ok (f : A → Option B) (p : Parser I A) (s : State I) (v : B) (n : Nat) (h : mapRes p f s = .success v n) :
    ∃ v', p s = .success v' n := by
  simp only [mapRes] at h
  cases hp : p s with
  | success v' n' =>
    simp only [hp] at h
    cases hf : f v' with
    | some w => simp only [hf, Res.success.injEq] at h; exact ⟨v', by rw [h.2]⟩
    | none =>
      simp only [hf, State.withInput] at h
      split at h <;> cases h
  | _ => simp [hp] at h

end OniComb.Steps
