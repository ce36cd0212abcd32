import Verif.Lemmas.Built

/-!
# Helper lemmas: parsers of the library consume nothing behind the end of the input
-/

namespace OniComb
variable {I A B : Type}

def TameRes : Res I A → Prop
  | .success _ n => n = 0
  | _ => True

theorem tame_iff (p : Parser I A) :
    Tame p ↔ ∀ s, s.input.length < s.offset → TameRes (p s) := by
  constructor
  · intro h s hs
    cases hp : p s with
    | success v n => exact h s v n hs hp
    | _ => trivial
  · intro h s v n hs hp
    have := h s hs; rw [hp] at this; exact this

/-- Parsers that look at the rest of the input first panic behind its end. -/
theorem tame_withInput (k : State I → List I → Res I A) : Tame fun s => s.withInput (k s) := by
  intro s v n hs h
  have hd : ¬ s.offset ≤ s.input.length := by omega
  simp [State.withInput, hd] at h

theorem tame_shift {n : Nat} {r : Res I A} (b : Bool) (hn : n = 0) (h : TameRes r) :
    TameRes ((r.addCommit b).advanceSuccess n) := by
  cases r <;> simp_all [TameRes, Res.addCommit, Res.advanceSuccess]

theorem repTurn_tame {p : Parser I A} {sep : Option (Parser I B)} (hp : Tame p) (hsep : TameSep sep)
    (stop : Bound) (st st' : LoopState I A) (hs : st.cur.input.length < st.cur.offset)
    (h : repTurn p sep stop st = .again st') :
    st'.cur.input = st.cur.input ∧ st'.cur.offset = st.cur.offset ∧ st'.length = st.length := by
  obtain ⟨-, k, v, n, h1, h2, rfl⟩ := (repTurn_again_iff _ _ _ _ _).1 h
  have hk := sepAt_tame hsep hs h1
  subst hk
  have hn := hp _ _ _ (by simpa using hs) h2
  subst hn
  simp

theorem repLoop_tame {p : Parser I A} {sep : Option (Parser I B)} (hp : Tame p) (hsep : TameSep sep)
    (stop : Bound) : ∀ (fuel : Nat) (st : LoopState I A), st.cur.input.length < st.cur.offset →
      ∀ items n, repLoop p sep stop fuel st = .exit items n → n = st.length := by
  intro fuel
  induction fuel with
  | zero => intro st _ items n h; cases h
  | succ fuel ih =>
    intro st hs items n h
    simp only [repLoop] at h
    cases ht : repTurn p sep stop st with
    | again st' =>
      rw [ht] at h
      obtain ⟨h1, h2, h3⟩ := repTurn_tame hp hsep stop st st' hs ht
      rw [ih st' (by rw [h1, h2]; exact hs) items n h, h3]
    | exit items' n' =>
      rw [ht] at h
      cases h
      obtain ⟨-, ⟨-, h⟩ | ⟨-, k, hk, rfl⟩⟩ := (repTurn_exit_iff _ _ _ _ _ _).1 ht
      · exact h
      · rcases hk with ⟨rfl, -⟩ | ⟨hk, -⟩
        · rfl
        · rw [sepAt_tame hsep hs hk]; rfl
    | _ => rw [ht] at h; cases h

theorem tame_repeatSep {p : Parser I A} {sep : Option (Parser I B)} (r : Range) (hp : Tame p)
    (hsep : TameSep sep) : Tame (repeatSep p r sep) := by
  intro s v n hs h
  have hfin : ∀ (items : List A) (len : Nat), repFinish r s items len = .success v n → n = len := by
    intro items len h
    unfold repFinish at h
    split at h
    · split at h
      · simp only [State.withInput] at h; split at h <;> cases h
      · cases h; rfl
    · cases h; rfl
  unfold repeatSep at h
  cases h1 : p s with
  | success w l =>
    have hl := hp s w l hs h1
    subst hl
    rw [h1] at h
    simp only at h
    cases h2 : repLoop p sep r.stop (repFuel r.stop s) ⟨s.advanceBy 0, [w], 0⟩ with
    | exit items len =>
      rw [h2] at h
      rw [hfin items len h]
      exact repLoop_tame hp hsep r.stop _ _ (by simpa [State.advanceBy] using hs) items len h2
    | _ => rw [h2] at h; cases h
  | failure e c => rw [h1] at h; exact hfin _ _ h
  | _ => rw [h1] at h; cases h

theorem tame_or {p q : Parser I A} (hp : Tame p) (hq : Tame q) : Tame (or p q) := by
  rw [tame_iff] at *
  intro s hs
  have h1 := hp s hs
  have h2 := hq s hs
  unfold or
  split <;> simp_all

theorem tame_restLeft1N {p : Parser I A} {op : Parser I (A → A → A)} (hp : Tame p) (hop : Tame op) :
    ∀ (k : Nat) (x : A), Tame (restLeft1N p op k x) := by
  rw [tame_iff] at hp hop
  intro k
  induction k with
  | zero => intro x s v n hs h; cases h
  | succ k ih =>
    intro x
    refine tame_or ?_ (by intro s v n _ h; cases h; rfl)
    rw [tame_iff]
    intro s hs
    have ho := hop s hs
    simp only [State.advanceBy, Nat.add_zero]
    cases h : op s with
    | success f n1 =>
      rw [h] at ho
      have hn : n1 = 0 := ho
      subst hn
      simp only [Nat.add_zero]
      refine tame_shift _ rfl ?_
      have hp' := hp s hs
      cases h' : p s with
      | success y n2 =>
        rw [h'] at hp'
        have hn : n2 = 0 := hp'
        subst hn
        have := (tame_iff _).1 (ih (f x y)) s hs
        revert this
        simp only [Nat.add_zero]
        cases restLeft1N p op k (f x y) s <;> simp [TameRes, Res.advanceSuccess]
      | _ => trivial
    | _ => trivial

theorem built_tame {P : (A : Type) → Parser I A → Prop} {obs : Bool}
    (hP : ∀ A (p : Parser I A), P A p → Tame p) {p : Parser I A} (h : Built P obs p) : Tame p := by
  induction h with
  | prim p h => exact hP _ p h
  | successful a => intro s v n _ h; cases h; rfl
  | failed e c _ => intro s v n _ h; cases h
  | filter p f _ ih =>
    rw [tame_iff] at *
    intro s hs
    have := ih s hs
    unfold filter
    cases h : p s with
    | success v n => rw [h] at this; simp only; split <;> simp_all [TameRes]
    | _ => trivial
  | flatMap p f _ _ ih1 ih2 =>
    rw [tame_iff] at *
    intro s hs
    have := ih1 s hs
    unfold flatMap
    cases h : p s with
    | success v n =>
      rw [h] at this
      have hn : n = 0 := this
      subst hn
      exact tame_shift _ rfl ((tame_iff _).1 (ih2 v) s hs)
    | _ => trivial
  | map p f _ ih =>
    rw [tame_iff] at *
    intro s hs; have := ih s hs; unfold map
    cases h : p s <;> rw [h] at this <;> simp_all [TameRes]
  | exists_ p _ ih =>
    rw [tame_iff] at *
    intro s hs; unfold exists_
    cases h : p s <;> simp_all [TameRes]
  | not_ p _ ih =>
    rw [tame_iff] at *
    intro s hs; unfold not_
    have hd : ¬ s.offset ≤ s.input.length := by omega
    cases h : p s <;> simp [hd, TameRes, State.withInput, State.advanceBy]
  | or p q _ _ ih1 ih2 => exact tame_or ih1 ih2
  | andThen p q _ _ ih1 ih2 =>
    rw [tame_iff] at *
    intro s hs
    have := ih1 s hs
    unfold andThen
    cases h : p s with
    | success v n =>
      rw [h] at this
      have hn : n = 0 := this
      subst hn
      have := ih2 s hs
      simp only [State.advanceBy, Nat.add_zero]
      cases h' : q s <;> rw [h'] at this <;> simp_all [TameRes]
    | _ => trivial
  | attempt p _ ih =>
    rw [tame_iff] at *
    intro s hs; have := ih s hs
    unfold attempt Res.withUncommitted
    split <;> simp_all [TameRes]
  | skip n => exact tame_withInput _
  | skipLeft p q _ _ ih1 ih2 =>
    rw [tame_iff] at *
    intro s hs
    have := ih1 s hs
    unfold skipLeft
    cases h : p s with
    | success v n =>
      rw [h] at this
      have hn : n = 0 := this
      subst hn
      have := ih2 s hs
      simp only [State.advanceBy, Nat.add_zero]
      cases h' : q s <;> rw [h'] at this <;> simp_all [TameRes]
    | _ => trivial
  | skipRight p q _ _ ih1 ih2 =>
    rw [tame_iff] at *
    intro s hs
    have := ih1 s hs
    unfold skipRight
    cases h : p s with
    | success v n =>
      rw [h] at this
      have hn : n = 0 := this
      subst hn
      have := ih2 s hs
      simp only [State.advanceBy, Nat.add_zero]
      cases h' : q s <;> rw [h'] at this <;> simp_all [TameRes, Res.advanceSuccess]
    | _ => trivial
  | mapRes p f _ ih =>
    rw [tame_iff] at *
    intro s hs
    have := ih s hs
    have hd : ¬ s.offset ≤ s.input.length := by omega
    unfold mapRes
    cases h : p s with
    | success v n =>
      rw [h] at this
      simp only
      cases f v with
      | none => simp [hd, TameRes, State.withInput]
      | some b => exact this
    | _ => trivial
  | peek p _ ih =>
    rw [tame_iff] at *
    intro s hs; unfold peek
    cases h : p s <;> simp_all [TameRes]
  | logMap p l _ ih => exact ih
  | name p l _ ih =>
    rw [tame_iff] at *
    intro s hs; have := ih s hs; unfold name
    cases h : p s with
    | failure e c => simp only; split <;> trivial
    | _ => rw [h] at this; exact this
  | expect p l _ ih =>
    rw [tame_iff] at *
    intro s hs; have := ih s hs; unfold expect
    cases h : p s with
    | failure e c => trivial
    | _ => rw [h] at this; exact this
  | lastOffset p _ _ ih =>
    rw [tame_iff] at *
    intro s hs; have := ih s hs; unfold lastOffset
    cases h : p s <;> rw [h] at this <;> simp_all [TameRes]
  | nextOffset p _ _ ih =>
    rw [tame_iff] at *
    intro s hs; have := ih s hs; unfold nextOffset
    cases h : p s <;> rw [h] at this <;> simp_all [TameRes]
  | collect p _ ih =>
    rw [tame_iff] at *
    intro s hs; have := ih s hs; unfold collect
    cases h : p s with
    | success v n =>
      rw [h] at this
      simp only [State.withSlice]
      split <;> simp_all [TameRes]
    | _ => trivial
  | discard p _ ih =>
    rw [tame_iff] at *
    intro s hs; have := ih s hs; unfold discard
    cases h : p s <;> rw [h] at this <;> simp_all [TameRes]
  | end_ => exact tame_withInput _
  | lazy f _ ih => exact ih
  | diverging => intro s v n _ h; cases h
  | elmPred f => exact tame_withInput _
  | elmOfSet f => exact tame_withInput _
  | noneOfSet f => exact tame_withInput _
  | seq lit => exact tame_withInput _
  | take n => exact tame_withInput _
  | takeWhile0 f => exact tame_withInput _
  | takeWhile1 f => exact tame_withInput _
  | takeWhileNM n m f => exact tame_withInput _
  | takeTill0 f => exact tame_withInput _
  | takeTill1 f => exact tame_withInput _
  | repeat_ p r _ ih => exact tame_repeatSep r ih (by intro q hq; cases hq)
  | repeatSep p r q _ _ ih1 ih2 => exact tame_repeatSep r ih1 (by intro q hq; cases hq; exact ih2)
  | restLeft1 p op x _ _ ih1 ih2 =>
    intro s v n hs h
    exact tame_restLeft1N ih1 ih2 _ x s v n hs h

end OniComb
