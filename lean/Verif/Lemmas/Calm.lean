import Verif.Lemmas.Live
import Verif.Model.Uri

/-!
# Helper lemmas: grammars that do not panic on a given text

`Calm t p`: at no position of the text `t` does `p` panic or consume more than there is.
-/

set_option linter.unusedVariables false
set_option linter.unusedSectionVars false

namespace OniComb
variable {I A B C : Type}

/-- Result that is acceptable at `s`. -/
def CalmAt (s : State I) : Res I A → Prop
  | .success _ k => s.offset + k ≤ s.input.length
  | .panic => False
  | _ => True

class Calm (t : List I) (p : Parser I A) : Prop where
  calm : ∀ k, k ≤ t.length → CalmAt ⟨t, k⟩ (p ⟨t, k⟩)

theorem calm_good {t : List I} (p : Parser I A) [hg : Good p] : Calm t p := ⟨fun k hk => by
  have := Good.safe p ⟨t, k⟩ hk
  cases hp : p ⟨t, k⟩ with
  | success v n => rw [hp] at this; exact this
  | panic => rw [hp] at this; exact this
  | _ => trivial⟩

section instances
variable {t : List I} {p : Parser I A} {q : Parser I B}

theorem calm_seq (q : Parser I B) (f : A → B → C) (r : Parser I C)
    (hr : ∀ s, r s = match p s with
      | .success a k1 => match q (s.advanceBy k1) with
        | .success b k2 => .success (f a b) (k1 + k2)
        | .failure e c => .failure e c
        | .panic => .panic
        | .diverge => .diverge
      | .failure e c => .failure e c
      | .panic => .panic
      | .diverge => .diverge)
    (hp : Calm t p) (hq : Calm t q) : Calm t r := by
  refine ⟨fun k hk => ?_⟩
  have h1 := hp.calm k hk
  rw [hr ⟨t, k⟩]
  cases h : p ⟨t, k⟩ with
  | success a i =>
    rw [h] at h1
    have h1' : k + i ≤ t.length := h1
    have h2 := hq.calm (k + i) h1'
    dsimp only [State.advanceBy]
    cases h3 : q ⟨t, k + i⟩ with
    | success b j =>
      rw [h3] at h2
      have h2' : k + i + j ≤ t.length := h2
      show k + (i + j) ≤ t.length
      omega
    | panic => rw [h3] at h2; exact h2.elim
    | _ => trivial
  | panic => rw [h] at h1; exact h1.elim
  | _ => trivial

instance [hp : Calm t p] [hq : Calm t q] : Calm t (andThen p q) := calm_seq q (fun a b => (a, b)) _ (fun _ => rfl) hp hq
instance [hp : Calm t p] [hq : Calm t q] : Calm t (skipLeft p q) := calm_seq q (fun _ b => b) _ (fun _ => rfl) hp hq
instance [hp : Calm t p] [hq : Calm t q] : Calm t (skipRight p q) := calm_seq q (fun a _ => a) _ (fun _ => rfl) hp hq
instance {r : Parser I C} [hp : Calm t p] [hq : Calm t q] [hr : Calm t r] : Calm t (surround p q r) := by
  unfold surround; infer_instance
instance [hp : Calm t p] (f : A → B) : Calm t (map p f) := ⟨fun k hk => by
  have := hp.calm k hk
  unfold map
  cases h : p ⟨t, k⟩ <;> rw [h] at this <;> exact this⟩
instance [hp : Calm t p] : Calm t (attempt p) := ⟨fun k hk => by
  have := hp.calm k hk
  unfold attempt Res.withUncommitted
  cases h : p ⟨t, k⟩ with
  | failure e c => cases c <;> trivial
  | _ => rw [h] at this; exact this⟩
instance {p' : Parser I A} [hp : Calm t p] [hp' : Calm t p'] : Calm t (or p p') := ⟨fun k hk => by
  have h1 := hp.calm k hk
  have h2 := hp'.calm k hk
  unfold or
  cases h : p ⟨t, k⟩ with
  | failure e c => cases c <;> first | exact h2 | trivial
  | _ => rw [h] at h1; exact h1⟩
instance (f : Unit → Parser I A) [hp : Calm t (f ())] : Calm t (lazy f) := ⟨hp.calm⟩
instance : Calm t (diverging : Parser I A) := ⟨fun _ _ => trivial⟩

theorem calm_mapUnwrap {t : List UInt8} {p : Parser UInt8 A} [hp : Calm t p] {f : A → Option B}
    (hf : ∀ k v n, k ≤ t.length → p ⟨t, k⟩ = .success v n → (f v).isSome) : Calm t (Uri.mapUnwrap p f) := ⟨fun k hk => by
  have := hp.calm k hk
  unfold Uri.mapUnwrap
  cases h : p ⟨t, k⟩ with
  | success v n =>
    rw [h] at this
    obtain ⟨w, hw⟩ := Option.isSome_iff_exists.1 (hf k v n hk h)
    dsimp only
    rw [hw]
    exact this
  | panic => rw [h] at this; exact this
  | _ => trivial⟩

/-! ### Repetition -/

/-- Acceptable result of a turn of the loop. -/
def TurnCalm (t : List I) (o : Nat) : Turn I A → Prop
  | .again st => st.cur.input = t ∧ st.cur.offset ≤ t.length ∧ st.cur.offset = o + st.length
  | .exit _ l => o + l ≤ t.length
  | .panic => False
  | .diverge => True

/-- Acceptable result of the loop. -/
def LoopCalm (t : List I) (o : Nat) : LoopOut A → Prop
  | .exit _ l => o + l ≤ t.length
  | .panic => False
  | .diverge => True

theorem repItem_calm [hp : Calm t p] {st : LoopState I A} {o : Nat} (h1 : st.cur.input = t) (h3 : st.cur.offset ≤ t.length)
    (h4 : st.cur.offset = o + st.length) : TurnCalm t o (repItem p st) := by
  have := hp.calm st.cur.offset h3
  obtain ⟨⟨inp, off⟩, items, l⟩ := st
  dsimp only at h1 h3 h4 this
  subst h1
  unfold repItem
  dsimp only
  cases h : p ⟨inp, off⟩ with
  | success v k =>
    rw [h] at this
    have h6 : off + k ≤ inp.length := this
    exact ⟨rfl, h6, by simp only [State.advanceBy]; omega⟩
  | failure e c => show o + l ≤ inp.length; omega
  | panic => rw [h] at this; exact this
  | diverge => trivial

theorem repTurn_calm [hp : Calm t p] {sep : Option (Parser I B)} (hsep : ∀ q, sep = some q → Calm t q) (stop : Bound)
    {st : LoopState I A} {o : Nat} (h1 : st.cur.input = t) (h3 : st.cur.offset ≤ t.length)
    (h4 : st.cur.offset = o + st.length) : TurnCalm t o (repTurn p sep stop st) := by
  obtain ⟨⟨inp, off⟩, items, l⟩ := st
  dsimp only at h1 h3 h4
  subst h1
  unfold repTurn
  dsimp only
  split
  · show o + l ≤ inp.length; omega
  · cases sep with
    | none => exact repItem_calm rfl h3 h4
    | some q =>
      have := (hsep q rfl).calm off h3
      dsimp only
      cases h : q ⟨inp, off⟩ with
      | success b k =>
        rw [h] at this
        have h5 : off + k ≤ inp.length := this
        exact repItem_calm rfl h5 (by simp only [State.advanceBy]; omega)
      | failure e c => show o + l ≤ inp.length; omega
      | panic => rw [h] at this; exact this
      | diverge => trivial

theorem repLoop_calm [hp : Calm t p] {sep : Option (Parser I B)} (hsep : ∀ q, sep = some q → Calm t q)
    (stop : Bound) : ∀ (fuel : Nat) (st : LoopState I A) (o : Nat), st.cur.input = t → st.cur.offset ≤ t.length →
      st.cur.offset = o + st.length → LoopCalm t o (repLoop p sep stop fuel st) := by
  intro fuel
  induction fuel with
  | zero => intro st o _ _ _; trivial
  | succ fuel ih =>
    intro st o h1 h3 h4
    have ht := repTurn_calm (p := p) hsep stop h1 h3 h4
    rw [repLoop]
    cases h : repTurn p sep stop st with
    | again st' => rw [h] at ht; exact ih st' o ht.1 ht.2.1 ht.2.2
    | exit items l => rw [h] at ht; exact ht
    | panic => rw [h] at ht; exact ht
    | diverge => trivial

theorem repFinish_calm (range : Range) (k : Nat) (items : List A) (l : Nat) (h : k + l ≤ t.length) :
    CalmAt ⟨t, k⟩ (repFinish range ⟨t, k⟩ items l) := by
  unfold repFinish
  split
  · split
    · simp [State.withInput, State.advanceBy, h, CalmAt]
    · exact h
  · exact h

theorem calm_repeatSep [hp : Calm t p] (range : Range) (sep : Option (Parser I B)) (hsep : ∀ q, sep = some q → Calm t q) :
    Calm t (repeatSep p range sep) := ⟨fun k hk => by
  have h1 := hp.calm k hk
  unfold repeatSep
  cases h : p ⟨t, k⟩ with
  | success v i =>
    rw [h] at h1
    have h1' : k + i ≤ t.length := h1
    have h2 := repLoop_calm (p := p) hsep range.stop (repFuel range.stop ⟨t, k⟩) ⟨⟨t, k + i⟩, [v], i⟩ k rfl h1' rfl
    dsimp only [State.advanceBy]
    cases h3 : repLoop p sep range.stop (repFuel range.stop ⟨t, k⟩) ⟨⟨t, k + i⟩, [v], i⟩ with
    | exit items l => rw [h3] at h2; exact repFinish_calm range k items l h2
    | panic => rw [h3] at h2; exact h2
    | diverge => trivial
  | failure e c => exact repFinish_calm range k [] 0 hk
  | panic => rw [h] at h1; exact h1
  | diverge => trivial⟩

instance [Calm t p] : Calm t (many0 p) := calm_repeatSep _ none fun q hq => by cases hq
instance [Calm t p] : Calm t (many1 p) := calm_repeatSep _ none fun q hq => by cases hq
instance [Calm t p] [h : Calm t q] : Calm t (many0Sep p q) := calm_repeatSep _ (some q) fun q' hq => by cases hq; exact h
instance [Calm t p] [h : Calm t q] : Calm t (many1Sep p q) := calm_repeatSep _ (some q) fun q' hq => by cases hq; exact h
end instances

theorem parse_calm {t : List I} {p : Parser I A} [hp : Calm t p] : parse p t ≠ .panic := by
  have := hp.calm 0 (Nat.zero_le _)
  unfold parse
  cases h : p ⟨t, 0⟩ with
  | panic => rw [h] at this; exact this.elim
  | _ => simp [Res.toOut]

end OniComb
