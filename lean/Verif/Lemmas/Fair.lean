import Verif.Model.Steps
import Verif.Props.Repeat

/-! # Helper lemmas: bounds for the steps of counted parsers -/

namespace OniComb.Steps
open OniComb
variable {I A B C : Type}

/-- The next element. -/
def next (s : State I) : Option I := (s.input.drop s.offset).head?

/-- How many elements are left. -/
def left (s : State I) : Nat := s.input.length - s.offset

/-- No element. -/
abbrev Never : I → Prop := fun _ => False

/-- A success that takes `n ≥ lo` elements takes at most `a * n + w` steps, or the next element is in `E` and it may have looked
at all that is left. Everything else takes at most `a * left + w` steps; a failure at an element that is not in `S` takes
at most `w` steps. -/
structure Fair (a w lo : Nat) (E S : I → Prop) (c : Counted I A) : Prop where
  ok : ∀ s v n, s.offset ≤ s.input.length → c.run s = .success v n → lo ≤ n ∧ n ≤ left s ∧
    (c.steps s ≤ a * n + w ∨ (c.steps s ≤ a * left s + w ∧ ∃ x, next (s.advanceBy n) = some x ∧ E x))
  other : ∀ s, s.offset ≤ s.input.length → (∀ v n, c.run s ≠ .success v n) → c.steps s ≤ a * left s + w
  cheap : ∀ s e st, s.offset ≤ s.input.length → c.run s = .failure e st → (∀ x, next s = some x → ¬S x) → c.steps s ≤ w

/-- At the elements in `S` there is no success, and this is seen in `w` steps. -/
def Misses (S : I → Prop) (w : Nat) (c : Counted I A) : Prop :=
  ∀ s x, s.offset ≤ s.input.length → next s = some x → S x → (∀ v n, c.run s ≠ .success v n) ∧ c.steps s ≤ w

/-- Successes begin with an element in `T`, or at the end. -/
def Starts (T : I → Prop) (c : Counted I A) : Prop :=
  ∀ s v n x, s.offset ≤ s.input.length → c.run s = .success v n → next s = some x → T x

/-- After a success the next element is not in `Z`. -/
def Clears (Z : I → Prop) (c : Counted I A) : Prop :=
  ∀ s v n x, s.offset ≤ s.input.length → c.run s = .success v n → next (s.advanceBy n) = some x → ¬Z x

variable {a w w' lo lo' : Nat} {E E' S S' T : I → Prop}

theorem left_advance {s : State I} {n : Nat} (h : n ≤ left s) : left s = n + left (s.advanceBy n) := by
  simp only [left, State.advanceBy] at *
  omega

theorem fits_advance {s : State I} {n : Nat} (hs : s.offset ≤ s.input.length) (h : n ≤ left s) :
    (s.advanceBy n).offset ≤ (s.advanceBy n).input.length := by
  simp only [left, State.advanceBy] at *
  omega

theorem advance_zero (s : State I) : s.advanceBy 0 = s := rfl

theorem advance_advance (s : State I) (n m : Nat) : (s.advanceBy n).advanceBy m = s.advanceBy (n + m) := by
  simp [State.advanceBy, Nat.add_assoc]

theorem next_none {s : State I} (h : next s = none) : left s = 0 := by
  simp only [next, List.head?_eq_none_iff, List.drop_eq_nil_iff] at h
  simp only [left]
  omega

theorem next_some {s : State I} {x : I} (h : next s = some x) : ∃ t, s.input.drop s.offset = x :: t := by
  unfold next at h
  cases hd : s.input.drop s.offset with
  | nil => rw [hd] at h; simp at h
  | cons y t =>
    rw [hd] at h
    simp only [List.head?_cons, Option.some.injEq] at h
    exact ⟨t, by rw [h]⟩

theorem Fair.mono {a' : Nat} {c : Counted I A} (h : Fair a w lo E S c) (ha : a ≤ a') (hw : w ≤ w') (hl : lo' ≤ lo)
    (hE : ∀ x, E x → E' x) (hS : ∀ x, S x → S' x) : Fair a' w' lo' E' S' c where
  ok := by
    intro s v n hs hr
    obtain ⟨h1, h2, h3⟩ := h.ok s v n hs hr
    have m1 : a * n ≤ a' * n := Nat.mul_le_mul_right _ ha
    have m2 : a * left s ≤ a' * left s := Nat.mul_le_mul_right _ ha
    refine ⟨by omega, h2, ?_⟩
    rcases h3 with h3 | ⟨h3, x, hx, hE'⟩
    · exact .inl (by omega)
    · exact .inr ⟨by omega, x, hx, hE x hE'⟩
  other := by
    intro s hs hr
    have := h.other s hs hr
    have m2 : a * left s ≤ a' * left s := Nat.mul_le_mul_right _ ha
    omega
  cheap := by
    intro s e st hs hr hn
    exact Nat.le_trans (h.cheap s e st hs hr fun x hx hS' => hn x hx (hS x hS')) hw

/-- With a constant number of steps failures are cheap. -/
theorem Fair.const {c : Counted I A} (h : Fair 0 w lo E S c) : Fair 0 w lo Never Never c where
  ok := by
    intro s v n hs hr
    obtain ⟨h1, h2, h3⟩ := h.ok s v n hs hr
    refine ⟨h1, h2, .inl ?_⟩
    rcases h3 with h3 | ⟨h3, -⟩ <;> omega
  other := h.other
  cheap := by
    intro s e st hs hr _
    have := h.other s hs (by rw [hr]; simp)
    omega

/-- Steps bounded by a constant. -/
theorem Fair.of_const {c : Counted I A} (h : ∀ s v n, s.offset ≤ s.input.length → c.run s = .success v n → lo ≤ n ∧ n ≤ left s)
    (hw : ∀ s, s.offset ≤ s.input.length → c.steps s ≤ w) : Fair 0 w lo Never Never c where
  ok := fun s v n hs hr => ⟨(h s v n hs hr).1, (h s v n hs hr).2, .inl (by have := hw s hs; omega)⟩
  other := fun s hs _ => by have := hw s hs; omega
  cheap := fun s _ _ hs _ _ => hw s hs

/-! ### One argument -/

/-- A combinator that changes neither whether there is a success nor the elements taken. -/
structure Same (G : Parser I A → Parser I B) : Prop where
  ok : ∀ p s v n, G p s = .success v n → ∃ v', p s = .success v' n
  done : ∀ p s v n, s.offset ≤ s.input.length → n ≤ left s → p s = .success v n → ∃ v', G p s = .success v' n
  fail : ∀ p s e st, s.offset ≤ s.input.length → G p s = .failure e st → ∃ e' st', p s = .failure e' st'

theorem same_map (f : A → B) : Same (I := I) (fun p => map p f) where
  ok := by intro p s v n h; simp only [map] at h; split at h <;> simp_all
  done := by intro p s v n _ _ h; simp [map, h]
  fail := by intro p s e st _ h; simp only [map] at h; split at h <;> simp_all

theorem same_discard : Same (I := I) (A := A) discard where
  ok := by intro p s v n h; simp only [discard] at h; split at h <;> simp_all
  done := by intro p s v n _ _ h; simp [discard, h]
  fail := by intro p s e st _ h; simp only [discard] at h; split at h <;> simp_all

theorem same_optional : Same (I := I) (A := A) (fun p => map (attempt p) some) where
  ok := by
    intro p s v n h
    simp only [map, attempt, Res.withUncommitted] at h
    cases hp : p s with
    | success v' n' => simp [hp] at h; exact ⟨v', by rw [h.2]⟩
    | failure e c => cases c <;> simp [hp] at h
    | _ => simp [hp] at h
  done := by intro p s v n _ _ h; simp [map, attempt, Res.withUncommitted, h]
  fail := by
    intro p s e st _ h
    simp only [map, attempt, Res.withUncommitted] at h
    cases hp : p s with
    | failure e c => exact ⟨_, _, rfl⟩
    | _ => simp [hp] at h

theorem same_attempt : Same (I := I) (A := A) attempt where
  ok := by
    intro p s v n h
    simp only [attempt, Res.withUncommitted] at h
    cases hp : p s with
    | success v' n' => simp [hp] at h; exact ⟨v', by rw [h.2]⟩
    | failure e c => cases c <;> simp [hp] at h
    | _ => simp [hp] at h
  done := by intro p s v n _ _ h; exact ⟨v, by simp [attempt, Res.withUncommitted, h]⟩
  fail := by
    intro p s e st _ h
    simp only [attempt, Res.withUncommitted] at h
    cases hp : p s with
    | failure e c => exact ⟨_, _, rfl⟩
    | _ => simp [hp] at h

theorem same_collect : Same (I := I) (A := A) collect where
  ok := by
    intro p s v n h
    simp only [collect] at h
    cases hp : p s with
    | success v' n' =>
      simp only [hp, State.withSlice] at h
      split at h <;> simp at h
      exact ⟨v', by rw [h.2]⟩
    | _ => simp [hp] at h
  done := by
    intro p s v n hs hn h
    have : s.offset + n ≤ s.input.length := by simp only [left] at hn; omega
    simp [collect, h, State.withSlice, this]
  fail := by
    intro p s e st _ h
    simp only [collect] at h
    cases hp : p s with
    | success v' n' =>
      simp only [hp, State.withSlice] at h
      split at h <;> simp at h
    | failure e c => exact ⟨_, _, rfl⟩
    | _ => simp [hp] at h

theorem Fair.unary {G : Parser I A → Parser I B} (hG : Same G) {c : Counted I A} (h : Fair a w lo E S c) :
    Fair a w lo E S (.unary G c) where
  ok := by
    intro s v n hs hr
    obtain ⟨v', hr'⟩ := hG.ok _ _ _ _ hr
    exact h.ok s v' n hs hr'
  other := by
    intro s hs hr
    refine h.other s hs fun v n hv => ?_
    obtain ⟨v', hv'⟩ := hG.done _ _ _ _ hs (h.ok s v n hs hv).2.1 hv
    exact hr v' n hv'
  cheap := by
    intro s e st hs hr hn
    obtain ⟨e', st', hr'⟩ := hG.fail _ _ _ _ hs hr
    exact h.cheap s e' st' hs hr' hn

theorem Misses.mono {c : Counted I A} (h : Misses S w c) (hw : w ≤ w') (hS : ∀ x, S' x → S x) : Misses S' w' c := fun s x hs hx hS' =>
  have h := h s x hs hx (hS x hS')
  ⟨h.1, Nat.le_trans h.2 hw⟩

theorem Starts.mono {T' : I → Prop} {c : Counted I A} (h : Starts T c) (hT : ∀ x, T x → T' x) : Starts T' c :=
  fun s v n x hs hr hx => hT x (h s v n x hs hr hx)

theorem starts_any (c : Counted I A) : Starts (fun _ => True) c := fun _ _ _ _ _ _ _ => trivial

theorem misses_never (c : Counted I A) : Misses Never w c := fun _ _ _ _ h => h.elim

theorem Misses.unary {G : Parser I A → Parser I B} (hG : Same G) {c : Counted I A} (h : Misses S w c) : Misses S w (.unary G c) := by
  intro s x hs hx hS
  obtain ⟨h1, h2⟩ := h s x hs hx hS
  exact ⟨fun v n hv => (hG.ok _ _ _ _ hv).elim fun v' hv' => h1 v' n hv', h2⟩

theorem Starts.unary {G : Parser I A → Parser I B} (hG : Same G) {c : Counted I A} (h : Starts T c) : Starts T (.unary G c) := by
  intro s v n x hs hv hx
  obtain ⟨v', hv'⟩ := hG.ok _ _ _ _ hv
  exact h s v' n x hs hv' hx

theorem Fair.mapRes {c : Counted I A} (h : Fair a w lo Never S c) (hT : Starts T c) (f : A → Option B) :
    Fair a w lo Never (fun x => S x ∨ T x) (.unary (fun p => OniComb.mapRes p f) c) where
  ok := by
    intro s v n hs hr
    have hr : OniComb.mapRes c.run f s = .success v n := hr
    simp only [OniComb.mapRes] at hr
    cases hp : c.run s with
    | success v' n' =>
      simp only [hp] at hr
      split at hr
      · simp only [Res.success.injEq] at hr
        obtain ⟨-, rfl⟩ := hr
        exact h.ok s v' n' hs hp
      · simp [State.withInput, hs] at hr
    | _ => simp [hp] at hr
  other := by
    intro s hs _
    show c.steps s ≤ _
    by_cases hp : ∃ v n, c.run s = .success v n
    · obtain ⟨v, n, hp⟩ := hp
      obtain ⟨-, h2, h3⟩ := h.ok s v n hs hp
      have := Nat.mul_le_mul_left a h2
      rcases h3 with h3 | ⟨h3, -⟩ <;> omega
    · exact h.other s hs fun v n hv => hp ⟨v, n, hv⟩
  cheap := by
    intro s e st hs hr hn
    show c.steps s ≤ w
    have hr : OniComb.mapRes c.run f s = .failure e st := hr
    simp only [OniComb.mapRes] at hr
    cases hp : c.run s with
    | success v' n' =>
      obtain ⟨-, h2, h3⟩ := h.ok s v' n' hs hp
      cases hx : next s with
      | none =>
        have := next_none hx
        have h0 : n' = 0 := by omega
        subst h0
        rcases h3 with h3 | ⟨-, x, -, hx⟩
        · simpa using h3
        · exact hx.elim
      | some x => exact (hn x hx (.inr (hT s v' n' x hs hp hx))).elim
    | failure e' st' => exact h.cheap s e' st' hs hp fun x hx hS => hn x hx (.inl hS)
    | _ => simp [hp] at hr

theorem Starts.mapRes {c : Counted I A} (h : Starts T c) (f : A → Option B) : Starts T (.unary (fun p => OniComb.mapRes p f) c) := by
  intro s v n x hs hr hx
  have hr : OniComb.mapRes c.run f s = .success v n := hr
  simp only [OniComb.mapRes] at hr
  cases hp : c.run s with
  | success v' n' => exact h s v' n' x hs hp hx
  | _ => simp [hp] at hr

theorem Fair.lazy {f : Unit → Counted I A} (h : Fair a w lo E S (f ())) : Fair a (w + 1) lo E S (.lazy f) where
  ok := by
    intro s v n hs hr
    obtain ⟨h1, h2, h3⟩ := h.ok s v n hs hr
    refine ⟨h1, h2, ?_⟩
    show 1 + (f ()).steps s ≤ _ ∨ (1 + (f ()).steps s ≤ _ ∧ _)
    rcases h3 with h3 | ⟨h3, hx⟩
    · exact .inl (by omega)
    · exact .inr ⟨by omega, hx⟩
  other := by
    intro s hs hr
    have := h.other s hs hr
    show 1 + (f ()).steps s ≤ _
    omega
  cheap := by
    intro s e st hs hr hn
    have := h.cheap s e st hs hr hn
    show 1 + (f ()).steps s ≤ _
    omega

/-! ### Two parsers, one after the other -/

/-- `c` runs `p` and then `q`. -/
structure Both (c : Counted I C) (p : Counted I A) (q : Counted I B) : Prop where
  steps : ∀ s, c.steps s = p.steps s + (p.run s).onSuccess fun _ n => q.steps (s.advanceBy n)
  ok : ∀ s v n, c.run s = .success v n → ∃ v1 n1 v2 n2, p.run s = .success v1 n1 ∧ q.run (s.advanceBy n1) = .success v2 n2 ∧
    n = n1 + n2
  done : ∀ s v1 n1 v2 n2, p.run s = .success v1 n1 → q.run (s.advanceBy n1) = .success v2 n2 → ∃ v, c.run s = .success v (n1 + n2)
  fail : ∀ s e st, c.run s = .failure e st → (∃ e' st', p.run s = .failure e' st') ∨
    ∃ v1 n1 e' st', p.run s = .success v1 n1 ∧ q.run (s.advanceBy n1) = .failure e' st'

theorem both_andThen (p : Counted I A) (q : Counted I B) : Both (.andThen p q) p q where
  steps := fun _ => rfl
  ok := by
    intro s v n h
    have h : OniComb.andThen p.run q.run s = .success v n := h
    simp only [OniComb.andThen] at h
    cases hp : p.run s with
    | success v1 n1 =>
      simp only [hp] at h
      cases hq : q.run (s.advanceBy n1) with
      | success v2 n2 => simp only [hq, Res.success.injEq] at h; exact ⟨v1, n1, v2, n2, rfl, hq, h.2.symm⟩
      | _ => simp [hq] at h
    | _ => simp [hp] at h
  done := by
    intro s v1 n1 v2 n2 h1 h2
    exact ⟨(v1, v2), by show OniComb.andThen p.run q.run s = _; simp [OniComb.andThen, h1, h2]⟩
  fail := by
    intro s e st h
    have h : OniComb.andThen p.run q.run s = .failure e st := h
    simp only [OniComb.andThen] at h
    cases hp : p.run s with
    | success v1 n1 =>
      simp only [hp] at h
      cases hq : q.run (s.advanceBy n1) with
      | failure e' st' => exact .inr ⟨v1, n1, e', st', rfl, hq⟩
      | _ => simp [hq] at h
    | failure e' st' => exact .inl ⟨e', st', rfl⟩
    | _ => simp [hp] at h

theorem both_skipLeft (p : Counted I A) (q : Counted I B) : Both (.skipLeft p q) p q where
  steps := fun _ => rfl
  ok := by
    intro s v n h
    have h : OniComb.skipLeft p.run q.run s = .success v n := h
    simp only [OniComb.skipLeft] at h
    cases hp : p.run s with
    | success v1 n1 =>
      simp only [hp] at h
      cases hq : q.run (s.advanceBy n1) with
      | success v2 n2 => simp only [hq, Res.success.injEq] at h; exact ⟨v1, n1, v2, n2, rfl, hq, h.2.symm⟩
      | _ => simp [hq] at h
    | _ => simp [hp] at h
  done := by
    intro s v1 n1 v2 n2 h1 h2
    exact ⟨v2, by show OniComb.skipLeft p.run q.run s = _; simp [OniComb.skipLeft, h1, h2]⟩
  fail := by
    intro s e st h
    have h : OniComb.skipLeft p.run q.run s = .failure e st := h
    simp only [OniComb.skipLeft] at h
    cases hp : p.run s with
    | success v1 n1 =>
      simp only [hp] at h
      cases hq : q.run (s.advanceBy n1) with
      | failure e' st' => exact .inr ⟨v1, n1, e', st', rfl, hq⟩
      | _ => simp [hq] at h
    | failure e' st' => exact .inl ⟨e', st', rfl⟩
    | _ => simp [hp] at h

theorem both_skipRight (p : Counted I A) (q : Counted I B) : Both (.skipRight p q) p q where
  steps := fun _ => rfl
  ok := by
    intro s v n h
    have h : OniComb.skipRight p.run q.run s = .success v n := h
    simp only [OniComb.skipRight] at h
    cases hp : p.run s with
    | success v1 n1 =>
      simp only [hp] at h
      cases hq : q.run (s.advanceBy n1) with
      | success v2 n2 => simp only [hq, Res.success.injEq] at h; exact ⟨v1, n1, v2, n2, rfl, hq, h.2.symm⟩
      | _ => simp [hq, Res.advanceSuccess] at h
    | _ => simp [hp] at h
  done := by
    intro s v1 n1 v2 n2 h1 h2
    exact ⟨v1, by show OniComb.skipRight p.run q.run s = _; simp [OniComb.skipRight, h1, h2]⟩
  fail := by
    intro s e st h
    have h : OniComb.skipRight p.run q.run s = .failure e st := h
    simp only [OniComb.skipRight] at h
    cases hp : p.run s with
    | success v1 n1 =>
      simp only [hp] at h
      cases hq : q.run (s.advanceBy n1) with
      | failure e' st' => exact .inr ⟨v1, n1, e', st', rfl, hq⟩
      | _ => simp [hq] at h
    | failure e' st' => exact .inl ⟨e', st', rfl⟩
    | _ => simp [hp] at h

section
variable {c : Counted I C} {p : Counted I A} {q : Counted I B}

theorem Both.steps_ok (hc : Both c p q) {s : State I} {v : A} {n : Nat} (h : p.run s = .success v n) :
    c.steps s = p.steps s + q.steps (s.advanceBy n) := by
  rw [hc.steps, h]; rfl

theorem Both.steps_other (hc : Both c p q) {s : State I} (h : ∀ v n, p.run s ≠ .success v n) : c.steps s = p.steps s := by
  rw [hc.steps]
  cases hp : p.run s with
  | success v n => exact (h v n hp).elim
  | _ => rfl

theorem Starts.both (hc : Both c p q) (h : Starts T p) : Starts T c := by
  intro s v n x hs hv hx
  obtain ⟨v1, n1, -, -, h1, -, -⟩ := hc.ok s v n hv
  exact h s v1 n1 x hs h1 hx

theorem Clears.both (hc : Both c p q) (hp : Fair a w lo E S p) (h : Clears T q) : Clears T c := by
  intro s v n x hs hv hx
  obtain ⟨v1, n1, v2, n2, h1, h2, rfl⟩ := hc.ok s v n hv
  rw [← advance_advance] at hx
  exact h _ _ _ _ (fits_advance hs (hp.ok _ _ _ hs h1).2.1) h2 hx

theorem Misses.both (hc : Both c p q) (h : Misses S w p) : Misses S w c := by
  intro s x hs hx hS
  obtain ⟨h1, h2⟩ := h s x hs hx hS
  refine ⟨fun v n hv => ?_, ?_⟩
  · obtain ⟨v1, n1, -, -, h, -, -⟩ := hc.ok s v n hv
    exact h1 v1 n1 h
  · rw [hc.steps_other h1]; exact h2

/-- The first part succeeds without taking anything. -/
theorem Misses.after (hc : Both c p q) (hp : ∀ s x, s.offset ≤ s.input.length → next s = some x → S x →
    ∃ v, p.run s = .success v 0 ∧ p.steps s ≤ w) (h : Misses S w' q) : Misses S (w + w') c := by
  intro s x hs hx hS
  obtain ⟨v, hv, hw⟩ := hp s x hs hx hS
  obtain ⟨h1, h2⟩ := h s x hs hx hS
  refine ⟨fun v' n hv' => ?_, ?_⟩
  · obtain ⟨v1, n1, v2, n2, h3, h4, -⟩ := hc.ok s v' n hv'
    rw [hv] at h3
    simp only [Res.success.injEq] at h3
    obtain ⟨-, rfl⟩ := h3
    exact h1 v2 n2 h4
  · rw [hc.steps_ok hv, advance_zero]; omega

theorem both_ok (hc : Both c p q) (hp : Fair a w lo E S p) (hq : Fair a w' lo' E' S' q) (hm : Misses E w' q) (s : State I) (v : C)
    (n : Nat) (hs : s.offset ≤ s.input.length) (hr : c.run s = .success v n) : lo + lo' ≤ n ∧ n ≤ left s ∧
    (c.steps s ≤ a * n + (w + w') ∨ (c.steps s ≤ a * left s + (w + w') ∧ ∃ x, next (s.advanceBy n) = some x ∧ E' x)) := by
  obtain ⟨v1, n1, v2, n2, h1, h2, rfl⟩ := hc.ok s v n hr
  obtain ⟨p1, p2, p3⟩ := hp.ok s v1 n1 hs h1
  have hs' := fits_advance hs p2
  obtain ⟨q1, q2, q3⟩ := hq.ok _ v2 n2 hs' h2
  have hl := left_advance p2
  have hla : a * left s = a * n1 + a * left (s.advanceBy n1) := by rw [hl, Nat.mul_add]
  have hna : a * (n1 + n2) = a * n1 + a * n2 := Nat.mul_add _ _ _
  have hle := Nat.mul_le_mul_left a q2
  rw [hc.steps_ok h1]
  refine ⟨by omega, by omega, ?_⟩
  rcases p3 with p3 | ⟨-, x, hx, hE⟩
  · rcases q3 with q3 | ⟨q3, y, hy, hE⟩
    · exact .inl (by omega)
    · exact .inr ⟨by omega, y, by rwa [advance_advance] at hy, hE⟩
  · exact ((hm _ x hs' hx hE).1 _ _ h2).elim

theorem both_other (hc : Both c p q) (hp : Fair a w lo E S p) (hq : Fair a w' lo' E' S' q) (hm : Misses E w' q) (s : State I)
    (hs : s.offset ≤ s.input.length) (hr : ∀ v n, c.run s ≠ .success v n) : c.steps s ≤ a * left s + (w + w') := by
  by_cases h1 : ∃ v n, p.run s = .success v n
  · obtain ⟨v1, n1, h1⟩ := h1
    obtain ⟨-, p2, p3⟩ := hp.ok s v1 n1 hs h1
    have hs' := fits_advance hs p2
    have hl := left_advance p2
    have hla : a * left s = a * n1 + a * left (s.advanceBy n1) := by rw [hl, Nat.mul_add]
    rw [hc.steps_ok h1]
    have h2 : ∀ v n, q.run (s.advanceBy n1) ≠ .success v n := fun v n h2 =>
      (hc.done s v1 n1 v n h1 h2).elim fun v hv => hr _ _ hv
    have := hq.other _ hs' h2
    rcases p3 with p3 | ⟨p3, x, hx, hE⟩
    · omega
    · have := (hm _ x hs' hx hE).2
      omega
  · have h1 : ∀ v n, p.run s ≠ .success v n := fun v n h => h1 ⟨v, n, h⟩
    rw [hc.steps_other h1]
    have := hp.other s hs h1
    omega

/-- One after the other. -/
theorem Fair.both (hc : Both c p q) (hp : Fair a w lo E S p) (hT : Starts T p) (hq : Fair a w' lo' E' S' q) (hm : Misses E w' q) :
    Fair a (w + w') (lo + lo') E' (fun x => S x ∨ T x) c where
  ok := both_ok hc hp hq hm
  other := both_other hc hp hq hm
  cheap := by
    intro s e st hs hr hn
    rcases hc.fail s e st hr with ⟨e', st', h1⟩ | ⟨v1, n1, e', st', h1, h2⟩
    · rw [hc.steps_other (by rw [h1]; simp)]
      exact Nat.le_trans (hp.cheap s e' st' hs h1 fun x hx hS => hn x hx (.inl hS)) (by omega)
    · cases hx : next s with
      | none =>
        have := both_other hc hp hq hm s hs (by rw [hr]; simp)
        rw [next_none hx] at this
        omega
      | some x => exact (hn x hx (.inr (hT s v1 n1 x hs h1 hx))).elim

/-- The first part takes a constant number of steps. -/
theorem Fair.both_const (hc : Both c p q) (hp : Fair 0 w lo Never Never p) (hq : Fair a w' lo' E' Never q) :
    Fair a (w + w') (lo + lo') E' Never c where
  ok := both_ok hc (hp.mono (Nat.zero_le a) (Nat.le_refl _) (Nat.le_refl _) (fun _ h => h) fun _ h => h) hq fun _ _ _ _ h => h.elim
  other := both_other hc (hp.mono (Nat.zero_le a) (Nat.le_refl _) (Nat.le_refl _) (fun _ h => h) fun _ h => h) hq
    fun _ _ _ _ h => h.elim
  cheap := by
    intro s e st hs hr _
    rcases hc.fail s e st hr with ⟨e', st', h1⟩ | ⟨v1, n1, e', st', h1, h2⟩
    · rw [hc.steps_other (by rw [h1]; simp)]
      exact Nat.le_trans (hp.cheap s e' st' hs h1 fun _ _ h => h) (by omega)
    · rw [hc.steps_ok h1]
      obtain ⟨-, p2, p3⟩ := hp.ok s v1 n1 hs h1
      have := hq.cheap _ e' st' (fits_advance hs p2) h2 fun _ _ h => h
      rcases p3 with p3 | ⟨-, x, -, hx⟩
      · omega
      · exact hx.elim

/-- The second part never fails. -/
theorem Fair.both_firm (hc : Both c p q) (hp : Fair a w lo E S p) (hq : Fair a w' lo' E' S' q) (hm : Misses E w' q)
    (hf : ∀ s e st, q.run s ≠ .failure e st) : Fair a (w + w') (lo + lo') E' S c where
  ok := both_ok hc hp hq hm
  other := both_other hc hp hq hm
  cheap := by
    intro s e st hs hr hn
    rcases hc.fail s e st hr with ⟨e', st', h1⟩ | ⟨v1, n1, e', st', h1, h2⟩
    · rw [hc.steps_other (by rw [h1]; simp)]
      exact Nat.le_trans (hp.cheap s e' st' hs h1 hn) (by omega)
    · exact (hf _ _ _ h2).elim

/-- The elements that the first part takes pay for the second one. -/
theorem Fair.paid {b : Nat} (hc : Both c p q) (hp : Fair b w 1 Never S p) (hT : Starts T p) (hq : Fair a w' lo' Never S' q)
    (ha : b + w + w' ≤ a) : Fair a w (1 + lo') Never (fun x => S x ∨ T x) c where
  ok := by
    intro s v n hs hr
    obtain ⟨v1, n1, v2, n2, h1, h2, rfl⟩ := hc.ok s v n hr
    obtain ⟨p1, p2, p3⟩ := hp.ok s v1 n1 hs h1
    obtain ⟨q1, q2, q3⟩ := hq.ok _ v2 n2 (fits_advance hs p2) h2
    have hl := left_advance p2
    have hna : a * (n1 + n2) = a * n1 + a * n2 := Nat.mul_add _ _ _
    have h4 : (b + w + w') * n1 ≤ a * n1 := Nat.mul_le_mul_right _ ha
    have h5 : (b + w + w') * n1 = b * n1 + w * n1 + w' * n1 := by rw [Nat.add_mul, Nat.add_mul]
    have h6 : w ≤ w * n1 := Nat.le_mul_of_pos_right _ p1
    have h7 : w' ≤ w' * n1 := Nat.le_mul_of_pos_right _ p1
    rw [hc.steps_ok h1]
    refine ⟨by omega, by omega, ?_⟩
    rcases p3 with p3 | ⟨-, x, -, hx⟩
    · rcases q3 with q3 | ⟨-, x, -, hx⟩
      · exact .inl (by omega)
      · exact hx.elim
    · exact hx.elim
  other := by
    intro s hs hr
    have hb : b * left s ≤ a * left s := Nat.mul_le_mul_right _ (by omega)
    by_cases h1 : ∃ v n, p.run s = .success v n
    · obtain ⟨v1, n1, h1⟩ := h1
      obtain ⟨p1, p2, p3⟩ := hp.ok s v1 n1 hs h1
      have hs' := fits_advance hs p2
      have hl := left_advance p2
      have hla : a * left s = a * n1 + a * left (s.advanceBy n1) := by rw [hl, Nat.mul_add]
      rw [hc.steps_ok h1]
      have h2 : ∀ v n, q.run (s.advanceBy n1) ≠ .success v n := fun v n h2 =>
        (hc.done s v1 n1 v n h1 h2).elim fun v hv => hr _ _ hv
      have := hq.other _ hs' h2
      have h4 : (b + w + w') * n1 ≤ a * n1 := Nat.mul_le_mul_right _ ha
      have h5 : (b + w + w') * n1 = b * n1 + w * n1 + w' * n1 := by rw [Nat.add_mul, Nat.add_mul]
      have h6 : w ≤ w * n1 := Nat.le_mul_of_pos_right _ p1
      have h7 : w' ≤ w' * n1 := Nat.le_mul_of_pos_right _ p1
      rcases p3 with p3 | ⟨-, x, -, hx⟩
      · omega
      · exact hx.elim
    · have h1 : ∀ v n, p.run s ≠ .success v n := fun v n h => h1 ⟨v, n, h⟩
      rw [hc.steps_other h1]
      have := hp.other s hs h1
      omega
  cheap := by
    intro s e st hs hr hn
    rcases hc.fail s e st hr with ⟨e', st', h1⟩ | ⟨v1, n1, e', st', h1, h2⟩
    · rw [hc.steps_other (by rw [h1]; simp)]
      exact hp.cheap s e' st' hs h1 fun x hx hS => hn x hx (.inl hS)
    · obtain ⟨p1, p2, -⟩ := hp.ok s v1 n1 hs h1
      cases hx : next s with
      | none => have := next_none hx; omega
      | some x => exact (hn x hx (.inr (hT s v1 n1 x hs h1 hx))).elim

end

/-! ### Alternatives -/

section
variable {p q : Counted I A}

/-- If the first alternative fails, then it has failed soon, or the second one fails soon. -/
theorem Fair.or' (hp : Fair a w lo E S p) (hq : Fair a w' lo E S' q)
    (hm : ∀ s e, s.offset ≤ s.input.length → p.run s = .failure e .uncommitted → p.steps s ≤ w ∨
      ((∀ v n, q.run s ≠ .success v n) ∧ q.steps s ≤ w')) : Fair a (w + w') lo E (fun x => S x ∨ S' x) (.or p q) where
  ok := by
    intro s v n hs hr
    have hr : OniComb.or p.run q.run s = .success v n := hr
    show lo ≤ n ∧ n ≤ left s ∧ (p.steps s + (p.run s).onUncommitted (q.steps s) ≤ _ ∨
      (p.steps s + (p.run s).onUncommitted (q.steps s) ≤ _ ∧ _))
    simp only [OniComb.or] at hr
    cases h : p.run s with
    | success v' n' =>
      simp only [h, Res.success.injEq] at hr
      obtain ⟨-, rfl⟩ := hr
      obtain ⟨p1, p2, p3⟩ := hp.ok s v' n' hs h
      refine ⟨p1, p2, ?_⟩
      simp only [Res.onUncommitted]
      rcases p3 with p3 | ⟨p3, hx⟩
      · exact .inl (by omega)
      · exact .inr ⟨by omega, hx⟩
    | failure e st =>
      cases st with
      | committed => simp [h] at hr
      | uncommitted =>
        simp only [h] at hr
        obtain ⟨q1, q2, q3⟩ := hq.ok s v n hs hr
        refine ⟨q1, q2, ?_⟩
        simp only [Res.onUncommitted]
        rcases hm s e hs h with h4 | ⟨h4, -⟩
        · rcases q3 with q3 | ⟨q3, hx⟩
          · exact .inl (by omega)
          · exact .inr ⟨by omega, hx⟩
        · exact (h4 v n hr).elim
    | _ => simp [h] at hr
  other := by
    intro s hs hr
    have hr : ∀ v n, OniComb.or p.run q.run s ≠ .success v n := hr
    show p.steps s + (p.run s).onUncommitted (q.steps s) ≤ _
    simp only [OniComb.or] at hr
    cases h : p.run s with
    | success v' n' => exact (hr v' n' (by rw [h])).elim
    | failure e st =>
      have h1 := hp.other s hs (by rw [h]; simp)
      cases st with
      | committed => simp only [Res.onUncommitted]; omega
      | uncommitted =>
        have h2 := hq.other s hs (by simpa only [h] using hr)
        simp only [Res.onUncommitted]
        rcases hm s e hs h with h4 | ⟨-, h4⟩ <;> omega
    | _ =>
      have h1 := hp.other s hs (by rw [h]; simp)
      simp only [Res.onUncommitted]
      omega
  cheap := by
    intro s e st hs hr hn
    have hr : OniComb.or p.run q.run s = .failure e st := hr
    show p.steps s + (p.run s).onUncommitted (q.steps s) ≤ _
    simp only [OniComb.or] at hr
    cases h : p.run s with
    | failure e' st' =>
      have h1 := hp.cheap s e' st' hs h fun x hx hS => hn x hx (.inl hS)
      cases st' with
      | committed => simp only [Res.onUncommitted]; omega
      | uncommitted =>
        simp only [h] at hr
        have h2 := hq.cheap s e st hs hr fun x hx hS => hn x hx (.inr hS)
        simp only [Res.onUncommitted]
        omega
    | _ => simp [h] at hr

/-- The second alternative fails at the elements at which the first one may fail late. -/
theorem Fair.or (hp : Fair a w lo E S p) (hq : Fair a w' lo E S' q) (hm : Misses S w' q) :
    Fair a (w + w') lo E (fun x => S x ∨ S' x) (.or p q) :=
  hp.or' hq fun s e hs h => by
    by_cases hx : ∀ x, next s = some x → ¬S x
    · exact .inl (hp.cheap s e _ hs h hx)
    · obtain ⟨x, hx⟩ := not_forall_ex hx
      exact .inr (hm s x hs hx.1 hx.2)
where
  not_forall_ex {s : State I} (h : ¬∀ x, next s = some x → ¬S x) : ∃ x, next s = some x ∧ S x := by
    refine Classical.byContradiction fun hn => h fun x hx hS => hn ⟨x, hx, hS⟩

theorem Misses.or (hp : Misses S w p) (hq : Misses S w' q) : Misses S (w + w') (.or p q) := by
  intro s x hs hx hS
  obtain ⟨p1, p2⟩ := hp s x hs hx hS
  obtain ⟨q1, q2⟩ := hq s x hs hx hS
  constructor
  · intro v n h
    have h : OniComb.or p.run q.run s = .success v n := h
    simp only [OniComb.or] at h
    cases hp : p.run s with
    | success v' n' => exact p1 _ _ hp
    | failure e st =>
      cases st with
      | committed => simp [hp] at h
      | uncommitted => simp only [hp] at h; exact q1 v n h
    | _ => simp [hp] at h
  · show p.steps s + (p.run s).onUncommitted (q.steps s) ≤ _
    cases p.run s with
    | failure e st => cases st <;> simp only [Res.onUncommitted] <;> omega
    | _ => simp only [Res.onUncommitted]; omega

theorem Starts.or (hp : Starts T p) (hq : Starts T q) : Starts T (.or p q) := by
  intro s v n x hs h hx
  have h : OniComb.or p.run q.run s = .success v n := h
  simp only [OniComb.or] at h
  cases hp' : p.run s with
  | success v' n' => exact hp _ _ _ _ hs hp' hx
  | failure e st =>
    cases st with
    | committed => simp [hp'] at h
    | uncommitted => simp only [hp'] at h; exact hq _ _ _ _ hs h hx
  | _ => simp [hp'] at h

end

theorem Fair.or_const {p q : Counted I A} (hp : Fair 0 w lo Never Never p) (hq : Fair 0 w' lo Never Never q) :
    Fair 0 (w + w') lo Never Never (.or p q) := (hp.or hq (misses_never _)).const

theorem fair_successful (v : A) : Fair 0 1 0 Never (Never : I → Prop) (.prim (successful v)) :=
  .of_const (fun s v n _ h => by
    simp only [Counted.prim, successful, Res.success.injEq] at h
    omega) fun _ _ => Nat.le_refl _

theorem Fair.opt {p : Counted I A} (h : Fair a w lo Never Never p) : Fair a (w + 1) 0 Never Never (.opt p) := by
  have h1 : Fair a w 0 Never Never (.unary (fun p => map (attempt p) some) p) :=
    (h.unary same_optional).mono (Nat.le_refl _) (Nat.le_refl _) (Nat.zero_le _) (fun _ h => h) fun _ h => h
  have h2 : Fair a 1 0 Never Never (.prim (successful (none : Option A)) : Counted I (Option A)) :=
    (fair_successful _).mono (Nat.zero_le _) (Nat.le_refl _) (Nat.le_refl _) (fun _ h => h) fun _ h => h
  exact (h1.or h2 fun _ _ _ _ h => h.elim).mono (Nat.le_refl _) (Nat.le_refl _) (Nat.le_refl _) (fun _ h => h) fun _ h => h.elim id id

/-! ### Elements -/

section
variable {f : I → Bool} {s : State I}

theorem elmPred_ok {x : I} {n : Nat} (hs : s.offset ≤ s.input.length) (h : elmPred f s = .success x n) :
    n = 1 ∧ n ≤ left s ∧ next s = some x ∧ f x = true := by
  simp only [elmPred, State.withInput, hs, if_true] at h
  split at h
  · rename_i y t hd
    split at h
    · rename_i hf
      simp only [Res.success.injEq] at h
      obtain ⟨rfl, rfl⟩ := h
      have : (s.input.drop s.offset).length = t.length + 1 := by rw [hd]; rfl
      simp only [List.length_drop] at this
      exact ⟨rfl, by simp only [left]; omega, by rw [next, hd]; rfl, hf⟩
    · cases h
  · cases h

theorem fair_elmPred (f : I → Bool) : Fair 0 1 1 Never Never (.prim (elmPred f)) :=
  .of_const (fun _ _ _ hs h => have h := elmPred_ok hs h; ⟨by omega, h.2.1⟩) fun _ _ => Nat.le_refl _

theorem starts_elmPred (f : I → Bool) : Starts (fun x => f x = true) (.prim (elmPred f)) := by
  intro s v n x hs h hx
  obtain ⟨-, -, h1, h2⟩ := elmPred_ok hs h
  rw [hx] at h1
  rw [Option.some.inj h1]
  exact h2

theorem elmOfSet_ok {x : I} {n : Nat} (hs : s.offset ≤ s.input.length) (h : elmOfSet f s = .success x n) :
    n = 1 ∧ n ≤ left s ∧ next s = some x ∧ f x = true := by
  simp only [elmOfSet, State.withInput, hs, if_true] at h
  split at h
  · rename_i y t hd
    split at h
    · rename_i hf
      simp only [Res.success.injEq] at h
      obtain ⟨rfl, rfl⟩ := h
      have : (s.input.drop s.offset).length = t.length + 1 := by rw [hd]; rfl
      simp only [List.length_drop] at this
      exact ⟨rfl, by simp only [left]; omega, by rw [next, hd]; rfl, hf⟩
    · cases h
  · cases h

theorem elmOfSet_fails {x : I} (hs : s.offset ≤ s.input.length) (hx : next s = some x) (h : Fails (elmOfSet f) s) : f x = false := by
  obtain ⟨e, c, h⟩ := h
  obtain ⟨t, ht⟩ := next_some hx
  simp only [elmOfSet, State.withInput, hs, if_true, ht] at h
  split at h
  · cases h
  · simp_all

theorem elmOfSet_miss {x : I} (hs : s.offset ≤ s.input.length) (hx : next s = some x) (h : f x = false) :
    Fails (elmOfSet f) s := by
  obtain ⟨t, ht⟩ := next_some hx
  exact ⟨.mismatch (x :: t) (s.offset + 1) 1, .uncommitted, by simp [elmOfSet, State.withInput, hs, ht, h]⟩

theorem fair_elmOfSet (f : I → Bool) : Fair 0 1 1 Never Never (.prim (elmOfSet f)) :=
  .of_const (fun _ _ _ hs h => have h := elmOfSet_ok hs h; ⟨by omega, h.2.1⟩) fun _ _ => Nat.le_refl _

theorem noneOfSet_ok {x : I} {n : Nat} (hs : s.offset ≤ s.input.length) (h : noneOfSet f s = .success x n) :
    n = 1 ∧ n ≤ left s ∧ next s = some x ∧ f x = false := by
  have h' : elmOfSet (fun x => !f x) s = .success x n := h
  obtain ⟨h1, h2, h3, h4⟩ := elmOfSet_ok hs h'
  exact ⟨h1, h2, h3, by simpa using h4⟩

theorem fair_noneOfSet (f : I → Bool) : Fair 0 1 1 Never Never (.prim (noneOfSet f)) :=
  .of_const (fun _ _ _ hs h => have h := noneOfSet_ok hs h; ⟨by omega, h.2.1⟩) fun _ _ => Nat.le_refl _

theorem misses_elmPred (h : ∀ x, S x → f x = false) : Misses S 1 (.prim (elmPred f)) := by
  intro s x hs hx hS
  refine ⟨fun v n hv => ?_, Nat.le_refl _⟩
  obtain ⟨-, -, h1, h2⟩ := elmPred_ok hs hv
  rw [hx] at h1
  cases h1
  rw [h x hS] at h2
  cases h2

end

theorem seqLoop_ok (eq : I → I → Bool) (s : State I) (inp lit : List I) : ∀ (pat rest : List I) (k n : Nat) (v : List I),
    seqLoop eq s inp lit k pat rest = .success v n → n = k + pat.length ∧ pat.length ≤ rest.length ∧
      ∀ c p, pat = c :: p → ∃ x t, rest = x :: t ∧ eq c x = true ∧ ∀ c' p', p = c' :: p' → ∃ x' t', t = x' :: t' ∧ eq c' x' = true
  | [], rest, k, n, v, h => by
    simp only [seqLoop, Res.success.injEq] at h
    exact ⟨by simp [h.2], by simp, by simp⟩
  | c :: p, [], k, n, v, h => by simp [seqLoop] at h
  | c :: p, x :: t, k, n, v, h => by
    simp only [seqLoop] at h
    split at h
    · rename_i hc
      obtain ⟨h1, h2, h3⟩ := seqLoop_ok eq s inp lit p t (k + 1) n v h
      refine ⟨by simp only [List.length_cons]; omega, by simp only [List.length_cons]; omega, ?_⟩
      intro c' p' he
      simp only [List.cons.injEq] at he
      obtain ⟨rfl, rfl⟩ := he
      refine ⟨x, t, rfl, hc, fun c' p' he => ?_⟩
      obtain ⟨x', t', ht, hc', -⟩ := h3 c' p' he
      exact ⟨x', t', ht, hc'⟩
    · cases h

theorem fair_seq [DecidableEq I] (lit : List I) : Fair 0 (lit.length + 1) lit.length Never Never (.seq lit) :=
  .of_const (fun s v n hs h => by
    have h : OniComb.seq lit s = .success v n := h
    simp only [OniComb.seq, State.withInput, hs, if_true] at h
    obtain ⟨h1, h2, -⟩ := seqLoop_ok _ _ _ _ _ _ _ _ _ h
    simp only [List.length_drop] at h2
    simp only [left]
    omega) fun _ _ => Nat.le_refl _

/-! ### Repetitions -/

theorem repLoop_none (p : Parser I A) (k : Nat) (st : LoopState I A) :
    repLoop p (none : Option (Parser I Unit)) .unbounded (k + 1) st = match p st.cur with
      | .success v n => repLoop p (none : Option (Parser I Unit)) .unbounded k ⟨st.cur.advanceBy n, st.items ++ [v], st.length + n⟩
      | .failure _ _ => .exit st.items st.length
      | .panic => .panic
      | .diverge => .diverge := by
  rw [repLoop]
  simp only [repTurn, boundReached, Bool.false_eq_true, if_false, repItem]
  cases p st.cur <;> rfl

section
variable {p : Counted I A}

theorem fair_loop (hp : Fair a w 1 Never S p) : ∀ (k : Nat) (st : LoopState I A), st.cur.offset ≤ st.cur.input.length →
    (∀ items len, repLoop p.run (none : Option (Parser I Unit)) .unbounded k st = .exit items len →
      st.items.length ≤ items.length ∧ ∃ m, len = st.length + m ∧ m ≤ left st.cur ∧
        (Counted.loopSteps p k st ≤ (a + w) * m + w ∨
          (Counted.loopSteps p k st ≤ (a + w) * left st.cur + w ∧ ∃ x, next (st.cur.advanceBy m) = some x ∧ S x))) ∧
    Counted.loopSteps p k st ≤ (a + w) * left st.cur + w
  | 0, st, hs => by simp [repLoop, Counted.loopSteps]
  | k + 1, st, hs => by
    have hm : ∀ m, (a + w) * m = a * m + w * m := fun m => Nat.add_mul _ _ _
    rw [repLoop_none, Counted.loopSteps]
    by_cases h : ∃ v n, p.run st.cur = .success v n
    · obtain ⟨v, n, h⟩ := h
      simp only [h, Res.onSuccess]
      obtain ⟨h1, h2, h3⟩ := hp.ok _ v n hs h
      have hl := left_advance h2
      have ih := fair_loop hp k ⟨st.cur.advanceBy n, st.items ++ [v], st.length + n⟩ (fits_advance hs h2)
      have hw : w ≤ w * n := Nat.le_mul_of_pos_right _ h1
      have hla : (a + w) * left st.cur = (a + w) * n + (a + w) * left (st.cur.advanceBy n) := by rw [hl, Nat.mul_add]
      have hmn := hm n
      rcases h3 with h3 | ⟨-, x, -, hx⟩
      · refine ⟨fun items len hex => ?_, ?_⟩
        · obtain ⟨h4, m, h5, h6, h7⟩ := ih.1 items len hex
          simp only [List.length_append, List.length_cons, List.length_nil] at h4
          dsimp only at h5 h6 h7
          refine ⟨by omega, n + m, by omega, by omega, ?_⟩
          · have hnm : (a + w) * (n + m) = (a + w) * n + (a + w) * m := Nat.mul_add _ _ _
            rcases h7 with h7 | ⟨h7, x, hx, hS⟩
            · exact .inl (by omega)
            · exact .inr ⟨by omega, x, by rwa [advance_advance] at hx, hS⟩
        · have h8 := ih.2
          dsimp only at h8
          omega
      · exact hx.elim
    · have h : ∀ v n, p.run st.cur ≠ .success v n := fun v n h' => h ⟨v, n, h'⟩
      have ho := hp.other _ hs h
      have hml := hm (left st.cur)
      have e1 : (p.run st.cur).onSuccess (fun v n => Counted.loopSteps p k ⟨st.cur.advanceBy n, st.items ++ [v], st.length + n⟩) = 0 := by
        cases hp' : p.run st.cur with
        | success v n => exact (h v n hp').elim
        | _ => rfl
      rw [e1]
      refine ⟨fun items len hex => ?_, by omega⟩
      cases hp' : p.run st.cur with
      | failure e c =>
        simp only [hp', LoopOut.exit.injEq] at hex
        obtain ⟨rfl, rfl⟩ := hex
        refine ⟨Nat.le_refl _, 0, rfl, Nat.zero_le _, ?_⟩
        by_cases hx : ∀ x, next st.cur = some x → ¬S x
        · exact .inl (by have := hp.cheap _ e c hs hp' hx; omega)
        · obtain ⟨x, hx, hS⟩ := Fair.or.not_forall_ex hx
          exact .inr ⟨by omega, x, hx, hS⟩
      | success v n => exact (h v n hp').elim
      | _ => simp [hp'] at hex

theorem Fair.repeatFrom (hp : Fair a w 1 Never S p) {low : Nat} (hlow : low ≤ 1) :
    Fair (a + w) w low S S (.repeatFrom low p) := by
  have hm : ∀ m, (a + w) * m = a * m + w * m := fun m => Nat.add_mul _ _ _
  have hsteps : ∀ s, (Counted.repeatFrom low p).steps s = p.steps s +
    (p.run s).onSuccess fun v n => Counted.loopSteps p (repFuel .unbounded s) ⟨s.advanceBy n, [v], n⟩ := fun _ => rfl
  have hrun : ∀ s, (Counted.repeatFrom low p).run s = OniComb.repeatSep p.run (.from_ low) (none : Option (Parser I Unit)) s :=
    fun _ => rfl
  refine ⟨?_, ?_, ?_⟩
  · intro s v n hs hr
    rw [hsteps]
    rw [hrun] at hr
    simp only [OniComb.repeatSep, Range.from_] at hr
    cases h : p.run s with
    | success v' n' =>
      obtain ⟨h1, h2, h3⟩ := hp.ok s v' n' hs h
      have hl := left_advance h2
      have hw : w ≤ w * n' := Nat.le_mul_of_pos_right _ h1
      have hmn := hm n'
      have hla : (a + w) * left s = (a + w) * n' + (a + w) * left (s.advanceBy n') := by rw [hl, Nat.mul_add]
      have ih := fair_loop hp (repFuel .unbounded s) ⟨s.advanceBy n', [v'], n'⟩ (fits_advance hs h2)
      simp only [h] at hr
      cases hlp : repLoop p.run (none : Option (Parser I Unit)) .unbounded (repFuel .unbounded s) ⟨s.advanceBy n', [v'], n'⟩ with
      | exit items len =>
        simp only [hlp, repFinish] at hr
        obtain ⟨h4, m, h5, h6, h7⟩ := ih.1 items len hlp
        simp only [List.length_cons, List.length_nil] at h4
        have hnl : ¬items.length < low := by omega
        simp only [hnl, if_false, Res.success.injEq] at hr
        obtain ⟨-, rfl⟩ := hr
        simp only [Res.onSuccess]
        dsimp only at h6 h7 h5
        subst h5
        have hnm : (a + w) * (n' + m) = (a + w) * n' + (a + w) * m := Nat.mul_add _ _ _
        refine ⟨by omega, by omega, ?_⟩
        rcases h3 with h3 | ⟨-, x, -, hx⟩
        · rcases h7 with h7 | ⟨h7, x, hx, hS⟩
          · exact .inl (by omega)
          · exact .inr ⟨by omega, x, by rwa [advance_advance] at hx, hS⟩
        · exact hx.elim
      | _ => simp [hlp] at hr
    | failure e c =>
      simp only [h, repFinish, List.length_nil] at hr
      split at hr
      · simp only [State.withInput, State.advanceBy, Nat.add_zero, hs, if_true] at hr
        cases hr
      · rename_i hl0
        simp only [Res.success.injEq] at hr
        obtain ⟨-, rfl⟩ := hr
        have ho := hp.other s hs (by rw [h]; simp)
        have hml := hm (left s)
        simp only [Res.onSuccess]
        refine ⟨by omega, Nat.zero_le _, ?_⟩
        by_cases hx : ∀ x, next s = some x → ¬S x
        · exact .inl (by have := hp.cheap _ e c hs h hx; omega)
        · obtain ⟨x, hx, hS⟩ := Fair.or.not_forall_ex hx
          exact .inr ⟨by omega, x, hx, hS⟩
    | _ => simp [h] at hr
  · intro s hs _
    rw [hsteps]
    by_cases h : ∃ v n, p.run s = .success v n
    · obtain ⟨v', n', h⟩ := h
      obtain ⟨h1, h2, h3⟩ := hp.ok s v' n' hs h
      have hl := left_advance h2
      have hw : w ≤ w * n' := Nat.le_mul_of_pos_right _ h1
      have hmn := hm n'
      have hla : (a + w) * left s = (a + w) * n' + (a + w) * left (s.advanceBy n') := by rw [hl, Nat.mul_add]
      have ih := (fair_loop hp (repFuel .unbounded s) ⟨s.advanceBy n', [v'], n'⟩ (fits_advance hs h2)).2
      simp only [h, Res.onSuccess]
      dsimp only at ih
      rcases h3 with h3 | ⟨-, x, -, hx⟩
      · omega
      · exact hx.elim
    · have h : ∀ v n, p.run s ≠ .success v n := fun v n h' => h ⟨v, n, h'⟩
      have ho := hp.other _ hs h
      have hml := hm (left s)
      cases hp' : p.run s with
      | success v n => exact (h v n hp').elim
      | _ => simp only [Res.onSuccess]; omega
  · intro s e st hs hr hn
    rw [hsteps]
    rw [hrun] at hr
    simp only [OniComb.repeatSep, Range.from_] at hr
    cases h : p.run s with
    | success v' n' =>
      obtain ⟨h1, h2, h3⟩ := hp.ok s v' n' hs h
      have ih := fair_loop hp (repFuel .unbounded s) ⟨s.advanceBy n', [v'], n'⟩ (fits_advance hs h2)
      simp only [h] at hr
      cases hlp : repLoop p.run (none : Option (Parser I Unit)) .unbounded (repFuel .unbounded s) ⟨s.advanceBy n', [v'], n'⟩ with
      | exit items len =>
        simp only [hlp, repFinish] at hr
        obtain ⟨h4, -⟩ := ih.1 items len hlp
        simp only [List.length_cons, List.length_nil] at h4
        have hnl : ¬items.length < low := by omega
        simp [hnl] at hr
      | _ => simp [hlp] at hr
    | failure e c =>
      have := hp.cheap s e c hs h hn
      simp only [Res.onSuccess]
      omega
    | _ => simp [h] at hr

end

/-- `of_many1` succeeds if the item does. -/
theorem many1_first {p : Counted I A} {s : State I} {vs : List A} {n : Nat} (hs : s.offset ≤ s.input.length)
    (h : (Counted.many1 p).run s = .success vs n) : ∃ v m, p.run s = .success v m := by
  have h : OniComb.repeatSep p.run (.from_ 1) (none : Option (Parser I Unit)) s = .success vs n := h
  simp only [OniComb.repeatSep, Range.from_] at h
  cases hp : p.run s with
  | success v m => exact ⟨v, m, rfl⟩
  | failure e c => simp [hp, repFinish, State.withInput, State.advanceBy, hs] at h
  | _ => simp [hp] at h

theorem Starts.many1 {p : Counted I A} (h : Starts T p) : Starts T (.many1 p) := by
  intro s v n x hs hr hx
  obtain ⟨v', m, hv⟩ := many1_first hs hr
  exact h s v' m x hs hv hx

theorem many1_none {p : Counted I A} {s : State I} (hs : s.offset ≤ s.input.length) (h : ∀ v n, p.run s ≠ .success v n) :
    (∀ v n, (Counted.many1 p).run s ≠ .success v n) ∧ (Counted.many1 p).steps s = p.steps s := by
  refine ⟨fun v n hr => ?_, ?_⟩
  · obtain ⟨v', m, hv⟩ := many1_first hs hr
    exact h v' m hv
  · show p.steps s + (p.run s).onSuccess _ = _
    cases hp : p.run s with
    | success v n => exact (h v n hp).elim
    | _ => rfl

theorem digit19_ok [Element I] {s : State I} {x : I} {n : Nat} (h : (elmDigit19 : Parser I I) s = .success x n) :
    (elmDigit : Parser I I) s = .success x n := by
  simp only [elmDigit19, filterNot, filter] at h
  split at h
  · split at h
    · rename_i h' _; rw [h', h]
    · cases h
  · cases h
  · cases h
  · cases h

theorem fair_digit19 [Element I] : Fair 0 1 1 Never Never (.prim (elmDigit19 : Parser I I)) :=
  .of_const (fun _ _ _ hs h => have h := elmPred_ok hs (digit19_ok h); ⟨by omega, h.2.1⟩) fun _ _ => Nat.le_refl _

/-! ### A fixed number of items -/

section
variable {p : Counted I A}

theorem count_loop (hp : Fair 0 w 1 Never Never p) (stop : Bound) : ∀ (k : Nat) (st : LoopState I A),
    st.cur.offset ≤ st.cur.input.length →
    (∀ items len, repLoop p.run (none : Option (Parser I Unit)) stop k st = .exit items len → st.length ≤ len ∧ len - st.length ≤ left st.cur) ∧
    Counted.repSteps p (none : Option (Counted I Unit)) stop k st ≤ w * k
  | 0, st, hs => by simp [repLoop, Counted.repSteps]
  | k + 1, st, hs => by
    rw [repLoop, Counted.repSteps, repTurn]
    by_cases hbr : boundReached stop st.items.length = true
    · simp only [hbr, if_true, LoopOut.exit.injEq]
      exact ⟨fun items len h => by have := h.2; omega, by omega⟩
    · simp only [hbr, Bool.false_eq_true, if_false]
      have hwk : w * (k + 1) = w * k + w := Nat.mul_succ _ _
      simp only [repItem, Counted.itemSteps]
      cases h : p.run st.cur with
      | success v n =>
        obtain ⟨h1, h2, h3⟩ := hp.ok _ v n hs h
        have hl := left_advance h2
        obtain ⟨i1, i2⟩ := count_loop hp stop k ⟨st.cur.advanceBy n, st.items ++ [v], st.length + n⟩ (fits_advance hs h2)
        simp only [Res.onSuccess]
        refine ⟨fun items len hex => ?_, ?_⟩
        · have := i1 items len hex
          dsimp only at this
          omega
        · rcases h3 with h3 | ⟨-, x, -, hx⟩
          · omega
          · exact hx.elim
      | failure e c =>
        have := hp.other _ hs (by rw [h]; simp)
        simp only [LoopOut.exit.injEq, Res.onSuccess]
        exact ⟨fun items len h => by have := h.2; omega, by omega⟩
      | _ =>
        have := hp.other _ hs (by rw [h]; simp)
        simp only [reduceCtorEq, Res.onSuccess]
        exact ⟨fun _ _ h => h.elim, by omega⟩

theorem Fair.manyNM (hp : Fair 0 w 1 Never Never p) (k n : Nat) : Fair 0 (w * (n + 2)) 0 Never Never (.manyNM p k n) := by
  refine .of_const ?_ ?_
  · intro s v m hs hr
    refine ⟨Nat.zero_le _, ?_⟩
    have hr : OniComb.repeatSep p.run (.closed k n) (none : Option (Parser I Unit)) s = .success v m := hr
    simp only [OniComb.repeatSep, Range.closed] at hr
    cases h : p.run s with
    | success v' n' =>
      obtain ⟨h1, h2, h3⟩ := hp.ok s v' n' hs h
      have hl := left_advance h2
      simp only [h] at hr
      cases hlp : repLoop p.run (none : Option (Parser I Unit)) (.included n) (repFuel (.included n) s) ⟨s.advanceBy n', [v'], n'⟩ with
      | exit items len =>
        simp only [hlp, repFinish] at hr
        have := (count_loop hp (.included n) _ _ (fits_advance hs h2)).1 items len hlp
        dsimp only at this
        split at hr
        · simp only [State.withInput] at hr
          split at hr <;> cases hr
        · simp only [Res.success.injEq] at hr
          omega
      | _ => simp [hlp] at hr
    | failure e c =>
      simp only [h, repFinish] at hr
      split at hr
      · simp only [State.withInput] at hr
        split at hr <;> cases hr
      · simp only [Res.success.injEq] at hr
        omega
    | _ => simp [h] at hr
  · intro s hs
    show p.steps s + (p.run s).onSuccess (fun v m => Counted.repSteps p none (.included n) (n + 1) ⟨s.advanceBy m, [v], m⟩) ≤ _
    have hwk : w * (n + 2) = w * (n + 1) + w := Nat.mul_succ _ _
    cases h : p.run s with
    | success v' n' =>
      obtain ⟨h1, h2, h3⟩ := hp.ok s v' n' hs h
      have := (count_loop hp (.included n) (n + 1) ⟨s.advanceBy n', [v'], n'⟩ (fits_advance hs h2)).2
      simp only [Res.onSuccess]
      rcases h3 with h3 | ⟨-, x, -, hx⟩
      · omega
      · exact hx.elim
    | _ =>
      have := hp.other _ hs (by rw [h]; simp)
      simp only [Res.onSuccess]
      omega

theorem Fair.count (hp : Fair 0 w 1 Never Never p) (n : Nat) : Fair 0 (w * (n + 2)) 0 Never Never (.count p n) := hp.manyNM n n

end

/-! ### Items with separators -/

section
variable {p : Counted I A} {q : Counted I B} {Z : I → Prop} {b : Nat}

theorem repLoop_some (p : Parser I A) (q : Parser I B) (k : Nat) (st : LoopState I A) :
    repLoop p (some q) .unbounded (k + 1) st = match q st.cur with
      | .success _ m => match p (st.cur.advanceBy m) with
        | .success v n => repLoop p (some q) .unbounded k
            ⟨(st.cur.advanceBy m).advanceBy n, st.items ++ [v], st.length + m + n⟩
        | .failure _ _ => .exit st.items (st.length + m)
        | .panic => .panic
        | .diverge => .diverge
      | .failure _ _ => .exit st.items st.length
      | .panic => .panic
      | .diverge => .diverge := by
  rw [repLoop]
  simp only [repTurn, boundReached, Bool.false_eq_true, if_false, repItem]
  cases q st.cur with
  | success v m => dsimp only; cases p (st.cur.advanceBy m) <;> rfl
  | _ => rfl

theorem repSteps_some (k : Nat) (st : LoopState I A) :
    Counted.repSteps p (some q) .unbounded (k + 1) st = q.steps st.cur + (q.run st.cur).onSuccess fun _ m =>
      p.steps (st.cur.advanceBy m) + (p.run (st.cur.advanceBy m)).onSuccess fun v n =>
        Counted.repSteps p (some q) .unbounded k ⟨(st.cur.advanceBy m).advanceBy n, st.items ++ [v], st.length + m + n⟩ := by
  rw [Counted.repSteps]
  simp only [boundReached, Bool.false_eq_true, if_false, Counted.itemSteps]

theorem sep_loop (hp : Fair a w 0 Never S p) (hq : Fair b w' 1 Never Z q) (hz : Clears Z p) (ha : b + w + w' ≤ a) :
    ∀ (k : Nat) (st : LoopState I A), st.cur.offset ≤ st.cur.input.length → (∀ x, next st.cur = some x → ¬Z x) →
    (∀ items len, repLoop p.run (some q.run) .unbounded k st = .exit items len →
      ∃ m, len = st.length + m ∧ m ≤ left st.cur ∧
        (Counted.repSteps p (some q) .unbounded k st ≤ a * m + w' ∨
          (Counted.repSteps p (some q) .unbounded k st ≤ a * left st.cur + w' ∧ ∃ x, next (st.cur.advanceBy m) = some x ∧ S x))) ∧
    Counted.repSteps p (some q) .unbounded k st ≤ a * left st.cur + w'
  | 0, st, _, _ => by simp [repLoop, Counted.repSteps]
  | k + 1, st, hs, hn => by
    rw [repLoop_some, repSteps_some]
    have hb : b * left st.cur ≤ a * left st.cur := Nat.mul_le_mul_right _ (by omega)
    by_cases h : ∃ v m, q.run st.cur = .success v m
    · obtain ⟨u, m, h⟩ := h
      obtain ⟨h1, h2, h3⟩ := hq.ok _ u m hs h
      replace h3 : q.steps st.cur ≤ b * m + w' := h3.elim id fun ⟨_, _, _, hx⟩ => hx.elim
      have hl := left_advance h2
      have hs' := fits_advance hs h2
      have hla : a * left st.cur = a * m + a * left (st.cur.advanceBy m) := by rw [hl, Nat.mul_add]
      have h4 : (b + w + w') * m ≤ a * m := Nat.mul_le_mul_right _ ha
      have h5 : (b + w + w') * m = b * m + w * m + w' * m := by rw [Nat.add_mul, Nat.add_mul]
      have h6 : w ≤ w * m := Nat.le_mul_of_pos_right _ h1
      have h7 : w' ≤ w' * m := Nat.le_mul_of_pos_right _ h1
      simp only [h, Res.onSuccess]
      by_cases hv : ∃ v n, p.run (st.cur.advanceBy m) = .success v n
      · obtain ⟨v, n, hv⟩ := hv
        obtain ⟨-, k2, k3⟩ := hp.ok _ v n hs' hv
        replace k3 : p.steps (st.cur.advanceBy m) ≤ a * n + w := k3.elim id fun ⟨_, _, _, hx⟩ => hx.elim
        have kl := left_advance k2
        have kla : a * left (st.cur.advanceBy m) = a * n + a * left ((st.cur.advanceBy m).advanceBy n) := by rw [kl, Nat.mul_add]
        obtain ⟨i1, i2⟩ := sep_loop hp hq hz ha k ⟨(st.cur.advanceBy m).advanceBy n, st.items ++ [v], st.length + m + n⟩
          (fits_advance hs' k2) fun x hx => hz _ _ _ _ hs' hv hx
        simp only [hv]
        dsimp only at i1 i2
        refine ⟨fun items len hex => ?_, by omega⟩
        obtain ⟨j, j1, j2, j3⟩ := i1 items len hex
        have hj : a * (m + n + j) = a * m + a * n + a * j := by rw [Nat.mul_add, Nat.mul_add]
        refine ⟨m + n + j, by omega, by omega, ?_⟩
        rcases j3 with j3 | ⟨j3, x, hx, hS⟩
        · exact .inl (by omega)
        · exact .inr ⟨by omega, x, by rwa [advance_advance, advance_advance, ← Nat.add_assoc] at hx, hS⟩
      · have hv : ∀ v n, p.run (st.cur.advanceBy m) ≠ .success v n := fun v n h' => hv ⟨v, n, h'⟩
        have ho := hp.other _ hs' hv
        cases hp' : p.run (st.cur.advanceBy m) with
        | success v n => exact (hv v n hp').elim
        | failure e c =>
          refine ⟨fun items len hex => ?_, by simp only; omega⟩
          simp only [LoopOut.exit.injEq] at hex
          refine ⟨m, hex.2.symm, h2, ?_⟩
          by_cases hx : ∀ x, next (st.cur.advanceBy m) = some x → ¬S x
          · exact .inl (by have := hp.cheap _ e c hs' hp' hx; simp only; omega)
          · obtain ⟨x, hx, hS⟩ := Fair.or.not_forall_ex hx
            exact .inr ⟨by simp only; omega, x, hx, hS⟩
        | _ => exact ⟨fun items len hex => by simp at hex, by simp only; omega⟩
    · have h : ∀ v n, q.run st.cur ≠ .success v n := fun v n h' => h ⟨v, n, h'⟩
      have ho := hq.other _ hs h
      cases hq' : q.run st.cur with
      | success v n => exact (h v n hq').elim
      | failure e c =>
        simp only [Res.onSuccess]
        refine ⟨fun items len hex => ?_, by omega⟩
        simp only [LoopOut.exit.injEq] at hex
        have := hq.cheap _ e c hs hq' hn
        exact ⟨0, hex.2.symm, Nat.zero_le _, .inl (by omega)⟩
      | _ =>
        simp only [Res.onSuccess]
        exact ⟨fun items len hex => by simp at hex, by omega⟩

/-- Items with separators. The elements of a separator pay for it and for the item that follows it. -/
theorem Fair.many0Sep (hp : Fair a w 0 Never S p) (hq : Fair b w' 1 Never Z q) (hz : Clears Z p) (ha : b + w + w' ≤ a) :
    Fair a (w + w') 0 S Never (.many0Sep p q) := by
  have hsteps : ∀ s, (Counted.many0Sep p q).steps s = p.steps s +
    (p.run s).onSuccess fun v n => Counted.repSteps p (some q) .unbounded (repFuel .unbounded s) ⟨s.advanceBy n, [v], n⟩ := fun _ => rfl
  have hrun : ∀ s, (Counted.many0Sep p q).run s = OniComb.repeatSep p.run (.from_ 0) (some q.run) s := fun _ => rfl
  refine ⟨?_, ?_, ?_⟩
  · intro s v n hs hr
    rw [hsteps]
    rw [hrun] at hr
    simp only [OniComb.repeatSep, Range.from_] at hr
    cases h : p.run s with
    | success v' n' =>
      obtain ⟨-, h2, h3⟩ := hp.ok s v' n' hs h
      replace h3 : p.steps s ≤ a * n' + w := h3.elim id fun ⟨_, _, _, hx⟩ => hx.elim
      have hl := left_advance h2
      have hla : a * left s = a * n' + a * left (s.advanceBy n') := by rw [hl, Nat.mul_add]
      obtain ⟨i1, i2⟩ := sep_loop hp hq hz ha (repFuel .unbounded s) ⟨s.advanceBy n', [v'], n'⟩ (fits_advance hs h2)
        fun x hx => hz _ _ _ _ hs h hx
      simp only [h] at hr
      cases hlp : repLoop p.run (some q.run) .unbounded (repFuel .unbounded s) ⟨s.advanceBy n', [v'], n'⟩ with
      | exit items len =>
        simp only [hlp, repFinish, Nat.not_lt_zero, if_false, Res.success.injEq] at hr
        obtain ⟨-, rfl⟩ := hr
        obtain ⟨m, h5, h6, h7⟩ := i1 items len hlp
        dsimp only at h5 h6 h7
        subst h5
        have hnm : a * (n' + m) = a * n' + a * m := Nat.mul_add _ _ _
        simp only [Res.onSuccess]
        refine ⟨Nat.zero_le _, by omega, ?_⟩
        rcases h7 with h7 | ⟨h7, x, hx, hS⟩
        · exact .inl (by omega)
        · exact .inr ⟨by omega, x, by rwa [advance_advance] at hx, hS⟩
      | _ => simp [hlp] at hr
    | failure e c =>
      simp only [h, repFinish, Nat.not_lt_zero, if_false, Res.success.injEq] at hr
      obtain ⟨-, rfl⟩ := hr
      have ho := hp.other s hs (by rw [h]; simp)
      simp only [Res.onSuccess]
      refine ⟨by omega, Nat.zero_le _, ?_⟩
      by_cases hx : ∀ x, next s = some x → ¬S x
      · exact .inl (by have := hp.cheap _ e c hs h hx; omega)
      · obtain ⟨x, hx, hS⟩ := Fair.or.not_forall_ex hx
        exact .inr ⟨by omega, x, hx, hS⟩
    | _ => simp [h] at hr
  · intro s hs _
    rw [hsteps]
    by_cases h : ∃ v n, p.run s = .success v n
    · obtain ⟨v', n', h⟩ := h
      obtain ⟨-, h2, h3⟩ := hp.ok s v' n' hs h
      replace h3 : p.steps s ≤ a * n' + w := h3.elim id fun ⟨_, _, _, hx⟩ => hx.elim
      have hl := left_advance h2
      have hla : a * left s = a * n' + a * left (s.advanceBy n') := by rw [hl, Nat.mul_add]
      have i2 := (sep_loop hp hq hz ha (repFuel .unbounded s) ⟨s.advanceBy n', [v'], n'⟩ (fits_advance hs h2)
        fun x hx => hz _ _ _ _ hs h hx).2
      simp only [h, Res.onSuccess]
      dsimp only at i2
      omega
    · have h : ∀ v n, p.run s ≠ .success v n := fun v n h' => h ⟨v, n, h'⟩
      have ho := hp.other _ hs h
      cases hp' : p.run s with
      | success v n => exact (h v n hp').elim
      | _ => simp only [Res.onSuccess]; omega
  · intro s e st hs hr _
    rw [hrun] at hr
    simp only [OniComb.repeatSep, Range.from_] at hr
    cases h : p.run s with
    | success v' n' =>
      simp only [h] at hr
      cases hlp : repLoop p.run (some q.run) .unbounded (repFuel .unbounded s) ⟨s.advanceBy n', [v'], n'⟩ with
      | exit items len => simp [hlp, repFinish] at hr
      | _ => simp [hlp] at hr
    | failure e c => simp [h, repFinish] at hr
    | _ => simp [h] at hr

end

/-! ### Every element taken has been looked at -/

/-- A success takes at least one step for every element. -/
def Reads (c : Counted I A) : Prop := ∀ s v n, c.run s = .success v n → n ≤ c.steps s

theorem Reads.unary {G : Parser I A → Parser I B} (hG : Same G) {c : Counted I A} (h : Reads c) : Reads (.unary G c) := by
  intro s v n hr
  obtain ⟨v', hr'⟩ := hG.ok _ _ _ _ hr
  exact h s v' n hr'

theorem Reads.mapRes {c : Counted I A} (h : Reads c) (f : A → Option B) : Reads (.unary (fun p => OniComb.mapRes p f) c) := by
  intro s v n hr
  have hr : OniComb.mapRes c.run f s = .success v n := hr
  show n ≤ c.steps s
  simp only [OniComb.mapRes] at hr
  cases hp : c.run s with
  | success v' n' =>
    simp only [hp] at hr
    split at hr
    · simp only [Res.success.injEq] at hr
      obtain ⟨-, rfl⟩ := hr
      exact h s v' n' hp
    · simp only [State.withInput] at hr
      split at hr <;> cases hr
  | _ => simp [hp] at hr

theorem Reads.lazy {f : Unit → Counted I A} (h : Reads (f ())) : Reads (.lazy f) := fun s v n hr =>
  Nat.le_trans (h s v n hr) (Nat.le_add_left _ _)

theorem Reads.both {c : Counted I C} {p : Counted I A} {q : Counted I B} (hc : Both c p q) (hp : Reads p) (hq : Reads q) : Reads c := by
  intro s v n hr
  obtain ⟨v1, n1, v2, n2, h1, h2, rfl⟩ := hc.ok s v n hr
  rw [hc.steps_ok h1]
  have := hp _ _ _ h1
  have := hq _ _ _ h2
  omega

theorem Reads.or {p q : Counted I A} (hp : Reads p) (hq : Reads q) : Reads (.or p q) := by
  intro s v n h
  have h : OniComb.or p.run q.run s = .success v n := h
  show n ≤ p.steps s + (p.run s).onUncommitted (q.steps s)
  simp only [OniComb.or] at h
  cases hp' : p.run s with
  | success v' n' =>
    simp only [hp', Res.success.injEq] at h
    have := hp _ _ _ hp'
    omega
  | failure e st =>
    cases st with
    | committed => simp [hp'] at h
    | uncommitted =>
      simp only [hp'] at h
      have := hq _ _ _ h
      simp only [Res.onUncommitted]
      omega
  | _ => simp [hp'] at h

theorem reads_prim {p : Parser I A} (h : ∀ s v n, p s = .success v n → n ≤ 1) : Reads (.prim p) := h

theorem reads_elmPred (f : I → Bool) : Reads (.prim (elmPred f)) := reads_prim fun s v n h => by
  simp only [elmPred, State.withInput] at h
  split at h
  · split at h
    · split at h
      · simp only [Res.success.injEq] at h; omega
      · cases h
    · cases h
  · cases h

theorem reads_elmOfSet (f : I → Bool) : Reads (.prim (elmOfSet f)) := reads_prim fun s v n h => by
  simp only [elmOfSet, State.withInput] at h
  split at h
  · split at h
    · split at h
      · simp only [Res.success.injEq] at h; omega
      · cases h
    · cases h
  · cases h

theorem reads_noneOfSet (f : I → Bool) : Reads (.prim (noneOfSet f)) := reads_elmOfSet fun x => !f x

theorem reads_digit19 [Element I] : Reads (.prim (elmDigit19 : Parser I I)) :=
  reads_prim fun s v n h => reads_elmPred _ s v n (digit19_ok h)

theorem reads_seq [DecidableEq I] (lit : List I) : Reads (.seq lit) := by
  intro s v n h
  have h : OniComb.seq lit s = .success v n := h
  show n ≤ lit.length + 1
  simp only [OniComb.seq, State.withInput] at h
  split at h
  · obtain ⟨h1, -⟩ := seqLoop_ok _ _ _ _ _ _ _ _ _ h
    omega
  · cases h

theorem Reads.opt {p : Counted I A} (h : Reads p) : Reads (.opt p) :=
  (h.unary same_optional).or (reads_prim fun s v n h => by simp only [successful, Res.success.injEq] at h; omega)

theorem reads_loop {p : Counted I A} (hp : Reads p) {sep : Option (Counted I B)} (hq : ∀ q, sep = some q → Reads q) (stop : Bound) :
    ∀ (k : Nat) (st : LoopState I A) items len, repLoop p.run (sep.map Counted.run) stop k st = .exit items len →
      len ≤ st.length + Counted.repSteps p sep stop k st
  | 0, st, items, len, h => by simp [repLoop] at h
  | k + 1, st, items, len, h => by
    rw [repLoop] at h
    unfold repTurn at h
    unfold Counted.repSteps
    by_cases hbr : boundReached stop st.items.length = true
    · simp only [hbr, if_true, LoopOut.exit.injEq] at h ⊢
      omega
    · simp only [hbr, Bool.false_eq_true, if_false] at h ⊢
      have item : ∀ st' : LoopState I A, (match repItem p.run st' with
          | .again st'' => repLoop p.run (sep.map Counted.run) stop k st''
          | .exit items n => .exit items n
          | .panic => .panic
          | .diverge => .diverge) = .exit items len → len ≤ st'.length + Counted.itemSteps p (Counted.repSteps p sep stop k) st' := by
        intro st' h'
        simp only [repItem, Counted.itemSteps] at h' ⊢
        cases hv : p.run st'.cur with
        | success v n =>
          simp only [hv] at h'
          have := hp _ _ _ hv
          have := reads_loop hp hq stop k _ items len h'
          simp only [Res.onSuccess]
          dsimp only at this
          omega
        | failure e c =>
          simp only [hv, LoopOut.exit.injEq] at h'
          omega
        | _ => simp [hv] at h'
      cases sep with
      | none => exact item st h
      | some q =>
        simp only [Option.map_some] at h ⊢
        cases hv : q.run st.cur with
        | success v n =>
          simp only [hv] at h
          have := hq q rfl _ _ _ hv
          have := item _ h
          simp only [Res.onSuccess]
          dsimp only at this
          omega
        | failure e c =>
          simp only [hv, LoopOut.exit.injEq] at h
          omega
        | _ => simp [hv] at h

theorem Reads.repeatSep {p : Counted I A} (hp : Reads p) (range : Range) {sep : Option (Counted I B)} (hq : ∀ q, sep = some q → Reads q) :
    Reads (.repeatSep p range sep) := by
  intro s vs n h
  have h : OniComb.repeatSep p.run range (sep.map Counted.run) s = .success vs n := h
  show n ≤ p.steps s + (p.run s).onSuccess _
  have fin : ∀ items len, repFinish range s items len = .success vs n → n = len := by
    intro items len h
    unfold repFinish at h
    split at h
    · split at h
      · simp only [State.withInput] at h
        split at h <;> cases h
      · simp only [Res.success.injEq] at h; exact h.2.symm
    · simp only [Res.success.injEq] at h; exact h.2.symm
  simp only [OniComb.repeatSep] at h
  cases hv : p.run s with
  | success v m =>
    simp only [hv] at h
    have := hp _ _ _ hv
    cases hl : repLoop p.run (sep.map Counted.run) range.stop (repFuel range.stop s) ⟨s.advanceBy m, [v], m⟩ with
    | exit items len =>
      simp only [hl] at h
      have := fin items len h
      have := reads_loop hp hq _ _ _ _ _ hl
      simp only [Res.onSuccess]
      dsimp only at this
      omega
    | _ => simp [hl] at h
  | failure e c =>
    simp only [hv] at h
    have := fin [] 0 h
    omega
  | _ => simp [hv] at h

/-- The loop without separator and bound. -/
theorem loopSteps_eq (p : Counted I A) : ∀ (k : Nat) (st : LoopState I A),
    Counted.loopSteps p k st = Counted.repSteps p (none : Option (Counted I Unit)) .unbounded k st
  | 0, _ => rfl
  | k + 1, st => by
    rw [Counted.loopSteps, Counted.repSteps]
    simp only [boundReached, Bool.false_eq_true, if_false, Counted.itemSteps]
    congr 1
    cases p.run st.cur with
    | success v n => exact loopSteps_eq p k _
    | _ => rfl

theorem repeatFrom_eq (p : Counted I A) (low : Nat) :
    Counted.repeatFrom low p = Counted.repeatSep p (.from_ low) (none : Option (Counted I Unit)) := by
  unfold Counted.repeatFrom Counted.repeatSep
  congr 1
  funext s
  congr 2
  funext v n
  exact loopSteps_eq p _ _

theorem Reads.repeatFrom {p : Counted I A} (h : Reads p) (low : Nat) : Reads (.repeatFrom low p) := by
  rw [repeatFrom_eq]
  exact h.repeatSep _ fun _ h => by cases h

end OniComb.Steps
