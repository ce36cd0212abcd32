import Verif.Lemmas.Text

/-!
# Helper lemmas: bounded repetitions as relations on texts, parsers that always return
-/

namespace OniComb
variable {I A B C : Type}

/-! ### Parsers that return everywhere -/

/-- `p` returns at every position. -/
class NoDiv (p : Parser I A) : Prop where
  out : ∀ s, p s ≠ .diverge

section
variable {p : Parser I A} {q : Parser I B}

theorem noDiv_withInput (s : State I) (k : List I → Res I A) (h : ∀ l, k l ≠ .diverge) :
    s.withInput k ≠ .diverge := by
  unfold State.withInput; split
  · exact h _
  · simp

theorem noDiv_withSlice (s : State I) (n : Nat) (k : List I → Res I A) (h : ∀ l, k l ≠ .diverge) :
    s.withSlice n k ≠ .diverge := by
  unfold State.withSlice; split
  · exact h _
  · simp

instance (f : I → Bool) : NoDiv (elmPred f) := ⟨fun s => noDiv_withInput _ _ fun l => by
  cases l with
  | nil => simp
  | cons x l => dsimp only; split <;> simp⟩
instance [DecidableEq I] (x : I) : NoDiv (elm x) := inferInstanceAs (NoDiv (elmPred _))
instance [Element I] : NoDiv (elmDigit : Parser I I) := inferInstanceAs (NoDiv (elmPred _))
instance [Element I] : NoDiv (elmHexDigit : Parser I I) := inferInstanceAs (NoDiv (elmPred _))
instance [Element I] : NoDiv (elmAlpha : Parser I I) := inferInstanceAs (NoDiv (elmPred _))
instance (f : I → Bool) : NoDiv (elmOfSet f) := ⟨fun s => noDiv_withInput _ _ fun l => by
  cases l with
  | nil => simp
  | cons x l => dsimp only; split <;> simp⟩
instance [DecidableEq I] (l : List I) : NoDiv (elmOf l) := inferInstanceAs (NoDiv (elmOfSet _))
instance [Element I] (a b : I) : NoDiv (elmIn a b) := inferInstanceAs (NoDiv (elmOfSet _))

instance [h : NoDiv p] (f : A → B) : NoDiv (map p f) := ⟨fun s => by
  have := h.out s; unfold map; cases hp : p s <;> simp_all⟩
instance [h : NoDiv p] (f : A → Bool) : NoDiv (filter p f) := ⟨fun s => by
  have := h.out s; unfold filter
  cases hp : p s with
  | success v n => dsimp only; split <;> simp
  | diverge => exact absurd hp this
  | _ => simp⟩
instance [h : NoDiv p] (f : A → Bool) : NoDiv (filterNot p f) := inferInstanceAs (NoDiv (filter p _))
instance [Element I] : NoDiv (elmDigit19 : Parser I I) := inferInstanceAs (NoDiv (filterNot _ _))
instance [h : NoDiv p] (l : String) : NoDiv (name p l) := ⟨fun s => by
  have := h.out s; unfold name
  cases hp : p s with
  | failure e c => dsimp only; split <;> simp
  | diverge => exact absurd hp this
  | _ => simp⟩
instance [h : NoDiv p] : NoDiv (attempt p) := ⟨fun s => by
  have := h.out s; unfold attempt
  cases hp : p s with
  | failure e c => cases c <;> simp [Res.withUncommitted]
  | diverge => exact absurd hp this
  | _ => simp [Res.withUncommitted]⟩
instance {p' : Parser I A} [h : NoDiv p] [h' : NoDiv p'] : NoDiv (or p p') := ⟨fun s => by
  have h1 := h.out s; have h2 := h'.out s; unfold or
  cases hp : p s with
  | failure e c => cases c <;> simp [h2]
  | diverge => exact absurd hp h1
  | _ => simp⟩
instance (a : A) : NoDiv (successful a : Parser I A) := ⟨fun s => by simp [successful]⟩
instance [h : NoDiv p] : NoDiv (opt p) := inferInstanceAs (NoDiv (or (map (attempt p) some) (successful none)))
instance [h : NoDiv p] [h' : NoDiv q] : NoDiv (andThen p q) := ⟨fun s => by
  have h1 := h.out s; unfold andThen
  cases hp : p s with
  | success v n =>
    have h2 := h'.out (s.advanceBy n)
    dsimp only
    cases hq : q (s.advanceBy n) <;> simp_all
  | diverge => exact absurd hp h1
  | _ => simp⟩
instance [h : NoDiv p] [h' : NoDiv q] : NoDiv (skipLeft p q) := ⟨fun s => by
  have h1 := h.out s; unfold skipLeft
  cases hp : p s with
  | success v n =>
    have h2 := h'.out (s.advanceBy n)
    dsimp only
    cases hq : q (s.advanceBy n) <;> simp_all
  | diverge => exact absurd hp h1
  | _ => simp⟩
instance [h : NoDiv p] [h' : NoDiv q] : NoDiv (skipRight p q) := ⟨fun s => by
  have h1 := h.out s; unfold skipRight
  cases hp : p s with
  | success v n =>
    have h2 := h'.out (s.advanceBy n)
    dsimp only
    cases hq : q (s.advanceBy n) <;> simp_all [Res.advanceSuccess]
  | diverge => exact absurd hp h1
  | _ => simp⟩
instance [h : NoDiv p] (f : A → Option B) : NoDiv (mapRes p f) := ⟨fun s => by
  have h1 := h.out s; unfold mapRes
  cases hp : p s with
  | success v n =>
    dsimp only
    cases f v with
    | some w => simp
    | none => exact noDiv_withInput _ _ (by simp)
  | diverge => exact absurd hp h1
  | _ => simp⟩
instance [h : NoDiv p] : NoDiv (collect p) := ⟨fun s => by
  have h1 := h.out s; unfold collect
  cases hp : p s with
  | success v n => exact noDiv_withSlice _ _ _ (by simp)
  | diverge => exact absurd hp h1
  | _ => simp⟩
instance [h : NoDiv p] (n m : Nat) : NoDiv (manyNM p n m) :=
  ⟨fun s => c14_bounded p none (.closed n m) (by simp [Range.closed]) h.out (by simp) s⟩
instance [h : NoDiv p] (n : Nat) : NoDiv (count p n) :=
  ⟨fun s => c14_bounded p none (.closed n n) (by simp [Range.closed]) h.out (by simp) s⟩
instance [DecidableEq I] (lit : List I) : NoDiv (seq lit) := ⟨fun s => by
  refine noDiv_withInput _ _ fun inp => ?_
  have key : ∀ (pat rest : List I) (i : Nat),
      seqLoop (fun c x => decide (c = x)) s inp lit i pat rest ≠ .diverge := by
    intro pat
    induction pat with
    | nil => intro rest i; simp [seqLoop]
    | cons a pat ih =>
      intro rest i
      cases rest with
      | nil => simp [seqLoop]
      | cons x rest => simp only [seqLoop]; split
                       · exact ih _ _
                       · simp
  exact key _ _ _⟩

theorem NoDiv.ret (p : Parser I A) [h : NoDiv p] (r : List I) : Ret p r := h.out _

end

/-! ### Bounded repetitions -/

section
variable {p : Parser I A} {t r rest : List I} {c : Committed}

theorem items_none {s : State I} {vs : List A} {l : Nat} :
    Items p (none : Option (Parser I Unit)) s vs l ↔ Run p s vs l := by
  cases vs with
  | nil =>
    constructor
    · intro h; cases h; exact .nil _
    · intro h; cases h; rfl
  | cons v vs =>
    constructor
    · rintro ⟨l, m, h1, h2, rfl⟩; exact .cons h1 (sepRun_none_iff.1 h2)
    · intro h
      cases h with
      | @cons _ n m _ _ h1 h2 => exact ⟨n, m, h1, sepRun_none_iff.2 h2, rfl⟩

theorem itemsEnd_none {s : State I} {vs : List A} {l k : Nat} (hl : vs = [] → l = 0) :
    ItemsEnd p (none : Option (Parser I Unit)) s vs l k ↔ k = 0 ∧ Fails p ⟨s.input, s.offset + l⟩ := by
  unfold ItemsEnd
  constructor
  · rintro (⟨h1, rfl, h2⟩ | ⟨-, h⟩)
    · rw [hl h1]; exact ⟨rfl, by simpa using h2⟩
    · exact noMore_none_iff.1 h
  · rintro ⟨rfl, h⟩
    by_cases hv : vs = []
    · rw [hl hv] at h; exact .inl ⟨hv, rfl, by simpa using h⟩
    · exact .inr ⟨hv, noMore_none_iff.2 ⟨rfl, h⟩⟩

/-- `of_many_n_m(n, m)` reads the longest run of items, but at most `m`. -/
theorem eats_manyNM [Good p] {n m : Nat} (hm : 1 ≤ m) {vs : List A} :
    Eats (manyNM p n m) t vs rest ↔ n ≤ vs.length ∧ vs.length ≤ m ∧ Many p t vs rest ∧
      (vs.length = m ∨ ∃ c, Fail p rest c) := by
  unfold Eats manyNM repeat_
  rw [c15_manyNM_iff p n m hm]
  refine and_congr_right fun _ => and_congr_right fun hlen => ?_
  have hrun : ∀ l, Run p ⟨t ++ rest, 0⟩ vs l ↔
      ∃ t' rest', t ++ rest = t' ++ rest' ∧ l = t'.length ∧ Many p t' vs rest' := by
    intro l; have := run_many (p := p) [] (t ++ rest) vs l; simpa using this
  constructor
  · rintro ⟨l, k, h1, h2, h3⟩
    rw [items_none] at h1
    have hl : vs = [] → l = 0 := by rintro rfl; cases h1; rfl
    have hk : k = 0 := by
      rcases h3 with ⟨-, h⟩ | ⟨-, h⟩
      · exact h
      · exact ((itemsEnd_none hl).1 h).1
    subst hk
    obtain ⟨t', rest', h4, h5, h6⟩ := (hrun l).1 h1
    obtain ⟨rfl, rfl⟩ := List.append_inj h4 (by omega)
    refine ⟨h6, ?_⟩
    rcases h3 with ⟨h, -⟩ | ⟨-, h⟩
    · exact .inl h
    · right
      have := ((itemsEnd_none hl).1 h).2
      rw [h5] at this
      exact (at_fails t rest).1 (by simpa using this)
  · rintro ⟨h1, h2⟩
    have h1' := (hrun t.length).2 ⟨t, rest, rfl, rfl, h1⟩
    have hl : vs = [] → t.length = 0 := by rintro rfl; cases h1; rfl
    refine ⟨t.length, 0, items_none.2 h1', rfl, ?_⟩
    by_cases hv : vs.length = m
    · exact .inl ⟨hv, rfl⟩
    · refine .inr ⟨by omega, (itemsEnd_none hl).2 ⟨rfl, ?_⟩⟩
      rcases h2 with h2 | h2
      · exact absurd h2 hv
      · simpa using (at_fails t rest).2 h2

/-- `of_count(n)` reads exactly `n` items. -/
theorem eats_count [Good p] {n : Nat} (hn : 1 ≤ n) {vs : List A} :
    Eats (count p n) t vs rest ↔ vs.length = n ∧ Many p t vs rest := by
  have : count p n = manyNM p n n := rfl
  rw [this, eats_manyNM hn]
  constructor
  · rintro ⟨h1, h2, h3, -⟩; exact ⟨by omega, h3⟩
  · rintro ⟨h1, h2⟩; exact ⟨by omega, by omega, h2, .inl h1⟩

/-- Bounded repetitions fail without commitment. -/
theorem soft_manyNM {n m : Nat} (hnm : n ≤ m) (h : Fail (manyNM p n m) r c) : c = .uncommitted := by
  obtain ⟨e, h⟩ := h
  exact (c15_failure p (.closed n m) ⟨n, by simp [Range.Contains, Range.closed, hnm]⟩ none _ e c h).1

theorem soft_count {n : Nat} (h : Fail (count p n) r c) : c = .uncommitted :=
  soft_manyNM (p := p) (Nat.le_refl n) h

/-- No repetition with a lower bound above zero can begin where an item fails. -/
theorem fail_manyNM {n m : Nat} (hn : 1 ≤ n) (h : ∃ c, Fail p r c) :
    Fail (manyNM p n m) r .uncommitted := by
  obtain ⟨c, e, h⟩ := h
  unfold Fail manyNM repeat_ repeatSep
  simp only [h, repFinish, Range.closed]
  rw [if_pos (by simp; omega)]
  simp [State.withInput, State.advanceBy]

end
end OniComb
