import Verif.Lemmas.Built
import Verif.Spec.Errors

/-!
# Errors carry the rest of the input and their place in it
-/

namespace OniComb
variable {I A B : Type}

/-- Everything in the error belongs to the text `t`. -/
def Located (t : List I) : PError I → Prop
  | .mismatch inp off len => ∃ o ≤ t.length, inp = t.drop o ∧ o ≤ off + 1 ∧ off ≤ o + len ∧ off ≤ t.length + 1
  | .conversion inp off len => ∃ o ≤ t.length, inp = t.drop o ∧ o ≤ off + 1 ∧ off ≤ o + len ∧ off ≤ t.length + 1
  | .incomplete => True
  | .expect off inner _ => off ≤ t.length ∧ Located t inner
  | .customInner off inner _ => off ≤ t.length ∧ Located t inner
  | .custom off _ => off ≤ t.length

/-- All errors of the result belong to the text. -/
def LocAt (t : List I) : Res I A → Prop
  | .failure e _ => Located t e
  | _ => True

/-- All errors of the parser belong to the text it runs on. -/
def Loc (p : Parser I A) : Prop := ∀ s, s.offset ≤ s.input.length → LocAt s.input (p s)

theorem locAt_shift {t : List I} {n : Nat} {b : Bool} {r : Res I A} (h : LocAt t r) :
    LocAt t ((r.addCommit b).advanceSuccess n) := by
  cases r <;> exact h

theorem locAt_advance {t : List I} {n : Nat} {r : Res I A} (h : LocAt t r) : LocAt t (r.advanceSuccess n) := by
  cases r <;> exact h

theorem lastOffset_le {s : State I} : s.lastOffset ≤ s.offset := by
  unfold State.lastOffset; split <;> omega

theorem le_lastOffset {s : State I} : s.offset ≤ s.lastOffset + 1 := by
  unfold State.lastOffset; split <;> omega

theorem loc_filter {p : Parser I A} {f : A → Bool} (hs : Safe p) (hp : Loc p) : Loc (filter p f) := by
  intro s h
  have h1 := hs s h
  have h2 := hp s h
  unfold filter
  cases hr : p s with
  | success v n =>
    rw [hr] at h1
    simp only
    split
    · trivial
    · exact h1
  | failure e c => rw [hr] at h2; exact h2
  | _ => trivial

theorem loc_flatMap {p : Parser I A} {f : A → Parser I B} (hs : Safe p) (hp : Loc p) (hf : ∀ a, Loc (f a)) :
    Loc (flatMap p f) := by
  intro s h
  have h1 := hs s h
  have h2 := hp s h
  unfold flatMap
  cases hr : p s with
  | success v n => rw [hr] at h1; exact locAt_shift (hf v ⟨s.input, s.offset + n⟩ h1)
  | failure e c => rw [hr] at h2; exact h2
  | _ => trivial

/-- Parsers that pass the errors of one parser on. -/
theorem loc_pass {p : Parser I A} {q : Parser I B} (hp : Loc p)
    (h : ∀ s, s.offset ≤ s.input.length → ∀ e c, q s = .failure e c → p s = .failure e c ∨ Located s.input e) : Loc q := by
  intro s hs
  cases hq : q s with
  | failure e c =>
    rcases h s hs e c hq with h1 | h1
    · have := hp s hs
      rw [h1] at this
      exact this
    · exact h1
  | _ => trivial

theorem loc_map {p : Parser I A} {f : A → B} (hp : Loc p) : Loc (map p f) :=
  loc_pass hp fun s _ e c h => by unfold map at h; left; cases hr : p s <;> rw [hr] at h <;> simp_all

theorem loc_exists {p : Parser I A} : Loc (exists_ p) := by
  intro s _; unfold exists_; cases p s <;> trivial

theorem loc_not {p : Parser I A} : Loc (not_ p) := by
  intro s hs
  unfold not_
  cases p s with
  | success v n =>
    simp only [State.advanceBy, Nat.add_zero, State.withInput, hs, if_true, LocAt, Located]
    exact ⟨s.offset, hs, rfl, le_lastOffset, lastOffset_le, Nat.le_succ_of_le (Nat.le_trans lastOffset_le hs)⟩
  | _ => trivial

theorem loc_or {p q : Parser I A} (hp : Loc p) (hq : Loc q) : Loc (or p q) := by
  intro s hs
  have h1 := hp s hs
  unfold or
  cases hr : p s with
  | failure e c => cases c with
    | committed => rw [hr] at h1; exact h1
    | uncommitted => exact hq s hs
  | _ => trivial

theorem loc_andThen {p : Parser I A} {q : Parser I B} (hs : Safe p) (hp : Loc p) (hq : Loc q) : Loc (andThen p q) := by
  intro s h
  have h1 := hs s h
  have h2 := hp s h
  unfold andThen
  cases hr : p s with
  | success v n =>
    rw [hr] at h1
    have h3 := hq ⟨s.input, s.offset + n⟩ h1
    simp only [State.advanceBy]
    cases hr' : q ⟨s.input, s.offset + n⟩ <;> rw [hr'] at h3 <;> first | trivial | exact h3
  | failure e c => rw [hr] at h2; exact h2
  | _ => trivial

theorem loc_skipLeft {p : Parser I A} {q : Parser I B} (hs : Safe p) (hp : Loc p) (hq : Loc q) : Loc (skipLeft p q) := by
  intro s h
  have h1 := hs s h
  have h2 := hp s h
  unfold skipLeft
  cases hr : p s with
  | success v n =>
    rw [hr] at h1
    have h3 := hq ⟨s.input, s.offset + n⟩ h1
    simp only [State.advanceBy]
    cases hr' : q ⟨s.input, s.offset + n⟩ <;> rw [hr'] at h3 <;> first | trivial | exact h3
  | failure e c => rw [hr] at h2; exact h2
  | _ => trivial

theorem loc_skipRight {p : Parser I A} {q : Parser I B} (hs : Safe p) (hp : Loc p) (hq : Loc q) : Loc (skipRight p q) := by
  intro s h
  have h1 := hs s h
  have h2 := hp s h
  unfold skipRight
  cases hr : p s with
  | success v n =>
    rw [hr] at h1
    have h3 := hq ⟨s.input, s.offset + n⟩ h1
    simp only [State.advanceBy]
    cases hr' : q ⟨s.input, s.offset + n⟩ <;> rw [hr'] at h3 <;> first | trivial | exact h3
  | failure e c => rw [hr] at h2; exact h2
  | _ => trivial

theorem loc_attempt {p : Parser I A} (hp : Loc p) : Loc (attempt p) := by
  intro s h
  have h2 := hp s h
  unfold attempt
  cases hr : p s with
  | failure e c => rw [hr] at h2; cases c <;> exact h2
  | _ => trivial

theorem loc_skip (n : Nat) : Loc (skip (I := I) n) := by
  intro s hs
  simp only [skip, State.withInput, hs, if_true]
  split <;> trivial

theorem loc_mapRes {p : Parser I A} {f : A → Option B} (hp : Loc p) : Loc (mapRes p f) := by
  intro s hs
  have h2 := hp s hs
  unfold mapRes
  cases hr : p s with
  | success v n =>
    simp only
    cases f v with
    | some b => trivial
    | none =>
      simp only [State.withInput, hs, if_true, LocAt, Located]
      exact ⟨s.offset, hs, rfl, le_lastOffset, lastOffset_le, Nat.le_succ_of_le (Nat.le_trans lastOffset_le hs)⟩
  | failure e c => rw [hr] at h2; exact h2
  | _ => trivial

theorem loc_peek {p : Parser I A} (hp : Loc p) : Loc (peek p) :=
  loc_pass hp fun s _ e c h => by unfold peek at h; left; cases hr : p s <;> rw [hr] at h <;> simp_all

theorem loc_name {p : Parser I A} {l : String} (hp : Loc p) : Loc (name p l) := by
  intro s hs
  have h2 := hp s hs
  unfold name
  cases hr : p s with
  | failure e c =>
    rw [hr] at h2
    simp only
    split
    · exact h2
    · exact ⟨Nat.le_trans lastOffset_le hs, h2⟩
  | _ => trivial

theorem loc_expect {p : Parser I A} {l : String} (hp : Loc p) : Loc (expect p l) := by
  intro s hs
  have h2 := hp s hs
  unfold expect
  cases hr : p s with
  | failure e c => rw [hr] at h2; exact ⟨Nat.le_trans lastOffset_le hs, h2⟩
  | _ => trivial

theorem loc_lastOffset {p : Parser I A} (hp : Loc p) : Loc (lastOffset p) :=
  loc_pass hp fun s _ e c h => by unfold lastOffset at h; left; cases hr : p s <;> rw [hr] at h <;> simp_all

theorem loc_nextOffset {p : Parser I A} (hp : Loc p) : Loc (nextOffset p) :=
  loc_pass hp fun s _ e c h => by unfold nextOffset at h; left; cases hr : p s <;> rw [hr] at h <;> simp_all

theorem loc_collect {p : Parser I A} (hp : Loc p) : Loc (collect p) :=
  loc_pass hp fun s _ e c h => by
    unfold collect at h
    left
    cases hr : p s with
    | success v n => rw [hr] at h; simp only [State.withSlice] at h; split at h <;> cases h
    | _ => rw [hr] at h; simp_all

theorem loc_discard {p : Parser I A} (hp : Loc p) : Loc (discard p) :=
  loc_pass hp fun s _ e c h => by unfold discard at h; left; cases hr : p s <;> rw [hr] at h <;> simp_all

theorem locAt_next {s : State I} (hs : s.offset ≤ s.input.length) (k : Nat) (hk : s.offset + k ≤ s.input.length + 1)
    (c : Committed) : LocAt s.input (.failure (.mismatch (s.input.drop s.offset) (s.offset + k) k) c : Res I A) :=
  ⟨s.offset, hs, rfl, by omega, Nat.le_refl _, hk⟩

theorem loc_end : Loc (end_ (I := I)) := by
  intro s hs
  simp only [end_, State.withInput, hs, if_true, State.advanceBy]
  split
  · exact locAt_next hs 1 (by omega) _
  · trivial

theorem loc_elmPred (f : I → Bool) : Loc (elmPred f) := by
  intro s hs
  simp only [elmPred, State.withInput, hs, if_true]
  split
  · split
    · trivial
    · exact locAt_next hs 1 (by omega) _
  · exact locAt_next hs 1 (by omega) _

theorem loc_elmOfSet (f : I → Bool) : Loc (elmOfSet f) := by
  intro s hs
  simp only [elmOfSet, State.withInput, hs, if_true]
  split
  · split
    · trivial
    · exact locAt_next hs 1 (by omega) _
  · trivial

theorem loc_noneOfSet (f : I → Bool) : Loc (noneOfSet f) := by
  intro s hs
  simp only [noneOfSet, State.withInput, hs, if_true]
  split
  · split
    · trivial
    · exact locAt_next hs 1 (by omega) _
  · trivial

theorem seqLoop_loc (eq : I → I → Bool) (s : State I) (hs : s.offset ≤ s.input.length) (lit : List I) :
    ∀ (pat rest : List I) (index : Nat), s.offset + index + rest.length ≤ s.input.length →
      LocAt s.input (seqLoop eq s (s.input.drop s.offset) lit index pat rest) := by
  intro pat
  induction pat with
  | nil => intro rest index _; trivial
  | cons c pat ih =>
    intro rest index h
    cases rest with
    | nil => trivial
    | cons x rest =>
      rw [List.length_cons] at h
      simp only [seqLoop]
      split
      · exact ih rest (index + 1) (by omega)
      · exact locAt_next hs index (by omega) _

theorem loc_seqLike (eq : I → I → Bool) (lit : List I) :
    Loc (fun s => s.withInput fun inp => seqLoop eq s inp lit 0 lit inp) := by
  intro s hs
  simp only [State.withInput, hs, if_true]
  exact seqLoop_loc eq s hs lit lit _ 0 (by rw [List.length_drop]; omega)

theorem loc_repeatSep {p : Parser I A} {sep : Option (Parser I B)} (r : Range) (hp : Safe p)
    (hsep : SafeSep sep) : Loc (repeatSep p r sep) := by
  intro s hs
  have hfin : ∀ (items : List A) (len : Nat), s.offset + len ≤ s.input.length →
      LocAt s.input (repFinish r s items len) := by
    intro items len h
    unfold repFinish
    split
    · split
      · simp only [State.withInput, State.advanceBy, h, if_true, LocAt, Located]
        exact ⟨s.offset + len, h, rfl, le_lastOffset (s := ⟨s.input, s.offset + len⟩),
          Nat.le_trans (lastOffset_le (s := ⟨s.input, s.offset + len⟩)) (Nat.le_add_right _ _), Nat.le_succ_of_le (Nat.le_trans lastOffset_le h)⟩
      · trivial
    · trivial
  have := hp s hs
  unfold repeatSep
  cases h : p s with
  | success v n =>
    rw [h] at this
    simp only
    have hl := repLoop_safe hp hsep r.stop s (repFuel r.stop s) ⟨s.advanceBy n, [v], n⟩ rfl rfl this
    cases h' : repLoop p sep r.stop (repFuel r.stop s) ⟨s.advanceBy n, [v], n⟩ with
    | exit items len => rw [h'] at hl; exact hfin items len hl
    | panic => trivial
    | diverge => trivial
  | failure e c => exact hfin [] 0 hs
  | panic => trivial
  | diverge => trivial

theorem loc_restLeft1N {p : Parser I A} {op : Parser I (A → A → A)} (sp : Safe p) (sop : Safe op) (hp : Loc p)
    (hop : Loc op) : ∀ (k : Nat) (x : A), Loc (restLeft1N p op k x) := by
  intro k
  induction k with
  | zero => intro x s hs; trivial
  | succ k ih =>
    intro x
    refine loc_or ?_ (fun s hs => trivial)
    intro s hs
    have ho := sop s hs
    have ho' := hop s hs
    simp only [State.advanceBy, Nat.add_zero]
    cases h : op s with
    | success f n1 =>
      rw [h] at ho
      simp only
      refine locAt_shift ?_
      have hp' := sp ⟨s.input, s.offset + n1⟩ ho
      have hp'' := hp ⟨s.input, s.offset + n1⟩ ho
      cases h' : p ⟨s.input, s.offset + n1⟩ with
      | success y n2 =>
        rw [h'] at hp'
        exact locAt_advance (ih (f x y) ⟨s.input, s.offset + n1 + n2⟩ hp')
      | failure e c => rw [h'] at hp''; exact hp''
      | _ => trivial
    | failure e c => rw [h] at ho'; exact ho'
    | _ => trivial

theorem loc_incomplete {p : Parser I A} (h : ∀ s, s.offset ≤ s.input.length → ∀ e c, p s = .failure e c → e = .incomplete) :
    Loc p := by
  intro s hs
  cases hp : p s with
  | failure e c => rw [h s hs e c hp]; trivial
  | _ => trivial

theorem withSlice_failure {s : State I} {n : Nat} {k : List I → Res I A} {e : PError I} {c : Committed}
    (h : s.withSlice n k = .failure e c) : ∃ l, k l = .failure e c := by
  unfold State.withSlice at h
  split at h
  · exact ⟨_, h⟩
  · cases h

theorem withSub_failure {l : List I} {a b : Nat} {k : List I → Res I A} {e : PError I} {c : Committed}
    (h : withSub l a b k = .failure e c) : ∃ l, k l = .failure e c := by
  unfold withSub at h
  split at h
  · exact ⟨_, h⟩
  · cases h

theorem loc_take (n : Nat) : Loc (take (I := I) n) :=
  loc_incomplete fun s hs e c h => by
    simp only [take, State.withInput, hs, if_true] at h
    split at h
    · obtain ⟨l, h⟩ := withSlice_failure h; cases h
    · cases h; rfl

theorem loc_takeWhile0 (f : I → Bool) : Loc (takeWhile0 f) :=
  loc_incomplete fun s hs e c h => by
    simp only [takeWhile0, State.withInput, hs, if_true] at h
    split at h
    · obtain ⟨l, h⟩ := withSub_failure h; cases h
    · obtain ⟨l, h⟩ := withSlice_failure h; cases h

theorem loc_takeWhile1 (f : I → Bool) : Loc (takeWhile1 f) :=
  loc_incomplete fun s hs e c h => by
    simp only [takeWhile1, State.withInput, hs, if_true] at h
    split at h
    · obtain ⟨l, h⟩ := withSub_failure h; cases h
    · cases h; rfl

theorem loc_takeWhileNM (n m : Nat) (f : I → Bool) : Loc (takeWhileNM n m f) :=
  loc_incomplete fun s hs e c h => by
    simp only [takeWhileNM, State.withInput, hs, if_true] at h
    split at h
    · obtain ⟨l, h⟩ := withSub_failure h
      split at h <;> cases h
      rfl
    · cases h; rfl

theorem loc_takeTill0 (f : I → Bool) : Loc (takeTill0 f) :=
  loc_incomplete fun s hs e c h => by
    simp only [takeTill0, State.withInput, hs, if_true] at h
    split at h
    · obtain ⟨l, h⟩ := withSlice_failure h; cases h
    · cases h

theorem loc_takeTill1 (f : I → Bool) : Loc (takeTill1 f) :=
  loc_incomplete fun s hs e c h => by
    simp only [takeTill1, State.withInput, hs, if_true] at h
    split at h
    · obtain ⟨l, h⟩ := withSlice_failure h; cases h
    · cases h; rfl

theorem built_loc {P : (A : Type) → Parser I A → Prop} {obs : Bool} {E : PError I → Prop}
    (hP : ∀ A (p : Parser I A), P A p → Safe p ∧ Loc p) (hE : ∀ e, E e → ∀ t, Located t e) {p : Parser I A}
    (h : BuiltWith P obs E p) : Safe p ∧ Loc p := by
  refine ⟨built_safe (fun A p hp => (hP A p hp).1) h, ?_⟩
  have hS : ∀ {A : Type} {p : Parser I A}, BuiltWith P obs E p → Safe p := fun h =>
    built_safe (fun A p hp => (hP A p hp).1) h
  induction h with
  | prim p h => exact (hP _ p h).2
  | successful a => exact fun s hs => trivial
  | failed e c h => exact fun s _ => hE e h s.input
  | filter p f h ih => exact loc_filter (hS h) ih
  | flatMap p f h _ ih1 ih2 => exact loc_flatMap (hS h) ih1 ih2
  | map p f _ ih => exact loc_map ih
  | exists_ p _ ih => exact loc_exists
  | not_ p _ ih => exact loc_not
  | or p q _ _ ih1 ih2 => exact loc_or ih1 ih2
  | andThen p q h _ ih1 ih2 => exact loc_andThen (hS h) ih1 ih2
  | attempt p _ ih => exact loc_attempt ih
  | skip n => exact loc_skip n
  | skipLeft p q h _ ih1 ih2 => exact loc_skipLeft (hS h) ih1 ih2
  | skipRight p q h _ ih1 ih2 => exact loc_skipRight (hS h) ih1 ih2
  | mapRes p f _ ih => exact loc_mapRes ih
  | peek p _ ih => exact loc_peek ih
  | logMap p l _ ih => exact ih
  | name p l _ ih => exact loc_name ih
  | expect p l _ ih => exact loc_expect ih
  | lastOffset p _ _ ih => exact loc_lastOffset ih
  | nextOffset p _ _ ih => exact loc_nextOffset ih
  | collect p _ ih => exact loc_collect ih
  | discard p _ ih => exact loc_discard ih
  | end_ => exact loc_end
  | lazy f _ ih => exact ih
  | diverging => exact fun s hs => trivial
  | elmPred f => exact loc_elmPred f
  | elmOfSet f => exact loc_elmOfSet f
  | noneOfSet f => exact loc_noneOfSet f
  | seq lit => exact loc_seqLike _ lit
  | take n => exact loc_take n
  | takeWhile0 f => exact loc_takeWhile0 f
  | takeWhile1 f => exact loc_takeWhile1 f
  | takeWhileNM n m f => exact loc_takeWhileNM n m f
  | takeTill0 f => exact loc_takeTill0 f
  | takeTill1 f => exact loc_takeTill1 f
  | repeat_ p r h ih => exact loc_repeatSep r (hS h) (by intro q hq; cases hq)
  | repeatSep p r q h1 h2 ih1 ih2 => exact loc_repeatSep r (hS h1) (by intro q hq; cases hq; exact hS h2)
  | restLeft1 p op x h1 h2 ih1 ih2 => exact fun s hs => loc_restLeft1N (hS h1) (hS h2) ih1 ih2 _ x s hs

end OniComb
