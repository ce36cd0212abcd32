import Verif.Lemmas.Built

/-!
# Helper lemmas: closure of position independence under all combinators
-/

namespace OniComb
variable {I A B : Type}

/-- Position independent and safe: the pair that is closed under the combinators. -/
def Nice (p : Parser I A) : Prop := Safe p ∧ PosIndep p

/-- How two related results can look, with the bound on the consumed length. -/
theorem nice_cases {p : Parser I A} (hp : Nice p) (pre inp : List I) (k : Nat) (hk : k ≤ inp.length) :
    (∃ v n, p ⟨pre ++ inp, pre.length + k⟩ = .success v n ∧ p ⟨inp, k⟩ = .success v n ∧
      k + n ≤ inp.length) ∨
    (∃ e e' c, p ⟨pre ++ inp, pre.length + k⟩ = .failure e c ∧ p ⟨inp, k⟩ = .failure e' c) ∨
    (p ⟨pre ++ inp, pre.length + k⟩ = .diverge ∧ p ⟨inp, k⟩ = .diverge) := by
  have h1 := hp.1 ⟨inp, k⟩ hk
  have h2 := hp.2 pre inp k hk
  cases h3 : p ⟨pre ++ inp, pre.length + k⟩ <;> cases h4 : p ⟨inp, k⟩ <;>
    rw [h3, h4] at h2 <;> rw [h4] at h1 <;> simp_all only [SameOutcome, SafeAt]
  · obtain ⟨rfl, rfl⟩ := h2
    exact .inl ⟨_, _, rfl, rfl, h1⟩
  · exact .inr (.inl ⟨_, _, _, rfl, rfl⟩)
  · exact .inr (.inr ⟨trivial, trivial⟩)

theorem drop_pre (pre inp : List I) (k : Nat) : (pre ++ inp).drop (pre.length + k) = inp.drop k := by
  rw [List.drop_append]; simp

/-- Parsers that only look at the rest of the input. -/
theorem posIndep_withInput (k : State I → List I → Res I A)
    (h : ∀ s s' l, SameOutcome (k s l) (k s' l)) : PosIndep fun s => s.withInput (k s) := by
  intro pre inp j hj
  simp only [State.withInput, drop_pre, List.length_append, Nat.add_le_add_iff_left, hj, if_true]
  exact h _ _ _

theorem slice_pre (pre inp : List I) (k n : Nat) (f : List I → Res I A) :
    State.withSlice ⟨pre ++ inp, pre.length + k⟩ n f = State.withSlice ⟨inp, k⟩ n f := by
  simp only [State.withSlice, drop_pre, List.length_append, Nat.add_assoc, Nat.add_le_add_iff_left]

theorem same_refl (r : Res I A) : SameOutcome r r := by cases r <;> simp [SameOutcome]

theorem seqLoop_same (eq : I → I → Bool) (s s' : State I) (inp lit : List I) :
    ∀ (index : Nat) (pat rest : List I),
      SameOutcome (seqLoop eq s inp lit index pat rest) (seqLoop eq s' inp lit index pat rest) := by
  intro index pat
  induction pat generalizing index with
  | nil => intro rest; simp [seqLoop, SameOutcome]
  | cons c pat ih =>
    intro rest
    cases rest with
    | nil => simp [seqLoop, SameOutcome]
    | cons x rest =>
      simp only [seqLoop]
      split
      · exact ih _ _
      · simp [SameOutcome]

theorem pos_seqLike (eq : I → I → Bool) (lit : List I) :
    PosIndep (fun s : State I => s.withInput fun inp => seqLoop eq s inp lit 0 lit inp) :=
  posIndep_withInput (fun s inp => seqLoop eq s inp lit 0 lit inp) fun s s' l =>
    seqLoop_same eq s s' l lit 0 lit l

theorem same_or (p q p' q' : Parser I A) (s s' : State I) (h1 : SameOutcome (p s) (p' s'))
    (h2 : SameOutcome (q s) (q' s')) : SameOutcome (or p q s) (or p' q' s') := by
  unfold or
  revert h1
  cases h3 : p s with
  | failure e c =>
    cases h4 : p' s' with
    | failure e' c' =>
      intro h
      have h : c = c' := h
      subst h
      cases c
      · exact rfl
      · exact h2
    | _ => exact False.elim
  | _ =>
    cases h4 : p' s' with
    | failure e' c' => exact False.elim
    | _ => exact id

theorem pos_or {p q : Parser I A} (hp : Nice p) (hq : PosIndep q) : PosIndep (or p q) := by
  intro pre inp k hk
  have h2 := hq pre inp k hk
  unfold or
  rcases nice_cases hp pre inp k hk with ⟨v, n, h1, h3, -⟩ | ⟨e, e', c, h1, h3⟩ | ⟨h1, h3⟩
  · simp [h1, h3, SameOutcome]
  · rw [h1, h3]
    cases c
    · simp [SameOutcome]
    · exact h2
  · simp [h1, h3, SameOutcome]

theorem same_shift {n : Nat} {r r' : Res I A} (b : Bool) (h : SameOutcome r r') :
    SameOutcome ((r.addCommit b).advanceSuccess n) ((r'.addCommit b).advanceSuccess n) := by
  cases r <;> cases r' <;> simp_all [SameOutcome, Res.addCommit, Res.advanceSuccess]

/-! ### Repetition -/

def NiceSep (sep : Option (Parser I B)) : Prop := ∀ q, sep = some q → Nice q

/-- Related results of a loop turn. -/
def SameTurn (pre inp : List I) : Turn I A → Turn I A → Prop
  | .again st, .again st' => ∃ k, k ≤ inp.length ∧ st.cur = ⟨pre ++ inp, pre.length + k⟩ ∧
      st'.cur = ⟨inp, k⟩ ∧ st.items = st'.items ∧ st.length = st'.length
  | .exit i n, .exit i' n' => i = i' ∧ n = n'
  | .diverge, .diverge => True
  | _, _ => False

theorem repItem_same {p : Parser I A} (hp : Nice p) (pre inp : List I) (k : Nat) (hk : k ≤ inp.length)
    (items : List A) (len : Nat) :
    SameTurn pre inp (repItem p ⟨⟨pre ++ inp, pre.length + k⟩, items, len⟩)
      (repItem p ⟨⟨inp, k⟩, items, len⟩) := by
  unfold repItem
  rcases nice_cases hp pre inp k hk with ⟨v, n, h1, h3, hn⟩ | ⟨e, e', c, h1, h3⟩ | ⟨h1, h3⟩
  · simp only [h1, h3, SameTurn, State.advanceBy]
    exact ⟨k + n, hn, by simp [Nat.add_assoc], by simp⟩
  · simp [h1, h3, SameTurn]
  · simp [h1, h3, SameTurn]

theorem repTurn_same {p : Parser I A} {sep : Option (Parser I B)} (hp : Nice p) (hsep : NiceSep sep)
    (stop : Bound) (pre inp : List I) (k : Nat) (hk : k ≤ inp.length) (items : List A) (len : Nat) :
    SameTurn pre inp (repTurn p sep stop ⟨⟨pre ++ inp, pre.length + k⟩, items, len⟩)
      (repTurn p sep stop ⟨⟨inp, k⟩, items, len⟩) := by
  unfold repTurn
  by_cases hb : boundReached stop items.length = true
  · simp [hb, SameTurn]
  · simp only [hb, Bool.false_eq_true, if_false]
    cases sep with
    | none => exact repItem_same hp pre inp k hk items len
    | some q =>
      rcases nice_cases (hsep q rfl) pre inp k hk with ⟨v, n, h1, h3, hn⟩ | ⟨e, e', c, h1, h3⟩ | ⟨h1, h3⟩
      · simp only [h1, h3, State.advanceBy, Nat.add_assoc]
        exact repItem_same hp pre inp (k + n) hn items (len + n)
      · simp [h1, h3, SameTurn]
      · simp [h1, h3, SameTurn]

theorem repLoop_same {p : Parser I A} {sep : Option (Parser I B)} (hp : Nice p) (hsep : NiceSep sep)
    (stop : Bound) (pre inp : List I) : ∀ (fuel k : Nat), k ≤ inp.length → ∀ (items : List A) (len : Nat),
      repLoop p sep stop fuel ⟨⟨pre ++ inp, pre.length + k⟩, items, len⟩ =
        repLoop p sep stop fuel ⟨⟨inp, k⟩, items, len⟩ := by
  intro fuel
  induction fuel with
  | zero => intros; rfl
  | succ fuel ih =>
    intro k hk items len
    have := repTurn_same hp hsep stop pre inp k hk items len
    simp only [repLoop]
    revert this
    cases repTurn p sep stop ⟨⟨pre ++ inp, pre.length + k⟩, items, len⟩ with
    | again st =>
      cases repTurn p sep stop ⟨⟨inp, k⟩, items, len⟩ with
      | again st' =>
        rintro ⟨j, hj, h1, h2, h3, h4⟩
        obtain ⟨c, i, l⟩ := st
        obtain ⟨c', i', l'⟩ := st'
        simp only at h1 h2 h3 h4
        subst h1 h2 h3 h4
        exact ih j hj _ _
      | _ => exact False.elim
    | exit i n =>
      cases repTurn p sep stop ⟨⟨inp, k⟩, items, len⟩ with
      | exit i' n' => rintro ⟨rfl, rfl⟩; rfl
      | _ => exact False.elim
    | panic =>
      cases repTurn p sep stop ⟨⟨inp, k⟩, items, len⟩ <;> exact False.elim
    | diverge =>
      cases repTurn p sep stop ⟨⟨inp, k⟩, items, len⟩ with
      | diverge => intro _; rfl
      | _ => exact False.elim

theorem pos_repeatSep {p : Parser I A} {sep : Option (Parser I B)} (r : Range) (hp : Nice p)
    (hsep : NiceSep sep) : PosIndep (repeatSep p r sep) := by
  intro pre inp k hk
  have hfin : ∀ (items : List A) (len : Nat),
      SameOutcome (repFinish r ⟨pre ++ inp, pre.length + k⟩ items len) (repFinish r ⟨inp, k⟩ items len) := by
    intro items len
    unfold repFinish
    cases r.start with
    | included m =>
      dsimp only
      by_cases hm : items.length < m
      · simp only [hm, if_true, State.withInput, State.advanceBy, Nat.add_assoc, drop_pre,
          List.length_append, Nat.add_le_add_iff_left]
        by_cases hl : k + len ≤ inp.length <;> simp [hl, SameOutcome]
      · simp [hm, SameOutcome]
    | _ => simp [SameOutcome]
  have hfuel : repFuel r.stop (⟨pre ++ inp, pre.length + k⟩ : State I) = repFuel r.stop ⟨inp, k⟩ := by
    unfold repFuel
    split <;> simp
    omega
  unfold repeatSep
  rcases nice_cases hp pre inp k hk with ⟨v, n, h1, h3, hn⟩ | ⟨e, e', c, h1, h3⟩ | ⟨h1, h3⟩
  · simp only [h1, h3, State.advanceBy, hfuel, Nat.add_assoc]
    rw [repLoop_same hp hsep r.stop pre inp _ (k + n) hn]
    cases repLoop p sep r.stop (repFuel r.stop ⟨inp, k⟩) ⟨⟨inp, k + n⟩, [v], n⟩ with
    | exit items len => exact hfin _ _
    | _ => simp [SameOutcome]
  · simp only [h1, h3]; exact hfin _ _
  · simp [h1, h3, SameOutcome]

theorem pos_restLeft1N {p : Parser I A} {op : Parser I (A → A → A)} (hp : Nice p) (hop : Nice op) :
    ∀ (j : Nat) (x : A), PosIndep (restLeft1N p op j x) := by
  intro j
  induction j with
  | zero => intro x pre inp k hk; trivial
  | succ j ih =>
    intro x pre inp k hk
    have key : SameOutcome
        (match op ⟨pre ++ inp, pre.length + k⟩ with
          | .success f n1 =>
            (((match p ⟨pre ++ inp, pre.length + k + n1⟩ with
              | .success y n2 =>
                ((restLeft1N p op j (f x y)) ⟨pre ++ inp, pre.length + k + n1 + n2⟩).advanceSuccess n2
              | .failure e c => .failure e c
              | .panic => .panic
              | .diverge => .diverge) : Res I A).addCommit (n1 != 0)).advanceSuccess n1
          | .failure e c => .failure e c
          | .panic => .panic
          | .diverge => .diverge)
        (match op ⟨inp, k⟩ with
          | .success f n1 =>
            (((match p ⟨inp, k + n1⟩ with
              | .success y n2 =>
                ((restLeft1N p op j (f x y)) ⟨inp, k + n1 + n2⟩).advanceSuccess n2
              | .failure e c => .failure e c
              | .panic => .panic
              | .diverge => .diverge) : Res I A).addCommit (n1 != 0)).advanceSuccess n1
          | .failure e c => .failure e c
          | .panic => .panic
          | .diverge => .diverge) := by
      rcases nice_cases hop pre inp k hk with ⟨f, n, h1, h3, hn⟩ | ⟨e, e', c, h1, h3⟩ | ⟨h1, h3⟩
      · rw [h1, h3]
        refine same_shift _ ?_
        rw [show pre.length + k + n = pre.length + (k + n) by omega]
        rcases nice_cases hp pre inp (k + n) hn with ⟨y, m, h4, h5, hm⟩ | ⟨e, e', c, h4, h5⟩ | ⟨h4, h5⟩
        · rw [h4, h5]
          dsimp only
          rw [show pre.length + (k + n) + m = pre.length + (k + n + m) by omega]
          have := ih (f x y) pre inp (k + n + m) hm
          revert this
          cases restLeft1N p op j (f x y) ⟨pre ++ inp, pre.length + (k + n + m)⟩ <;>
            cases restLeft1N p op j (f x y) ⟨inp, k + n + m⟩ <;>
            simp [SameOutcome, Res.advanceSuccess]
        · rw [h4, h5]; simp [SameOutcome]
        · rw [h4, h5]; simp [SameOutcome]
      · rw [h1, h3]; simp [SameOutcome]
      · rw [h1, h3]; simp [SameOutcome]
    exact same_or _ _ _ _ _ _ key ⟨rfl, rfl⟩

theorem built_nice {P : (A : Type) → Parser I A → Prop}
    (hP : ∀ A (p : Parser I A), P A p → Nice p) {p : Parser I A} (h : Built P false p) : Nice p := by
  refine ⟨built_safe (fun A p hp => (hP A p hp).1) h, ?_⟩
  have hs : ∀ {A : Type} {p : Parser I A}, Built P false p → Safe p := fun h =>
    built_safe (fun A p hp => (hP A p hp).1) h
  induction h with
  | prim p h => exact (hP _ p h).2
  | successful a => intro pre inp k hk; exact ⟨rfl, rfl⟩
  | failed e c _ => intro pre inp k hk; exact rfl
  | filter p f hb ih =>
    intro pre inp k hk
    unfold filter
    rcases nice_cases ⟨hs hb, ih⟩ pre inp k hk with
      ⟨v, n, h1, h3, hn⟩ | ⟨e, e', c, h1, h3⟩ | ⟨h1, h3⟩
    · simp only [h1, h3]; split <;> simp [SameOutcome]
    · simp [h1, h3, SameOutcome]
    · simp [h1, h3, SameOutcome]
  | flatMap p f hb _ ih1 ih2 =>
    intro pre inp k hk
    unfold flatMap
    rcases nice_cases ⟨hs hb, ih1⟩ pre inp k hk with
      ⟨v, n, h1, h3, hn⟩ | ⟨e, e', c, h1, h3⟩ | ⟨h1, h3⟩
    · simp only [h1, h3, State.advanceBy, Nat.add_assoc]
      exact same_shift _ (ih2 v pre inp (k + n) hn)
    · simp [h1, h3, SameOutcome]
    · simp [h1, h3, SameOutcome]
  | map p f hb ih =>
    intro pre inp k hk
    unfold map
    rcases nice_cases ⟨hs hb, ih⟩ pre inp k hk with
      ⟨v, n, h1, h3, hn⟩ | ⟨e, e', c, h1, h3⟩ | ⟨h1, h3⟩ <;> simp [h1, h3, SameOutcome]
  | exists_ p hb ih =>
    intro pre inp k hk
    unfold exists_
    rcases nice_cases ⟨hs hb, ih⟩ pre inp k hk with
      ⟨v, n, h1, h3, hn⟩ | ⟨e, e', c, h1, h3⟩ | ⟨h1, h3⟩ <;> simp [h1, h3, SameOutcome]
  | not_ p hb ih =>
    intro pre inp k hk
    unfold not_
    rcases nice_cases ⟨hs hb, ih⟩ pre inp k hk with
      ⟨v, n, h1, h3, hn⟩ | ⟨e, e', c, h1, h3⟩ | ⟨h1, h3⟩ <;>
      simp [h1, h3, SameOutcome, State.withInput, State.advanceBy, hk]
  | or p q hb1 hb2 ih1 ih2 =>
    exact pos_or ⟨hs hb1, ih1⟩ ih2
  | andThen p q hb1 hb2 ih1 ih2 =>
    intro pre inp k hk
    unfold andThen
    rcases nice_cases ⟨hs hb1, ih1⟩ pre inp k hk with
      ⟨v, n, h1, h3, hn⟩ | ⟨e, e', c, h1, h3⟩ | ⟨h1, h3⟩
    · simp only [h1, h3, State.advanceBy, Nat.add_assoc]
      rcases nice_cases ⟨hs hb2, ih2⟩ pre inp (k + n) hn with
        ⟨w, m, h4, h5, hm⟩ | ⟨e, e', c, h4, h5⟩ | ⟨h4, h5⟩ <;> simp [h4, h5, SameOutcome]
    · simp [h1, h3, SameOutcome]
    · simp [h1, h3, SameOutcome]
  | attempt p hb ih =>
    intro pre inp k hk
    unfold attempt
    rcases nice_cases ⟨hs hb, ih⟩ pre inp k hk with
      ⟨v, n, h1, h3, hn⟩ | ⟨e, e', c, h1, h3⟩ | ⟨h1, h3⟩
    · simp [h1, h3, SameOutcome, Res.withUncommitted]
    · rw [h1, h3]; cases c <;> simp [SameOutcome, Res.withUncommitted]
    · simp [h1, h3, SameOutcome, Res.withUncommitted]
  | skip n =>
    exact posIndep_withInput (fun _ inp => if inp.length ≥ n then .success () n else
      .failure .incomplete .uncommitted) fun _ _ _ => same_refl _
  | skipLeft p q hb1 hb2 ih1 ih2 =>
    intro pre inp k hk
    unfold skipLeft
    rcases nice_cases ⟨hs hb1, ih1⟩ pre inp k hk with
      ⟨v, n, h1, h3, hn⟩ | ⟨e, e', c, h1, h3⟩ | ⟨h1, h3⟩
    · simp only [h1, h3, State.advanceBy, Nat.add_assoc]
      rcases nice_cases ⟨hs hb2, ih2⟩ pre inp (k + n) hn with
        ⟨w, m, h4, h5, hm⟩ | ⟨e, e', c, h4, h5⟩ | ⟨h4, h5⟩ <;> simp [h4, h5, SameOutcome]
    · simp [h1, h3, SameOutcome]
    · simp [h1, h3, SameOutcome]
  | skipRight p q hb1 hb2 ih1 ih2 =>
    intro pre inp k hk
    unfold skipRight
    rcases nice_cases ⟨hs hb1, ih1⟩ pre inp k hk with
      ⟨v, n, h1, h3, hn⟩ | ⟨e, e', c, h1, h3⟩ | ⟨h1, h3⟩
    · simp only [h1, h3, State.advanceBy, Nat.add_assoc]
      rcases nice_cases ⟨hs hb2, ih2⟩ pre inp (k + n) hn with
        ⟨w, m, h4, h5, hm⟩ | ⟨e, e', c, h4, h5⟩ | ⟨h4, h5⟩ <;>
        simp [h4, h5, SameOutcome, Res.advanceSuccess]
    · simp [h1, h3, SameOutcome]
    · simp [h1, h3, SameOutcome]
  | mapRes p f hb ih =>
    intro pre inp k hk
    unfold mapRes
    rcases nice_cases ⟨hs hb, ih⟩ pre inp k hk with
      ⟨v, n, h1, h3, hn⟩ | ⟨e, e', c, h1, h3⟩ | ⟨h1, h3⟩
    · simp only [h1, h3]
      cases f v <;> simp [SameOutcome, State.withInput, hk]
    · simp [h1, h3, SameOutcome]
    · simp [h1, h3, SameOutcome]
  | peek p hb ih =>
    intro pre inp k hk
    unfold peek
    rcases nice_cases ⟨hs hb, ih⟩ pre inp k hk with
      ⟨v, n, h1, h3, hn⟩ | ⟨e, e', c, h1, h3⟩ | ⟨h1, h3⟩ <;> simp [h1, h3, SameOutcome]
  | logMap p l hb ih => exact ih
  | name p l hb ih =>
    intro pre inp k hk
    unfold name
    rcases nice_cases ⟨hs hb, ih⟩ pre inp k hk with
      ⟨v, n, h1, h3, hn⟩ | ⟨e, e', c, h1, h3⟩ | ⟨h1, h3⟩
    · simp [h1, h3, SameOutcome]
    · simp only [h1, h3]; split <;> split <;> simp [SameOutcome]
    · simp [h1, h3, SameOutcome]
  | expect p l hb ih =>
    intro pre inp k hk
    unfold expect
    rcases nice_cases ⟨hs hb, ih⟩ pre inp k hk with
      ⟨v, n, h1, h3, hn⟩ | ⟨e, e', c, h1, h3⟩ | ⟨h1, h3⟩ <;> simp [h1, h3, SameOutcome]
  | lastOffset p h => cases h
  | nextOffset p h => cases h
  | collect p hb ih =>
    intro pre inp k hk
    unfold collect
    rcases nice_cases ⟨hs hb, ih⟩ pre inp k hk with
      ⟨v, n, h1, h3, hn⟩ | ⟨e, e', c, h1, h3⟩ | ⟨h1, h3⟩
    · simp only [h1, h3, slice_pre]; exact same_refl _
    · simp [h1, h3, SameOutcome]
    · simp [h1, h3, SameOutcome]
  | discard p hb ih =>
    intro pre inp k hk
    unfold discard
    rcases nice_cases ⟨hs hb, ih⟩ pre inp k hk with
      ⟨v, n, h1, h3, hn⟩ | ⟨e, e', c, h1, h3⟩ | ⟨h1, h3⟩ <;> simp [h1, h3, SameOutcome]
  | end_ =>
    exact posIndep_withInput (fun (s : State I) (inp : List I) => match inp with
      | _ :: _ => .failure (.mismatch inp (s.advanceBy 1).offset 1) .uncommitted
      | [] => .success () 0) fun s s' l => by cases l <;> simp [SameOutcome]
  | lazy f hb ih => exact ih
  | diverging => intro pre inp k hk; trivial
  | elmPred f =>
    exact posIndep_withInput (fun s inp => match inp with
      | x :: _ => if f x then .success x 1 else .failure (.mismatch inp (s.offset + 1) 1) .uncommitted
      | [] => .failure (.mismatch inp (s.offset + 1) 1) .uncommitted) fun s s' l => by
        cases l
        · simp [SameOutcome]
        · dsimp only; split <;> simp [SameOutcome]
  | elmOfSet f =>
    exact posIndep_withInput (fun s inp => match inp with
      | x :: _ =>
        if f x then .success x 1 else .failure (.mismatch inp (s.offset + 1) 1) .uncommitted
      | [] => .failure .incomplete .uncommitted) fun s s' l => by
        cases l
        · simp [SameOutcome]
        · dsimp only; split <;> simp [SameOutcome]
  | noneOfSet f =>
    exact posIndep_withInput (fun s inp => match inp with
      | x :: _ =>
        if !f x then .success x 1 else .failure (.mismatch inp (s.offset + 1) 1) .uncommitted
      | [] => .failure .incomplete .uncommitted) fun s s' l => by
        cases l
        · simp [SameOutcome]
        · dsimp only; split <;> simp [SameOutcome]
  | seq lit => exact pos_seqLike _ lit
  | take n =>
    intro pre inp k hk
    simp only [take, State.withInput, drop_pre, List.length_append, Nat.add_le_add_iff_left, hk,
      if_true, slice_pre]
    exact same_refl _
  | takeWhile0 f =>
    intro pre inp k hk
    simp only [takeWhile0, State.withInput, drop_pre, List.length_append, Nat.add_le_add_iff_left, hk,
      if_true, slice_pre]
    exact same_refl _
  | takeWhile1 f =>
    intro pre inp k hk
    simp only [takeWhile1, State.withInput, drop_pre, List.length_append, Nat.add_le_add_iff_left, hk,
      if_true]
    exact same_refl _
  | takeWhileNM n m f =>
    intro pre inp k hk
    simp only [takeWhileNM, State.withInput, drop_pre, List.length_append, Nat.add_le_add_iff_left, hk,
      if_true]
    exact same_refl _
  | takeTill0 f =>
    intro pre inp k hk
    simp only [takeTill0, State.withInput, drop_pre, List.length_append, Nat.add_le_add_iff_left, hk,
      if_true, slice_pre]
    exact same_refl _
  | takeTill1 f =>
    intro pre inp k hk
    simp only [takeTill1, State.withInput, drop_pre, List.length_append, Nat.add_le_add_iff_left, hk,
      if_true, slice_pre]
    exact same_refl _
  | repeat_ p r hb ih =>
    exact pos_repeatSep r ⟨hs hb, ih⟩ (by intro q hq; cases hq)
  | repeatSep p r q hb1 hb2 ih1 ih2 =>
    exact pos_repeatSep r ⟨hs hb1, ih1⟩ (by intro q hq; cases hq; exact ⟨hs hb2, ih2⟩)
  | restLeft1 p op x hb1 hb2 ih1 ih2 =>
    intro pre inp k hk
    have := pos_restLeft1N ⟨hs hb1, ih1⟩ ⟨hs hb2, ih2⟩ (inp.length - k + 2) x pre inp k hk
    have hf : (pre ++ inp).length - (pre.length + k) + 2 = inp.length - k + 2 := by simp; omega
    simp only [restLeft1, hf]
    exact this

end OniComb
