import Verif.Spec.PegTicks
import Verif.Props.LinearTime

/-!
# C139: the steps are those of the combinators

The number of steps that `Model/Steps` computes is what a clock shows that is advanced by the parsers without parts while
the combinators of `Model/CacheGrammar` run.
-/

namespace OniComb.Peg
open OniComb
variable {I N A B : Type} [DecidableEq I]

/-- The clock is advanced by the number of steps. -/
def Clocked (m : Stateful.SParser Nat I A) (c : Counted I A) : Prop :=
  ∀ s σ r σ', m s σ r σ' ↔ r = c.run s ∧ σ' = σ + c.steps s

omit [DecidableEq I] in
theorem clocked_prim (p : Parser I A) : Clocked (tick 1 p) (.prim p) := fun _ _ _ _ => Iff.rfl

theorem clocked_seq (w : List I) : Clocked (tick (w.length + 1) (OniComb.seq w)) (.seq w) := fun _ _ _ _ => Iff.rfl

omit [DecidableEq I] in
theorem clocked_unary {m : Stateful.SParser Nat I A} {c : Counted I A} (h : Clocked m c) (C : Parser I A → Parser I B)
    (hC : ∀ p s, C (fun _ => p s) s = C p s) : Clocked (Stateful.unary C m) (.unary C c) := by
  intro s σ r σ'
  constructor
  · rintro ⟨x, σ1, h1, rfl, rfl⟩
    obtain ⟨rfl, rfl⟩ := (h _ _ _ _).1 h1
    exact ⟨hC _ _, rfl⟩
  · rintro ⟨rfl, rfl⟩
    exact ⟨_, _, (h _ _ _ _).2 ⟨rfl, rfl⟩, (hC _ _).symm, rfl⟩

omit [DecidableEq I] in
/-- Continue after a run. -/
theorem clocked_bind {X : Type} {m : Stateful.SParser Nat I A} {c : Counted I A} (h : Clocked m c) (k : Res I A → Stateful.Comp Nat X)
    (s : State I) (σ : Nat) (x : X) (σ' : Nat) :
    Stateful.Comp.bind (m s) k σ x σ' ↔ k (c.run s) (σ + c.steps s) x σ' := by
  constructor
  · rintro ⟨r, σ1, h1, h2⟩
    obtain ⟨rfl, rfl⟩ := (h _ _ _ _).1 h1
    exact h2
  · exact fun h2 => ⟨_, _, (h _ _ _ _).2 ⟨rfl, rfl⟩, h2⟩

omit [DecidableEq I] in
theorem clocked_or {m m' : Stateful.SParser Nat I A} {c c' : Counted I A} (h : Clocked m c) (h' : Clocked m' c') :
    Clocked (Stateful.or m m') (.or c c') := by
  intro s σ r σ'
  unfold Stateful.or
  rw [clocked_bind h]
  simp only [Counted.or, OniComb.or]
  cases hr : c.run s with
  | failure e cm =>
    cases cm with
    | committed => simp [Stateful.Comp.pure, Res.onUncommitted]
    | uncommitted => simp [h' _ _ _ _, Res.onUncommitted, Nat.add_assoc]
  | _ => simp [Stateful.Comp.pure, Res.onUncommitted]

omit [DecidableEq I] in
theorem clocked_flatMap {m : Stateful.SParser Nat I A} {c : Counted I A} {f : A → Stateful.SParser Nat I B} {g : A → Counted I B}
    (h : Clocked m c) (h' : ∀ a, Clocked (f a) (g a)) : Clocked (Stateful.flatMap m f) (.flatMap c g) := by
  intro s σ r σ'
  unfold Stateful.flatMap
  rw [clocked_bind h]
  simp only [Counted.flatMap, OniComb.flatMap]
  cases hr : c.run s with
  | success v n =>
    simp only [clocked_bind (h' v)]
    simp [Stateful.Comp.pure, Res.onSuccess, Nat.add_assoc]
  | _ => simp [Stateful.Comp.pure, Res.onSuccess]

omit [DecidableEq I] in
theorem clocked_andThen {m : Stateful.SParser Nat I A} {c : Counted I A} {m' : Stateful.SParser Nat I B} {c' : Counted I B}
    (h : Clocked m c) (h' : Clocked m' c') : Clocked (Stateful.andThen m m') (.andThen c c') := by
  intro s σ r σ'
  unfold Stateful.andThen
  rw [clocked_bind h]
  simp only [Counted.andThen, OniComb.andThen]
  cases hr : c.run s with
  | success v n =>
    simp only [clocked_bind h']
    simp only [Stateful.Comp.pure, Res.onSuccess, Nat.add_assoc]
    cases c'.run (s.advanceBy n) <;> rfl
  | _ => simp [Stateful.Comp.pure, Res.onSuccess]

omit [DecidableEq I] in
theorem clocked_skipRight {m : Stateful.SParser Nat I A} {c : Counted I A} {m' : Stateful.SParser Nat I B} {c' : Counted I B}
    (h : Clocked m c) (h' : Clocked m' c') : Clocked (Stateful.skipRight m m') (.skipRight c c') := by
  have h1 := clocked_unary (clocked_andThen h h') (fun r => map r Prod.fst) fun _ _ => rfl
  intro s σ r σ'
  refine (h1 s σ r σ').trans ?_
  have : (Counted.unary (fun r => map r Prod.fst) (.andThen c c')).run s = (Counted.skipRight c c').run s := by
    simp only [Counted.unary, Counted.andThen, Counted.skipRight, map, andThen, skipRight]
    cases c.run s with
    | success v n =>
      dsimp only
      cases c'.run (s.advanceBy n) <;> rfl
    | _ => rfl
  rw [this]
  rfl

omit [DecidableEq I] in
theorem clocked_opt {m : Stateful.SParser Nat I A} {c : Counted I A} (h : Clocked m c) : Clocked (optTicked m) (.opt c) :=
  clocked_or (clocked_unary (clocked_unary h attempt fun _ _ => rfl) (fun p => map p some) fun _ _ => rfl) (clocked_prim _)

omit [DecidableEq I] in
theorem clocked_loop {m : Stateful.SParser Nat I A} {c : Counted I A} (h : Clocked m c) : ∀ (k : Nat) (st : LoopState I A) (σ : Nat)
    (r : LoopOut A) (σ' : Nat), Stateful.repLoop m (none : Option (Stateful.SParser Nat I Unit)) .unbounded k st σ r σ' ↔
      r = repLoop c.run (none : Option (Parser I Unit)) .unbounded k st ∧ σ' = σ + Counted.loopSteps c k st
  | 0, st, σ, r, σ' => by simp [Stateful.repLoop, Stateful.Comp.pure, repLoop, Counted.loopSteps]
  | k + 1, st, σ, r, σ' => by
    have ht : Stateful.repTurn m (none : Option (Stateful.SParser Nat I Unit)) .unbounded st = Stateful.repItem m st := rfl
    have ht' : repTurn c.run (none : Option (Parser I Unit)) .unbounded st = repItem c.run st := rfl
    unfold Stateful.repLoop
    rw [ht]
    unfold repLoop
    rw [ht']
    have hb : ∀ k' : Turn I A → Stateful.Comp Nat (LoopOut A), Stateful.Comp.bind (Stateful.repItem m st) k' σ r σ' ↔
        k' (repItem c.run st) (σ + c.steps st.cur) r σ' := by
      intro k'
      unfold Stateful.repItem
      constructor
      · rintro ⟨t, σ1, h1, h2⟩
        obtain ⟨rfl, rfl⟩ := (clocked_bind h _ _ _ _ _).1 h1
        exact h2
      · exact fun h2 => ⟨_, _, (clocked_bind h _ _ _ _ _).2 ⟨rfl, rfl⟩, h2⟩
    rw [hb, Counted.loopSteps]
    cases hr : c.run st.cur with
    | success v n =>
      simp only [repItem, hr, Res.onSuccess]
      rw [clocked_loop h k, Nat.add_assoc]
    | _ => simp [repItem, hr, Res.onSuccess, Stateful.Comp.pure]

omit [DecidableEq I] in
theorem clocked_repeat {m : Stateful.SParser Nat I A} {c : Counted I A} (h : Clocked m c) (a : Nat) :
    Clocked (Stateful.repeatSep m (.from_ a) (none : Option (Stateful.SParser Nat I Unit))) (.repeatFrom a c) := by
  intro s σ r σ'
  unfold Stateful.repeatSep
  rw [clocked_bind h]
  simp only [Counted.repeatFrom, repeatSep]
  cases hr : c.run s with
  | success v n =>
    simp only [Res.onSuccess]
    constructor
    · rintro ⟨o, σ1, h1, rfl, rfl⟩
      obtain ⟨rfl, rfl⟩ := (clocked_loop h _ _ _ _ _).1 h1
      exact ⟨rfl, Nat.add_assoc _ _ _⟩
    · rintro ⟨rfl, rfl⟩
      exact ⟨_, _, (clocked_loop h _ _ _ _ _).2 ⟨rfl, rfl⟩, rfl, (Nat.add_assoc _ _ _).symm⟩
  | _ => simp [Stateful.Comp.pure, Res.onSuccess]

theorem clocked_exp {wr : Writing} {rules : N → Stateful.SParser Nat I Unit} {rules' : N → Counted I Unit}
    (h : ∀ x, Clocked (rules x) (rules' x)) : ∀ e : Exp I N, Clocked (e.ticked wr rules) (e.counted wr rules')
  | .empty => clocked_prim _
  | .elem _ => clocked_unary (clocked_prim _) discard fun _ _ => rfl
  | .text _ => clocked_unary (clocked_seq _) discard fun _ _ => rfl
  | .seq a b => by
    have ha := clocked_exp (wr := wr) h a
    have hb := clocked_exp (wr := wr) h b
    cases wr with
    | flat => exact clocked_flatMap ha fun _ => hb
    | plain => exact clocked_unary (clocked_andThen ha hb) discard fun _ _ => rfl
    | attempt => exact clocked_unary (clocked_andThen ha hb) discard fun _ _ => rfl
  | .alt a b => by
    have ha := clocked_exp (wr := wr) h a
    have hb := clocked_exp (wr := wr) h b
    cases wr with
    | flat => exact clocked_or ha hb
    | plain => exact clocked_or ha hb
    | attempt => exact clocked_or (clocked_unary ha attempt fun _ _ => rfl) hb
  | .star a => clocked_unary (clocked_repeat (clocked_exp h a) 0) discard fun _ _ => rfl
  | .plus a => clocked_unary (clocked_repeat (clocked_exp h a) 1) discard fun _ _ => rfl
  | .opt a => clocked_unary (clocked_opt (clocked_exp h a)) discard fun _ _ => rfl
  | .not a => clocked_unary (clocked_exp h a) not_ fun _ _ => rfl
  | .look a => clocked_unary (clocked_unary (clocked_exp h a) peek fun _ _ => rfl) discard fun _ _ => rfl
  | .rule x => h x

theorem clocked_rules (wr : Writing) (G : N → Exp I N) : ∀ (n : Nat) (x : N), Clocked (rulesTicked wr G n x) (rulesCounted wr G n x)
  | 0, _ => clocked_prim _
  | n + 1, x => by
    intro s σ r σ'
    refine (clocked_bind (clocked_prim unit) _ s σ r σ').trans ((clocked_exp (clocked_rules wr G n) (G x) _ _ _ _).trans ?_)
    rw [Nat.add_assoc]
    rfl

/-- C139: the only run of a grammar with a clock gives the answer of the grammar, and the clock then shows the number of
steps. -/
theorem c139_clock (wr : Writing) (G : N → Exp I N) (n : Nat) (e : Exp I N) (t : List I) (σ σ' : Nat) (r : Res I Unit) :
    Takes wr G n e t σ r σ' ↔ r = skipRight (wr.parserOf G n e) end_ ⟨t, 0⟩ ∧ σ' = σ + wholeSteps (countedOf wr G n e) t := by
  refine (clocked_skipRight (clocked_exp (clocked_rules wr G n) e) (clocked_prim end_) _ _ _ _).trans ?_
  have : (Counted.skipRight (countedOf wr G n e) (.prim end_)).run = skipRight (wr.parserOf G n e) end_ := by
    show skipRight (countedOf wr G n e).run end_ = _
    rw [c139_counts]
  show r = (Counted.skipRight (countedOf wr G n e) (.prim end_)).run ⟨t, 0⟩ ∧ _ ↔ _
  rw [this]
  rfl

/-- C139: linear time, by the clock. -/
theorem c139_linear_clock (wr : Writing) (G : N → Exp I N) (follow : N → I → Prop) (hG : GrammarLL1 G follow) (names : List N)
    (all : ∀ x, x ∈ names) (e : Exp I N) (he : e.LL1 G follow fun _ => False) :
    ∃ C, ∀ (t : List I) (n : Nat) (r : Res I Unit) (σ : Nat), Takes wr G n e t 0 r σ → σ ≤ C * (t.length + 1) := by
  obtain ⟨C, h⟩ := c139_linear wr G follow hG names all e he
  refine ⟨C, fun t n r σ ht => ?_⟩
  have := ((c139_clock wr G n e t 0 σ r).1 ht).2
  rw [this, Nat.zero_add]
  exact h t n

/-- C139: exponential time, by the clock. -/
theorem c139_exponential_clock (wr : Writing) (hw : wr ≠ .flat) (k n : Nat) (hn : k < n) (r : Res Nat Unit) (σ : Nat)
    (h : Takes wr doubling n (.rule ()) (List.replicate k 0) 0 r σ) : r.toOut = .ok () ∧ 2 ^ k ≤ σ := by
  obtain ⟨rfl, rfl⟩ := (c139_clock wr doubling n (.rule ()) _ 0 σ r).1 h
  obtain ⟨h1, h2⟩ := c139_exponential wr hw k n hn
  exact ⟨h1, Nat.le_trans h2 (Nat.le_add_left _ _)⟩

/-- Runs on a clock. -/
example : ∃ r, Takes .plain arith 9 (.rule .sum) "((1))".toList 0 r 18 ∧ r.toOut = .ok () :=
  ⟨_, (c139_clock _ _ _ _ _ _ _ _).2 ⟨rfl, by decide⟩, by decide⟩

end OniComb.Peg
