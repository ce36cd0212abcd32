import Verif.Spec.CacheTicks
import Verif.Lemmas.CacheRun
import Verif.Props.LinearTicks

/-! # Helper lemmas: grammars with caches and a clock -/

namespace OniComb.Stateful.Ticking
open OniComb
variable {I A B S T X Y : Type}

/-- From good stores the computation has a run with `n` steps, and all runs give `v`, end in good stores and take at most `n`
steps. -/
def Costs (Inv : S → Prop) (x : Comp (Nat × S) X) (v : X) (n : Nat) : Prop :=
  ∀ k σ, Inv σ → (∃ σ', x (k, σ) v (k + n, σ')) ∧ ∀ y k' σ', x (k, σ) y (k', σ') → y = v ∧ Inv σ' ∧ k' ≤ k + n

theorem costs_pure {Inv : S → Prop} (v : X) : Costs Inv (.pure v) v 0 :=
  fun k σ h => ⟨⟨σ, rfl, rfl⟩, by rintro y k' σ' ⟨rfl, e⟩; cases e; exact ⟨rfl, h, Nat.le_refl _⟩⟩

theorem costs_bind {Inv : S → Prop} {x : Comp (Nat × S) X} {f : X → Comp (Nat × S) Y} {v : X} {w : Y} {n m : Nat}
    (hx : Costs Inv x v n) (hf : Costs Inv (f v) w m) : Costs Inv (x.bind f) w (n + m) := by
  intro k σ hσ
  obtain ⟨⟨σ1, h1⟩, h2⟩ := hx k σ hσ
  obtain ⟨-, hσ1, -⟩ := h2 v _ σ1 h1
  obtain ⟨⟨τ, h3⟩, -⟩ := hf (k + n) σ1 hσ1
  refine ⟨⟨τ, v, _, h1, by rw [← Nat.add_assoc]; exact h3⟩, ?_⟩
  rintro z' k' σ' ⟨y', ⟨k2, σ2⟩, h4, h5⟩
  obtain ⟨rfl, hσ2, hk⟩ := h2 y' k2 σ2 h4
  obtain ⟨e, hσ', hk'⟩ := (hf k2 σ2 hσ2).2 z' k' σ' h5
  exact ⟨e, hσ', by omega⟩

theorem Costs.cast {Inv : S → Prop} {x : Comp (Nat × S) X} {v w : X} {n m : Nat} (h : Costs Inv x v n) (hv : v = w) (hn : n = m) :
    Costs Inv x w m := by subst hv hn; exact h

theorem costs_map {Inv : S → Prop} {x : Comp (Nat × S) X} {v : X} {w : Y} {f : X → Y} {n : Nat}
    (hx : Costs Inv x v n) (hf : f v = w) : Costs Inv (x.bind fun r => .pure (f r)) w n :=
  costs_bind (f := fun r => .pure (f r)) (m := 0) hx (by rw [hf]; exact costs_pure w)

/-- What is proved about a grammar with caches and a clock, on the states `P`. -/
def Within (P : State I → Prop) (Inv : List I → S → Prop) (sp : SParser (Nat × S) I A) (c : Counted I A) : Prop :=
  ∀ s : State I, P s → Costs (Inv s.input) (sp s) (c.run s) (c.steps s)

section
variable {P Q : State I → Prop} {Inv : List I → S → Prop}

theorem within_ticks (k : Nat) (p : Parser I A) : Within P Inv (tick k p) ⟨p, fun _ => k⟩ := fun s _ n σ hσ =>
  ⟨⟨σ, rfl, rfl⟩, by rintro y k' σ' ⟨rfl, e⟩; cases e; exact ⟨rfl, hσ, Nat.le_refl _⟩⟩

theorem within_tick (p : Parser I A) : Within P Inv (tick 1 p) (.prim p) := within_ticks 1 p

theorem within_bare {sp : SParser Nat I A} {c : Counted I A} (h : Peg.Clocked sp c) : Within P (fun _ _ => True) (bare sp) c :=
  fun s _ k σ _ => ⟨⟨(), (h _ _ _ _).2 ⟨rfl, rfl⟩⟩, fun y k' σ' hy => by
    obtain ⟨h1, h2⟩ := (h _ _ _ _).1 hy
    exact ⟨h1, trivial, Nat.le_of_eq h2⟩⟩

theorem within_unary {C : Parser I A → Parser I B} (hC : Unary C) {sp : SParser (Nat × S) I A} {c : Counted I A}
    (h : Within P Inv sp c) : Within P Inv (Stateful.unary C sp) (.unary C c) := fun s hs =>
  costs_map (h s hs) (hC.once c.run s).symm

theorem within_or {sp sp' : SParser (Nat × S) I A} {c c' : Counted I A} (h : Within P Inv sp c) (h' : Within P Inv sp' c') :
    Within P Inv (Stateful.or sp sp') (.or c c') := by
  intro s hs
  refine costs_bind (h s hs) ?_
  simp only [Counted.or, OniComb.or]
  rcases c.run s with ⟨v, n⟩ | ⟨e, _ | _⟩ | _ | _
  · exact costs_pure _
  · exact costs_pure _
  · exact h' s hs
  · exact costs_pure _
  · exact costs_pure _

theorem within_andThen {sp : SParser (Nat × S) I A} {sp' : SParser (Nat × S) I B} {c : Counted I A} {c' : Counted I B}
    (h : Within P Inv sp c) (hq : Leads P c.run Q) (h' : Within Q Inv sp' c') :
    Within P Inv (Stateful.andThen sp sp') (.andThen c c') := by
  intro s hs
  refine costs_bind (h s hs) ?_
  simp only [Counted.andThen, OniComb.andThen]
  have hq := fun v n => hq s v n hs
  revert hq
  rcases c.run s with ⟨v, n⟩ | ⟨e, _⟩ | _ | _ <;> intro hq
  · exact costs_map (h' (s.advanceBy n) (hq v n rfl)) rfl
  · exact costs_pure _
  · exact costs_pure _
  · exact costs_pure _

theorem within_skipLeft {sp : SParser (Nat × S) I A} {sp' : SParser (Nat × S) I B} {c : Counted I A} {c' : Counted I B}
    (h : Within P Inv sp c) (hq : Leads P c.run Q) (h' : Within Q Inv sp' c') :
    Within P Inv (Stateful.skipLeft sp sp') (.skipLeft c c') := fun s hs =>
  (within_unary (unary_map _) (within_andThen h hq h') s hs).cast (congrFun (skipLeft_eq c.run c'.run) s).symm rfl

theorem within_skipRight {sp : SParser (Nat × S) I A} {sp' : SParser (Nat × S) I B} {c : Counted I A} {c' : Counted I B}
    (h : Within P Inv sp c) (hq : Leads P c.run Q) (h' : Within Q Inv sp' c') :
    Within P Inv (Stateful.skipRight sp sp') (.skipRight c c') := fun s hs =>
  (within_unary (unary_map _) (within_andThen h hq h') s hs).cast (congrFun (skipRight_eq c.run c'.run) s).symm rfl

theorem within_opt {sp : SParser (Nat × S) I A} {c : Counted I A} (h : Within P Inv sp c) : Within P Inv (opt sp) (.opt c) :=
  within_or (within_unary (unary_map _) (within_unary unary_attempt h)) (within_tick _)

theorem within_flatMap {sp : SParser (Nat × S) I A} {f : A → SParser (Nat × S) I B} {c : Counted I A} {c' : A → Counted I B}
    (h : Within P Inv sp c) (hq : Leads P c.run Q) (h' : ∀ a, Within Q Inv (f a) (c' a)) :
    Within P Inv (Stateful.flatMap sp f) (.flatMap c c') := by
  intro s hs
  refine costs_bind (h s hs) ?_
  simp only [Counted.flatMap, OniComb.flatMap]
  have hq := fun v n => hq s v n hs
  revert hq
  rcases c.run s with ⟨v, n⟩ | ⟨e, _⟩ | _ | _ <;> intro hq
  · exact costs_map (h' v (s.advanceBy n) (hq v n rfl)) rfl
  · exact costs_pure _
  · exact costs_pure _
  · exact costs_pure _

/-! ### Operator chains -/

theorem within_else {sp : SParser (Nat × S) I A} {g : Parser I A} {n : State I → Nat} (h : Within P Inv sp ⟨g, n⟩) (x : A) :
    Within P Inv (Stateful.or sp (ofParser (successful x))) ⟨OniComb.or g (successful x), n⟩ := by
  intro s hs
  refine (costs_bind (m := 0) (h s hs) ?_).cast rfl (Nat.add_zero _)
  dsimp only [OniComb.or]
  rcases g s with ⟨v, n⟩ | ⟨e, _ | _⟩ | _ | _ <;> exact costs_pure _

theorem within_restLeft1N {sp : SParser (Nat × S) I A} {sp' : SParser (Nat × S) I (A → A → A)} {c : Counted I A}
    {c' : Counted I (A → A → A)} (h : Within P Inv sp c) (h' : Within Q Inv sp' c') (hl : Leads P c.run Q) (hl' : Leads Q c'.run P) :
    ∀ (k : Nat) (x : A), Within Q Inv (Stateful.restLeft1N sp sp' k x) ⟨OniComb.restLeft1N c.run c'.run k x, Counted.restSteps c c' k x⟩
  | 0, _ => fun _ _ => costs_pure _
  | k + 1, x => by
    unfold Stateful.restLeft1N OniComb.restLeft1N
    refine within_else ?_ x
    intro s hs
    dsimp only [Counted.restSteps]
    refine costs_bind (h' (s.advanceBy 0) hs) ?_
    have h1 := fun v n => hl' s v n hs
    have e0 : s.advanceBy 0 = s := rfl
    rw [e0]
    revert h1
    rcases c'.run s with ⟨f, n1⟩ | ⟨e, _⟩ | _ | _ <;> intro h1
    · refine costs_bind (h (s.advanceBy n1) (h1 f n1 rfl)) ?_
      have h2 := fun v n => hl (s.advanceBy n1) v n (h1 f n1 rfl)
      revert h2
      dsimp only
      rcases c.run (s.advanceBy n1) with ⟨y, n2⟩ | ⟨e, _⟩ | _ | _ <;> intro h2
      · exact costs_map (within_restLeft1N h h' hl hl' k (f x y) ((s.advanceBy n1).advanceBy n2) (h2 y n2 rfl)) rfl
      · exact costs_pure _
      · exact costs_pure _
      · exact costs_pure _
    · exact costs_pure _
    · exact costs_pure _
    · exact costs_pure _

theorem within_restLeft1 {sp : SParser (Nat × S) I A} {sp' : SParser (Nat × S) I (A → A → A)} {c : Counted I A}
    {c' : Counted I (A → A → A)} (h : Within P Inv sp c) (h' : Within Q Inv sp' c') (hl : Leads P c.run Q) (hl' : Leads Q c'.run P)
    (x : A) : Within Q Inv (Stateful.restLeft1 sp sp' x) (.restLeft1 c c' x) := fun s hs =>
  within_restLeft1N h h' hl hl' _ x s hs

/-! ### Repetition -/

/-- The separator of a loop and its steps; items are asked in `P`, separators in `Q`. -/
inductive Seps (P Q : State I → Prop) (Inv : List I → S → Prop) (c : Counted I A) :
    Option (SParser (Nat × S) I B) → Option (Counted I B) → Prop
  | none : Q = P → Leads P c.run P → Seps P Q Inv c none none
  | some {sq : SParser (Nat × S) I B} {q : Counted I B} : Within Q Inv sq q → Leads P c.run Q → Leads Q q.run P →
      Seps P Q Inv c (some sq) (some q)

theorem Seps.leads {c : Counted I A} {sep : Option (SParser (Nat × S) I B)} {sep' : Option (Counted I B)}
    (h : Seps P Q Inv c sep sep') : Leads P c.run Q := by
  cases h with
  | none e h => rw [e]; exact h
  | some _ h _ => exact h

theorem within_repItem {sp : SParser (Nat × S) I A} {c : Counted I A} (h : Within P Inv sp c) (st : LoopState I A)
    (hs : P st.cur) : Costs (Inv st.cur.input) (Stateful.repItem sp st) (OniComb.repItem c.run st) (c.steps st.cur) :=
  costs_map (h st.cur hs) rfl

/-- An item and the turns that follow. -/
theorem within_again {sp : SParser (Nat × S) I A} {c : Counted I A} (h : Within P Inv sp c) (hl : Leads P c.run Q)
    {k : LoopState I A → Comp (Nat × S) (LoopOut A)} {v : LoopState I A → LoopOut A} {n : LoopState I A → Nat}
    (hk : ∀ st : LoopState I A, Q st.cur → Costs (Inv st.cur.input) (k st) (v st) (n st)) (st : LoopState I A) (hs : P st.cur) :
    Costs (Inv st.cur.input) (Comp.bind (Stateful.repItem sp st) fun r => match r with
        | .again st' => k st'
        | .exit items n => .pure (.exit items n)
        | .panic => .pure .panic
        | .diverge => .pure .diverge)
      (match OniComb.repItem c.run st with
        | .again st' => v st'
        | .exit items n => .exit items n
        | .panic => .panic
        | .diverge => .diverge) (Counted.itemSteps c n st) := by
  refine costs_bind (within_repItem h st hs) ?_
  unfold OniComb.repItem
  have hl2 := fun w m => hl st.cur w m hs
  revert hl2
  rcases c.run st.cur with ⟨w, m⟩ | ⟨e, _⟩ | _ | _ <;> intro hl2
  · exact hk ⟨st.cur.advanceBy m, st.items ++ [w], st.length + m⟩ (hl2 w m rfl)
  · exact costs_pure _
  · exact costs_pure _
  · exact costs_pure _

theorem costs_assoc {Z : Type} {Inv : S → Prop} {x : Comp (Nat × S) X} {f : X → Comp (Nat × S) Y} {g : Y → Comp (Nat × S) Z} {v : Z} {n : Nat}
    (h : Costs Inv (x.bind fun a => (f a).bind g) v n) : Costs Inv ((x.bind f).bind g) v n := by
  intro k σ hσ
  obtain ⟨⟨σ', a, σ1, h1, b, σ2, h2, h3⟩, h4⟩ := h k σ hσ
  refine ⟨⟨σ', b, σ2, ⟨a, σ1, h1, h2⟩, h3⟩, ?_⟩
  rintro y k' σ' ⟨b, σ2, ⟨a, σ1, h1, h2⟩, h3⟩
  exact h4 y k' σ' ⟨a, σ1, h1, b, σ2, h2, h3⟩

theorem within_loop {sp : SParser (Nat × S) I A} {c : Counted I A} {sep : Option (SParser (Nat × S) I B)} {sep' : Option (Counted I B)}
    (h : Within P Inv sp c) (h' : Seps P Q Inv c sep sep') (stop : Bound) :
    ∀ (k : Nat) (st : LoopState I A), Q st.cur → Costs (Inv st.cur.input) (Stateful.repLoop sp sep stop k st)
      (OniComb.repLoop c.run (sep'.map Counted.run) stop k st) (Counted.repSteps c sep' stop k st)
  | 0, _, _ => costs_pure _
  | k + 1, st, hs => by
    have ih := within_loop h h' stop k
    unfold Stateful.repLoop OniComb.repLoop Stateful.repTurn OniComb.repTurn Counted.repSteps
    by_cases hb : boundReached stop st.items.length = true
    · simp only [hb, if_true]
      exact costs_bind (n := 0) (m := 0) (costs_pure _) (costs_pure _)
    · simp only [hb, Bool.false_eq_true, if_false]
      cases h' with
      | none e hl =>
        subst e
        exact within_again h hl ih st hs
      | @some sq q hq hl hl' =>
        refine costs_assoc (costs_bind (hq st.cur hs) ?_)
        simp only [Option.map_some]
        have hl1 := fun v n => hl' st.cur v n hs
        revert hl1
        rcases q.run st.cur with ⟨v, n⟩ | ⟨e, _⟩ | _ | _ <;> intro hl1
        · exact within_again h hl ih ⟨st.cur.advanceBy n, st.items, st.length + n⟩ (hl1 v n rfl)
        · exact costs_bind (n := 0) (m := 0) (costs_pure _) (costs_pure _)
        · exact costs_bind (n := 0) (m := 0) (costs_pure _) (costs_pure _)
        · exact costs_bind (n := 0) (m := 0) (costs_pure _) (costs_pure _)

theorem within_repeatSep {sp : SParser (Nat × S) I A} {c : Counted I A} {sep : Option (SParser (Nat × S) I B)}
    {sep' : Option (Counted I B)} (h : Within P Inv sp c) (h' : Seps P Q Inv c sep sep') (range : Range) :
    Within P Inv (Stateful.repeatSep sp range sep) (.repeatSep c range sep') := by
  intro s hs
  refine costs_bind (h s hs) ?_
  simp only [Counted.repeatSep, OniComb.repeatSep]
  have hl1 := fun v n => h'.leads s v n hs
  revert hl1
  rcases c.run s with ⟨v, n⟩ | ⟨e, _⟩ | _ | _ <;> intro hl1
  · exact costs_map (within_loop h h' range.stop _ ⟨s.advanceBy n, [v], n⟩ (hl1 v n rfl)) rfl
  · exact costs_pure _
  · exact costs_pure _
  · exact costs_pure _

/-! ### Caches -/

/-- There is an address at which nothing lies. -/
theorem unused (m : CacheMap I A) : ∃ a, ∀ b l, a ≤ b → m.find (b, l) = none := by
  induction m with
  | nil => exact ⟨0, fun _ _ _ => rfl⟩
  | cons e m ih =>
    obtain ⟨⟨b, l⟩, r⟩ := e
    obtain ⟨a, h⟩ := ih
    refine ⟨a + b + 1, fun c l' hc => ?_⟩
    unfold CacheMap.find
    rw [if_neg (by intro e; injection e; omega)]
    exact h c l' (by omega)

theorem within_cache {sp : SParser (Nat × S) I A} {c : Counted I A} (D : Nat → Bool) (hD : D 0 = false ∨ D 1 = false)
    (hP : ∀ s, P s → D s.offset = true) (h1 : ∀ s, 1 ≤ c.steps s) (h : Within P Inv sp c) :
    Within P (CacheOk D c.run Inv) (cache sp) c := by
  rintro ⟨t, o⟩ hs k ⟨m, σ⟩ ⟨hm, hσ⟩
  have ho : D o = true := hP _ hs
  obtain ⟨⟨σ1, h2⟩, h3⟩ := h ⟨t, o⟩ hs k σ hσ
  refine ⟨?_, ?_⟩
  · obtain ⟨a, ha⟩ := unused m
    exact ⟨_, a, by dsimp only; rw [ha a _ (Nat.le_refl a)]; exact ⟨_, σ1, h2, rfl⟩⟩
  · rintro r k' ⟨m', σ'⟩ ⟨a, hr⟩
    dsimp only at hr
    cases hf : m.find (a, (⟨t, o⟩ : State I).lastOffset) with
    | some r0 =>
      rw [hf] at hr
      obtain ⟨rfl, e⟩ := hr
      cases e
      exact ⟨(hm a _ _ hf o ho rfl).symm, ⟨hm, hσ⟩, Nat.add_le_add_left (h1 _) k⟩
    | none =>
      rw [hf] at hr
      obtain ⟨k2, σ2, h4, e⟩ := hr
      obtain ⟨rfl, h5, h6⟩ := h3 r k2 σ2 h4
      have hin : CellOk t ⟨A, c.run, D, hD⟩ (((a, (⟨t, o⟩ : State I).lastOffset), c.run ⟨t, o⟩) :: m) :=
        cellOk_insert (c := ⟨A, c.run, D, hD⟩) hm ho a
      refine ⟨rfl, ?_⟩
      revert e hin
      cases c.run ⟨t, o⟩ <;> intro e hin <;> cases e
      · exact ⟨⟨hin, h5⟩, h6⟩
      · exact ⟨⟨hin, h5⟩, h6⟩
      · exact ⟨⟨hm, h5⟩, h6⟩
      · exact ⟨⟨hm, h5⟩, h6⟩

theorem within_fresh {D : Nat → Bool} {q : Parser I B} {sp : SParser (Nat × CacheMap I B × S) I A} {c : Counted I A}
    (h : Within P (CacheOk D q Inv) sp c) : Within P Inv (fresh sp) c := by
  intro s hs k σ hσ
  obtain ⟨⟨⟨m, σ1⟩, h2⟩, h3⟩ := h s hs k ([], σ) ⟨(fun a l r hf => by cases hf), hσ⟩
  refine ⟨⟨σ1, m, h2⟩, ?_⟩
  rintro r k' σ' ⟨m', h4⟩
  obtain ⟨e, h5, h6⟩ := h3 r k' (m', σ') h4
  exact ⟨e, h5.2, h6⟩

theorem within_right {Inv' : List I → X → Prop} {sp : SParser (Nat × S) I A} {c : Counted I A} (h : Within P Inv sp c) :
    Within P (fun t (σ : X × S) => Inv' t σ.1 ∧ Inv t σ.2) (right sp) c := by
  rintro s hs k ⟨m, σ⟩ ⟨hm, hσ⟩
  obtain ⟨⟨σ1, h2⟩, h3⟩ := h s hs k σ hσ
  refine ⟨⟨(m, σ1), h2, rfl⟩, ?_⟩
  rintro r k' ⟨m', σ'⟩ ⟨h4, e⟩
  cases e
  obtain ⟨e, h5, h6⟩ := h3 r k' σ' h4
  exact ⟨e, ⟨hm, h5⟩, h6⟩

theorem within_left {Inv' : List I → X → Prop} {sp : SParser (Nat × S) I A} {c : Counted I A} (h : Within P Inv sp c) :
    Within P (fun t (σ : S × X) => Inv t σ.1 ∧ Inv' t σ.2) (left sp) c := by
  rintro s hs k ⟨σ, m⟩ ⟨hσ, hm⟩
  obtain ⟨⟨σ1, h2⟩, h3⟩ := h s hs k σ hσ
  refine ⟨⟨(σ1, m), h2, rfl⟩, ?_⟩
  rintro r k' ⟨σ', m'⟩ ⟨h4, e⟩
  cases e
  obtain ⟨e, h5, h6⟩ := h3 r k' σ' h4
  exact ⟨e, ⟨h5, hm⟩, h6⟩

end

/-! ### New caches -/

/-- Built with new caches, the grammar gives the results of the parser on the states `P`, and takes its steps or fewer. -/
def Runs [New S] (P : State I → Prop) (sp : SParser (Nat × S) I A) (c : Counted I A) : Prop :=
  ∃ Inv : List I → S → Prop, (∀ t, Inv t New.new) ∧ Within P Inv sp c

section
variable {P Q R : State I → Prop}

theorem runs_bare {sp : SParser Nat I A} {c : Counted I A} (h : Peg.Clocked sp c) : Runs P (bare sp) c :=
  ⟨_, fun _ => trivial, within_bare h⟩

theorem runs_cache [New S] (hp : Place P Q) {sp : SParser (Nat × S) I A} {c : Counted I A} (h1 : ∀ s, 1 ≤ c.steps s)
    (h : Runs P sp c) : Runs P (cache sp) c := by
  obtain ⟨D, hD, hP⟩ := hp.apart
  obtain ⟨Inv, h0, h⟩ := h
  refine ⟨CacheOk D c.run Inv, fun t => ⟨?_, h0 t⟩, within_cache D hD hP h1 h⟩
  intro a l r hf; cases hf

theorem runs_same [New S] {C : Type} {sp : SParser (Nat × S) I A} {c : Counted I A} {sr : SParser (Nat × S) I C} {d : Counted I C}
    (h : Runs P sp c) (hr : ∀ Inv, Within P Inv sp c → Within R Inv sr d) : Runs R sr d := by
  obtain ⟨Inv, h0, h⟩ := h
  exact ⟨Inv, h0, hr _ h⟩

theorem runs_pair [New S] [New T] {C : Type} {sp : SParser (Nat × S) I A} {c : Counted I A} {sq : SParser (Nat × T) I B}
    {q : Counted I B} (h : Runs P sp c) (h' : Runs Q sq q) {sr : SParser (Nat × S × T) I C} {d : Counted I C}
    (hr : ∀ Inv, Within P Inv (left sp) c → Within Q Inv (right sq) q → Within R Inv sr d) : Runs R sr d := by
  obtain ⟨Inv, h0, h⟩ := h
  obtain ⟨Inv', h0', h'⟩ := h'
  exact ⟨fun t σ => Inv t σ.1 ∧ Inv' t σ.2, fun t => ⟨h0 t, h0' t⟩, hr _ (within_left h) (within_right h')⟩

theorem runs_either [New S] [New T] {sp : SParser (Nat × S) I A} {c : Counted I A} {sq : SParser (Nat × T) I A} {q : Counted I A}
    (h : Runs P sp c) (h' : Runs P sq q) : Runs P (either sp sq) (.or c q) := runs_pair h h' fun _ h1 h2 => within_or h1 h2

/-- All runs with new caches. -/
theorem runs_built [New S] {sp : SParser (Nat × S) I A} {c : Counted I A} (h : Runs P sp c) (s : State I) (hs : P s) (k : Nat) :
    built sp s k (c.run s) (k + c.steps s) ∧ ∀ r k', built sp s k r k' → r = c.run s ∧ k' ≤ k + c.steps s := by
  obtain ⟨Inv, h0, h⟩ := h
  obtain ⟨⟨σ1, h2⟩, h3⟩ := h s hs k New.new (h0 _)
  refine ⟨⟨σ1, h2⟩, ?_⟩
  rintro r k' ⟨σ', h4⟩
  obtain ⟨e, -, h5⟩ := h3 r k' σ' h4
  exact ⟨e, h5⟩

end
end OniComb.Stateful.Ticking
