import Verif.Spec.CacheGrammar
import Verif.Lemmas.Below

/-! # Helper lemmas: runs of grammars with caches -/

namespace OniComb.Stateful
variable {I A B S X Y : Type}

/-- From good stores, unless `bad`, the computation has a run, and all runs give `v` and end in good stores. -/
def Ensures (Inv : S → Prop) (x : Comp S X) (bad : Prop) (v : X) : Prop :=
  ∀ σ, Inv σ → bad ∨ ((∃ y σ', x σ y σ') ∧ ∀ y σ', x σ y σ' → y = v ∧ Inv σ')

theorem ensures_pure {Inv : S → Prop} {bad : Prop} (v : X) : Ensures Inv (.pure v) bad v :=
  fun σ h => .inr ⟨⟨v, σ, rfl, rfl⟩, by rintro y σ' ⟨rfl, rfl⟩; exact ⟨rfl, h⟩⟩

theorem ensures_bind {Inv : S → Prop} {x : Comp S X} {k : X → Comp S Y} {b bad : Prop} {v : X} {w : Y}
    (hx : Ensures Inv x b v) (hb : b → bad) (hk : Ensures Inv (k v) bad w) : Ensures Inv (x.bind k) bad w := by
  intro σ hσ
  rcases hx σ hσ with h | ⟨⟨y, σ1, h1⟩, h2⟩
  · exact .inl (hb h)
  · obtain ⟨rfl, hσ1⟩ := h2 y σ1 h1
    rcases hk σ1 hσ1 with h | ⟨⟨z, σ2, h3⟩, -⟩
    · exact .inl h
    · by_cases hbad : bad
      · exact .inl hbad
      · refine .inr ⟨⟨z, σ2, y, σ1, h1, h3⟩, ?_⟩
        rintro z' σ2' ⟨y', σ1', h1', h3'⟩
        obtain ⟨rfl, hσ1'⟩ := h2 y' σ1' h1'
        rcases hk σ1' hσ1' with h | ⟨-, h⟩
        · exact absurd h hbad
        · exact h z' σ2' h3'

/-- The same, where nothing remains to be computed. -/
theorem ensures_map {Inv : S → Prop} {x : Comp S X} {b bad : Prop} {v : X} {w : Y} {f : X → Y}
    (hx : Ensures Inv x b v) (hb : b → bad) (hf : f v = w) : Ensures Inv (x.bind fun r => .pure (f r)) bad w :=
  ensures_bind hx hb (by rw [hf]; exact ensures_pure w)

theorem Ensures.mono {Inv : S → Prop} {x : Comp S X} {b bad : Prop} {v w : X} (h : Ensures Inv x b v) (hb : b → bad)
    (hv : v = w) : Ensures Inv x bad w := by
  subst hv
  intro σ hσ
  exact (h σ hσ).imp hb id

/-! ### The store -/

/-- The entries of a map are results of the cached parser on the text. -/
def CellOk (t : List I) (c : Cell I) (m : CacheMap I c.A) : Prop :=
  ∀ a l r, m.find (a, l) = some r → ∀ o, c.D o = true → (⟨t, o⟩ : State I).lastOffset = l → c.inner ⟨t, o⟩ = r

/-- All maps are good. -/
def StoreOk (t : List I) : (Γ : List (Cell I)) → Store Γ → Prop
  | [], _ => True
  | c :: Γ, σ => CellOk t c σ.1 ∧ StoreOk t Γ σ.2

theorem cellOk_nil (t : List I) (c : Cell I) : CellOk t c [] := by
  intro a l r h; cases h

theorem lastOffset_inj {t : List I} {D : Nat → Bool} (hD : D 0 = false ∨ D 1 = false) {o o' : Nat} (h : D o = true)
    (h' : D o' = true) (e : (⟨t, o⟩ : State I).lastOffset = (⟨t, o'⟩ : State I).lastOffset) : o = o' := by
  unfold State.lastOffset at e
  dsimp only at e
  have h01 : ¬ (o = 0 ∧ o' = 1) := by
    rintro ⟨rfl, rfl⟩; rcases hD with h2 | h2
    · rw [h] at h2; cases h2
    · rw [h'] at h2; cases h2
  have h10 : ¬ (o = 1 ∧ o' = 0) := by
    rintro ⟨rfl, rfl⟩; rcases hD with h2 | h2
    · rw [h'] at h2; cases h2
    · rw [h] at h2; cases h2
  split at e <;> split at e <;> omega

theorem cellOk_insert {t : List I} {c : Cell I} {m : CacheMap I c.A} (hm : CellOk t c m) {o : Nat} (ho : c.D o = true)
    (a : Nat) : CellOk t c (((a, (⟨t, o⟩ : State I).lastOffset), c.inner ⟨t, o⟩) :: m) := by
  intro a' l r h o' ho' hl
  unfold CacheMap.find at h
  split at h
  · rename_i e
    injection e with _ e
    injection h with h
    rw [← e] at hl
    rw [lastOffset_inj c.apart ho' ho hl, h]
  · exact hm a' l r h o' ho' hl

/-! ### The combinators -/

/-- States reached by moving on are among them. -/
class Onward (P : State I → Prop) : Prop where
  step : ∀ s n, P s → P (s.advanceBy n)

instance (k : Nat) : Onward (fun s : State I => k ≤ s.offset) := ⟨fun _ _ h => Nat.le_trans h (Nat.le_add_right _ _)⟩
instance (t : List I) : Onward (fun s : State I => s.input = t) := ⟨fun _ _ h => h⟩
instance : Onward (fun _ : State I => True) := ⟨fun _ _ h => h⟩

/-- What is proved about a grammar with caches, on the states `P`. -/
def Follows (P : State I → Prop) (Inv : List I → S → Prop) (sp : SParser S I A) (g : Parser I A) : Prop :=
  ∀ s : State I, P s → Ensures (Inv s.input) (sp s) (g s = .diverge) (g s)

/-- After the parser `g` on a state in `P` comes a state in `Q`. -/
def Leads (P : State I → Prop) (g : Parser I A) (Q : State I → Prop) : Prop :=
  ∀ s v n, P s → g s = .success v n → Q (s.advanceBy n)

theorem Onward.leads {P : State I → Prop} [h : Onward P] (g : Parser I A) : Leads P g P := fun s _ n hs _ => h.step s n hs

section
variable {P Q : State I → Prop} {Inv : List I → S → Prop}

theorem Follows.mono {sp : SParser S I A} {g : Parser I A} (h : Follows Q Inv sp g) (hp : ∀ s, P s → Q s) :
    Follows P Inv sp g := fun s hs => h s (hp s hs)

theorem follows_plain (p : Parser I A) : Follows P Inv (ofParser p) p := fun _ _ => ensures_pure _

theorem follows_unary {C : Parser I A → Parser I B} (hC : Unary C) {sp : SParser S I A} {g : Parser I A}
    (h : Follows P Inv sp g) : Follows P Inv (Stateful.unary C sp) (C g) := fun s hs =>
  ensures_map (h s hs) (fun e => by rw [hC.once, e, hC.strict]) (hC.once g s).symm

theorem follows_or {sp sp' : SParser S I A} {g g' : Parser I A} (h : Follows P Inv sp g) (h' : Follows P Inv sp' g') :
    Follows P Inv (Stateful.or sp sp') (OniComb.or g g') := by
  intro s hs
  refine ensures_bind (h s hs) (fun e => by rw [OniComb.or, e]) ?_
  unfold OniComb.or
  rcases g s with ⟨v, n⟩ | ⟨e, _ | _⟩ | _ | _
  · exact ensures_pure _
  · exact ensures_pure _
  · exact h' s hs
  · exact ensures_pure _
  · exact ensures_pure _

theorem follows_flatMap {sp : SParser S I A} {f : A → SParser S I B} {g : Parser I A}
    {g' : A → Parser I B} (h : Follows P Inv sp g) (hq : Leads P g Q) (h' : ∀ a, Follows Q Inv (f a) (g' a)) :
    Follows P Inv (Stateful.flatMap sp f) (OniComb.flatMap g g') := by
  intro s hs
  refine ensures_bind (h s hs) (fun e => by rw [OniComb.flatMap, e]) ?_
  unfold OniComb.flatMap
  have hq := fun v n => hq s v n hs
  revert hq
  rcases g s with ⟨v, n⟩ | ⟨e, c⟩ | _ | _ <;> intro hq
  · exact ensures_map (h' v (s.advanceBy n) (hq v n rfl)) (fun e => by dsimp only; rw [e]; rfl) rfl
  · exact ensures_pure _
  · exact ensures_pure _
  · exact ensures_pure _

theorem follows_andThen {sp : SParser S I A} {sp' : SParser S I B} {g : Parser I A} {g' : Parser I B}
    (h : Follows P Inv sp g) (hq : Leads P g Q) (h' : Follows Q Inv sp' g') :
    Follows P Inv (Stateful.andThen sp sp') (OniComb.andThen g g') := by
  intro s hs
  refine ensures_bind (h s hs) (fun e => by rw [OniComb.andThen, e]) ?_
  unfold OniComb.andThen
  have hq := fun v n => hq s v n hs
  revert hq
  rcases g s with ⟨v, n⟩ | ⟨e, c⟩ | _ | _ <;> intro hq
  · exact ensures_map (h' (s.advanceBy n) (hq v n rfl)) (fun e => by dsimp only; rw [e]) rfl
  · exact ensures_pure _
  · exact ensures_pure _
  · exact ensures_pure _

theorem unary_map {A B : Type} (f : A → B) : Unary (I := I) (fun p => OniComb.map p f) :=
  ⟨fun _ _ => rfl, fun _ => rfl⟩

theorem skipLeft_eq (p : Parser I A) (q : Parser I B) : OniComb.skipLeft p q = OniComb.map (OniComb.andThen p q) Prod.snd := by
  funext s
  unfold OniComb.skipLeft OniComb.map OniComb.andThen
  rcases p s with ⟨v, n⟩ | _ | _ | _ <;> try rfl
  dsimp only
  cases q (s.advanceBy n) <;> rfl

theorem skipRight_eq (p : Parser I A) (q : Parser I B) : OniComb.skipRight p q = OniComb.map (OniComb.andThen p q) Prod.fst := by
  funext s
  unfold OniComb.skipRight OniComb.map OniComb.andThen
  rcases p s with ⟨v, n⟩ | _ | _ | _ <;> try rfl
  dsimp only
  cases q (s.advanceBy n) <;> rfl

theorem follows_skipLeft {sp : SParser S I A} {sp' : SParser S I B} {g : Parser I A} {g' : Parser I B}
    (h : Follows P Inv sp g) (hq : Leads P g Q) (h' : Follows Q Inv sp' g') :
    Follows P Inv (Stateful.skipLeft sp sp') (OniComb.skipLeft g g') := by
  rw [skipLeft_eq]
  exact follows_unary (unary_map _) (follows_andThen h hq h')

theorem follows_skipRight {sp : SParser S I A} {sp' : SParser S I B} {g : Parser I A} {g' : Parser I B}
    (h : Follows P Inv sp g) (hq : Leads P g Q) (h' : Follows Q Inv sp' g') :
    Follows P Inv (Stateful.skipRight sp sp') (OniComb.skipRight g g') := by
  rw [skipRight_eq]
  exact follows_unary (unary_map _) (follows_andThen h hq h')

/-! ### Repetition -/

theorem follows_repItem {sp : SParser S I A} {g : Parser I A} (h : Follows P Inv sp g) (st : LoopState I A)
    (hs : P st.cur) :
    Ensures (Inv st.cur.input) (Stateful.repItem sp st) (OniComb.repItem g st = .diverge) (OniComb.repItem g st) :=
  ensures_map (h st.cur hs) (fun e => by unfold OniComb.repItem; rw [e]) rfl

theorem repItem_again {g : Parser I A} {st st' : LoopState I A} (h : OniComb.repItem g st = .again st') :
    ∃ v n, g st.cur = .success v n ∧ st'.cur = st.cur.advanceBy n := by
  unfold OniComb.repItem at h
  split at h
  · rename_i v n e
    cases h
    exact ⟨v, n, e, rfl⟩
  all_goals cases h

/-- The separator of a loop and its model; items are asked in `P`, separators in `Q`. -/
def Seps (P Q : State I → Prop) (Inv : List I → S → Prop) (g : Parser I A) (sep : Option (SParser S I B))
    (sep' : Option (Parser I B)) : Prop :=
  (sep = none ∧ sep' = none ∧ Q = P ∧ Leads P g P) ∨
    ∃ q q', sep = some q ∧ sep' = some q' ∧ Follows Q Inv q q' ∧ Leads P g Q ∧ Leads Q q' P

theorem Seps.leads {g : Parser I A} {sep : Option (SParser S I B)} {sep' : Option (Parser I B)}
    (h : Seps P Q Inv g sep sep') : Leads P g Q := by
  rcases h with ⟨-, -, rfl, h⟩ | ⟨_, _, -, -, -, h, -⟩ <;> exact h

theorem repTurn_again {g : Parser I A} {sep : Option (SParser S I B)} {sep' : Option (Parser I B)}
    (h : Seps P Q Inv g sep sep') {stop : Bound} {st st' : LoopState I A} (hs : Q st.cur)
    (e : OniComb.repTurn g sep' stop st = .again st') : st'.cur.input = st.cur.input ∧ Q st'.cur := by
  unfold OniComb.repTurn at e
  split at e
  · cases e
  · rcases h with ⟨rfl, rfl, rfl, hl⟩ | ⟨q, q', rfl, rfl, hq, hl, hl'⟩
    · obtain ⟨v, n, e1, e2⟩ := repItem_again e
      rw [e2]
      exact ⟨rfl, hl _ _ _ hs e1⟩
    · dsimp only at e
      split at e
      · rename_i v n e0
        obtain ⟨w, m, e1, e2⟩ := repItem_again e
        rw [e2]
        exact ⟨rfl, hl _ _ _ (hl' _ _ _ hs e0) e1⟩
      · cases e
      · cases e
      · cases e

theorem follows_repTurn {sp : SParser S I A} {g : Parser I A} {sep : Option (SParser S I B)}
    {sep' : Option (Parser I B)} (h : Follows P Inv sp g) (h' : Seps P Q Inv g sep sep') (stop : Bound)
    (st : LoopState I A) (hs : Q st.cur) : Ensures (Inv st.cur.input) (Stateful.repTurn sp sep stop st)
      (OniComb.repTurn g sep' stop st = .diverge) (OniComb.repTurn g sep' stop st) := by
  unfold Stateful.repTurn OniComb.repTurn
  split
  · exact ensures_pure _
  · rcases h' with ⟨rfl, rfl, rfl, hl⟩ | ⟨q, q', rfl, rfl, hq, hl, hl'⟩
    · exact follows_repItem h st hs
    · refine ensures_bind (hq st.cur hs) (fun e => by dsimp only; rw [e]) ?_
      dsimp only
      have hl' := fun v n => hl' st.cur v n hs
      revert hl'
      rcases q' st.cur with ⟨v, n⟩ | ⟨e, c⟩ | _ | _ <;> intro hl'
      · exact follows_repItem h ⟨st.cur.advanceBy n, st.items, st.length + n⟩ (hl' v n rfl)
      · exact ensures_pure _
      · exact ensures_pure _
      · exact ensures_pure _

theorem follows_repLoop {sp : SParser S I A} {g : Parser I A} {sep : Option (SParser S I B)}
    {sep' : Option (Parser I B)} (h : Follows P Inv sp g) (h' : Seps P Q Inv g sep sep') (stop : Bound) :
    ∀ (k : Nat) (st : LoopState I A), Q st.cur → Ensures (Inv st.cur.input) (Stateful.repLoop sp sep stop k st)
      (OniComb.repLoop g sep' stop k st = .diverge) (OniComb.repLoop g sep' stop k st)
  | 0, _, _ => ensures_pure _
  | k + 1, st, hs => by
    unfold Stateful.repLoop OniComb.repLoop
    refine ensures_bind (follows_repTurn h h' stop st hs) (fun e => by rw [e]) ?_
    cases e : OniComb.repTurn g sep' stop st with
    | again st' =>
      dsimp only
      obtain ⟨e1, e2⟩ := repTurn_again h' hs e
      rw [← e1]
      exact follows_repLoop h h' stop k st' e2
    | exit items n => exact ensures_pure _
    | panic => exact ensures_pure _
    | diverge => exact ensures_pure _

theorem follows_repeatSep {sp : SParser S I A} {g : Parser I A} {sep : Option (SParser S I B)}
    {sep' : Option (Parser I B)} (h : Follows P Inv sp g) (h' : Seps P Q Inv g sep sep') (range : Range) :
    Follows P Inv (Stateful.repeatSep sp range sep) (OniComb.repeatSep g range sep') := by
  intro s hs
  refine ensures_bind (h s hs) (fun e => by rw [OniComb.repeatSep, e]) ?_
  unfold OniComb.repeatSep
  have hq := fun v n => h'.leads s v n hs
  revert hq
  rcases g s with ⟨v, n⟩ | ⟨e, c⟩ | _ | _ <;> intro hq
  · exact ensures_map (follows_repLoop h h' range.stop _ ⟨s.advanceBy n, [v], n⟩ (hq v n rfl))
      (fun e => by dsimp only; rw [e]) rfl
  · exact ensures_pure _
  · exact ensures_pure _
  · exact ensures_pure _

theorem seps_none [Onward P] {g : Parser I A} : Seps P P Inv g (none : Option (SParser S I B)) none :=
  .inl ⟨rfl, rfl, rfl, Onward.leads _⟩

theorem seps_some [Onward P] {g : Parser I A} {q : SParser S I B} {q' : Parser I B} (h : Follows P Inv q q') :
    Seps P P Inv g (some q) (some q') := .inr ⟨_, _, rfl, rfl, h, Onward.leads _, Onward.leads _⟩

/-! ### Operator chains -/

theorem follows_restLeft1N [hP : Onward P] {sp : SParser S I A} {sp' : SParser S I (A → A → A)} {g : Parser I A}
    {g' : Parser I (A → A → A)} (h : Follows P Inv sp g) (h' : Follows P Inv sp' g') :
    ∀ (k : Nat) (x : A), Follows P Inv (Stateful.restLeft1N sp sp' k x) (OniComb.restLeft1N g g' k x)
  | 0, _ => fun _ _ => ensures_pure _
  | k + 1, x => by
    unfold Stateful.restLeft1N OniComb.restLeft1N
    refine follows_or ?_ (follows_plain _)
    intro s hs
    refine ensures_bind (h' (s.advanceBy 0) (hP.step _ _ hs)) (fun e => by dsimp only; rw [e]) ?_
    dsimp only
    rcases g' (s.advanceBy 0) with ⟨f, n1⟩ | ⟨e, c⟩ | _ | _
    · refine ensures_bind (h ((s.advanceBy 0).advanceBy n1) (hP.step _ _ (hP.step _ _ hs)))
        (fun e => by dsimp only; rw [e]; rfl) ?_
      dsimp only
      rcases g ((s.advanceBy 0).advanceBy n1) with ⟨y, n2⟩ | ⟨e, c⟩ | _ | _
      · exact ensures_map (follows_restLeft1N h h' k (f x y) (((s.advanceBy 0).advanceBy n1).advanceBy n2)
          (hP.step _ _ (hP.step _ _ (hP.step _ _ hs)))) (fun e => by dsimp only; rw [e]; rfl) rfl
      · exact ensures_pure _
      · exact ensures_pure _
      · exact ensures_pure _
    · exact ensures_pure _
    · exact ensures_pure _
    · exact ensures_pure _

theorem follows_restLeft1 [Onward P] {sp : SParser S I A} {sp' : SParser S I (A → A → A)} {g : Parser I A}
    {g' : Parser I (A → A → A)} (h : Follows P Inv sp g) (h' : Follows P Inv sp' g') (x : A) :
    Follows P Inv (Stateful.restLeft1 sp sp' x) (OniComb.restLeft1 g g' x) := fun s hs =>
  follows_restLeft1N h h' _ x s hs

theorem follows_chainLeft1 [Onward P] {sp : SParser S I A} {sp' : SParser S I (A → A → A)} {g : Parser I A}
    {g' : Parser I (A → A → A)} (h : Follows P Inv sp g) (h' : Follows P Inv sp' g') :
    Follows P Inv (Stateful.chainLeft1 sp sp') (OniComb.chainLeft1 g g') :=
  follows_flatMap h (Onward.leads _) fun x => follows_restLeft1 h h' x

/-! ### Caches -/

/-- The store of a cached parser is good. -/
def CacheOk (D : Nat → Bool) (g : Parser I A) (Inv : List I → S → Prop) (t : List I) (σ : CacheMap I A × S) : Prop :=
  (∀ a l r, σ.1.find (a, l) = some r → ∀ o, D o = true → (⟨t, o⟩ : State I).lastOffset = l → g ⟨t, o⟩ = r) ∧ Inv t σ.2

theorem follows_cache {sp : SParser S I A} {g : Parser I A} (D : Nat → Bool) (hD : D 0 = false ∨ D 1 = false)
    (h : Follows P Inv sp g) : Follows P (CacheOk D g Inv) (Stateful.cache sp) (only D g) := by
  rintro ⟨t, o⟩ hs ⟨m, σ⟩ ⟨hm, hσ⟩
  unfold only
  by_cases ho : D o = true
  · rw [if_pos ho]
    rcases h ⟨t, o⟩ hs σ hσ with hb | ⟨⟨y, σ1, h1⟩, h2⟩
    · exact .inl hb
    · refine .inr ⟨?_, ?_⟩
      · cases hf : m.find (0, (⟨t, o⟩ : State I).lastOffset) with
        | some r => exact ⟨r, (m, σ), 0, by dsimp only; rw [hf]; exact ⟨rfl, rfl⟩⟩
        | none => exact ⟨y, _, 0, by dsimp only; rw [hf]; exact ⟨σ1, h1, rfl⟩⟩
      · rintro r ⟨m', σ'⟩ ⟨a, hr⟩
        dsimp only at hr
        cases hf : m.find (a, (⟨t, o⟩ : State I).lastOffset) with
        | some r0 =>
          rw [hf] at hr
          obtain ⟨rfl, e⟩ := hr
          cases e
          exact ⟨(hm a _ _ hf o ho rfl).symm, hm, hσ⟩
        | none =>
          rw [hf] at hr
          obtain ⟨σ2, h3, e⟩ := hr
          obtain ⟨rfl, h4⟩ := h2 r σ2 h3
          have hin : CellOk t ⟨A, g, D, hD⟩ (((a, (⟨t, o⟩ : State I).lastOffset), g ⟨t, o⟩) :: m) :=
            cellOk_insert (c := ⟨A, g, D, hD⟩) hm ho a
          refine ⟨rfl, ?_⟩
          revert e hin
          cases g ⟨t, o⟩ <;> intro e hin <;> cases e
          · exact ⟨hin, h4⟩
          · exact ⟨hin, h4⟩
          · exact ⟨hm, h4⟩
          · exact ⟨hm, h4⟩
  · rw [if_neg ho]; exact .inl rfl

/-- A cached parser that is asked only in its places. -/
theorem follows_cache_on {sp : SParser S I A} {g : Parser I A} (D : Nat → Bool) (hD : D 0 = false ∨ D 1 = false)
    (hP : ∀ s, P s → D s.offset = true) (h : Follows P Inv sp g) : Follows P (CacheOk D g Inv) (Stateful.cache sp) g := by
  intro s hs
  have := follows_cache D hD h s hs
  unfold only at this
  rwa [if_pos (hP s hs)] at this

theorem follows_right {X : Type} {Inv' : List I → X → Prop} {sp : SParser S I A} {g : Parser I A} (h : Follows P Inv sp g) :
    Follows P (fun t (σ : X × S) => Inv' t σ.1 ∧ Inv t σ.2) (Stateful.lift sp) g := by
  rintro s hs ⟨m, σ⟩ ⟨hm, hσ⟩
  rcases h s hs σ hσ with hb | ⟨⟨y, σ1, h1⟩, h2⟩
  · exact .inl hb
  · refine .inr ⟨⟨y, (m, σ1), h1, rfl⟩, ?_⟩
    rintro r ⟨m', σ'⟩ ⟨h3, e⟩
    cases e
    obtain ⟨e, h4⟩ := h2 r σ' h3
    exact ⟨e, hm, h4⟩

theorem follows_left {X : Type} {Inv' : List I → X → Prop} {sp : SParser S I A} {g : Parser I A} (h : Follows P Inv sp g) :
    Follows P (fun t (σ : S × X) => Inv t σ.1 ∧ Inv' t σ.2) (Stateful.left sp) g := by
  rintro s hs ⟨σ, m⟩ ⟨hσ, hm⟩
  rcases h s hs σ hσ with hb | ⟨⟨y, σ1, h1⟩, h2⟩
  · exact .inl hb
  · refine .inr ⟨⟨y, (σ1, m), h1, rfl⟩, ?_⟩
    rintro r ⟨σ', m'⟩ ⟨h3, e⟩
    cases e
    obtain ⟨e, h4⟩ := h2 r σ' h3
    exact ⟨e, h4, hm⟩

theorem follows_built {T : Type} [New T] {Inv' : List I → T → Prop} (h0 : ∀ t, Inv' t New.new) {sp : SParser T I A}
    {g : Parser I A} (h : Follows P Inv' sp g) : Follows P Inv (built sp : SParser S I A) g := by
  intro s hs σ hσ
  rcases h s hs New.new (h0 _) with hb | ⟨⟨y, σ1, h1⟩, h2⟩
  · exact .inl hb
  · refine .inr ⟨⟨y, σ, rfl, σ1, h1⟩, ?_⟩
    rintro r σ' ⟨rfl, σ2, h3⟩
    exact ⟨(h2 r σ2 h3).1, hσ⟩

end

section
variable {Γ : List (Cell I)}

theorem follows_fresh {sp : SParser (CacheMap I B × Store Γ) I A} (g : Nat → Parser I A) (inner : Nat → Parser I B) (D : Nat → Nat → Bool) (hD : ∀ o, D o 0 = false ∨ D o 1 = false)
    (h : ∀ o, Follows (fun _ => True) (fun t => StoreOk t (⟨B, inner o, D o, hD o⟩ :: Γ)) sp (g o)) :
    Follows (fun _ => True) (fun t => StoreOk t Γ) (Stateful.fresh sp) (fun s => g s.offset s) := by
  intro s hs σ hσ
  rcases h s.offset s trivial ([], σ) ⟨cellOk_nil _ _, hσ⟩ with hb | ⟨⟨y, ⟨m1, σ1⟩, h1⟩, h2⟩
  · exact .inl hb
  · refine .inr ⟨⟨y, σ1, m1, h1⟩, ?_⟩
    rintro r σ' ⟨m', h3⟩
    obtain ⟨e, h4⟩ := h2 r (m', σ') h3
    exact ⟨e, h4.2⟩

end

theorem caches_follows {Γ : List (Cell I)} {sp : SParser (Store Γ) I A} {g p : Parser I A} (h : Caches Γ sp g p) :
    Follows (fun _ => True) (fun t => StoreOk t Γ) sp g ∧ Below g p := by
  induction h with
  | plain p => exact ⟨follows_plain p, inferInstance⟩
  | unary hC _ ih =>
    refine ⟨follows_unary hC ih.1, ⟨fun s => ?_⟩⟩
    rw [hC.once]
    rcases ih.2.out s with e | e
    · rw [e]; exact .inl (hC.strict s)
    · rw [e, ← hC.once]; exact .inr rfl
  | or _ _ ih ih' => have := ih.2; have := ih'.2; exact ⟨follows_or ih.1 ih'.1, inferInstance⟩
  | andThen _ _ ih ih' => have := ih.2; have := ih'.2; exact ⟨follows_andThen ih.1 (Onward.leads _) ih'.1, inferInstance⟩
  | skipLeft _ _ ih ih' => have := ih.2; have := ih'.2; exact ⟨follows_skipLeft ih.1 (Onward.leads _) ih'.1, inferInstance⟩
  | skipRight _ _ ih ih' => have := ih.2; have := ih'.2; exact ⟨follows_skipRight ih.1 (Onward.leads _) ih'.1, inferInstance⟩
  | flatMap _ _ ih ih' =>
    have := ih.2; have := fun a => (ih' a).2
    exact ⟨follows_flatMap ih.1 (Onward.leads _) fun a => (ih' a).1, inferInstance⟩
  | repeat_ range _ ih =>
    have := ih.2
    exact ⟨follows_repeatSep ih.1 seps_none range, inferInstance⟩
  | repeatSep range _ _ ih ih' =>
    have := ih.2; have := ih'.2
    exact ⟨follows_repeatSep ih.1 (seps_some ih'.1) range, inferInstance⟩
  | restLeft1 x _ _ ih ih' => have := ih.2; have := ih'.2; exact ⟨follows_restLeft1 ih.1 ih'.1 x, inferInstance⟩
  | cache D hD _ ih =>
    refine ⟨follows_cache D hD ih.1, ⟨fun s => ?_⟩⟩
    unfold only
    split
    · exact ih.2.out s
    · exact .inl rfl
  | lift c _ ih => exact ⟨follows_right (Inv' := fun t m => CellOk t c m) ih.1, ih.2⟩
  | fresh inner D hD g _ ih =>
    exact ⟨follows_fresh g inner D hD fun o => (ih o).1, ⟨fun s => (ih s.offset).2.out s⟩⟩

/-! ### Combinators with one argument -/

theorem unary_filter (f : A → Bool) : Unary (I := I) (fun p => OniComb.filter p f) := ⟨fun _ _ => rfl, fun _ => rfl⟩
theorem unary_filterNot (f : A → Bool) : Unary (I := I) (fun p => OniComb.filterNot p f) :=
  ⟨fun _ _ => rfl, fun _ => rfl⟩
theorem unary_mapRes (f : A → Option B) : Unary (I := I) (fun p => OniComb.mapRes p f) := ⟨fun _ _ => rfl, fun _ => rfl⟩
theorem unary_attempt : Unary (I := I) (A := A) OniComb.attempt := ⟨fun _ _ => rfl, fun _ => rfl⟩
theorem unary_opt : Unary (I := I) (A := A) OniComb.opt := ⟨fun _ _ => rfl, fun _ => rfl⟩
theorem unary_peek : Unary (I := I) (A := A) OniComb.peek := ⟨fun _ _ => rfl, fun _ => rfl⟩
theorem unary_not : Unary (I := I) (A := A) OniComb.not_ := ⟨fun _ _ => rfl, fun _ => rfl⟩
theorem unary_exists : Unary (I := I) (A := A) OniComb.exists_ := ⟨fun _ _ => rfl, fun _ => rfl⟩
theorem unary_name (l : String) : Unary (I := I) (A := A) (fun p => OniComb.name p l) := ⟨fun _ _ => rfl, fun _ => rfl⟩
theorem unary_expect (l : String) : Unary (I := I) (A := A) (fun p => OniComb.expect p l) :=
  ⟨fun _ _ => rfl, fun _ => rfl⟩
theorem unary_lastOffset : Unary (I := I) (A := A) OniComb.lastOffset := ⟨fun _ _ => rfl, fun _ => rfl⟩
theorem unary_nextOffset : Unary (I := I) (A := A) OniComb.nextOffset := ⟨fun _ _ => rfl, fun _ => rfl⟩
theorem unary_collect : Unary (I := I) (A := A) OniComb.collect := ⟨fun _ _ => rfl, fun _ => rfl⟩
theorem unary_discard : Unary (I := I) (A := A) OniComb.discard := ⟨fun _ _ => rfl, fun _ => rfl⟩

/-! ### Places -/

/-- The two parsers do the same on these states. -/
def On (P : State I → Prop) (g p : Parser I A) : Prop := ∀ s : State I, P s → g s = p s

/-- The two parsers do the same from place `k` on. -/
abbrev From (k : Nat) (g p : Parser I A) : Prop := On (fun s => k ≤ s.offset) g p

section
variable {P : State I → Prop}

theorem on_refl (p : Parser I A) : On P p p := fun _ _ => rfl

theorem on_unary {C : Parser I A → Parser I B} (hC : Unary C) {g p : Parser I A} (h : On P g p) :
    On P (C g) (C p) := fun s hs => by rw [hC.once, h s hs, ← hC.once]

theorem on_or {g g' p p' : Parser I A} (h : On P g p) (h' : On P g' p') :
    On P (OniComb.or g g') (OniComb.or p p') := fun s hs => by
  unfold OniComb.or; rw [h s hs, h' s hs]

theorem from_only {k : Nat} {g p : Parser I A} (h : From k g p) : From k (only (fun o => decide (k ≤ o)) g) p := fun s hs => by
  unfold only; rw [if_pos (by simpa using hs)]; exact h s hs

/-- Behind something that is not empty. -/
theorem from_behind {k : Nat} {q : Parser I A} (hq : ∀ s v n, q s = .success v n → 0 < n) {g p : Parser I B} (h : From (k + 1) g p) :
    From k (OniComb.skipLeft q g) (OniComb.skipLeft q p) := fun s hs => by
  unfold OniComb.skipLeft
  cases e : q s with
  | success v n =>
    dsimp only
    rw [h (s.advanceBy n) (by have := hq s v n e; simp only [State.advanceBy]; omega)]
  | failure e c => rfl
  | panic => rfl
  | diverge => rfl

variable [hP : Onward P]

theorem on_andThen {g p : Parser I A} {g' p' : Parser I B} (h : On P g p) (h' : On P g' p') :
    On P (OniComb.andThen g g') (OniComb.andThen p p') := fun s hs => by
  unfold OniComb.andThen; rw [h s hs]
  rcases p s with ⟨v, n⟩ | _ | _ | _ <;> try rfl
  dsimp only
  rw [h' (s.advanceBy n) (hP.step s n hs)]

theorem on_skipLeft {g p : Parser I A} {g' p' : Parser I B} (h : On P g p) (h' : On P g' p') :
    On P (OniComb.skipLeft g g') (OniComb.skipLeft p p') := by
  rw [skipLeft_eq, skipLeft_eq]; exact on_unary (unary_map _) (on_andThen h h')

theorem on_skipRight {g p : Parser I A} {g' p' : Parser I B} (h : On P g p) (h' : On P g' p') :
    On P (OniComb.skipRight g g') (OniComb.skipRight p p') := by
  rw [skipRight_eq, skipRight_eq]; exact on_unary (unary_map _) (on_andThen h h')

theorem on_repeatSep {g p : Parser I A} {g' p' : Parser I B} (h : On P g p) (h' : On P g' p') (range : Range) :
    On P (OniComb.repeatSep g range (some g')) (OniComb.repeatSep p range (some p')) := by
  have hi : ∀ st : LoopState I A, P st.cur → OniComb.repItem g st = OniComb.repItem p st := fun st hst => by
    unfold OniComb.repItem; rw [h _ hst]
  have ht : ∀ st : LoopState I A, P st.cur →
      OniComb.repTurn g (some g') range.stop st = OniComb.repTurn p (some p') range.stop st := fun st hst => by
    unfold OniComb.repTurn
    split
    · rfl
    · dsimp only
      rw [h' _ hst]
      rcases p' st.cur with ⟨v, n⟩ | _ | _ | _ <;> try rfl
      exact hi _ (hP.step _ _ hst)
  have hm : ∀ st st' : LoopState I A, P st.cur → OniComb.repTurn p (some p') range.stop st = .again st' →
      P st'.cur := by
    intro st st' hst e
    unfold OniComb.repTurn at e
    split at e
    · cases e
    · dsimp only at e
      cases e' : p' st.cur with
      | success v n =>
        rw [e'] at e
        dsimp only at e
        unfold OniComb.repItem at e
        split at e <;> cases e
        exact hP.step _ _ (hP.step _ _ hst)
      | failure => rw [e'] at e; cases e
      | panic => rw [e'] at e; cases e
      | diverge => rw [e'] at e; cases e
  have hl : ∀ (j : Nat) (st : LoopState I A), P st.cur →
      OniComb.repLoop g (some g') range.stop j st = OniComb.repLoop p (some p') range.stop j st := by
    intro j
    induction j with
    | zero => intros; rfl
    | succ j ih =>
      intro st hst
      unfold OniComb.repLoop
      rw [ht st hst]
      cases e : OniComb.repTurn p (some p') range.stop st <;> try rfl
      exact ih _ (hm st _ hst e)
  intro s hs
  unfold OniComb.repeatSep
  rw [h s hs]
  rcases p s with ⟨v, n⟩ | _ | _ | _ <;> try rfl
  dsimp only
  rw [hl _ _ (hP.step _ _ hs)]

end

end OniComb.Stateful
