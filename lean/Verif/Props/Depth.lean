import Verif.Spec.Depth
import Verif.Props.Chain

/-!
# C153: how deep the calls of parsers are nested

Repetitions are loops, and what they read may be as long as it likes. Chains of operators are recursive: each operator lies two calls
deeper than the one before.
-/

namespace OniComb.Depth
open OniComb OniComb.Stateful
variable {I A B X Y : Type}

/-- All runs give `v`, return to where they have been called, and nest calls `w` deep at most. -/
def Tall (w : Nat) (x : Comp Stack X) (v : X) : Prop :=
  ∀ σ, (∃ σ', x σ v σ') ∧ ∀ y σ', x σ y σ' → y = v ∧ σ'.now = σ.now ∧ σ.deepest ≤ σ'.deepest ∧ σ'.deepest ≤ max σ.deepest (σ.now + w)

theorem tall_pure (w : Nat) (v : X) : Tall w (.pure v) v := fun σ =>
  ⟨⟨σ, rfl, rfl⟩, by rintro y σ' ⟨rfl, rfl⟩; exact ⟨rfl, rfl, Nat.le_refl _, Nat.le_max_left _ _⟩⟩

theorem tall_bind {w : Nat} {x : Comp Stack X} {k : X → Comp Stack Y} {v : X} {u : Y} (hx : Tall w x v) (hk : Tall w (k v) u) :
    Tall w (x.bind k) u := by
  intro σ
  obtain ⟨⟨σ1, h1⟩, h2⟩ := hx σ
  obtain ⟨⟨σ2, h3⟩, -⟩ := hk σ1
  refine ⟨⟨σ2, v, σ1, h1, h3⟩, ?_⟩
  rintro y σ' ⟨v', τ, h4, h5⟩
  obtain ⟨rfl, a1, a2, a3⟩ := h2 _ _ h4
  obtain ⟨b0, b1, b2, b3⟩ := (hk τ).2 _ _ h5
  rw [a1] at b1 b3
  exact ⟨b0, b1, by omega, by omega⟩

theorem Tall.mono {w w' : Nat} {x : Comp Stack X} {v : X} (h : Tall w x v) (hw : w ≤ w') : Tall w' x v := fun σ =>
  ⟨(h σ).1, fun y σ' hy => by
    obtain ⟨a0, a1, a2, a3⟩ := (h σ).2 y σ' hy
    exact ⟨a0, a1, a2, by omega⟩⟩

theorem tall_frame {w : Nat} {m : SParser Stack I A} {s : State I} {r : Res I A} (h : Tall w (m s) r) : Tall (w + 1) (frame m s) r := by
  intro σ
  obtain ⟨⟨τ, h1⟩, h2⟩ := h ⟨σ.now + 1, max σ.deepest (σ.now + 1)⟩
  refine ⟨⟨_, τ, h1, rfl⟩, ?_⟩
  rintro y σ' ⟨τ, h3, rfl⟩
  obtain ⟨a0, a1, a2, a3⟩ := h2 _ _ h3
  dsimp only at a1 a2 a3 ⊢
  exact ⟨a0, rfl, by omega, by omega⟩

section
variable {w : Nat} {m : SParser Stack I A} {p : Parser I A} {m' : SParser Stack I B} {p' : Parser I B}

theorem tall_or {m' : SParser Stack I A} {p' : Parser I A} {s : State I} (h : Tall w (m s) (p s)) (h' : Tall w (m' s) (p' s)) :
    Tall w (Stateful.or m m' s) (OniComb.or p p' s) := by
  refine tall_bind h ?_
  unfold OniComb.or
  cases p s with
  | failure e c =>
    cases c with
    | committed => exact tall_pure _ _
    | uncommitted => exact h'
  | _ => exact tall_pure _ _

theorem tall_unary {C : Parser I A → Parser I B} (hC : ∀ p s, C (fun _ => p s) s = C p s) {s : State I} (h : Tall w (m s) (p s)) :
    Tall w (Stateful.unary C m s) (C p s) := by
  refine tall_bind h ?_
  rw [hC]
  exact tall_pure _ _

theorem tall_andThen {s : State I} (h : Tall w (m s) (p s)) (h' : ∀ n, Tall w (m' (s.advanceBy n)) (p' (s.advanceBy n))) :
    Tall w (Stateful.andThen m m' s) (OniComb.andThen p p' s) := by
  refine tall_bind h ?_
  unfold OniComb.andThen
  cases p s with
  | success v n =>
    refine tall_bind (h' n) ?_
    dsimp only
    cases p' (s.advanceBy n) <;> exact tall_pure _ _
  | _ => exact tall_pure _ _

theorem tall_skipLeft {s : State I} (h : Tall w (m s) (p s)) (h' : ∀ n, Tall w (m' (s.advanceBy n)) (p' (s.advanceBy n))) :
    Tall w (Stateful.skipLeft m m' s) (OniComb.skipLeft p p' s) := by
  have h1 := tall_unary (m := Stateful.andThen m m') (p := OniComb.andThen p p') (C := fun r => map r Prod.snd) (fun _ _ => rfl)
    (tall_andThen h h')
  have : map (OniComb.andThen p p') Prod.snd s = OniComb.skipLeft p p' s := by
    simp only [map, OniComb.andThen, OniComb.skipLeft]
    cases p s with
    | success v n =>
      dsimp only
      cases p' (s.advanceBy n) <;> rfl
    | _ => rfl
  rw [← this]
  exact h1

theorem tall_skipRight {s : State I} (h : Tall w (m s) (p s)) (h' : ∀ n, Tall w (m' (s.advanceBy n)) (p' (s.advanceBy n))) :
    Tall w (Stateful.skipRight m m' s) (OniComb.skipRight p p' s) := by
  have h1 := tall_unary (m := Stateful.andThen m m') (p := OniComb.andThen p p') (C := fun r => map r Prod.fst) (fun _ _ => rfl)
    (tall_andThen h h')
  have : map (OniComb.andThen p p') Prod.fst s = OniComb.skipRight p p' s := by
    simp only [map, OniComb.andThen, OniComb.skipRight]
    cases p s with
    | success v n =>
      dsimp only
      cases p' (s.advanceBy n) <;> rfl
    | _ => rfl
  rw [← this]
  exact h1

theorem tall_flatMap {m' : A → SParser Stack I B} {p' : A → Parser I B} {s : State I} (h : Tall w (m s) (p s))
    (h' : ∀ a n, Tall w (m' a (s.advanceBy n)) (p' a (s.advanceBy n))) : Tall w (Stateful.flatMap m m' s) (OniComb.flatMap p p' s) := by
  refine tall_bind h ?_
  unfold OniComb.flatMap
  cases p s with
  | success v n => exact tall_bind (h' v n) (tall_pure _ _)
  | _ => exact tall_pure _ _

/-- The states with the text `t`. -/
abbrev On (t : List I) (s : State I) : Prop := s.input = t

theorem tall_item {t : List I} (h : ∀ s, On t s → Tall w (m s) (p s)) (st : LoopState I A) (hs : On t st.cur) :
    Tall w (Stateful.repItem m st) (OniComb.repItem p st) := by
  refine tall_bind (h _ hs) ?_
  have : OniComb.repItem (fun _ => p st.cur) st = OniComb.repItem p st := rfl
  rw [this]
  exact tall_pure _ _

theorem repItem_on {t : List I} {st st' : LoopState I A} (hs : On t st.cur) (h : OniComb.repItem p st = .again st') : On t st'.cur := by
  unfold OniComb.repItem at h
  cases hp : p st.cur with
  | success v n => rw [hp] at h; cases h; exact hs
  | _ => rw [hp] at h; cases h

/-- Separators may be missing. -/
inductive TallSep (t : List I) (w : Nat) : Option (SParser Stack I B) → Option (Parser I B) → Prop where
  | none : TallSep t w none none
  | some {m : SParser Stack I B} {p : Parser I B} : (∀ s, On t s → Tall w (m s) (p s)) → TallSep t w (some m) (some p)

theorem tall_loop {t : List I} (h : ∀ s, On t s → Tall w (m s) (p s)) {sm : Option (SParser Stack I B)} {sp : Option (Parser I B)}
    (hs : TallSep t w sm sp) (stop : Bound) : ∀ (k : Nat) (st : LoopState I A), On t st.cur →
    Tall w (Stateful.repLoop m sm stop k st) (OniComb.repLoop p sp stop k st)
  | 0, _, _ => tall_pure _ _
  | k + 1, st, hst => by
    have key : ∀ tu : Turn I A, (∀ st', tu = .again st' → On t st'.cur) → Tall w (Stateful.repTurn m sm stop st) tu →
        tu = OniComb.repTurn p sp stop st → Tall w (Stateful.repLoop m sm stop (k + 1) st) (OniComb.repLoop p sp stop (k + 1) st) := by
      intro tu h1 h2 h3
      refine tall_bind h2 ?_
      unfold OniComb.repLoop
      rw [← h3]
      cases tu with
      | again st' => exact tall_loop h hs stop k st' (h1 _ rfl)
      | _ => exact tall_pure _ _
    refine key _ ?_ ?_ rfl
    · intro st' he
      unfold OniComb.repTurn at he
      split at he
      · cases he
      · cases hs with
        | none => exact repItem_on hst he
        | @some m q _ =>
          dsimp only at he
          cases hq : q st.cur with
          | success v n => rw [hq] at he; exact repItem_on (st := ⟨st.cur.advanceBy n, st.items, st.length + n⟩) hst he
          | _ => rw [hq] at he; cases he
    · unfold Stateful.repTurn OniComb.repTurn
      by_cases hb : boundReached stop st.items.length = true
      · simp only [hb, if_true]
        exact tall_pure _ _
      · simp only [hb, Bool.false_eq_true, if_false]
        cases hs with
        | none => exact tall_item h st hst
        | @some m q hq =>
          refine tall_bind (hq _ hst) ?_
          dsimp only
          cases q st.cur with
          | success v n => exact tall_item h ⟨st.cur.advanceBy n, st.items, st.length + n⟩ hst
          | _ => exact tall_pure _ _

theorem tall_repeat {t : List I} (h : ∀ s, On t s → Tall w (m s) (p s)) {sm : Option (SParser Stack I B)} {sp : Option (Parser I B)}
    (hs : TallSep t w sm sp) (range : Range) {s : State I} (ht : On t s) :
    Tall w (Stateful.repeatSep m range sm s) (OniComb.repeatSep p range sp s) := by
  refine tall_bind (h _ ht) ?_
  unfold OniComb.repeatSep
  cases p s with
  | success v n =>
    refine tall_bind (tall_loop h hs _ _ _ ht) ?_
    dsimp only
    cases OniComb.repLoop p sp range.stop (repFuel range.stop s) ⟨s.advanceBy n, [v], n⟩ <;> exact tall_pure _ _
  | _ => exact tall_pure _ _

theorem tall_rest {t : List I} {mo : SParser Stack I (A → A → A)} {op : Parser I (A → A → A)} (h : ∀ s, On t s → Tall w (m s) (p s))
    (ho : ∀ s, On t s → Tall w (mo s) (op s)) : ∀ (k : Nat) (x : A) (s : State I), On t s →
    Tall (2 * k + w) (restLeft1N m mo k x s) (OniComb.restLeft1N p op k x s)
  | 0, _, _, _ => tall_pure _ _
  | k + 1, x, s, hs => by
    refine (tall_frame (w := 2 * k + w + 1) ?_).mono (by omega)
    refine tall_or ?_ ((tall_frame (w := 0) (tall_pure _ _)).mono (by omega))
    refine tall_frame (tall_bind ((ho (s.advanceBy 0) hs).mono (by omega)) ?_)
    dsimp only
    cases op (s.advanceBy 0) with
    | success f n1 =>
      refine tall_bind ((h ((s.advanceBy 0).advanceBy n1) hs).mono (by omega)) ?_
      dsimp only
      cases p ((s.advanceBy 0).advanceBy n1) with
      | success y n2 => exact tall_bind (tall_rest h ho k (f x y) _ hs) (tall_pure _ _)
      | _ => exact tall_pure _ _
    | _ => exact tall_pure _ _

theorem tall_chain {t : List I} {mo : SParser Stack I (A → A → A)} {op : Parser I (A → A → A)} (h : ∀ s, On t s → Tall w (m s) (p s))
    (ho : ∀ s, On t s → Tall w (mo s) (op s)) {s : State I} (hs : On t s) :
    Tall (w + (2 * t.length + 5)) (chainLeft1 m mo s) (OniComb.chainLeft1 p op s) := by
  refine (tall_frame (w := 2 * (t.length + 2) + w) ?_).mono (by omega)
  refine tall_flatMap ((h _ hs).mono (by omega)) fun a n => ?_
  refine (tall_rest h ho _ a (s.advanceBy n) hs).mono ?_
  have : (s.advanceBy n).input = t := hs
  rw [this]
  omega

end

theorem made_tall {b : Bool} {W : Nat} {t : List I} (hW : 1 ≤ W) (hb : b = true → 2 * t.length + 5 ≤ W) {d : Nat} {A : Type}
    {m : SParser Stack I A} {p : Parser I A} (h : Made b d m p) : ∀ s, On t s → Tall (d * W) (m s) (p s) := by
  have step : ∀ d, d * W + 1 ≤ (d + 1) * W := fun d => by rw [Nat.succ_mul]; omega
  induction h with
  | prim p => exact fun s _ => (tall_frame (w := 0) (tall_pure _ _)).mono (by omega)
  | @more d _ _ _ _ ih => exact fun s hs => (ih s hs).mono (by have := step d; omega)
  | @unary d _ _ _ _ _ hC _ ih => exact fun s hs => (tall_frame (tall_unary hC (ih s hs))).mono (step d)
  | @or d _ _ _ _ _ _ _ ih ih' => exact fun s hs => (tall_frame (tall_or (ih s hs) (ih' s hs))).mono (step d)
  | @andThen d _ _ _ _ _ _ _ _ ih ih' => exact fun s hs => (tall_frame (tall_andThen (ih s hs) fun n => ih' _ hs)).mono (step d)
  | @skipLeft d _ _ _ _ _ _ _ _ ih ih' => exact fun s hs => (tall_frame (tall_skipLeft (ih s hs) fun n => ih' _ hs)).mono (step d)
  | @skipRight d _ _ _ _ _ _ _ _ ih ih' => exact fun s hs => (tall_frame (tall_skipRight (ih s hs) fun n => ih' _ hs)).mono (step d)
  | @flatMap d _ _ _ _ _ _ _ _ ih ih' => exact fun s hs => (tall_frame (tall_flatMap (ih s hs) fun a n => ih' a _ hs)).mono (step d)
  | @times d _ _ _ range _ ih => exact fun s hs => (tall_frame (tall_repeat ih .none range hs)).mono (step d)
  | @timesSep d _ _ _ _ _ _ range _ _ ih ih' => exact fun s hs => (tall_frame (tall_repeat ih (.some ih') range hs)).mono (step d)
  | @lazy d _ _ _ _ ih => exact fun s hs => (tall_frame (ih s hs)).mono (step d)
  | @chainLeft1 d _ _ _ _ _ hc _ _ ih ih' =>
    exact fun s hs => (tall_chain ih ih' hs).mono (by have := hb hc; have : (d + 1) * W = d * W + W := Nat.succ_mul d W; omega)

/-! ### Chains are deep -/

/-- All runs nest calls at least `k` deep. -/
def Reaches (k : Nat) (x : Comp Stack X) : Prop := ∀ σ y σ', x σ y σ' → σ.now + k ≤ σ'.deepest

theorem reach_frame {k : Nat} {m : SParser Stack I A} {s : State I} (h : Reaches k (m s)) : Reaches (k + 1) (frame m s) := by
  rintro σ y σ' ⟨τ, h1, rfl⟩
  have := h _ _ _ h1
  dsimp only at this ⊢
  omega

theorem reach_one {w : Nat} {m : SParser Stack I A} {s : State I} {r : Res I A} (h : Tall w (m s) r) : Reaches 1 (frame m s) := by
  rintro σ y σ' ⟨τ, h1, rfl⟩
  have := ((h _).2 _ _ h1).2.2.1
  dsimp only at this ⊢
  omega

theorem reach_left {k w : Nat} {x : Comp Stack X} {f : X → Comp Stack Y} {v : X} {u : Y} (h : Reaches k x) (hx : Tall w x v) (hf : Tall w (f v) u) :
    Reaches k (x.bind f) := by
  rintro σ y σ' ⟨v', τ, h1, h2⟩
  have := h _ _ _ h1
  obtain ⟨rfl, -⟩ := (hx σ).2 _ _ h1
  have := ((hf τ).2 _ _ h2).2.2.1
  omega

theorem reach_right {k w : Nat} {x : Comp Stack X} {f : X → Comp Stack Y} {v : X} (hx : Tall w x v) (h : Reaches k (f v)) :
    Reaches k (x.bind f) := by
  rintro σ y σ' ⟨v', τ, h1, h2⟩
  obtain ⟨rfl, h3, -⟩ := (hx σ).2 _ _ h1
  have := h _ _ _ h2
  omega

theorem links_fit {p : Parser I A} {op : Parser I (A → A → A)} {k : Nat} {s : State I} (h : Links p op k s) : k ≤ s.input.length - s.offset := by
  induction h with
  | zero s => omega
  | succ _ _ h3 h4 _ ih =>
    simp only [State.advanceBy] at ih
    omega

theorem tall_turn {w k : Nat} {t : List I} {m : SParser Stack I A} {p : Parser I A} {mo : SParser Stack I (A → A → A)}
    {op : Parser I (A → A → A)} (h : ∀ s, On t s → Tall w (m s) (p s)) (ho : ∀ s, On t s → Tall w (mo s) (op s)) (x : A) {s : State I}
    (hs : On t s) : ∃ r, Tall (2 * k + w) (restTurn m mo (restLeft1N m mo k) x s) r := by
  have h1 := (ho (s.advanceBy 0) hs).mono (show w ≤ 2 * k + w by omega)
  cases hop : op (s.advanceBy 0) with
  | success f n1 =>
    rw [hop] at h1
    have h2 := (h ((s.advanceBy 0).advanceBy n1) hs).mono (show w ≤ 2 * k + w by omega)
    cases hp : p ((s.advanceBy 0).advanceBy n1) with
    | success y n2 =>
      rw [hp] at h2
      exact ⟨_, tall_bind h1 (tall_bind h2 (tall_bind (tall_rest h ho k (f x y) _ hs) (tall_pure _ _)))⟩
    | _ => rw [hp] at h2; exact ⟨_, tall_bind h1 (tall_bind h2 (tall_pure _ _))⟩
  | _ => rw [hop] at h1; exact ⟨_, tall_bind h1 (tall_pure _ _)⟩

theorem reach_or {k : Nat} {m : SParser Stack I A} {x : A} {s : State I} (h : Reaches k (m s)) :
    Reaches k (Stateful.or m (frame (ofParser (successful x))) s) := by
  rintro σ y σ' ⟨v, τ, h1, h2⟩
  have h3 := h _ _ _ h1
  have h4 : τ.deepest ≤ σ'.deepest := by
    cases v with
    | failure e c =>
      cases c with
      | committed => obtain ⟨-, rfl⟩ := h2; exact Nat.le_refl _
      | uncommitted =>
        have h5 : Tall 1 (frame (ofParser (successful x)) s) (successful x s) := tall_frame (tall_pure 0 _)
        exact ((h5 τ).2 _ _ h2).2.2.1
    | _ => obtain ⟨-, rfl⟩ := h2; exact Nat.le_refl _
  omega

theorem reach_rest {w k : Nat} {t : List I} {m : SParser Stack I A} {p : Parser I A} {mo : SParser Stack I (A → A → A)}
    {op : Parser I (A → A → A)} (h : ∀ s, On t s → Tall w (m s) (p s)) (ho : ∀ s, On t s → Tall w (mo s) (op s)) {s : State I}
    (hl : Links p op k s) : ∀ (j : Nat) (x : A), On t s → k ≤ j → Reaches (2 * k + 2) (restLeft1N m mo (j + 1) x s) := by
  induction hl with
  | zero s =>
    intro j x hs _
    obtain ⟨r, hr⟩ := tall_turn (k := j) h ho x hs
    exact reach_frame (reach_or (reach_one hr))
  | @succ k s f y n1 n2 h1 h2 _ _ _ ih =>
    intro j x hs hj
    obtain ⟨j, rfl⟩ : ∃ i, j = i + 1 := ⟨j - 1, by omega⟩
    refine reach_frame (k := 2 * k + 3) (reach_or (reach_frame ?_))
    have e1 := ho (s.advanceBy 0) hs
    have e2 := h ((s.advanceBy 0).advanceBy n1) hs
    rw [show op (s.advanceBy 0) = .success f n1 from h1] at e1
    rw [show p ((s.advanceBy 0).advanceBy n1) = .success y n2 from h2] at e2
    refine reach_right e1 (reach_right e2 ?_)
    exact reach_left (ih j (f x y) hs (by omega)) (tall_rest h ho (j + 1) (f x y) _ hs) (tall_pure _ _)

/-- C153 for parsers without chains: however long the text and however often repetitions go round, calls are nested no deeper than
combinators have been applied to each other. They all return, and the result is that of the parser. -/
theorem c153_flat_partial {d : Nat} {m : SParser Stack I A} {p : Parser I A} (h : Made false d m p) (s : State I) (σ : Stack) :
    (∃ σ', m s σ (p s) σ') ∧
      ∀ r σ', m s σ r σ' → r = p s ∧ σ'.now = σ.now ∧ σ'.deepest ≤ max σ.deepest (σ.now + d) := by
  have h1 := made_tall (W := 1) (t := s.input) (by omega) (by intro h; cases h) h s rfl σ
  rw [Nat.mul_one] at h1
  exact ⟨h1.1, fun r σ' hr => ⟨(h1.2 r σ' hr).1, (h1.2 r σ' hr).2.1, (h1.2 r σ' hr).2.2.2⟩⟩

/-- C153 with chains: the depth is linear in the length of the text. -/
theorem c153_linear_partial {d : Nat} {m : SParser Stack I A} {p : Parser I A} (h : Made true d m p) (s : State I) (σ : Stack) :
    (∃ σ', m s σ (p s) σ') ∧
      ∀ r σ', m s σ r σ' → r = p s ∧ σ'.now = σ.now ∧ σ'.deepest ≤ max σ.deepest (σ.now + d * (2 * s.input.length + 5)) := by
  have h1 := made_tall (W := 2 * s.input.length + 5) (t := s.input) (by omega) (fun _ => Nat.le_refl _) h s rfl σ
  exact ⟨h1.1, fun r σ' hr => ⟨(h1.2 r σ' hr).1, (h1.2 r σ' hr).2.1, (h1.2 r σ' hr).2.2.2⟩⟩

/-- C153 fails for `chain_left1`: `k` operators in a row, nothing nested, and each lies two calls deeper than the one before. -/
theorem c153_chain_violated {d k : Nat} {m : SParser Stack I A} {p : Parser I A} {mo : SParser Stack I (A → A → A)}
    {op : Parser I (A → A → A)} (h : Made true d m p) (ho : Made true d mo op) {s : State I} {v : A} {n : Nat}
    (hv : p s = .success v n) (hl : Links p op k (s.advanceBy n)) (σ : Stack) :
    (∃ σ', chainLeft1 m mo s σ (OniComb.chainLeft1 p op s) σ') ∧
      ∀ r σ', chainLeft1 m mo s σ r σ' → r = OniComb.chainLeft1 p op s ∧ σ.now + 2 * k + 3 ≤ σ'.deepest := by
  have t1 := made_tall (W := 2 * s.input.length + 5) (t := s.input) (by omega) (fun _ => Nat.le_refl _) h
  have t2 := made_tall (W := 2 * s.input.length + 5) (t := s.input) (by omega) (fun _ => Nat.le_refl _) ho
  have t3 := tall_chain t1 t2 (s := s) rfl σ
  refine ⟨t3.1, fun r σ' hr => ⟨(t3.2 r σ' hr).1, ?_⟩⟩
  have e1 := t1 s rfl
  rw [hv] at e1
  have hk := links_fit hl
  have := reach_frame (m := Stateful.flatMap m fun x s => restLeft1N m mo (s.input.length - s.offset + 2) x s) (s := s)
    (reach_right e1 (reach_left (reach_rest t1 t2 hl ((s.advanceBy n).input.length - (s.advanceBy n).offset + 1) v rfl (by omega))
      (tall_rest t1 t2 _ v (s.advanceBy n) rfl) (tall_pure _ _))) σ r σ' hr
  omega

/-- C153 fails for `chain_right1` as well, which runs `rest_left1` (operator_parsers_impl.rs:86-91) and so the same closures. -/
theorem c153_chainRight_violated {d k : Nat} {m : SParser Stack I A} {p : Parser I A} {mo : SParser Stack I (A → A → A)}
    {op : Parser I (A → A → A)} (h : Made true d m p) (ho : Made true d mo op) {s : State I} {v : A} {n : Nat}
    (hv : p s = .success v n) (hl : Links p op k (s.advanceBy n)) (σ : Stack) :
    (∃ σ', chainLeft1 m mo s σ (OniComb.chainRight1 p op s) σ') ∧
      ∀ r σ', chainLeft1 m mo s σ r σ' → r = OniComb.chainRight1 p op s ∧ σ.now + 2 * k + 3 ≤ σ'.deepest :=
  c153_chain_violated h ho hv hl σ

/-- C153 for `rest_right1`, operator_parsers_impl.rs:101-114, which reads one operator at most: three calls and those of its parts. -/
theorem c153_restRight_partial {d : Nat} {m : SParser Stack I A} {p : Parser I A} {mo : SParser Stack I (A → A → A)}
    {op : Parser I (A → A → A)} (h : Made false d m p) (ho : Made false d mo op) (x : A) (s : State I) (σ : Stack) (r : Res I A) (σ' : Stack)
    (hr : frame (Stateful.or (frame (Stateful.flatMap mo fun f => frame (Stateful.unary (fun q => map q fun y => f x y) m)))
      (frame (ofParser (successful x)))) s σ r σ') :
    r = restRight1 p op x s ∧ σ'.deepest ≤ max σ.deepest (σ.now + (d + 3)) := by
  have up : ∀ j, Made false (j + 1) (frame (ofParser (successful x : Parser I A))) (successful x) := by
    intro j
    induction j with
    | zero => exact .prim _
    | succ j ih => exact .more ih
  have made := Made.or (Made.flatMap (.more ho) fun f => Made.unary (C := fun q => map q fun y => f x y) (fun _ _ => rfl) h) (up (d + 1))
  have h1 := (c153_flat_partial made s σ).2 r σ' hr
  exact ⟨h1.1, h1.2.2⟩

/-! ### Cases -/

/-- A digit, with its calls. -/
def digitF : SParser Stack Char Int := frame (Stateful.unary (fun q => map q fun c => (c.toNat : Int) - 48) (frame (ofParser (elmPred Chr.isDigit))))
/-- A minus sign, with its calls. -/
def minusF : SParser Stack Char (Int → Int → Int) := frame (Stateful.unary (fun q => map q fun _ => (· - ·)) (frame (ofParser (elm '-'))))

theorem made_digit (b : Bool) : Made b 2 digitF digitOperand :=
  .unary (C := fun q => map q fun c : Char => (c.toNat : Int) - 48) (fun _ _ => rfl) (.prim _)
theorem made_minus (b : Bool) : Made b 2 minusF minusOp :=
  .unary (C := fun q => map q fun _ : Char => fun a b : Int => a - b) (fun _ _ => rfl) (.prim _)

/-- Digits between minus signs as a list: three calls, on any text. -/
example (s : State Char) (r : Res Char (List Int)) (σ' : Stack)
    (h : frame (Stateful.repeatSep digitF (.from_ 1) (some minusF)) s ⟨0, 0⟩ r σ') : σ'.deepest ≤ 3 :=
  ((c153_flat_partial (.timesSep (.from_ 1) (made_digit false) (made_minus false)) s ⟨0, 0⟩).2 r σ' h).2.2

/-- `-1` `k` times. -/
def minuses : Nat → List Char
  | 0 => []
  | k + 1 => '-' :: '1' :: minuses k

theorem minuses_links : ∀ (k : Nat) (u : List Char), Links digitOperand minusOp k ⟨u ++ minuses k, u.length⟩
  | 0, _ => .zero _
  | k + 1, u => by
    have h := minuses_links k (u ++ ['-', '1'])
    refine .succ (f := (· - ·)) (y := 1) (n1 := 1) (n2 := 1) ?_ ?_ (by omega) ?_ ?_
    · simp [minusOp, map, elm, elmPred, State.withInput, minuses]
    · have e : (u ++ minuses (k + 1)).drop (u.length + 1) = '1' :: minuses k := by
        rw [List.drop_append]; simp [minuses]
      simp [digitOperand, map, elmPred, State.withInput, State.advanceBy, e, show Chr.isDigit '1' = true from by decide]
      simp [minuses]
    · simp [minuses]; omega
    · simpa [State.advanceBy, minuses] using h

/-- No bound holds for all texts of the same digits and minus signs read by `chain_left1`. -/
example (D : Nat) : ∃ t : List Char, ∀ r σ', chainLeft1 digitF minusF ⟨t, 0⟩ ⟨0, 0⟩ r σ' → D < σ'.deepest := by
  refine ⟨'1' :: minuses D, fun r σ' h => ?_⟩
  have h1 : digitOperand ⟨'1' :: minuses D, 0⟩ = .success 1 1 := by
    simp [digitOperand, map, elmPred, State.withInput, show Chr.isDigit '1' = true from by decide]
  have := ((c153_chain_violated (made_digit true) (made_minus true) h1 (minuses_links D ['1']) ⟨0, 0⟩).2 r σ' h).2
  dsimp only at this
  omega

/-- An operator and an operand behind a number, on any text: five calls. -/
example (s : State Char) (r : Res Char Int) (σ' : Stack)
    (h : frame (Stateful.or (frame (Stateful.flatMap minusF fun f => frame (Stateful.unary (fun q => map q fun y => f 7 y) digitF)))
      (frame (ofParser (successful 7)))) s ⟨0, 0⟩ r σ') : σ'.deepest ≤ 5 :=
  (c153_restRight_partial (made_digit false) (made_minus false) 7 s ⟨0, 0⟩ r σ' h).2

end OniComb.Depth
