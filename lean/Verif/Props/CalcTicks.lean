import Verif.Spec.CalcTicks
import Verif.Props.CalcSteps
import Verif.Props.JsonTicks

/-!
# C145, by a clock

The number of steps that `Model/CalcSteps` computes is what a clock shows that is advanced by the parsers without parts
while the combinators of `Model/CacheGrammar` run.
-/

namespace OniComb.Calc.Ticking
open OniComb OniComb.Calc OniComb.Stateful
open OniComb.Peg
open OniComb.Json.Ticking (clocked_skipLeft clocked_surround clocked_map)

section
variable {I A : Type}

/-- The second alternative of `rest_left1`. -/
theorem alt_pure (r0 : Res I A) (x : A) (s : State I) (σ : Nat) (r : Res I A) (σ' : Nat) :
    (match (generalizing := false) r0 with
      | .failure _ .uncommitted => ofParser (successful x) s
      | r => Comp.pure r : Comp Nat (Res I A)) σ r σ' ↔
    r = (match (generalizing := false) r0 with
      | .failure _ .uncommitted => successful x s
      | r => r) ∧ σ' = σ := by
  cases r0 with
  | failure e st => cases st <;> rfl
  | _ => rfl

theorem pure_bind {S X Y : Type} (x : X) (f : X → Comp S Y) (σ : S) (y : Y) (σ' : S) :
    Comp.bind (Comp.pure x) f σ y σ' ↔ f x σ y σ' := ⟨fun ⟨_, _, ⟨rfl, rfl⟩, h⟩ => h, fun h => ⟨_, _, ⟨rfl, rfl⟩, h⟩⟩

theorem clocked_rest {m : SParser Nat I A} {c : Counted I A} {mo : SParser Nat I (A → A → A)} {co : Counted I (A → A → A)}
    (h : Clocked m c) (ho : Clocked mo co) : ∀ (k : Nat) (x : A) (s : State I) (σ : Nat) (r : Res I A) (σ' : Nat),
    Stateful.restLeft1N m mo k x s σ r σ' ↔ r = OniComb.restLeft1N c.run co.run k x s ∧ σ' = σ + Counted.restSteps c co k x s
  | 0, x, s, σ, r, σ' => by simp [Stateful.restLeft1N, OniComb.restLeft1N, Counted.restSteps, Comp.pure]
  | k + 1, x, s, σ, r, σ' => by
    rw [Stateful.restLeft1N, OniComb.restLeft1N, Counted.restSteps]
    simp only [Stateful.or, OniComb.or, Steps.advance_zero]
    refine (Json.Ticking.bind_bind _ _ _ _ _ _).trans ((clocked_bind ho _ _ _ _ _).trans ?_)
    cases h1 : co.run s with
    | success f n1 =>
      dsimp only
      refine (Json.Ticking.bind_bind _ _ _ _ _ _).trans ((clocked_bind h _ _ _ _ _).trans ?_)
      simp only [Res.onSuccess]
      cases h2 : c.run (s.advanceBy n1) with
      | success y n2 =>
        dsimp only
        have hb : ∀ (g : Res I A → Comp Nat (Res I A)) (s : State I) (σ : Nat),
            Comp.bind (Stateful.restLeft1N m mo k (f x y) s) g σ r σ' ↔
              g (OniComb.restLeft1N c.run co.run k (f x y) s) (σ + Counted.restSteps c co k (f x y) s) r σ' := by
          intro g s σ
          constructor
          · rintro ⟨r1, σ1, h3, h4⟩
            obtain ⟨rfl, rfl⟩ := (clocked_rest h ho k _ _ _ _ _).1 h3
            exact h4
          · exact fun h4 => ⟨_, _, (clocked_rest h ho k _ _ _ _ _).2 ⟨rfl, rfl⟩, h4⟩
        refine (Json.Ticking.bind_bind _ _ _ _ _ _).trans ((hb _ _ _).trans ((pure_bind _ _ _ _ _).trans ((alt_pure _ _ _ _ _ _).trans ?_)))
        simp only [Nat.add_assoc]
        exact Iff.rfl
      | failure e st =>
        refine (pure_bind _ _ _ _ _).trans ((alt_pure _ _ _ _ _ _).trans ?_)
        simp only [Nat.add_assoc, Nat.add_zero]
        exact Iff.rfl
      | _ => exact (pure_bind _ _ _ _ _).trans (by simp [Comp.pure, Res.addCommit, Res.advanceSuccess, Nat.add_assoc])
    | failure e st =>
      refine (pure_bind _ _ _ _ _).trans ((alt_pure _ _ _ _ _ _).trans ?_)
      simp only [Res.onSuccess, Nat.add_zero]
      exact Iff.rfl
    | _ => exact (pure_bind _ _ _ _ _).trans (by simp [Comp.pure, Res.onSuccess])

theorem clocked_chainLeft1 {m : SParser Nat I A} {c : Counted I A} {mo : SParser Nat I (A → A → A)} {co : Counted I (A → A → A)}
    (h : Clocked m c) (ho : Clocked mo co) : Clocked (Stateful.chainLeft1 m mo) (.chainLeft1 c co) :=
  clocked_flatMap h fun _ _ _ _ _ => clocked_rest h ho _ _ _ _ _ _

end

variable {D : Type} (S : Std D)

theorem clocked_later {A : Type} {m : SParser Nat Char A} {c : Counted Char A} (h : Clocked m c) :
    Clocked (later m) (.lazy fun _ => c) := by
  intro s σ r σ'
  refine (clocked_bind (clocked_prim unit) _ s σ r σ').trans ((h _ _ _ _).trans ?_)
  rw [Nat.add_assoc]
  rfl

theorem clocked_copying (f : List Char → Option Nat) : Clocked (copying f) (.regex f) := by
  intro s σ r σ'
  refine (clocked_bind (clocked_prim unit) _ s σ r σ').trans ?_
  show (r = _ ∧ σ' = σ + 1 + (s.input.drop s.offset).length) ↔ (r = _ ∧ σ' = σ + (s.input.length - s.offset + 1))
  rw [List.length_drop, Nat.add_assoc, Nat.add_comm 1]
  exact Iff.rfl

theorem clocked_space : Clocked space Counting.space := clocked_unary (clocked_repeat (clocked_prim _) 0) discard fun _ _ => rfl

theorem clocked_value : Clocked (value S) (Counting.value S (.regex (matchNumber S))) :=
  clocked_map (clocked_unary (clocked_copying _) (fun p => mapRes p S.dec) fun _ _ => rfl) _

theorem clocked_bracket (c : Char) : Clocked (bracket c) (Counting.bracket c) :=
  clocked_andThen (clocked_andThen clocked_space (clocked_prim _)) clocked_space

theorem clocked_sign (c d : Char) : Clocked (sign c d) (Counting.sign c d) :=
  clocked_skipRight (clocked_skipLeft clocked_space (clocked_or (clocked_prim _) (clocked_prim _))) clocked_space

theorem clocked_additive {m : SParser Nat Char (Expr D)} {c : Counted Char (Expr D)} (h : Clocked m c) :
    Clocked (additive m) (Counting.additive c) :=
  clocked_chainLeft1 (clocked_chainLeft1 h (clocked_map (clocked_sign _ _) _)) (clocked_map (clocked_sign _ _) _)

theorem clocked_primary : ∀ n, Clocked (primary S n) (Counting.primary (Counting.value S (.regex (matchNumber S))) n)
  | 0 => clocked_prim _
  | n + 1 => clocked_or
      (clocked_map (clocked_andThen (clocked_or (clocked_prim _) (clocked_prim _)) (clocked_later (clocked_primary n))) _)
      (clocked_or (clocked_map (clocked_surround (clocked_bracket '(') (clocked_later (clocked_additive (clocked_primary n)))
        (clocked_bracket ')')) _) (clocked_value S))

/-- The only run of `calculator` with a clock gives its result, and the clock is then advanced by the number of steps. -/
theorem clocked_calculator (n : Nat) (t : List Char) (σ : Nat) (r : Res Char (Expr D)) (σ' : Nat) :
    calculator S n ⟨t, 0⟩ σ r σ' ↔ r = Calc.calculator S n ⟨t, 0⟩ ∧ σ' = σ + (Counting.calculator S n).steps ⟨t, 0⟩ := by
  rw [← (Counting.c145_counts S n).1]
  exact clocked_skipRight (clocked_additive (clocked_primary S n)) (clocked_prim _) _ _ _ _

variable [Lawful S]

/-- **C145**: the only run of `calculator` with a clock gives its result, and takes at most quadratic time. -/
theorem c145_clock_partial (n : Nat) (t : List Char) (σ : Nat) : ∃ σ', σ' ≤ σ + (t.length + 10) * (t.length + 1) ∧
    ∀ r σ1, calculator S n ⟨t, 0⟩ σ r σ1 ↔ r = Calc.calculator S n ⟨t, 0⟩ ∧ σ1 = σ' :=
  ⟨_, Nat.add_le_add_left (Counting.c145_quadratic_partial S n t) σ, fun r σ1 => clocked_calculator S n t σ r σ1⟩

/-- **C145**: and that of some texts, read as expressions, is not proportional to their length, by whatever factor. -/
theorem c145_clock_violated {d : D} (hd : S.dec ['1'] = some d) (C : Nat) : ∃ (t : List Char) (e : Expr D) (m : Nat),
    ∀ σ r σ', calculator S (t.length + 1) ⟨t, 0⟩ σ r σ' → r = .success e m ∧ σ + C * (t.length + 1) < σ' := by
  obtain ⟨t, e, h1, h2⟩ := Counting.c145_linear_violated S hd C
  unfold parse at h1
  cases h : Calc.calculator S (t.length + 1) ⟨t, 0⟩ with
  | success v m =>
    rw [h] at h1
    cases h1
    refine ⟨t, e, m, fun σ r σ' hr => ?_⟩
    obtain ⟨rfl, rfl⟩ := (clocked_calculator S _ t σ r σ').1 hr
    exact ⟨h, Nat.add_lt_add_left h2 _⟩
  | _ => rw [h] at h1; cases h1

example (σ : Nat) : ∃ r σ1, calculator intStd 6 ⟨"1+1+1".toList, 0⟩ σ r σ1 ∧ σ1 = σ + 43 :=
  ⟨_, _, (clocked_calculator intStd 6 _ σ _ _).2 ⟨rfl, rfl⟩, by
    have : (Counting.calculator intStd 6).steps ⟨"1+1+1".toList, 0⟩ = 43 := by decide +kernel
    rw [this]⟩

end OniComb.Calc.Ticking
