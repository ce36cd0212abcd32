import Verif.Model.CalcSteps
import Verif.Lemmas.Calculator
import Verif.Lemmas.Fair

/-! # Helper lemmas: the steps of the calculator -/

namespace OniComb.Calc.Counting
open OniComb OniComb.Calc OniComb.Steps
open OniComb.Counted (prim)

variable {D A : Type}

/-- A place in a text of at most `N` characters. -/
def Fits (N : Nat) (s : State Char) : Prop := s.offset ≤ s.input.length ∧ s.input.length ≤ N

theorem Fits.advance {N n : Nat} {s : State Char} (h : Fits N s) (hn : n ≤ left s) : Fits N (s.advanceBy n) :=
  ⟨fits_advance h.1 hn, h.2⟩

/-- How many blanks follow. -/
def ws (s : State Char) : Nat :=
  match Calc.space s with
  | .success _ n => n
  | _ => 0

theorem fair_space : Fair 1 1 0 Never Never space := ((fair_elmOfSet _).repeatFrom (low := 0) (by omega)).unary same_discard

theorem space_ok {s : State Char} (hs : s.offset ≤ s.input.length) :
    space.run s = .success () (ws s) ∧ ws s ≤ left s ∧ space.steps s ≤ ws s + 1 := by
  have hrun : space.run s = .success () (ws s) := by
    show Calc.space s = _
    have hsafe := Good.safe Calc.space s hs
    have hst : s = ⟨s.input.take s.offset ++ s.input.drop s.offset, (s.input.take s.offset).length⟩ := by
      cases s with
      | mk i o =>
        dsimp only at hs ⊢
        simp [List.take_append_drop, Nat.min_eq_left hs]
    unfold ws
    cases h : Calc.space s with
    | success v n => rfl
    | failure e c =>
      rw [hst] at h
      exact (fail_space ((at_failure _ _ c).1 ⟨e, h⟩)).elim
    | panic => rw [h] at hsafe; exact absurd hsafe (by simp [SafeAt])
    | diverge =>
      rw [hst] at h
      exact absurd ((at_diverge _ _).1 h) ret_space
  obtain ⟨-, h2, h3⟩ := fair_space.ok s () (ws s) hs hrun
  refine ⟨hrun, h2, ?_⟩
  rcases h3 with h3 | ⟨-, x, -, hx⟩
  · omega
  · exact hx.elim

theorem ws_zero {s : State Char} {x : Char} (hs : s.offset ≤ s.input.length) (hx : next s = some x) (h : x ∉ " \t\r\n".toList) :
    ws s = 0 := by
  obtain ⟨e, c, hf⟩ := elmOfSet_miss (f := setOfList " \t\r\n".toList) hs hx (by simpa [setOfList] using h)
  have hf : elmOf " \t\r\n".toList s = .failure e c := hf
  have : Calc.space s = .success () 0 := by
    show discard (many0 (elmOf " \t\r\n".toList)) s = _
    simp only [discard, many0, OniComb.repeatSep, hf]
    rfl
  simp [ws, this]

/-- Something of constant cost between blanks. -/
theorem between_blanks {B C E : Type} {q : Counted Char B} {c1 : Counted Char C} {c : Counted Char E} {w : Nat}
    (hq : Fair 0 w 1 Never Never q) (h1 : Both c1 space q) (h2 : Both c c1 space) (s : State Char) (hs : s.offset ≤ s.input.length) :
    (∀ v n, c.run s = .success v n → ws s + 1 ≤ n ∧ n ≤ left s ∧ c.steps s ≤ n + 1 + w ∧
      ∃ v' m, q.run (s.advanceBy (ws s)) = .success v' m) ∧
    ((∀ v n, c.run s ≠ .success v n) → c.steps s ≤ ws s + 1 + w) := by
  obtain ⟨hr, hl, hst⟩ := space_ok hs
  have hs1 := fits_advance hs hl
  have hl1 := left_advance hl
  constructor
  · intro v n h
    obtain ⟨v1, n1, v2, n2, h3, h4, rfl⟩ := h2.ok _ _ _ h
    obtain ⟨v3, n3, v4, n4, h5, h6, rfl⟩ := h1.ok _ _ _ h3
    rw [hr] at h5
    simp only [Res.success.injEq] at h5
    obtain ⟨-, rfl⟩ := h5
    obtain ⟨h7, h8, h9⟩ := hq.ok _ _ _ hs1 h6
    have hs2 := fits_advance hs1 h8
    have hl2 := left_advance h8
    rw [advance_advance] at hs2 hl2
    obtain ⟨hr2, hl3, hst2⟩ := space_ok hs2
    rw [hr2] at h4
    simp only [Res.success.injEq] at h4
    obtain ⟨-, rfl⟩ := h4
    rw [h2.steps_ok h3, h1.steps_ok hr]
    have h9 : q.steps (s.advanceBy (ws s)) ≤ w := by
      rcases h9 with h9 | ⟨-, x, -, hx⟩
      · omega
      · exact hx.elim
    exact ⟨by omega, by omega, by omega, _, _, h6⟩
  · intro h
    have h3 : ∀ v n, c1.run s ≠ .success v n := by
      intro v n h3
      obtain ⟨v3, n3, v4, n4, h5, h6, rfl⟩ := h1.ok _ _ _ h3
      rw [hr] at h5
      simp only [Res.success.injEq] at h5
      obtain ⟨-, rfl⟩ := h5
      have h8 := (hq.ok _ _ _ hs1 h6).2.1
      have hs2 := fits_advance hs1 h8
      rw [advance_advance] at hs2
      obtain ⟨hr2, -, -⟩ := space_ok hs2
      obtain ⟨v', hv'⟩ := h2.done _ _ _ _ _ h3 hr2
      exact h _ _ hv'
    rw [h2.steps_other h3, h1.steps_ok hr]
    have : q.steps (s.advanceBy (ws s)) ≤ w := by
      by_cases h4 : ∃ v n, q.run (s.advanceBy (ws s)) = .success v n
      · obtain ⟨v, n, h4⟩ := h4
        rcases (hq.ok _ _ _ hs1 h4).2.2 with h9 | ⟨-, x, -, hx⟩
        · omega
        · exact hx.elim
      · have := hq.other _ hs1 fun v n h5 => h4 ⟨v, n, h5⟩
        omega
    omega

theorem fair_elm (c : Char) : Fair 0 1 1 Never Never (prim (elm c)) := fair_elmPred _

/-- A success takes `n > 0` elements and at most `a * n + w` steps, and `u` steps for every blank that follows. Everything else
takes at most `a` steps for every element that is left, and `W`. -/
structure Paid (N a w u W : Nat) (c : Counted Char A) : Prop where
  ok : ∀ s v n, Fits N s → c.run s = .success v n → 1 ≤ n ∧ n ≤ left s ∧ c.steps s ≤ a * n + w + u * ws (s.advanceBy n)
  other : ∀ s, Fits N s → (∀ v n, c.run s ≠ .success v n) → c.steps s ≤ a * left s + W

variable {N a w u W : Nat}

/-- An operator between blanks. -/
structure Sign {B : Type} (op : Counted Char B) : Prop where
  ok : ∀ s v n, s.offset ≤ s.input.length → op.run s = .success v n → ws s + 1 ≤ n ∧ n ≤ left s ∧ op.steps s ≤ n + 3
  other : ∀ s, s.offset ≤ s.input.length → (∀ v n, op.run s ≠ .success v n) → op.steps s ≤ ws s + 3

theorem sign_sign {B : Type} (c d : Char) (f : Char → B) : Sign (.unary (fun p => map p f) (sign c d)) := by
  have h := fun s hs => between_blanks (((fair_elm c).or_const (fair_elm d))) (both_skipLeft _ _)
    (both_skipRight (.skipLeft space (.or (prim (elm c)) (prim (elm d)))) space) s hs
  constructor
  · intro s v n hs hr
    obtain ⟨v', hr'⟩ := (same_map f).ok _ _ _ _ hr
    obtain ⟨h1, h2, h3, -⟩ := (h s hs).1 v' n hr'
    exact ⟨h1, h2, h3⟩
  · intro s hs hr
    refine (h s hs).2 fun v n hv => ?_
    have hn := ((h s hs).1 v n hv).2.1
    obtain ⟨v', hv'⟩ := (same_map f).done _ _ _ _ hs hn hv
    exact hr _ _ hv'

theorem rest_bound {p : Counted Char A} {op : Counted Char (A → A → A)} (hp : Paid N a w u W p) (hop : Sign op) (ha : u + 4 + w ≤ a)
    (hW : 3 ≤ W) : ∀ (k : Nat) (x : A) (s : State Char), Fits N s →
    (∀ v n, restLeft1N p.run op.run k x s = .success v n → n ≤ left s ∧
      Counted.restSteps p op k x s + u * ws s ≤ a * n + 3 + (u + 1) * ws (s.advanceBy n)) ∧
    ((∀ v n, restLeft1N p.run op.run k x s ≠ .success v n) → Counted.restSteps p op k x s + u * ws s ≤ a * left s + W)
  | 0, x, s, hs => by
    have hl := (space_ok hs.1).2.1
    refine ⟨fun v n h => (by cases h), fun _ => ?_⟩
    show 0 + _ ≤ _
    have h1 : u * ws s ≤ a * left s := Nat.mul_le_mul (by omega) hl
    omega
  | k + 1, x, s, hs => by
    have hl := (space_ok hs.1).2.1
    have hstep : Counted.restSteps p op (k + 1) x s = op.steps s + (op.run s).onSuccess fun f n1 => p.steps (s.advanceBy n1) +
      (p.run (s.advanceBy n1)).onSuccess fun y n2 => Counted.restSteps p op k (f x y) ((s.advanceBy n1).advanceBy n2) := rfl
    by_cases hok : ∃ f n1, op.run s = .success f n1
    · obtain ⟨f, n1, h1⟩ := hok
      obtain ⟨h2, h3, h4⟩ := hop.ok s f n1 hs.1 h1
      have hs1 := hs.advance h3
      have hl1 := left_advance h3
      have m1 : u * (ws s + 1) ≤ u * n1 := Nat.mul_le_mul_left u h2
      have m2 : (u + 4 + w) * n1 ≤ a * n1 := Nat.mul_le_mul_right n1 ha
      have m3 : (3 + w) * 1 ≤ (3 + w) * n1 := Nat.mul_le_mul_left _ (by omega)
      have m4 : (u + 4 + w) * n1 = u * n1 + n1 + (3 + w) * n1 := by
        rw [show u + 4 + w = u + 1 + (3 + w) by omega, Nat.add_mul, Nat.add_mul, Nat.one_mul]
      have m5 : u * (ws s + 1) = u * ws s + u := by rw [Nat.mul_add, Nat.mul_one]
      have hst2 : Counted.restSteps p op (k + 1) x s = op.steps s + (p.steps (s.advanceBy n1) +
          (p.run (s.advanceBy n1)).onSuccess fun y n2 => Counted.restSteps p op k (f x y) ((s.advanceBy n1).advanceBy n2)) := by
        rw [hstep, h1]
        rfl
      rw [hst2]
      have hrun : restLeft1N p.run op.run (k + 1) x s = OniComb.or (fun s =>
          (((match p.run (s.advanceBy n1) with
            | .success y n2 => ((restLeft1N p.run op.run k (f x y)) ((s.advanceBy n1).advanceBy n2)).advanceSuccess n2
            | .failure e c => .failure e c
            | .panic => .panic
            | .diverge => .diverge) : Res Char A).addCommit (n1 != 0)).advanceSuccess n1) (successful x) s := by
        rw [restLeft1N]
        simp only [OniComb.or, advance_zero]
        rw [h1]
        dsimp only
        cases p.run (s.advanceBy n1) <;> rfl
      have hn1 : (n1 != 0) = true := by simp; omega
      by_cases hpk : ∃ y n2, p.run (s.advanceBy n1) = .success y n2
      · obtain ⟨y, n2, h5⟩ := hpk
        obtain ⟨h6, h7, h8⟩ := hp.ok _ y n2 hs1 h5
        have hs2 := hs1.advance h7
        have hl2 := left_advance h7
        obtain ⟨ih1, ih2⟩ := rest_bound hp hop ha hW k (f x y) _ hs2
        rw [h5]
        simp only [OniComb.or, h5, hn1] at hrun
        simp only [Res.onSuccess]
        constructor
        · intro v n hv
          rw [hrun] at hv
          cases hk : restLeft1N p.run op.run k (f x y) ((s.advanceBy n1).advanceBy n2) with
          | success v' n' =>
            rw [hk] at hv
            simp only [Res.advanceSuccess, Res.addCommit, Res.success.injEq] at hv
            obtain ⟨-, rfl⟩ := hv
            obtain ⟨h9, h10⟩ := ih1 v' n' hk
            have e : s.advanceBy (n' + n2 + n1) = ((s.advanceBy n1).advanceBy n2).advanceBy n' := by
              simp only [advance_advance]
              congr 1
              omega
            rw [e]
            refine ⟨by omega, ?_⟩
            rw [show a * (n' + n2 + n1) = a * n' + a * n2 + a * n1 by rw [Nat.mul_add, Nat.mul_add]]
            omega
          | failure e c => rw [hk] at hv; cases c <;> simp [Res.advanceSuccess, Res.addCommit, Committed.or, Committed.ofBool] at hv
          | _ => rw [hk] at hv; simp [Res.advanceSuccess, Res.addCommit] at hv
        · intro hv
          have : Counted.restSteps p op k (f x y) ((s.advanceBy n1).advanceBy n2) + u * ws ((s.advanceBy n1).advanceBy n2) ≤
              a * left ((s.advanceBy n1).advanceBy n2) + W := by
            refine ih2 fun v' n' hk => ?_
            rw [hk] at hrun
            simp only [Res.advanceSuccess, Res.addCommit] at hrun
            exact hv _ _ hrun
          rw [hl1, hl2, Nat.mul_add, Nat.mul_add]
          omega
      · have h5 : ∀ y n2, p.run (s.advanceBy n1) ≠ .success y n2 := fun y n2 h => hpk ⟨y, n2, h⟩
        have h6 := hp.other _ hs1 h5
        have h7 : (p.run (s.advanceBy n1)).onSuccess (fun y n2 =>
            Counted.restSteps p op k (f x y) ((s.advanceBy n1).advanceBy n2)) = 0 := by
          cases h8 : p.run (s.advanceBy n1) with
          | success y n2 => exact (h5 _ _ h8).elim
          | _ => rfl
        rw [h7]
        constructor
        · intro v n hv
          rw [hrun] at hv
          cases h8 : p.run (s.advanceBy n1) with
          | success y n2 => exact (h5 _ _ h8).elim
          | failure e c => cases c <;> simp [OniComb.or, h8, hn1, Res.advanceSuccess, Res.addCommit, Committed.or, Committed.ofBool] at hv
          | _ => simp [OniComb.or, h8, Res.advanceSuccess, Res.addCommit] at hv
        · intro _
          rw [hl1, Nat.mul_add]
          omega
    · have h1 : ∀ f n1, op.run s ≠ .success f n1 := fun f n1 h => hok ⟨f, n1, h⟩
      have h2 := hop.other s hs.1 h1
      have h3 : Counted.restSteps p op (k + 1) x s = op.steps s := by
        rw [hstep]
        cases h4 : op.run s with
        | success y n2 => exact (h1 _ _ h4).elim
        | _ => rfl
      rw [h3]
      have m1 : (u + 1) * ws s = u * ws s + ws s := by rw [Nat.add_mul, Nat.one_mul]
      constructor
      · intro v n hv
        have h4 : n = 0 := by
          have hop0 : op.run (s.advanceBy 0) = op.run s := rfl
          rw [restLeft1N] at hv
          simp only [OniComb.or, hop0] at hv
          cases h5 : op.run s with
          | success y n2 => exact (h1 _ _ h5).elim
          | failure e c =>
            rw [h5] at hv
            cases c <;> simp [successful] at hv
            exact hv.2.symm
          | _ => rw [h5] at hv; simp at hv
        subst h4
        rw [advance_zero]
        exact ⟨by omega, by omega⟩
      · intro _
        have m2 : (u + 1) * ws s ≤ a * left s := Nat.mul_le_mul (by omega) hl
        omega

theorem chain_bound {p : Counted Char A} {op : Counted Char (A → A → A)} (hp : Paid N a w u W p) (hop : Sign op) (ha : u + 4 + w ≤ a)
    (hW : 3 ≤ W) : Paid N a (w + 3) (u + 1) (W + w) (.chainLeft1 p op) := by
  have hsteps : ∀ s, (Counted.chainLeft1 p op).steps s = p.steps s + (p.run s).onSuccess fun x n =>
    Counted.restSteps p op ((s.advanceBy n).input.length - (s.advanceBy n).offset + 2) x (s.advanceBy n) := fun _ => rfl
  have hrun : ∀ s, (Counted.chainLeft1 p op).run s = OniComb.flatMap p.run (fun x => OniComb.restLeft1 p.run op.run x) s := fun _ => rfl
  constructor
  · intro s v n hs hr
    rw [hrun] at hr
    rw [hsteps]
    simp only [OniComb.flatMap] at hr
    cases h1 : p.run s with
    | success x n1 =>
      simp only [h1, OniComb.restLeft1] at hr
      obtain ⟨h2, h3, h4⟩ := hp.ok s x n1 hs h1
      have hl1 := left_advance h3
      obtain ⟨h5, -⟩ := rest_bound hp hop ha hW ((s.advanceBy n1).input.length - (s.advanceBy n1).offset + 2) x _ (hs.advance h3)
      cases hk : restLeft1N p.run op.run ((s.advanceBy n1).input.length - (s.advanceBy n1).offset + 2) x (s.advanceBy n1) with
      | success v' n' =>
        rw [hk] at hr
        simp only [Res.advanceSuccess, Res.addCommit, Res.success.injEq] at hr
        obtain ⟨-, rfl⟩ := hr
        obtain ⟨h6, h7⟩ := h5 v' n' hk
        rw [advance_advance, Nat.add_comm n1 n'] at h7
        simp only [Res.onSuccess]
        rw [Nat.mul_add]
        exact ⟨by omega, by omega, by omega⟩
      | _ => rw [hk] at hr; simp [Res.advanceSuccess, Res.addCommit] at hr
    | _ => simp [h1] at hr
  · intro s hs hr
    rw [hsteps]
    by_cases h1 : ∃ x n1, p.run s = .success x n1
    · obtain ⟨x, n1, h1⟩ := h1
      obtain ⟨h2, h3, h4⟩ := hp.ok s x n1 hs h1
      have hl1 := left_advance h3
      obtain ⟨-, h5⟩ := rest_bound hp hop ha hW ((s.advanceBy n1).input.length - (s.advanceBy n1).offset + 2) x _ (hs.advance h3)
      have h6 := h5 fun v n hk => by
        refine hr v (n + n1) ?_
        rw [hrun]
        simp only [OniComb.flatMap, h1, OniComb.restLeft1]
        rw [hk]
        rfl
      rw [h1]
      simp only [Res.onSuccess]
      rw [hl1, Nat.mul_add]
      omega
    · have h2 := hp.other s hs fun v n h => h1 ⟨v, n, h⟩
      have : (p.run s).onSuccess (fun x n =>
          Counted.restSteps p op ((s.advanceBy n).input.length - (s.advanceBy n).offset + 2) x (s.advanceBy n)) = 0 := by
        cases h3 : p.run s with
        | success v n => exact (h1 ⟨v, n, h3⟩).elim
        | _ => rfl
      omega

/-! ### Numbers, parentheses and signs -/

theorem Paid.lazy {f : Unit → Counted Char A} (h : Paid N a w u W (f ())) : Paid N a (w + 1) u (W + 1) (.lazy f) where
  ok := by
    intro s v n hs hr
    obtain ⟨h1, h2, h3⟩ := h.ok s v n hs hr
    refine ⟨h1, h2, ?_⟩
    show 1 + (f ()).steps s ≤ _
    omega
  other := by
    intro s hs hr
    have := h.other s hs hr
    show 1 + (f ()).steps s ≤ _
    omega

theorem additive_bound {P : Counted Char (Expr D)} (hP : Paid N a 0 0 W P) (ha : 8 ≤ a) (hW : 3 ≤ W) :
    Paid N a 6 2 (W + 3) (additive P) :=
  chain_bound (w := 3) (u := 1) (W := W) (chain_bound (w := 0) (u := 0) hP (sign_sign _ _ _) (by omega) hW) (sign_sign _ _ _)
    (by omega) hW

/-- What is used of a parser of numerals that takes at most `G` steps. -/
structure Numeral (N G : Nat) (c : Counted Char A) : Prop where
  ok : ∀ s v n, Fits N s → c.run s = .success v n → 1 ≤ n ∧ n ≤ left s ∧
    ∃ x, next s = some x ∧ x ∉ " \t\r\n".toList ∧ x ≠ '+' ∧ x ≠ '-' ∧ x ≠ '('
  steps : ∀ s, Fits N s → c.steps s ≤ G

theorem or_cases (p q : Counted Char A) (s : State Char) :
    ((∃ e, p.run s = .failure e .uncommitted) ∧ (Counted.or p q).run s = q.run s ∧ (Counted.or p q).steps s = p.steps s + q.steps s) ∨
    ((Counted.or p q).run s = p.run s ∧ (Counted.or p q).steps s = p.steps s) := by
  show (_ ∧ OniComb.or p.run q.run s = _ ∧ p.steps s + (p.run s).onUncommitted (q.steps s) = _) ∨
    (OniComb.or p.run q.run s = _ ∧ p.steps s + (p.run s).onUncommitted (q.steps s) = _)
  cases h : p.run s with
  | failure e c => cases c <;> simp [OniComb.or, h, Res.onUncommitted]
  | _ => simp [OniComb.or, h, Res.onUncommitted]

theorem pay {k n : Nat} (ha : k + 1 ≤ a) (hn : 1 ≤ n) : n + k ≤ a * n := by
  have h1 : (k + 1) * n ≤ a * n := Nat.mul_le_mul_right n ha
  have h2 : (k + 1) * n = k * n + n := by rw [Nat.add_mul, Nat.one_mul]
  have h3 : k * 1 ≤ k * n := Nat.mul_le_mul_left k hn
  omega

theorem elm_next {c x : Char} {n : Nat} {s : State Char} (hs : s.offset ≤ s.input.length) (h : (prim (elm c)).run s = .success x n) :
    next s = some c := by
  have h : elmPred (fun y => decide (y = c)) s = .success x n := h
  cases hn : next s with
  | none =>
    have h1 := next_none hn
    have h2 := (fair_elmPred _).ok s x n hs h
    omega
  | some y =>
    have := starts_elmPred _ s x n y hs h hn
    simpa using this

variable {G : Nat}

/-- An expression in parentheses. -/
theorem paren_bound {e : Counted Char (Expr D)} (he : Paid N a 7 2 (W + 4) e) (ha : 9 + G ≤ a) (hW : 4 + G ≤ W) (hG : 1 ≤ G)
    (s : State Char) (hs : Fits N s) :
    let c := Counted.unary (fun p => map p Expr.parenthesized) (.surround (bracket '(') e (bracket ')'))
    (∀ v n, c.run s = .success v n → 1 ≤ n ∧ n ≤ left s ∧ c.steps s + 2 ≤ a * n) ∧
    ((∀ v n, c.run s ≠ .success v n) → c.steps s ≤ ws s + 2 ∨
      (c.steps s + 2 + G ≤ a * left s + W ∧ next (s.advanceBy (ws s)) = some '(')) := by
  intro c
  have hb := fun (d : Char) (s : State Char) (hs : s.offset ≤ s.input.length) =>
    between_blanks (fair_elm d) (both_andThen _ _) (both_andThen (.andThen space (prim (elm d))) space) s hs
  have hin : Both (.surround (bracket '(') e (bracket ')')) (bracket '(') (.skipRight e (bracket ')')) := both_skipLeft _ _
  have hin2 : Both (.skipRight e (bracket ')')) e (bracket ')') := both_skipRight _ _
  have hl0 := (space_ok hs.1).2.1
  have hs0 := fits_advance hs.1 hl0
  constructor
  · intro v n hr
    obtain ⟨v', hr'⟩ := (same_map _).ok _ _ _ _ hr
    obtain ⟨v0, n0, v1, n1, h0, h1, rfl⟩ := hin.ok _ _ _ hr'
    obtain ⟨v2, n2, v3, n3, h2, h3, rfl⟩ := hin2.ok _ _ _ h1
    obtain ⟨a1, a2, a3, -⟩ := (hb '(' s hs.1).1 _ _ h0
    have hs1 := hs.advance a2
    have l1 := left_advance a2
    obtain ⟨b1, b2, b3⟩ := he.ok _ _ _ hs1 h2
    have hs2 := hs1.advance b2
    have l2 := left_advance b2
    obtain ⟨c1, c2, c3, -⟩ := (hb ')' _ hs2.1).1 _ _ h3
    have hst : c.steps s = (bracket '(').steps s + (e.steps (s.advanceBy n0) + (bracket ')').steps ((s.advanceBy n0).advanceBy n2)) := by
      show (Counted.surround (bracket '(') e (bracket ')')).steps s = _
      rw [hin.steps_ok h0, hin2.steps_ok h2]
    have a3 : (bracket '(').steps s ≤ n0 + 1 + 1 := a3
    have c3 : (bracket ')').steps ((s.advanceBy n0).advanceBy n2) ≤ n3 + 1 + 1 := c3
    have p0 := pay (k := 8 + G) (a := a) (n := n0) (by omega) (by omega)
    have p1 : 9 * n3 ≤ a * n3 := Nat.mul_le_mul_right _ (by omega)
    have p2 : a * (n0 + (n2 + n3)) = a * n0 + (a * n2 + a * n3) := by rw [Nat.mul_add, Nat.mul_add]
    exact ⟨by omega, by omega, by omega⟩
  · intro hr
    have hr : ∀ v n, (Counted.surround (bracket '(') e (bracket ')')).run s ≠ .success v n := by
      intro v n h
      obtain ⟨v0, n0, v1, n1, h0, h1, rfl⟩ := hin.ok _ _ _ h
      obtain ⟨v2, n2, v3, n3, h2, h3, rfl⟩ := hin2.ok _ _ _ h1
      have a2 := ((hb '(' s hs.1).1 _ _ h0).2.1
      have hs1 := hs.advance a2
      have l1 := left_advance a2
      have b2 := (he.ok _ _ _ hs1 h2).2.1
      have hs2 := hs1.advance b2
      have l2 := left_advance b2
      have c2 := ((hb ')' _ hs2.1).1 _ _ h3).2.1
      obtain ⟨v', hv'⟩ := (same_map Expr.parenthesized).done _ _ _ _ hs.1 (by omega) h
      exact hr _ _ hv'
    by_cases h0 : ∃ v0 n0, (bracket '(').run s = .success v0 n0
    · obtain ⟨v0, n0, h0⟩ := h0
      obtain ⟨a1, a2, a3, v4, m, a4⟩ := (hb '(' s hs.1).1 _ _ h0
      have hs1 := hs.advance a2
      have l1 := left_advance a2
      have a3 : (bracket '(').steps s ≤ n0 + 1 + 1 := a3
      have p0 := pay (k := 8 + G) (a := a) (n := n0) (by omega) (by omega)
      refine .inr ⟨?_, elm_next hs0 a4⟩
      by_cases h2 : ∃ v2 n2, e.run (s.advanceBy n0) = .success v2 n2
      · obtain ⟨v2, n2, h2⟩ := h2
        obtain ⟨b1, b2, b3⟩ := he.ok _ _ _ hs1 h2
        have hs2 := hs1.advance b2
        have l2 := left_advance b2
        have h3 : ∀ v n, (bracket ')').run ((s.advanceBy n0).advanceBy n2) ≠ .success v n := by
          intro v n h3
          obtain ⟨v5, h5⟩ := hin2.done _ _ _ _ _ h2 h3
          obtain ⟨v6, h6⟩ := hin.done _ _ _ _ _ h0 h5
          exact hr _ _ h6
        have c3 : (bracket ')').steps ((s.advanceBy n0).advanceBy n2) ≤ _ := (hb ')' _ hs2.1).2 h3
        have c4 := (space_ok hs2.1).2.1
        have hst : c.steps s = (bracket '(').steps s + (e.steps (s.advanceBy n0) + (bracket ')').steps ((s.advanceBy n0).advanceBy n2)) := by
          show (Counted.surround (bracket '(') e (bracket ')')).steps s = _
          rw [hin.steps_ok h0, hin2.steps_ok h2]
        have p1 : 9 * left ((s.advanceBy n0).advanceBy n2) ≤ a * left ((s.advanceBy n0).advanceBy n2) := Nat.mul_le_mul_right _ (by omega)
        have p2 : a * left s = a * n0 + (a * n2 + a * left ((s.advanceBy n0).advanceBy n2)) := by rw [l1, l2, Nat.mul_add, Nat.mul_add]
        omega
      · have h2 : ∀ v n, e.run (s.advanceBy n0) ≠ .success v n := fun v n h => h2 ⟨v, n, h⟩
        have b3 := he.other _ hs1 h2
        have hst : c.steps s = (bracket '(').steps s + e.steps (s.advanceBy n0) := by
          show (Counted.surround (bracket '(') e (bracket ')')).steps s = _
          rw [hin.steps_ok h0, hin2.steps_other h2]
        have p2 : a * left s = a * n0 + a * left (s.advanceBy n0) := by rw [l1, Nat.mul_add]
        omega
    · have h0 : ∀ v n, (bracket '(').run s ≠ .success v n := fun v n h => h0 ⟨v, n, h⟩
      have a3 : (bracket '(').steps s ≤ _ := (hb '(' s hs.1).2 h0
      have hst : c.steps s = (bracket '(').steps s := hin.steps_other h0
      exact .inl (by omega)

/-- `primary0`, which begins with at least two steps to spare. -/
theorem primary0_bound {value e : Counted Char (Expr D)} (hv : Numeral N G value) (he : Paid N a 7 2 (W + 4) e) (ha : 9 + G ≤ a)
    (hW : 4 + G ≤ W) (hG : 1 ≤ G) (s : State Char) (hs : Fits N s) :
    (∀ v n, (primary0 value e).run s = .success v n → 1 ≤ n ∧ n ≤ left s ∧ (primary0 value e).steps s + 2 ≤ a * n) ∧
    ((∀ v n, (primary0 value e).run s ≠ .success v n) → (primary0 value e).steps s + 2 ≤ a * left s + W) ∧
    (∀ x, next s = some x → x = '+' ∨ x = '-' →
      (∀ v n, (primary0 value e).run s ≠ .success v n) ∧ (primary0 value e).steps s ≤ 2 + G) := by
  obtain ⟨h1, h2⟩ := paren_bound he ha hW hG s hs
  have hl := (space_ok hs.1).2.1
  have hsv := hv.steps s hs
  have hwl : 9 * left s ≤ a * left s := Nat.mul_le_mul_right _ (by omega)
  have hgone : next (s.advanceBy (ws s)) = some '(' → ∀ v n, value.run s ≠ .success v n := by
    intro h3 v n h4
    obtain ⟨-, -, x, h5, h6, -, -, h7⟩ := hv.ok s v n hs h4
    rw [ws_zero hs.1 h5 h6, advance_zero, h5] at h3
    exact h7 (by simpa using h3)
  have cases0 := or_cases (Counted.unary (fun p => map p Expr.parenthesized) (.surround (bracket '(') e (bracket ')'))) value s
  have cases0 : (_ ∧ (primary0 value e).run s = _ ∧ (primary0 value e).steps s = _) ∨
    ((primary0 value e).run s = _ ∧ (primary0 value e).steps s = _) := cases0
  refine ⟨?_, ?_, ?_⟩
  · intro v n hr
    rcases cases0 with ⟨⟨e', h3⟩, h4, h5⟩ | ⟨h4, h5⟩
    · rw [h4] at hr
      rcases h2 (by rw [h3]; simp) with h6 | ⟨-, h6⟩
      · obtain ⟨h7, h8, x, h9, h10, -⟩ := hv.ok s v n hs hr
        have := ws_zero hs.1 h9 h10
        have p0 := pay (k := 8 + G) (a := a) (n := n) (by omega) (by omega)
        exact ⟨h7, h8, by omega⟩
      · exact (hgone h6 _ _ hr).elim
    · rw [h4] at hr
      rw [h5]
      exact h1 v n hr
  · intro hr
    rcases cases0 with ⟨⟨e', h3⟩, h4, h5⟩ | ⟨h4, h5⟩
    · rcases h2 (by rw [h3]; simp) with h6 | ⟨h6, -⟩ <;> omega
    · rw [h4] at hr
      rcases h2 hr with h6 | ⟨h6, -⟩ <;> omega
  · intro x hx hpm
    have hb : x ∉ " \t\r\n".toList := by rcases hpm with rfl | rfl <;> decide
    have hw := ws_zero hs.1 hx hb
    have hno : ∀ v n, value.run s ≠ .success v n := by
      intro v n h
      obtain ⟨-, -, y, h5, -, h6, h7, -⟩ := hv.ok s v n hs h
      rw [hx, Option.some.injEq] at h5
      subst h5
      rcases hpm with rfl | rfl
      · exact h6 rfl
      · exact h7 rfl
    have hn : next (s.advanceBy (ws s)) ≠ some '(' := by
      rw [hw, advance_zero, hx]
      rcases hpm with rfl | rfl <;> decide
    have hp : ∀ v n, (Counted.unary (fun p => map p Expr.parenthesized) (.surround (bracket '(') e (bracket ')'))).run s ≠
        .success v n := by
      intro v n h
      obtain ⟨v', hr'⟩ := (same_map _).ok _ _ _ _ h
      obtain ⟨v0, n0, v1, n1, h0, -, rfl⟩ := (both_skipLeft (bracket '(') (.skipRight e (bracket ')'))).ok _ _ _ hr'
      obtain ⟨-, -, -, v4, m, a4⟩ := (between_blanks (fair_elm '(') (both_andThen _ _)
        (both_andThen (.andThen space (prim (elm '('))) space) s hs.1).1 _ _ h0
      exact hn (elm_next (fits_advance hs.1 hl) a4)
    have h6 : (Counted.unary (fun p => map p Expr.parenthesized) (.surround (bracket '(') e (bracket ')'))).steps s ≤ 2 := by
      rcases h2 hp with h6 | ⟨-, h6⟩
      · omega
      · exact (hn h6).elim
    rcases cases0 with ⟨-, h4, h5⟩ | ⟨h4, h5⟩
    · exact ⟨fun v n h => hno v n (h4 ▸ h), by omega⟩
    · exact ⟨fun v n h => hp v n (h4 ▸ h), by omega⟩

/-- One unrolling. -/
theorem primary_step {value P e : Counted Char (Expr D)} (hv : Numeral N G value) (hP : Paid N a 1 0 (W + 1) P)
    (he : Paid N a 7 2 (W + 4) e) (ha : 9 + G ≤ a) (hW : 4 + G ≤ W) (hG : 1 ≤ G) : Paid N a 0 0 W (primaryOf value P e) := by
  have hpm : Fair 0 (1 + 1) 1 Never Never (.or (prim (elm '+')) (prim (elm '-'))) := (fair_elm '+').or_const (fair_elm '-')
  have hin : Both (.andThen (.or (prim (elm '+')) (prim (elm '-'))) P) (.or (prim (elm '+')) (prim (elm '-'))) P := both_andThen _ _
  have hst2 : ∀ s : State Char, Fits N s → (Counted.or (prim (elm '+')) (prim (elm '-'))).steps s ≤ 2 := by
    intro s hs
    by_cases h : ∃ v n, (Counted.or (prim (elm '+')) (prim (elm '-'))).run s = .success v n
    · obtain ⟨v, n, h⟩ := h
      rcases (hpm.ok s v n hs.1 h).2.2 with h1 | ⟨-, x, -, hx⟩
      · omega
      · exact hx.elim
    · have := hpm.other s hs.1 fun v n h' => h ⟨v, n, h'⟩
      omega
  have hpn : ∀ s v n, Fits N s → (Counted.or (prim (elm '+')) (prim (elm '-'))).run s = .success v n → n ≤ left s ∧ 1 ≤ n ∧
      ∃ x, next s = some x ∧ (x = '+' ∨ x = '-') := by
    intro s v n hs h
    obtain ⟨h1, h2, -⟩ := hpm.ok s v n hs.1 h
    refine ⟨h2, h1, ?_⟩
    rcases or_cases (prim (elm '+')) (prim (elm '-')) s with ⟨-, h4, -⟩ | ⟨h4, -⟩
    · rw [h4] at h; exact ⟨_, elm_next hs.1 h, .inr rfl⟩
    · rw [h4] at h; exact ⟨_, elm_next hs.1 h, .inl rfl⟩
  have cases0 := fun s => or_cases (Counted.unary (fun p => map p fun x => Calc.unary x.1 x.2)
    (.andThen (.or (prim (elm '+')) (prim (elm '-'))) P)) (primary0 value e) s
  have cases0 : ∀ s, (_ ∧ (primaryOf value P e).run s = _ ∧ (primaryOf value P e).steps s = _) ∨
    ((primaryOf value P e).run s = _ ∧ (primaryOf value P e).steps s = _) := cases0
  have hsu : ∀ s, (Counted.unary (fun p => map p fun x => Calc.unary x.1 x.2)
    (.andThen (.or (prim (elm '+')) (prim (elm '-'))) P)).steps s = (Counted.andThen (.or (prim (elm '+')) (prim (elm '-'))) P).steps s :=
    fun _ => rfl
  constructor
  · intro s v n hs hr
    obtain ⟨q1, q2, q3⟩ := primary0_bound hv he ha hW hG s hs
    rcases cases0 s with ⟨⟨e', h3⟩, h4, h5⟩ | ⟨h4, h5⟩
    · rw [h4] at hr
      obtain ⟨r1, r2, r3⟩ := q1 v n hr
      have hno : ∀ v n, (Counted.or (prim (elm '+')) (prim (elm '-'))).run s ≠ .success v n := by
        intro v' n' h6
        obtain ⟨-, -, x, hx, hx'⟩ := hpn s v' n' hs h6
        exact (q3 x hx hx').1 v n hr
      have h6 := hst2 s hs
      rw [h5, hsu, hin.steps_other hno]
      exact ⟨r1, r2, by omega⟩
    · rw [h4] at hr
      obtain ⟨v', hr'⟩ := (same_map _).ok _ _ _ _ hr
      obtain ⟨v1, n1, v2, n2, h6, h7, rfl⟩ := hin.ok _ _ _ hr'
      obtain ⟨h8, h9, -⟩ := hpn s v1 n1 hs h6
      have hs1 := hs.advance h8
      have l1 := left_advance h8
      obtain ⟨h10, h11, h12⟩ := hP.ok _ _ _ hs1 h7
      have h13 := hst2 s hs
      have p0 := pay (k := 8 + G) (a := a) (n := n1) (by omega) h9
      rw [h5, hsu, hin.steps_ok h6, Nat.mul_add]
      exact ⟨by omega, by omega, by omega⟩
  · intro s hs hr
    obtain ⟨q1, q2, q3⟩ := primary0_bound hv he ha hW hG s hs
    have h13 := hst2 s hs
    by_cases h6 : ∃ v n, (Counted.or (prim (elm '+')) (prim (elm '-'))).run s = .success v n
    · obtain ⟨v1, n1, h6⟩ := h6
      obtain ⟨h8, h9, x, hx, hx'⟩ := hpn s v1 n1 hs h6
      have hs1 := hs.advance h8
      have l1 := left_advance h8
      have p0 := pay (k := 8 + G) (a := a) (n := n1) (by omega) h9
      have q4 := (q3 x hx hx').2
      have h7 : ∀ v n, P.run (s.advanceBy n1) ≠ .success v n := by
        intro v n h7
        have h11 := (hP.ok _ _ _ hs1 h7).2.1
        obtain ⟨v3, h14⟩ := hin.done _ _ _ _ _ h6 h7
        obtain ⟨v4, h15⟩ := (same_map fun x : Char × Expr D => Calc.unary x.1 x.2).done _ _ _ _ hs.1 (by omega) h14
        rcases cases0 s with ⟨⟨e', h3⟩, -, -⟩ | ⟨h4, -⟩
        · have h15 : (Counted.unary (fun p => map p fun x => Calc.unary x.1 x.2)
            (.andThen (.or (prim (elm '+')) (prim (elm '-'))) P)).run s = _ := h15
          rw [h15] at h3
          cases h3
        · exact hr v4 _ (h4.trans h15)
      have h10 := hP.other _ hs1 h7
      have h16 : (Counted.andThen (.or (prim (elm '+')) (prim (elm '-'))) P).steps s = _ := hin.steps_ok h6
      rw [l1, Nat.mul_add]
      rcases cases0 s with ⟨-, -, h5⟩ | ⟨-, h5⟩ <;> rw [h5, hsu, h16] <;> omega
    · have h6 : ∀ v n, (Counted.or (prim (elm '+')) (prim (elm '-'))).run s ≠ .success v n := fun v n h => h6 ⟨v, n, h⟩
      have h16 : (Counted.andThen (.or (prim (elm '+')) (prim (elm '-'))) P).steps s = _ := hin.steps_other h6
      rcases cases0 s with ⟨-, h4, h5⟩ | ⟨-, h5⟩
      · have := q2 fun v n h => hr v n (h4.trans h)
        rw [h5, hsu, h16]
        omega
      · rw [h5, hsu, h16]
        omega

theorem primary_bound {value : Counted Char (Expr D)} (hv : Numeral N G value) (hG : 1 ≤ G) : ∀ n : Nat,
    Paid N (9 + G) 0 0 (4 + G) (primary value n)
  | 0 => ⟨fun s v n _ h => (by cases h), fun s _ _ => (by show 1 ≤ _; omega)⟩
  | n + 1 => by
    have ih := primary_bound hv hG n
    exact primary_step hv ih.lazy (additive_bound ih (by omega) (by omega)).lazy (Nat.le_refl _) (Nat.le_refl _) hG

theorem calculator_bound {S : Std D} {numeral : Counted Char (List Char)} {n : Nat} {t : List Char}
    (hv : Numeral t.length G (value S numeral)) (hG : 1 ≤ G) :
    (calculatorOf S numeral n).steps ⟨t, 0⟩ ≤ (9 + G) * (t.length + 1) := by
  have h := additive_bound (primary_bound hv hG n) (by omega) (by omega)
  have hs : Fits t.length ⟨t, 0⟩ := ⟨Nat.zero_le _, Nat.le_refl _⟩
  have hin : Both (calculatorOf S numeral n) (additive (primary (value S numeral) n)) (prim end_) := both_skipRight _ _
  have hl : left (⟨t, 0⟩ : State Char) = t.length := Nat.sub_zero _
  rw [Nat.mul_add, Nat.mul_one]
  by_cases h1 : ∃ v m, (additive (primary (value S numeral) n)).run ⟨t, 0⟩ = .success v m
  · obtain ⟨v, m, h1⟩ := h1
    obtain ⟨h2, h3, h4⟩ := h.ok _ _ _ hs h1
    have l1 := left_advance h3
    have h5 := (space_ok (hs.advance h3).1).2.1
    have h6 : (prim end_ : Counted Char Unit).steps (State.advanceBy ⟨t, 0⟩ m) = 1 := rfl
    rw [hin.steps_ok h1, h6]
    rw [← hl, l1, Nat.mul_add]
    have p1 : 9 * left (State.advanceBy (⟨t, 0⟩ : State Char) m) ≤ (9 + G) * left (State.advanceBy (⟨t, 0⟩ : State Char) m) :=
      Nat.mul_le_mul_right _ (by omega)
    omega
  · have h1 : ∀ v m, (additive (primary (value S numeral) n)).run ⟨t, 0⟩ ≠ .success v m := fun v m h => h1 ⟨v, m, h⟩
    have := h.other _ hs h1
    rw [hin.steps_other h1]
    rw [hl] at this
    omega

end OniComb.Calc.Counting
