import Verif.Model.Chain
import Verif.Spec.Chain
import Verif.Props.Termination

/-!
# C17, C18, C19: operator chains
-/

namespace OniComb
variable {I A : Type}

/-! ## Helpers -/

private theorem opRun_sepRun {p : Parser I A} {op : Parser I (A → A → A)} {s : State I}
    {ops : List ((A → A → A) × A)} {n : Nat} (h : OpRun p op s ops n) :
    SepRun p (some op) s (ops.map Prod.snd) n := by
  induction h with
  | nil s => exact .nil s
  | cons h1 h2 hr ih => exact .cons ⟨_, h1⟩ h2 ih

private theorem sepRun_opRun {p : Parser I A} {op : Parser I (A → A → A)} {s : State I}
    {vs : List A} {n : Nat} (h : SepRun p (some op) s vs n) :
    ∃ ops, OpRun p op s ops n ∧ ops.length = vs.length := by
  generalize hs : some op = sep at h
  induction h with
  | nil s => exact ⟨[], .nil s, rfl⟩
  | cons h1 h2 hr ih =>
    subst hs
    obtain ⟨f, hf⟩ := h1
    obtain ⟨ops, h3, h4⟩ := ih
    exact ⟨_, .cons hf h2 h3, by simp [h4]⟩

private theorem chainEnd_noMore {p : Parser I A} {op : Parser I (A → A → A)} {s : State I}
    (h : ChainEnd p op s) : NoMore p (some op) s 0 := by
  rcases h with ⟨e, h⟩ | ⟨f, e, h1, h2⟩
  · exact .inl ⟨rfl, op, rfl, e, _, h⟩
  · exact .inr ⟨⟨f, h1⟩, e, _, h2⟩

private theorem chainBreak_noMore {p : Parser I A} {op : Parser I (A → A → A)} {s : State I}
    {e : PError I} (h : ChainBreak p op s e) : ∃ k, NoMore p (some op) s k := by
  rcases h with h | ⟨f, n, c, h1, h2, -⟩
  · exact ⟨0, .inl ⟨rfl, op, rfl, e, _, h⟩⟩
  · exact ⟨n, .inr ⟨⟨f, h1⟩, e, c, h2⟩⟩

/-- The whole recursion of `rest_left1` with its fuel. -/
private theorem restLeft1N_spec (p : Parser I A) (op : Parser I (A → A → A)) :
    ∀ (k : Nat) (x : A) (s : State I),
      (∀ v n, restLeft1N p op k x s = .success v n ↔
        ∃ ops, OpRun p op s ops n ∧ ops.length < k ∧ v = applyLeft x ops ∧
          ChainEnd p op ⟨s.input, s.offset + n⟩) ∧
      (∀ e c, restLeft1N p op k x s = .failure e c ↔
        c = .committed ∧ ∃ ops n, OpRun p op s ops n ∧ ops.length < k ∧
          ChainBreak p op ⟨s.input, s.offset + n⟩ e) ∧
      (restLeft1N p op k x s = .diverge ↔
        (∃ ops n, OpRun p op s ops n ∧ ops.length = k) ∨
        (∃ ops n, OpRun p op s ops n ∧ ops.length < k ∧
          DivergesAt p (some op) ⟨s.input, s.offset + n⟩)) := by
  intro k
  induction k with
  | zero =>
    intro x s
    refine ⟨?_, ?_, ?_⟩
    · simp [restLeft1N]
    · simp [restLeft1N]
    · simp only [restLeft1N, true_iff]; exact .inl ⟨[], 0, .nil s, rfl⟩
  | succ k ih =>
    intro x s
    -- runs that start at `s` are empty unless operator and operand succeed
    have hrun : ∀ {ops n}, OpRun p op s ops n → (ops = [] ∧ n = 0) ∨
        ∃ f n1 y n2 ops' m, op s = .success f n1 ∧ p ⟨s.input, s.offset + n1⟩ = .success y n2 ∧
          OpRun p op ⟨s.input, s.offset + n1 + n2⟩ ops' m ∧ ops = (f, y) :: ops' ∧
          n = n1 + n2 + m := by
      intro ops n h
      cases h with
      | nil => exact .inl ⟨rfl, rfl⟩
      | cons h1 h2 h3 => exact .inr ⟨_, _, _, _, _, _, h1, h2, h3, rfl, rfl⟩
    cases ho : op s with
    | failure e0 c0 =>
      have hnil : ∀ {ops n}, OpRun p op s ops n → ops = [] ∧ n = 0 := by
        intro ops n h
        rcases hrun h with h | ⟨f, n1, y, n2, ops', m, h1, -⟩
        · exact h
        · rw [ho] at h1; cases h1
      cases c0 with
      | uncommitted =>
        have hval : restLeft1N p op (k + 1) x s = .success x 0 := by
          simp [restLeft1N, or, State.advanceBy, ho, successful]
        refine ⟨?_, ?_, ?_⟩
        · intro v n
          rw [hval]
          constructor
          · intro h; cases h; exact ⟨[], .nil s, by simp, rfl, .inl ⟨e0, ho⟩⟩
          · rintro ⟨ops, h1, -, rfl, -⟩
            obtain ⟨rfl, rfl⟩ := hnil h1; rfl
        · intro e c
          rw [hval]
          simp only [reduceCtorEq, false_iff]
          rintro ⟨-, ops, n, h1, -, h2⟩
          obtain ⟨rfl, rfl⟩ := hnil h1
          rcases h2 with h2 | ⟨f, n, c, h2, -⟩ <;>
            (simp only [Nat.add_zero, state_eta] at h2; rw [ho] at h2; cases h2)
        · rw [hval]
          simp only [reduceCtorEq, false_iff]
          rintro (⟨ops, n, h1, h2⟩ | ⟨ops, n, h1, -, h2⟩)
          · obtain ⟨rfl, rfl⟩ := hnil h1; simp at h2
          · obtain ⟨rfl, rfl⟩ := hnil h1
            rcases h2 with ⟨q, hq, h2⟩ | ⟨j, ⟨f, h2⟩, -⟩
            · cases hq; simp only [Nat.add_zero, state_eta] at h2; rw [ho] at h2; cases h2
            · simp only [Nat.add_zero, state_eta] at h2; rw [ho] at h2; cases h2
      | committed =>
        have hval : restLeft1N p op (k + 1) x s = .failure e0 .committed := by
          simp [restLeft1N, or, State.advanceBy, ho]
        refine ⟨?_, ?_, ?_⟩
        · intro v n
          rw [hval]
          simp only [reduceCtorEq, false_iff]
          rintro ⟨ops, h1, -, -, h2⟩
          obtain ⟨rfl, rfl⟩ := hnil h1
          rcases h2 with ⟨e, h2⟩ | ⟨f, e, h2, -⟩ <;>
            (simp only [Nat.add_zero, state_eta] at h2; rw [ho] at h2; cases h2)
        · intro e c
          rw [hval]
          constructor
          · intro h; cases h
            exact ⟨rfl, [], 0, .nil s, by simp, .inl ho⟩
          · rintro ⟨rfl, ops, n, h1, -, h2⟩
            obtain ⟨rfl, rfl⟩ := hnil h1
            rcases h2 with h2 | ⟨f, n, c, h2, -⟩ <;>
              (simp only [Nat.add_zero, state_eta] at h2; rw [ho] at h2; cases h2)
            rfl
        · rw [hval]
          simp only [reduceCtorEq, false_iff]
          rintro (⟨ops, n, h1, h2⟩ | ⟨ops, n, h1, -, h2⟩)
          · obtain ⟨rfl, rfl⟩ := hnil h1; simp at h2
          · obtain ⟨rfl, rfl⟩ := hnil h1
            rcases h2 with ⟨q, hq, h2⟩ | ⟨j, ⟨f, h2⟩, -⟩
            · cases hq; simp only [Nat.add_zero, state_eta] at h2; rw [ho] at h2; cases h2
            · simp only [Nat.add_zero, state_eta] at h2; rw [ho] at h2; cases h2
    | panic =>
      have hval : restLeft1N p op (k + 1) x s = .panic := by
        simp [restLeft1N, or, State.advanceBy, ho]
      have hnil : ∀ {ops n}, OpRun p op s ops n → ops = [] ∧ n = 0 := by
        intro ops n h
        rcases hrun h with h | ⟨f, n1, y, n2, ops', m, h1, -⟩
        · exact h
        · rw [ho] at h1; cases h1
      refine ⟨?_, ?_, ?_⟩
      · intro v n
        rw [hval]
        simp only [reduceCtorEq, false_iff]
        rintro ⟨ops, h1, -, -, h2⟩
        obtain ⟨rfl, rfl⟩ := hnil h1
        rcases h2 with ⟨e, h2⟩ | ⟨f, e, h2, -⟩ <;>
          (simp only [Nat.add_zero, state_eta] at h2; rw [ho] at h2; cases h2)
      · intro e c
        rw [hval]
        simp only [reduceCtorEq, false_iff]
        rintro ⟨-, ops, n, h1, -, h2⟩
        obtain ⟨rfl, rfl⟩ := hnil h1
        rcases h2 with h2 | ⟨f, n, c, h2, -⟩ <;>
          (simp only [Nat.add_zero, state_eta] at h2; rw [ho] at h2; cases h2)
      · rw [hval]
        simp only [reduceCtorEq, false_iff]
        rintro (⟨ops, n, h1, h2⟩ | ⟨ops, n, h1, -, h2⟩)
        · obtain ⟨rfl, rfl⟩ := hnil h1; simp at h2
        · obtain ⟨rfl, rfl⟩ := hnil h1
          rcases h2 with ⟨q, hq, h2⟩ | ⟨j, ⟨f, h2⟩, -⟩
          · cases hq; simp only [Nat.add_zero, state_eta] at h2; rw [ho] at h2; cases h2
          · simp only [Nat.add_zero, state_eta] at h2; rw [ho] at h2; cases h2
    | diverge =>
      have hval : restLeft1N p op (k + 1) x s = .diverge := by
        simp [restLeft1N, or, State.advanceBy, ho]
      have hnil : ∀ {ops n}, OpRun p op s ops n → ops = [] ∧ n = 0 := by
        intro ops n h
        rcases hrun h with h | ⟨f, n1, y, n2, ops', m, h1, -⟩
        · exact h
        · rw [ho] at h1; cases h1
      refine ⟨?_, ?_, ?_⟩
      · intro v n
        rw [hval]
        simp only [reduceCtorEq, false_iff]
        rintro ⟨ops, h1, -, -, h2⟩
        obtain ⟨rfl, rfl⟩ := hnil h1
        rcases h2 with ⟨e, h2⟩ | ⟨f, e, h2, -⟩ <;>
          (simp only [Nat.add_zero, state_eta] at h2; rw [ho] at h2; cases h2)
      · intro e c
        rw [hval]
        simp only [reduceCtorEq, false_iff]
        rintro ⟨-, ops, n, h1, -, h2⟩
        obtain ⟨rfl, rfl⟩ := hnil h1
        rcases h2 with h2 | ⟨f, n, c, h2, -⟩ <;>
          (simp only [Nat.add_zero, state_eta] at h2; rw [ho] at h2; cases h2)
      · rw [hval]
        simp only [true_iff]
        exact .inr ⟨[], 0, .nil s, by simp, .inl ⟨op, rfl, by simpa using ho⟩⟩
    | success f n1 =>
      cases hp : p ⟨s.input, s.offset + n1⟩ with
      | success y n2 =>
        obtain ⟨ih1, ih2, ih3⟩ := ih (f x y) ⟨s.input, s.offset + n1 + n2⟩
        have hcons : ∀ {ops n}, OpRun p op s ops n → (ops = [] ∧ n = 0) ∨
            ∃ ops' m, OpRun p op ⟨s.input, s.offset + n1 + n2⟩ ops' m ∧ ops = (f, y) :: ops' ∧
              n = n1 + n2 + m := by
          intro ops n h
          rcases hrun h with h | ⟨f', n1', y', n2', ops', m, h1, h2, h3, rfl, rfl⟩
          · exact .inl h
          · rw [ho] at h1; cases h1
            rw [hp] at h2; cases h2
            exact .inr ⟨ops', m, h3, rfl, rfl⟩
        have hnoEnd : ¬ ChainEnd p op s := by
          rintro (⟨e, h⟩ | ⟨f', e, h, h'⟩)
          · rw [ho] at h; cases h
          · rw [ho] at h; cases h
            simp only [Nat.add_zero, state_eta] at hp; rw [hp] at h'; cases h'
        have hnoBreak : ∀ e, ¬ ChainBreak p op s e := by
          rintro e (h | ⟨f', n, c, h, h', -⟩)
          · rw [ho] at h; cases h
          · rw [ho] at h; cases h; rw [hp] at h'; cases h'
        have hnoDiv : ¬ DivergesAt p (some op) s := by
          rintro (⟨q, hq, h⟩ | ⟨j, ⟨f', h⟩, h'⟩)
          · cases hq; rw [ho] at h; cases h
          · rw [ho] at h; cases h; rw [hp] at h'; cases h'
        have hval : restLeft1N p op (k + 1) x s =
            match restLeft1N p op k (f x y) ⟨s.input, s.offset + n1 + n2⟩ with
            | .success v m => .success v (m + n2 + n1)
            | .failure e .committed => .failure e .committed
            | .failure e .uncommitted =>
              if n1 = 0 then .success x 0 else .failure e .committed
            | .panic => .panic
            | .diverge => .diverge := by
          simp only [restLeft1N, or, State.advanceBy, Nat.add_zero, ho, hp]
          have hb : (n1 != 0) = !decide (n1 = 0) := by cases n1 <;> rfl
          cases hr : restLeft1N p op k (f x y) ⟨s.input, s.offset + n1 + n2⟩ with
          | success v m => simp [Res.advanceSuccess, Res.addCommit]
          | failure e c =>
            cases c <;> by_cases hz : n1 = 0 <;>
              simp [Res.advanceSuccess, Res.addCommit, Committed.or, Committed.ofBool, hz, hb, successful]
          | panic => simp [Res.advanceSuccess, Res.addCommit]
          | diverge => simp [Res.advanceSuccess, Res.addCommit]
        refine ⟨?_, ?_, ?_⟩
        · intro v n
          rw [hval]
          constructor
          · intro h
            cases hr : restLeft1N p op k (f x y) ⟨s.input, s.offset + n1 + n2⟩ with
            | success v' m =>
              rw [hr] at h; cases h
              obtain ⟨ops, h1, h2, rfl, h4⟩ := (ih1 _ _).1 hr
              refine ⟨(f, y) :: ops, ?_, by simp; omega, rfl, ?_⟩
              · have := OpRun.cons ho hp h1
                rwa [show m + n2 + n1 = n1 + n2 + m by omega]
              · rw [show s.offset + (m + n2 + n1) = s.offset + n1 + n2 + m by omega]; exact h4
            | failure e c =>
              rw [hr] at h
              cases c with
              | committed => cases h
              | uncommitted => exact absurd ((ih2 _ _).1 hr).1 (by simp)
            | panic => rw [hr] at h; cases h
            | diverge => rw [hr] at h; cases h
          · rintro ⟨ops, h1, h2, rfl, h3⟩
            rcases hcons h1 with ⟨rfl, rfl⟩ | ⟨ops', m, h4, rfl, rfl⟩
            · exact absurd (by simpa using h3) hnoEnd
            · have := (ih1 (applyLeft (f x y) ops') m).2 ⟨ops', h4, by simpa using h2, rfl, by
                simpa [Nat.add_assoc] using h3⟩
              rw [this]
              simp only [applyLeft, Res.success.injEq, true_and]; omega
        · intro e c
          rw [hval]
          constructor
          · intro h
            cases hr : restLeft1N p op k (f x y) ⟨s.input, s.offset + n1 + n2⟩ with
            | success v' m => rw [hr] at h; cases h
            | failure e' c' =>
              rw [hr] at h
              obtain ⟨rfl, ops, n, h1, h2, h3⟩ := (ih2 _ _).1 hr
              cases h
              exact ⟨rfl, (f, y) :: ops, _, .cons ho hp h1, by simp; omega,
                by simpa [Nat.add_assoc] using h3⟩
            | panic => rw [hr] at h; cases h
            | diverge => rw [hr] at h; cases h
          · rintro ⟨rfl, ops, n, h1, h2, h3⟩
            rcases hcons h1 with ⟨rfl, rfl⟩ | ⟨ops', m, h4, rfl, rfl⟩
            · exact absurd (by simpa using h3) (hnoBreak e)
            · rw [(ih2 e .committed).2 ⟨rfl, ops', m, h4, by simpa using h2, by
                simpa [Nat.add_assoc] using h3⟩]
        · rw [hval]
          constructor
          · intro h
            cases hr : restLeft1N p op k (f x y) ⟨s.input, s.offset + n1 + n2⟩ with
            | success v' m => rw [hr] at h; cases h
            | failure e' c' =>
              rw [hr] at h
              obtain ⟨rfl, -⟩ := (ih2 _ _).1 hr
              cases h
            | panic => rw [hr] at h; cases h
            | diverge =>
              rcases ih3.1 hr with ⟨ops, n, h1, h2⟩ | ⟨ops, n, h1, h2, h3⟩
              · exact .inl ⟨(f, y) :: ops, _, .cons ho hp h1, by simp [h2]⟩
              · exact .inr ⟨(f, y) :: ops, _, .cons ho hp h1, by simp; omega,
                  by simpa [Nat.add_assoc] using h3⟩
          · intro h
            have : restLeft1N p op k (f x y) ⟨s.input, s.offset + n1 + n2⟩ = .diverge := by
              refine ih3.2 ?_
              rcases h with ⟨ops, n, h1, h2⟩ | ⟨ops, n, h1, h2, h3⟩
              · rcases hcons h1 with ⟨rfl, rfl⟩ | ⟨ops', m, h4, rfl, rfl⟩
                · simp at h2
                · exact .inl ⟨ops', m, h4, by simpa using h2⟩
              · rcases hcons h1 with ⟨rfl, rfl⟩ | ⟨ops', m, h4, rfl, rfl⟩
                · exact absurd (by simpa using h3) hnoDiv
                · exact .inr ⟨ops', m, h4, by simpa using h2, by simpa [Nat.add_assoc] using h3⟩
            rw [this]
      | failure e0 c0 =>
        have hnil : ∀ {ops n}, OpRun p op s ops n → ops = [] ∧ n = 0 := by
          intro ops n h
          rcases hrun h with h | ⟨f', n1', y', n2', ops', m, h1, h2, -⟩
          · exact h
          · rw [ho] at h1; cases h1; rw [hp] at h2; cases h2
        have hval : restLeft1N p op (k + 1) x s =
            if c0 = .uncommitted ∧ n1 = 0 then .success x 0 else .failure e0 .committed := by
          simp only [restLeft1N, or, State.advanceBy, Nat.add_zero, ho, hp]
          have hb : (n1 != 0) = !decide (n1 = 0) := by cases n1 <;> rfl
          cases c0 <;> by_cases hz : n1 = 0 <;>
            simp [Res.advanceSuccess, Res.addCommit, Committed.or, Committed.ofBool, hz, hb, successful]
        have hnoDiv : ¬ DivergesAt p (some op) s := by
          rintro (⟨q, hq, h⟩ | ⟨j, ⟨f', h⟩, h'⟩)
          · cases hq; rw [ho] at h; cases h
          · rw [ho] at h; cases h; rw [hp] at h'; cases h'
        by_cases hc : c0 = .uncommitted ∧ n1 = 0
        · obtain ⟨rfl, rfl⟩ := hc
          simp only [Nat.add_zero, state_eta] at hp
          simp only [and_self, if_true] at hval
          refine ⟨?_, ?_, ?_⟩
          · intro v n
            rw [hval]
            constructor
            · intro h; cases h
              exact ⟨[], .nil s, by simp, rfl, .inr ⟨f, e0, ho, hp⟩⟩
            · rintro ⟨ops, h1, -, rfl, -⟩
              obtain ⟨rfl, rfl⟩ := hnil h1; rfl
          · intro e c
            rw [hval]
            simp only [reduceCtorEq, false_iff]
            rintro ⟨-, ops, n, h1, -, h2⟩
            obtain ⟨rfl, rfl⟩ := hnil h1
            rcases h2 with h2 | ⟨f', n, c, h2, h3, h4⟩
            · simp only [Nat.add_zero, state_eta] at h2; rw [ho] at h2; cases h2
            · simp only [Nat.add_zero, state_eta] at h2; rw [ho] at h2; cases h2
              simp only [Nat.add_zero, state_eta] at h3; rw [hp] at h3; cases h3
              simp at h4
          · rw [hval]
            simp only [reduceCtorEq, false_iff]
            rintro (⟨ops, n, h1, h2⟩ | ⟨ops, n, h1, -, h2⟩)
            · obtain ⟨rfl, rfl⟩ := hnil h1; simp at h2
            · obtain ⟨rfl, rfl⟩ := hnil h1; exact hnoDiv (by simpa using h2)
        · simp only [hc, if_false] at hval
          have hc' : c0 = .committed ∨ n1 ≠ 0 := by
            cases c0 with
            | committed => exact .inl rfl
            | uncommitted => exact .inr fun h => hc ⟨rfl, h⟩
          refine ⟨?_, ?_, ?_⟩
          · intro v n
            rw [hval]
            simp only [reduceCtorEq, false_iff]
            rintro ⟨ops, h1, -, -, h2⟩
            obtain ⟨rfl, rfl⟩ := hnil h1
            rcases h2 with ⟨e, h2⟩ | ⟨f', e, h2, h3⟩
            · simp only [Nat.add_zero, state_eta] at h2; rw [ho] at h2; cases h2
            · simp only [Nat.add_zero, state_eta] at h2 h3; rw [ho] at h2; cases h2
              simp only [Nat.add_zero, state_eta] at hp
              rw [hp] at h3; cases h3
              exact hc ⟨rfl, rfl⟩
          · intro e c
            rw [hval]
            constructor
            · intro h; cases h
              exact ⟨rfl, [], 0, .nil s, by simp, .inr ⟨f, n1, c0, ho, hp, hc'⟩⟩
            · rintro ⟨rfl, ops, n, h1, -, h2⟩
              obtain ⟨rfl, rfl⟩ := hnil h1
              rcases h2 with h2 | ⟨f', n, c, h2, h3, h4⟩
              · simp only [Nat.add_zero, state_eta] at h2; rw [ho] at h2; cases h2
              · simp only [Nat.add_zero, state_eta] at h2; rw [ho] at h2; cases h2
                simp only [Nat.add_zero] at h3; rw [hp] at h3; cases h3
                rfl
          · rw [hval]
            simp only [reduceCtorEq, false_iff]
            rintro (⟨ops, n, h1, h2⟩ | ⟨ops, n, h1, -, h2⟩)
            · obtain ⟨rfl, rfl⟩ := hnil h1; simp at h2
            · obtain ⟨rfl, rfl⟩ := hnil h1; exact hnoDiv (by simpa using h2)
      | panic =>
        have hnil : ∀ {ops n}, OpRun p op s ops n → ops = [] ∧ n = 0 := by
          intro ops n h
          rcases hrun h with h | ⟨f', n1', y', n2', ops', m, h1, h2, -⟩
          · exact h
          · rw [ho] at h1; cases h1; rw [hp] at h2; cases h2
        have hval : restLeft1N p op (k + 1) x s = .panic := by
          simp [restLeft1N, or, State.advanceBy, ho, hp, Res.addCommit, Res.advanceSuccess]
        refine ⟨?_, ?_, ?_⟩
        · intro v n
          rw [hval]
          simp only [reduceCtorEq, false_iff]
          rintro ⟨ops, h1, -, -, h2⟩
          obtain ⟨rfl, rfl⟩ := hnil h1
          rcases h2 with ⟨e, h2⟩ | ⟨f', e, h2, h3⟩
          · simp only [Nat.add_zero, state_eta] at h2; rw [ho] at h2; cases h2
          · simp only [Nat.add_zero, state_eta] at h2 h3; rw [ho] at h2; cases h2
            simp only [Nat.add_zero, state_eta] at hp
            rw [hp] at h3; cases h3
        · intro e c
          rw [hval]
          simp only [reduceCtorEq, false_iff]
          rintro ⟨-, ops, n, h1, -, h2⟩
          obtain ⟨rfl, rfl⟩ := hnil h1
          rcases h2 with h2 | ⟨f', n, c, h2, h3, h4⟩
          · simp only [Nat.add_zero, state_eta] at h2; rw [ho] at h2; cases h2
          · simp only [Nat.add_zero, state_eta] at h2; rw [ho] at h2; cases h2
            simp only [Nat.add_zero] at h3; rw [hp] at h3; cases h3
        · rw [hval]
          simp only [reduceCtorEq, false_iff]
          rintro (⟨ops, n, h1, h2⟩ | ⟨ops, n, h1, -, h2⟩)
          · obtain ⟨rfl, rfl⟩ := hnil h1; simp at h2
          · obtain ⟨rfl, rfl⟩ := hnil h1
            rcases h2 with ⟨q, hq, h⟩ | ⟨j, ⟨f', h⟩, h'⟩
            · cases hq; simp only [Nat.add_zero, state_eta] at h; rw [ho] at h; cases h
            · simp only [Nat.add_zero, state_eta] at h; rw [ho] at h; cases h
              simp only [Nat.add_zero] at h'; rw [hp] at h'; cases h'
      | diverge =>
        have hnil : ∀ {ops n}, OpRun p op s ops n → ops = [] ∧ n = 0 := by
          intro ops n h
          rcases hrun h with h | ⟨f', n1', y', n2', ops', m, h1, h2, -⟩
          · exact h
          · rw [ho] at h1; cases h1; rw [hp] at h2; cases h2
        have hval : restLeft1N p op (k + 1) x s = .diverge := by
          simp [restLeft1N, or, State.advanceBy, ho, hp, Res.addCommit, Res.advanceSuccess]
        refine ⟨?_, ?_, ?_⟩
        · intro v n
          rw [hval]
          simp only [reduceCtorEq, false_iff]
          rintro ⟨ops, h1, -, -, h2⟩
          obtain ⟨rfl, rfl⟩ := hnil h1
          rcases h2 with ⟨e, h2⟩ | ⟨f', e, h2, h3⟩
          · simp only [Nat.add_zero, state_eta] at h2; rw [ho] at h2; cases h2
          · simp only [Nat.add_zero, state_eta] at h2 h3; rw [ho] at h2; cases h2
            simp only [Nat.add_zero, state_eta] at hp
            rw [hp] at h3; cases h3
        · intro e c
          rw [hval]
          simp only [reduceCtorEq, false_iff]
          rintro ⟨-, ops, n, h1, -, h2⟩
          obtain ⟨rfl, rfl⟩ := hnil h1
          rcases h2 with h2 | ⟨f', n, c, h2, h3, h4⟩
          · simp only [Nat.add_zero, state_eta] at h2; rw [ho] at h2; cases h2
          · simp only [Nat.add_zero, state_eta] at h2; rw [ho] at h2; cases h2
            simp only [Nat.add_zero] at h3; rw [hp] at h3; cases h3
        · rw [hval]
          simp only [true_iff]
          exact .inr ⟨[], 0, .nil s, by simp, .inr ⟨n1, ⟨f, by simpa using ho⟩, by simpa using hp⟩⟩

/-! ## rest_left1 and chain_left1 -/

private theorem opRun_fuel {p : Parser I A} {op : Parser I (A → A → A)} (hp : Tame p) (hop : Tame op)
    {s : State I} {ops : List ((A → A → A) × A)} {n k : Nat} (h : OpRun p op s ops n)
    (he : NoMore p (some op) ⟨s.input, s.offset + n⟩ k) :
    ops.length < s.input.length - s.offset + 2 := by
  have := sepRun_length hp (by intro q hq; cases hq; exact hop) (opRun_sepRun h) he
  simp only [List.length_map] at this
  omega

/-- `p.rest_left1(op, x)` succeeds exactly with the left-to-right application of the operators of the
chain to `x`. -/
theorem c17_restLeft1_success_iff (p : Parser I A) (op : Parser I (A → A → A)) (hp : Tame p)
    (hop : Tame op) (x v : A) (s : State I) (n : Nat) :
    restLeft1 p op x s = .success v n ↔
      ∃ ops, OpRun p op s ops n ∧ v = applyLeft x ops ∧ ChainEnd p op ⟨s.input, s.offset + n⟩ := by
  rw [restLeft1, (restLeft1N_spec p op _ x s).1]
  constructor
  · rintro ⟨ops, h1, -, h2, h3⟩; exact ⟨ops, h1, h2, h3⟩
  · rintro ⟨ops, h1, h2, h3⟩
    exact ⟨ops, h1, opRun_fuel hp hop h1 (chainEnd_noMore h3), h2, h3⟩

/-- `p.chain_left1(op)` reads `p (op p)*` and its value is the left fold of the chain. -/
theorem c17_chainLeft1_success_iff (p : Parser I A) (op : Parser I (A → A → A)) (hp : Tame p)
    (hop : Tame op) (s : State I) (v : A) (n : Nat) :
    chainLeft1 p op s = .success v n ↔
      ∃ x l ops m, p s = .success x l ∧ OpRun p op ⟨s.input, s.offset + l⟩ ops m ∧
        v = applyLeft x ops ∧ n = l + m ∧ ChainEnd p op ⟨s.input, s.offset + l + m⟩ := by
  unfold chainLeft1 flatMap
  cases hps : p s with
  | success x l =>
    simp only [State.advanceBy]
    constructor
    · intro h
      cases hr : restLeft1 p op x ⟨s.input, s.offset + l⟩ with
      | success v' m =>
        rw [hr] at h
        simp only [Res.addCommit, Res.advanceSuccess] at h
        cases h
        obtain ⟨ops, h1, h2, h3⟩ := (c17_restLeft1_success_iff p op hp hop _ _ _ _).1 hr
        exact ⟨x, l, ops, m, rfl, h1, h2, by omega, h3⟩
      | _ => rw [hr] at h; simp [Res.addCommit, Res.advanceSuccess] at h
    · rintro ⟨x', l', ops, m, hx, h1, rfl, rfl, h3⟩
      cases hx
      rw [(c17_restLeft1_success_iff p op hp hop x _ _ m).2 ⟨ops, h1, rfl, h3⟩]
      simp only [Res.addCommit, Res.advanceSuccess, Res.success.injEq, true_and]; omega
  | _ => simp

/-- `p.chain_left1(op)` fails exactly if the first operand fails (same error and commit status), or an
operator is read whose operand fails although the operator consumed something or the operand failed
committed, or an operator fails committed; the latter failures are committed. -/
theorem c17_chainLeft1_failure_iff (p : Parser I A) (op : Parser I (A → A → A)) (hp : Tame p)
    (hop : Tame op) (s : State I) (e : PError I) (c : Committed) :
    chainLeft1 p op s = .failure e c ↔
      p s = .failure e c ∨
      (c = .committed ∧ ∃ x l ops m, p s = .success x l ∧
        OpRun p op ⟨s.input, s.offset + l⟩ ops m ∧
        ChainBreak p op ⟨s.input, s.offset + l + m⟩ e) := by
  unfold chainLeft1 flatMap
  cases hps : p s with
  | success x l =>
    simp only [State.advanceBy, reduceCtorEq, false_or]
    have hf := (restLeft1N_spec p op (s.input.length - (s.offset + l) + 2) x
      ⟨s.input, s.offset + l⟩).2.1
    constructor
    · intro h
      cases hr : restLeft1 p op x ⟨s.input, s.offset + l⟩ with
      | failure e' c' =>
        rw [hr] at h
        obtain ⟨rfl, ops, m, h1, -, h2⟩ := (hf e' c').1 hr
        simp only [Res.addCommit, Res.advanceSuccess, Committed.or] at h
        cases h
        exact ⟨rfl, x, l, ops, m, rfl, h1, h2⟩
      | _ => rw [hr] at h; simp [Res.addCommit, Res.advanceSuccess] at h
    · rintro ⟨rfl, x', l', ops, m, hx, h1, h2⟩
      cases hx
      obtain ⟨k, hk⟩ := chainBreak_noMore h2
      have := (hf e .committed).2 ⟨rfl, ops, m, h1, opRun_fuel hp hop h1 hk, h2⟩
      rw [show restLeft1 p op x ⟨s.input, s.offset + l⟩ = .failure e .committed from this]
      simp [Res.addCommit, Res.advanceSuccess, Committed.or]
  | _ => simp

/-- The recursion of `rest_left1` does not return exactly if a called parser does not return or
arbitrarily many operator/operand pairs can be read. -/
theorem c14_restLeft1_diverge_iff (p : Parser I A) (op : Parser I (A → A → A)) (hp : Tame p)
    (hop : Tame op) (x : A) (s : State I) :
    restLeft1 p op x s = .diverge ↔
      Endless p (some op) s ∨
      ∃ ops m, OpRun p op s ops m ∧ DivergesAt p (some op) ⟨s.input, s.offset + m⟩ := by
  rw [restLeft1, (restLeft1N_spec p op _ x s).2.2]
  constructor
  · rintro (⟨ops, n, h1, h2⟩ | ⟨ops, n, h1, -, h2⟩)
    · exact .inl (endless_of_long hp (by intro q hq; cases hq; exact hop) (opRun_sepRun h1)
        (by simp [h2]))
    · exact .inr ⟨ops, n, h1, h2⟩
  · rintro (h | ⟨ops, m, h1, h2⟩)
    · obtain ⟨vs, m, h1, h2⟩ := h (s.input.length - s.offset + 2)
      obtain ⟨ops, h3, h4⟩ := sepRun_opRun h1
      exact .inl ⟨ops, m, h3, by omega⟩
    · by_cases hlt : ops.length < s.input.length - s.offset + 2
      · exact .inr ⟨ops, m, h1, hlt, h2⟩
      · obtain ⟨ws, r, h3, h4⟩ := sepRun_take (opRun_sepRun h1) (s.input.length - s.offset + 2)
          (by simp only [List.length_map]; omega)
        obtain ⟨ops', h5, h6⟩ := sepRun_opRun h3
        exact .inl ⟨ops', r, h5, by omega⟩

/-! ## Test grammar: single digits and the minus sign -/

/-- Operand for the examples: a digit. -/
def digitOperand : Parser Char Int := map (elmPred Chr.isDigit) fun c => (c.toNat : Int) - 48
/-- Operator for the examples: `-`. -/
def minusOp : Parser Char (Int → Int → Int) := map (elm '-') fun _ => (· - ·)

example : chainLeft1 digitOperand minusOp ⟨['7', '-', '2', '-', '1'], 0⟩ = .success 4 5 := by decide
example : chainLeft1 digitOperand minusOp ⟨['7', '-', '2', '-', ')'], 0⟩ =
    .failure (.mismatch [')'] 5 1) .committed := by decide

/-- `digitOperand` and `minusOp` meet the hypotheses of the chain theorems. -/
theorem tame_digitOperand : Tame digitOperand := by
  intro s v n hs h
  have hd : ¬ s.offset ≤ s.input.length := by omega
  simp [digitOperand, map, elmPred, State.withInput, hd] at h

theorem tame_minusOp : Tame minusOp := by
  intro s v n hs h
  have hd : ¬ s.offset ≤ s.input.length := by omega
  simp [minusOp, map, elm, elmPred, State.withInput, hd] at h

/-! ## C18: chain_right1 -/

/-- The property as stated fails: `7-2-1` is `(7-2)-1` for `chain_right1`. -/
theorem c18_chainRight1_violated :
    ∃ (p : Parser Char Int) (op : Parser Char (Int → Int → Int)) (s : State Char) (v : Int) (n : Nat)
      (x : Int) (l : Nat) (ops : List ((Int → Int → Int) × Int)) (m : Nat),
      chainRight1 p op s = .success v n ∧ p s = .success x l ∧
      OpRun p op ⟨s.input, s.offset + l⟩ ops m ∧ n = l + m ∧
      ChainEnd p op ⟨s.input, s.offset + l + m⟩ ∧ v ≠ applyRight x ops := by
  refine ⟨digitOperand, minusOp, ⟨['7', '-', '2', '-', '1'], 0⟩, 4, 5, 7, 1,
    [((· - ·), 2), ((· - ·), 1)], 4, by decide, by decide, ?_, rfl, ?_, by decide⟩
  · exact OpRun.cons (n1 := 1) (n2 := 1) (m := 2) rfl (by decide)
      (OpRun.cons (n1 := 1) (n2 := 1) (m := 0) rfl (by decide) (.nil _))
  · exact .inl ⟨_, rfl⟩

private theorem applyLeft_eq_applyRight (ops : List ((A → A → A) × A)) :
    (∀ fy ∈ ops, ∀ gz ∈ ops, ∀ a b c, gz.1 (fy.1 a b) c = fy.1 a (gz.1 b c)) →
    ∀ x, applyLeft x ops = applyRight x ops := by
  -- left application distributes over the first operand
  have aux : ∀ (f : A → A → A) (ops : List ((A → A → A) × A)),
      (∀ gz ∈ ops, ∀ a b c, gz.1 (f a b) c = f a (gz.1 b c)) →
      ∀ x y, applyLeft (f x y) ops = f x (applyLeft y ops) := by
    intro f ops
    induction ops with
    | nil => intro _ x y; rfl
    | cons gz ops ih =>
      intro h x y
      obtain ⟨g, z⟩ := gz
      simp only [applyLeft]
      rw [show g (f x y) z = f x (g y z) from h (g, z) (by simp) x y z]
      exact ih (fun gz hgz => h gz (by simp [hgz])) x (g y z)
  induction ops with
  | nil => intro _ x; rfl
  | cons fy ops ih =>
    intro h x
    obtain ⟨f, y⟩ := fy
    simp only [applyLeft, applyRight]
    rw [aux f ops (fun gz hgz => h (f, y) (by simp) gz (by simp [hgz])), ih]
    exact fun a ha b hb => h a (by simp [ha]) b (by simp [hb])

/-- What `chain_right1` returns is the right-to-left application only if all operators read associate
with each other; without that hypothesis it is the left-to-right application. -/
theorem c18_chainRight1_partial (p : Parser I A) (op : Parser I (A → A → A)) (hp : Tame p)
    (hop : Tame op) (s : State I) (v : A) (n : Nat) (h : chainRight1 p op s = .success v n) :
    ∃ x l ops m, p s = .success x l ∧ OpRun p op ⟨s.input, s.offset + l⟩ ops m ∧
      n = l + m ∧ ChainEnd p op ⟨s.input, s.offset + l + m⟩ ∧ v = applyLeft x ops ∧
      ((∀ fy ∈ ops, ∀ gz ∈ ops, ∀ a b c, gz.1 (fy.1 a b) c = fy.1 a (gz.1 b c)) →
        v = applyRight x ops) := by
  obtain ⟨x, l, ops, m, h1, h2, h3, h4, h5⟩ := (c17_chainLeft1_success_iff p op hp hop s v n).1 h
  exact ⟨x, l, ops, m, h1, h2, h4, h5, h3, fun ha => by rw [h3]; exact applyLeft_eq_applyRight ops ha x⟩

/-- Associative operators exist: addition meets the hypothesis of `c18_chainRight1_partial`. -/
example : ∀ fy ∈ [((· + · : Int → Int → Int), (1 : Int)), ((· + ·), 2)],
    ∀ gz ∈ [((· + · : Int → Int → Int), (1 : Int)), ((· + ·), 2)],
    ∀ a b c, gz.1 (fy.1 a b) c = fy.1 a (gz.1 b c) := by
  simp; intros; omega

/-! ## C19: rest_right1 -/

/-- The property as stated fails: of `-2-1` only the first operator is applied although another
operator with its operand follows. -/
theorem c19_restRight1_violated :
    ∃ (p : Parser Char Int) (op : Parser Char (Int → Int → Int)) (s : State Char) (x v : Int) (n : Nat),
      restRight1 p op x s = .success v n ∧ n ≠ 0 ∧
      ∃ f n1 y n2, op ⟨s.input, s.offset + n⟩ = .success f n1 ∧
        p ⟨s.input, s.offset + n + n1⟩ = .success y n2 :=
  ⟨digitOperand, minusOp, ⟨['-', '2', '-', '1'], 0⟩, 7, 5, 2, by decide, by decide,
    (· - ·), 1, 1, 1, rfl, by decide⟩

/-- What it does: at most one operator is applied to `x`, and none exactly if the chain ends at `s`. -/
theorem c19_restRight1_partial (p : Parser I A) (op : Parser I (A → A → A)) (x v : A) (s : State I)
    (n : Nat) :
    restRight1 p op x s = .success v n ↔
      (∃ f n1 y n2, op s = .success f n1 ∧ p ⟨s.input, s.offset + n1⟩ = .success y n2 ∧ v = f x y ∧
        n = n1 + n2) ∨
      (v = x ∧ n = 0 ∧ ChainEnd p op s) := by
  unfold restRight1 or flatMap map successful ChainEnd
  cases ho : op s with
  | success f n1 =>
    have hb : (n1 != 0) = !decide (n1 = 0) := by cases n1 <;> rfl
    simp only [State.advanceBy]
    cases hp : p ⟨s.input, s.offset + n1⟩ with
    | success y n2 =>
      simp only [Res.addCommit, Res.advanceSuccess, Res.success.injEq]
      constructor
      · rintro ⟨rfl, rfl⟩; exact .inl ⟨f, n1, y, n2, ⟨rfl, rfl⟩, hp, rfl, by omega⟩
      · rintro (⟨f', n1', y', n2', ⟨rfl, rfl⟩, h2, rfl, rfl⟩ | ⟨-, -, ⟨e, h⟩ | ⟨f', e, ⟨-, rfl⟩, h⟩⟩)
        · rw [hp] at h2; cases h2; exact ⟨rfl, by omega⟩
        · cases h
        · simp only [Nat.add_zero, state_eta] at hp; rw [hp] at h; cases h
    | failure e c =>
      by_cases hz : n1 = 0
      · subst hz
        simp only [Nat.add_zero, state_eta] at hp
        cases c with
        | uncommitted =>
          simp only [Res.addCommit, Res.advanceSuccess, Committed.or, Committed.ofBool, bne_self_eq_false,
            Res.success.injEq]
          constructor
          · rintro ⟨rfl, rfl⟩; exact .inr ⟨rfl, rfl, .inr ⟨f, e, by simp, hp⟩⟩
          · rintro (⟨f', n1', y', n2', ⟨rfl, rfl⟩, h2, -, -⟩ | ⟨rfl, rfl, -⟩)
            · simp only [Nat.add_zero, state_eta] at h2; rw [hp] at h2; cases h2
            · exact ⟨rfl, rfl⟩
        | committed =>
          simp only [Res.addCommit, Res.advanceSuccess, Committed.or, reduceCtorEq, false_iff,
            Res.success.injEq]
          rintro (⟨f', n1', y', n2', ⟨rfl, rfl⟩, h2, -, -⟩ | ⟨-, -, ⟨e', h⟩ | ⟨f', e', -, h⟩⟩)
          · simp only [Nat.add_zero, state_eta] at h2; rw [hp] at h2; cases h2
          · cases h
          · rw [hp] at h; cases h
      · have hc : (Res.addCommit (Res.failure e c : Res I A) (n1 != 0)) = .failure e .committed := by
          simp only [Res.addCommit, hb, hz]; cases c <;> rfl
        simp only [hc, Res.advanceSuccess, reduceCtorEq, false_iff, Res.success.injEq]
        rintro (⟨f', n1', y', n2', ⟨rfl, rfl⟩, h2, -, -⟩ | ⟨-, -, ⟨e', h⟩ | ⟨f', e', ⟨-, h⟩, -⟩⟩)
        · rw [hp] at h2; cases h2
        · cases h
        · exact hz h
    | _ =>
      simp only [Res.addCommit, Res.advanceSuccess, reduceCtorEq, false_iff, Res.success.injEq]
      rintro (⟨f', n1', y', n2', ⟨rfl, rfl⟩, h2, -, -⟩ | ⟨-, -, ⟨e', h⟩ | ⟨f', e', ⟨-, rfl⟩, h⟩⟩)
      · rw [hp] at h2; cases h2
      · cases h
      · simp only [Nat.add_zero, state_eta] at hp; rw [hp] at h; cases h
  | failure e c =>
    cases c with
    | uncommitted =>
      simp only [Res.success.injEq, reduceCtorEq, false_and, exists_false, false_or]
      constructor
      · rintro ⟨rfl, rfl⟩; exact ⟨rfl, rfl, .inl ⟨e, rfl⟩⟩
      · rintro ⟨rfl, rfl, -⟩; exact ⟨rfl, rfl⟩
    | committed => simp
  | _ => simp

end OniComb
