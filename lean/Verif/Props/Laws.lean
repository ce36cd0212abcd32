import Verif.Model.Elements
import Verif.Model.Chain

/-!
# Laws of the loop-free combinators (C01–C03, C07–C11, C20, C27–C30, C34)

"`p` behaves as `q`" is equality of parsers as functions: same value, consumption, error, committed
status, panic and divergence for every input and offset.
-/

namespace OniComb
variable {I A B C : Type}

/-! ## C01 ordered choice -/

/-- `p | q` is `q` at the same position exactly when `p` fails uncommitted. -/
theorem c01_or_backtracks (p q : Parser I A) (s : State I) (e : PError I)
    (h : p s = .failure e .uncommitted) : or p q s = q s := by
  simp [or, h]

example : or (elm 'a') (elm 'b') ⟨['x', 'b'], 1⟩ = elm 'b' ⟨['x', 'b'], 1⟩ :=
  c01_or_backtracks _ _ _ (.mismatch ['b'] 2 1) (by decide)

/-- Otherwise (success, committed failure, panic, non-termination) `p | q` is `p`. -/
theorem c01_or_keeps (p q : Parser I A) (s : State I)
    (h : ∀ e, p s ≠ .failure e .uncommitted) : or p q s = p s := by
  unfold or
  split
  · rename_i e he; exact absurd he (h e)
  · rfl

example : or (seq ['a', 'b']) (seq ['a', 'c']) ⟨['a', 'c'], 0⟩ =
    .failure (.mismatch ['a', 'c'] 1 1) .committed :=
  c01_or_keeps _ _ _ (by intro e h; revert h; simp [seq, seqLoop, State.withInput, Committed.ofBool])

/-- A success of `p | q` is a success of `p`, or a success of `q` after an uncommitted failure of
`p`. -/
theorem c01_or_success_iff (p q : Parser I A) (s : State I) (v : A) (n : Nat) :
    or p q s = .success v n ↔
      p s = .success v n ∨ ((∃ e, p s = .failure e .uncommitted) ∧ q s = .success v n) := by
  unfold or
  cases h : p s with
  | failure e c => cases c <;> simp
  | _ => simp

theorem c01_or_assoc (p q r : Parser I A) : or (or p q) r = or p (or q r) := by
  funext s
  unfold or
  cases h : p s with
  | failure e c => cases c <;> simp
  | _ => simp

theorem c01_or_left_unit (e : PError I) (q : Parser I A) : or (failed e .uncommitted) q = q := by
  funext s; rfl

/-- A committed failure is never recovered, whatever follows. -/
theorem c01_or_left_zero (e : PError I) (q : Parser I A) :
    or (failed e .committed) q = failed e .committed := by
  funext s; rfl

theorem c01_or_idem (p : Parser I A) : or p p = p := by
  funext s
  unfold or
  cases h : p s with
  | failure e c => cases c <;> simp
  | _ => simp

/-! ## C02 monad laws -/

private theorem or_or_ofBool (c : Committed) (n1 n2 : Nat) :
    c.or (Committed.ofBool (n2 + n1 != 0)) =
      (c.or (Committed.ofBool (n2 != 0))).or (Committed.ofBool (n1 != 0)) := by
  have h : (n2 + n1 != 0) = ((n2 != 0) || (n1 != 0)) := by
    rw [Bool.eq_iff_iff]; simp; omega
  rw [h]
  cases c <;> cases (n2 != 0) <;> cases (n1 != 0) <;> rfl

theorem c02_left_identity (a : A) (f : A → Parser I B) : flatMap (successful a) f = f a := by
  funext s
  simp only [flatMap, successful, State.advanceBy, Nat.add_zero]
  cases h : f a s with
  | failure e c => cases c <;> simp [Res.addCommit, Res.advanceSuccess, Committed.or, Committed.ofBool]
  | _ => simp [Res.addCommit, Res.advanceSuccess]

theorem c02_right_identity (p : Parser I A) : flatMap p successful = p := by
  funext s
  simp only [flatMap, successful]
  cases h : p s <;> simp [Res.addCommit, Res.advanceSuccess]

theorem c02_assoc (p : Parser I A) (f : A → Parser I B) (g : B → Parser I C) :
    flatMap (flatMap p f) g = flatMap p fun x => flatMap (f x) g := by
  funext s
  simp only [flatMap]
  cases hp : p s with
  | success a n1 =>
    simp only [State.advanceBy]
    cases hf : f a ⟨s.input, s.offset + n1⟩ with
    | success b n2 =>
      simp only [Res.addCommit, Res.advanceSuccess]
      rw [show s.offset + (n2 + n1) = s.offset + n1 + n2 by omega]
      cases hg : g b ⟨s.input, s.offset + n1 + n2⟩ with
      | success c n3 => simp; omega
      | failure e c => simp [or_or_ofBool]
      | _ => simp
    | failure e c => simp [Res.addCommit, Res.advanceSuccess]
    | _ => simp [Res.addCommit, Res.advanceSuccess]
  | _ => simp

/-- Non-trivial instance of associativity: the inner failure is committed by either nesting. -/
example : flatMap (flatMap (elm 'a') fun _ => elm 'b') (fun _ => elm 'c') ⟨['a', 'b', 'x'], 0⟩ =
    .failure (.mismatch ['x'] 3 1) .committed := by decide

/-! ## C03 functor laws -/

theorem c03_map_id (p : Parser I A) : map p id = p := by
  funext s; simp only [map]; cases h : p s <;> simp

theorem c03_map_comp (p : Parser I A) (f : A → B) (g : B → C) :
    map (map p f) g = map p (g ∘ f) := by
  funext s; simp only [map]; cases h : p s <;> simp

theorem c03_map_eq_flatMap (p : Parser I A) (f : A → B) :
    map p f = flatMap p fun a => successful (f a) := by
  funext s
  simp only [map, flatMap, successful]
  cases h : p s <;> simp [Res.addCommit, Res.advanceSuccess]

/-- `map` keeps consumption on success. -/
theorem c03_map_success_iff (p : Parser I A) (f : A → B) (s : State I) (w : B) (n : Nat) :
    map p f s = .success w n ↔ ∃ v, p s = .success v n ∧ w = f v := by
  simp only [map]
  cases h : p s with
  | success v m =>
    simp only [Res.success.injEq]
    constructor
    · rintro ⟨rfl, rfl⟩; exact ⟨v, ⟨rfl, rfl⟩, rfl⟩
    · rintro ⟨v', ⟨rfl, rfl⟩, rfl⟩; exact ⟨rfl, rfl⟩
  | _ => simp

/-- `map` keeps errors and committed status. -/
theorem c03_map_failure_iff (p : Parser I A) (f : A → B) (s : State I) (e : PError I) (c : Committed) :
    map p f s = .failure e c ↔ p s = .failure e c := by
  simp only [map]; cases h : p s <;> simp

/-! ## C07 sequencing -/

theorem c07_andThen_success_iff (p : Parser I A) (q : Parser I B) (s : State I) (v : A × B) (n : Nat) :
    andThen p q s = .success v n ↔
      ∃ n1 n2, n = n1 + n2 ∧ p s = .success v.1 n1 ∧
        q ⟨s.input, s.offset + n1⟩ = .success v.2 n2 := by
  simp only [andThen, State.advanceBy]
  cases hp : p s with
  | success a m1 =>
    simp only
    cases hq : q ⟨s.input, s.offset + m1⟩ with
    | success b m2 =>
      simp only [Res.success.injEq]
      constructor
      · rintro ⟨rfl, rfl⟩; exact ⟨m1, m2, rfl, ⟨rfl, rfl⟩, by rw [hq]⟩
      · rintro ⟨n1, n2, rfl, ⟨h1, rfl⟩, h2⟩
        rw [hq] at h2; cases h2
        exact ⟨by rw [h1], rfl⟩
    | _ =>
      simp only [Res.success.injEq, reduceCtorEq, false_iff]
      rintro ⟨n1, n2, -, ⟨-, rfl⟩, h2⟩
      rw [hq] at h2; cases h2
  | _ => simp

/-- Failure of a sequence: the first part fails, or the second part fails where the first stopped;
error and status are those of the failing part. -/
theorem c07_andThen_failure_iff (p : Parser I A) (q : Parser I B) (s : State I) (e : PError I)
    (c : Committed) :
    andThen p q s = .failure e c ↔
      p s = .failure e c ∨
        ∃ a n1, p s = .success a n1 ∧ q ⟨s.input, s.offset + n1⟩ = .failure e c := by
  simp only [andThen, State.advanceBy]
  cases hp : p s with
  | success a m1 =>
    simp only
    cases hq : q ⟨s.input, s.offset + m1⟩ <;>
      simp only [Res.success.injEq, reduceCtorEq, false_or, false_iff, Res.failure.injEq]
    · rintro ⟨a', n1, ⟨-, rfl⟩, h2⟩; rw [hq] at h2; cases h2
    · constructor
      · rintro ⟨rfl, rfl⟩; exact ⟨a, m1, ⟨rfl, rfl⟩, by rw [hq]⟩
      · rintro ⟨a', n1, ⟨-, rfl⟩, h2⟩; rw [hq] at h2; cases h2; exact ⟨rfl, rfl⟩
    · rintro ⟨a', n1, ⟨-, rfl⟩, h2⟩; rw [hq] at h2; cases h2
    · rintro ⟨a', n1, ⟨-, rfl⟩, h2⟩; rw [hq] at h2; cases h2
  | _ => simp

theorem c07_skipLeft_eq (p : Parser I A) (q : Parser I B) :
    skipLeft p q = map (andThen p q) Prod.snd := by
  funext s
  simp only [skipLeft, map, andThen]
  cases hp : p s with
  | success a n => simp only; cases hq : q (s.advanceBy n) <;> simp
  | _ => simp

theorem c07_skipRight_eq (p : Parser I A) (q : Parser I B) :
    skipRight p q = map (andThen p q) Prod.fst := by
  funext s
  simp only [skipRight, map, andThen]
  cases hp : p s with
  | success a n => simp only; cases hq : q (s.advanceBy n) <;> simp [Res.advanceSuccess]
  | _ => simp

theorem c07_surround_success_iff (l : Parser I A) (p : Parser I B) (r : Parser I C) (s : State I)
    (v : B) (n : Nat) :
    surround l p r s = .success v n ↔
      ∃ a n1 n2 c n3, n = n1 + n2 + n3 ∧ l s = .success a n1 ∧
        p ⟨s.input, s.offset + n1⟩ = .success v n2 ∧
        r ⟨s.input, s.offset + n1 + n2⟩ = .success c n3 := by
  rw [surround, c07_skipLeft_eq, c07_skipRight_eq]
  simp only [c03_map_success_iff, c07_andThen_success_iff]
  constructor
  · rintro ⟨⟨a, b⟩, ⟨n1, m, rfl, h1, ⟨⟨b', c⟩, ⟨n2, n3, rfl, h2, h3⟩, rfl⟩⟩, rfl⟩
    exact ⟨a, n1, n2, c, n3, by omega, h1, h2, h3⟩
  · rintro ⟨a, n1, n2, c, n3, rfl, h1, h2, h3⟩
    exact ⟨(a, v), ⟨n1, n2 + n3, by omega, h1, (v, c), ⟨n2, n3, rfl, h2, h3⟩, rfl⟩, rfl⟩

example : surround (elm '(') (elm 'x') (elm ')') ⟨['(', 'x', ')'], 0⟩ = .success 'x' 3 := by decide

/-- Sequencing is associative up to re-pairing, including failures. -/
theorem c07_andThen_assoc (p : Parser I A) (q : Parser I B) (r : Parser I C) :
    map (andThen (andThen p q) r) (fun x => (x.1.1, (x.1.2, x.2))) = andThen p (andThen q r) := by
  funext s
  simp only [andThen, map, State.advanceBy]
  cases hp : p s with
  | success a n1 =>
    simp only
    cases hq : q ⟨s.input, s.offset + n1⟩ with
    | success b n2 =>
      simp only [Nat.add_assoc]
      cases hr : r ⟨s.input, s.offset + (n1 + n2)⟩ <;> simp
    | _ => simp
  | _ => simp

/-! ## C08 commitment after consumption -/

/-- The English claim: if the first part consumed something, a failure of the whole is committed. -/
def CommitsAfterConsumption (first : Parser I A) (whole : Parser I B) : Prop :=
  ∀ s a n e c, first s = .success a n → n ≠ 0 → whole s = .failure e c → c = .committed

/-- Holds for `flat_map`. -/
theorem c08_flatMap_commits (p : Parser I A) (f : A → Parser I B) :
    CommitsAfterConsumption p (flatMap p f) := by
  intro s a n e c hp hn hw
  simp only [flatMap, hp] at hw
  cases hf : f a (s.advanceBy n) with
  | failure e' c' =>
    rw [hf] at hw
    simp only [Res.addCommit, Res.advanceSuccess, Res.failure.injEq] at hw
    rw [← hw.2]
    have : (n != 0) = true := by simp [hn]
    rw [this]
    cases c' <;> rfl
  | _ => rw [hf] at hw; simp [Res.addCommit, Res.advanceSuccess] at hw

example : flatMap (elm 'a') (fun _ => elm 'b') ⟨['a', 'c'], 0⟩ =
    .failure (.mismatch ['c'] 2 1) .committed := by decide

/-- Violated by `and_then`. -/
theorem c08_andThen_violated :
    ¬ CommitsAfterConsumption (elm 'a') (andThen (elm 'a') (elm 'b')) := by
  intro h
  have := h ⟨['a', 'c'], 0⟩ 'a' 1 (.mismatch ['c'] 2 1) .uncommitted (by decide) (by decide) (by decide)
  cases this

/-- Violated by `skip_left` and `skip_right` (hence `surround`). -/
theorem c08_skip_violated :
    ¬ CommitsAfterConsumption (elm 'a') (skipLeft (elm 'a') (elm 'b')) ∧
    ¬ CommitsAfterConsumption (elm 'a') (skipRight (elm 'a') (elm 'b')) ∧
    ¬ CommitsAfterConsumption (elm 'a') (surround (elm 'a') (elm 'b') (elm 'c')) := by
  refine ⟨fun h => ?_, fun h => ?_, fun h => ?_⟩ <;>
    cases h ⟨['a', 'c'], 0⟩ 'a' 1 (.mismatch ['c'] 2 1) .uncommitted (by decide) (by decide) (by decide)

/-- What does hold for `and_then`: the status is decided by the failing part alone, so the sequence
commits after consumption exactly if the second part only fails committed there. -/
theorem c08_andThen_partial (p : Parser I A) (q : Parser I B) :
    CommitsAfterConsumption p (andThen p q) ↔
      ∀ s a n e c, p s = .success a n → n ≠ 0 → q ⟨s.input, s.offset + n⟩ = .failure e c →
        c = .committed := by
  constructor
  · intro h s a n e c hp hn hq
    exact h s a n e c hp hn ((c07_andThen_failure_iff p q s e c).2 (.inr ⟨a, n, hp, hq⟩))
  · intro h s a n e c hp hn hw
    rcases (c07_andThen_failure_iff p q s e c).1 hw with h1 | ⟨a', n1, h1, h2⟩
    · rw [hp] at h1; cases h1
    · rw [hp] at h1; cases h1; exact h s a n e c hp hn h2

/-- So `and_then`, `skip_left` and `skip_right` violate it for all parsers of which the second fails without commitment
somewhere behind something read by the first; and the alternative is tried from the start. -/
theorem c08_andThen_general_violated (p : Parser I A) (q : Parser I B) (s : State I) (a : A) (n : Nat) (e : PError I)
    (hp : p s = .success a n) (hn : n ≠ 0) (hq : q ⟨s.input, s.offset + n⟩ = .failure e .uncommitted) :
    ¬ CommitsAfterConsumption p (andThen p q) ∧ ¬ CommitsAfterConsumption p (skipLeft p q) ∧
    ¬ CommitsAfterConsumption p (skipRight p q) ∧
    (∀ r : Parser I (A × B), or (andThen p q) r s = r s) ∧ (∀ r : Parser I B, or (skipLeft p q) r s = r s) ∧
    ∀ r : Parser I A, or (skipRight p q) r s = r s := by
  have hq' : q (s.advanceBy n) = .failure e .uncommitted := hq
  have h1 : andThen p q s = .failure e .uncommitted := by simp [andThen, hp, hq']
  have h2 : skipLeft p q s = .failure e .uncommitted := by simp [skipLeft, hp, hq']
  have h3 : skipRight p q s = .failure e .uncommitted := by simp [skipRight, hp, hq', Res.advanceSuccess]
  refine ⟨fun h => ?_, fun h => ?_, fun h => ?_, fun r => ?_, fun r => ?_, fun r => ?_⟩
  · cases h s a n e _ hp hn h1
  · cases h s a n e _ hp hn h2
  · cases h s a n e _ hp hn h3
  · simp [or, h1]
  · simp [or, h2]
  · simp [or, h3]

/-- Consequence: in `p + q | r` the branch `r` is tried even after `p` consumed input, whereas in
`p.flat_map(|_| q) | r` it is not. -/
theorem c08_branch_after_consumption_differs :
    or (andThen (elm 'a') (elm 'b')) (andThen (elm 'a') (elm 'c')) ⟨['a', 'c'], 0⟩
      = .success ('a', 'c') 2 ∧
    or (flatMap (elm 'a') fun a => map (elm 'b') fun b => (a, b))
      (andThen (elm 'a') (elm 'c')) ⟨['a', 'c'], 0⟩
      = .failure (.mismatch ['c'] 2 1) .committed := by decide

/-! ## C09 attempt -/

theorem c09_attempt_never_commits (p : Parser I A) (s : State I) (e : PError I) :
    attempt p s ≠ .failure e .committed := by
  simp only [attempt]
  cases h : p s with
  | failure e' c => cases c <;> simp [Res.withUncommitted]
  | _ => simp [Res.withUncommitted]

theorem c09_attempt_success_iff (p : Parser I A) (s : State I) (v : A) (n : Nat) :
    attempt p s = .success v n ↔ p s = .success v n := by
  simp only [attempt]
  cases h : p s with
  | failure e' c => cases c <;> simp [Res.withUncommitted]
  | _ => simp [Res.withUncommitted]

theorem c09_attempt_failure_iff (p : Parser I A) (s : State I) (e : PError I) :
    attempt p s = .failure e .uncommitted ↔ ∃ c, p s = .failure e c := by
  simp only [attempt]
  cases h : p s with
  | failure e' c => cases c <;> simp [Res.withUncommitted]
  | _ => simp [Res.withUncommitted]

theorem c09_attempt_idem (p : Parser I A) : attempt (attempt p) = attempt p := by
  funext s
  simp only [attempt]
  cases h : p s with
  | failure e' c => cases c <;> simp [Res.withUncommitted]
  | _ => simp [Res.withUncommitted]

theorem c09_attempt_or (p q : Parser I A) (s : State I) (e : PError I) (c : Committed)
    (h : p s = .failure e c) : or (attempt p) q s = q s :=
  c01_or_backtracks _ _ _ e ((c09_attempt_failure_iff p s e).2 ⟨c, h⟩)

example : or (attempt (seq ['a', 'b'])) (seq ['a', 'c']) ⟨['a', 'c'], 0⟩ = .success ['a', 'c'] 2 := by
  decide

/-- Failure, panic and non-termination of `attempt p` are those of `p`. -/
theorem c09_attempt_other (p : Parser I A) (s : State I) :
    (attempt p s = .panic ↔ p s = .panic) ∧ (attempt p s = .diverge ↔ p s = .diverge) := by
  simp only [attempt]
  cases h : p s with
  | failure e' c => cases c <;> simp [Res.withUncommitted]
  | _ => simp [Res.withUncommitted]

/-! ## C10 opt -/

theorem c10_opt_some_iff (p : Parser I A) (s : State I) (v : A) (n : Nat) :
    opt p s = .success (some v) n ↔ p s = .success v n := by
  simp only [opt, or, map, attempt, successful]
  cases h : p s with
  | failure e' c => cases c <;> simp [Res.withUncommitted]
  | _ => simp [Res.withUncommitted]

theorem c10_opt_none_iff (p : Parser I A) (s : State I) (n : Nat) :
    opt p s = .success none n ↔ n = 0 ∧ ∃ e c, p s = .failure e c := by
  simp only [opt, or, map, attempt, successful]
  cases h : p s with
  | failure e' c => cases c <;> simp [Res.withUncommitted, eq_comm]
  | _ => simp [Res.withUncommitted]

theorem c10_opt_never_fails (p : Parser I A) (s : State I) (e : PError I) (c : Committed) :
    opt p s ≠ .failure e c := by
  simp only [opt, or, map, attempt, successful]
  cases h : p s with
  | failure e' c => cases c <;> simp [Res.withUncommitted]
  | _ => simp [Res.withUncommitted]

/-- Even a committed failure after partial consumption gives `None` and consumes nothing. -/
example : seq ['a', 'b'] ⟨['a', 'c'], 0⟩ = .failure (.mismatch ['a', 'c'] 1 1) .committed ∧
    opt (seq ['a', 'b']) ⟨['a', 'c'], 0⟩ = .success none 0 := by decide

/-! ## C11 lookahead -/

theorem c11_peek_success_iff (p : Parser I A) (s : State I) (v : A) (n : Nat) :
    peek p s = .success v n ↔ n = 0 ∧ ∃ m, p s = .success v m := by
  simp only [peek]
  cases h : p s with
  | success v' m =>
    simp only [Res.success.injEq]
    constructor
    · rintro ⟨rfl, rfl⟩; exact ⟨rfl, m, rfl, rfl⟩
    · rintro ⟨rfl, _, rfl, _⟩; exact ⟨rfl, rfl⟩
  | _ => simp

theorem c11_peek_failure_iff (p : Parser I A) (s : State I) (e : PError I) (c : Committed) :
    peek p s = .failure e c ↔ p s = .failure e c := by
  simp only [peek]; cases h : p s <;> simp

theorem c11_exists_iff (p : Parser I A) (s : State I) (b : Bool) (n : Nat) :
    exists_ p s = .success b n ↔
      n = 0 ∧ ((b = true ∧ ∃ v m, p s = .success v m) ∨ (b = false ∧ ∃ e c, p s = .failure e c)) := by
  simp only [exists_]; cases h : p s <;> simp [eq_comm, and_comm]

theorem c11_exists_never_fails (p : Parser I A) (s : State I) (e : PError I) (c : Committed) :
    exists_ p s ≠ .failure e c := by
  simp only [exists_]; cases h : p s <;> simp

theorem c11_not_success_iff (p : Parser I A) (s : State I) (n : Nat) :
    not_ p s = .success () n ↔ n = 0 ∧ ∃ e c, p s = .failure e c := by
  simp only [not_]
  cases h : p s with
  | success v m => simp [State.withInput]; split <;> simp
  | _ => simp [eq_comm]

/-- From a position inside the input, `not p` fails exactly if `p` succeeds, always uncommitted. -/
theorem c11_not_failure_iff (p : Parser I A) (s : State I) (hs : s.offset ≤ s.input.length)
    (c : Committed) :
    (∃ e, not_ p s = .failure e c) ↔ c = .uncommitted ∧ ∃ v m, p s = .success v m := by
  simp only [not_]
  cases h : p s with
  | success v m =>
    simp only [State.withInput, State.advanceBy, Nat.add_zero, hs, if_true, Res.failure.injEq,
      Res.success.injEq]
    constructor
    · rintro ⟨e, -, rfl⟩; exact ⟨rfl, v, m, rfl, rfl⟩
    · rintro ⟨rfl, -⟩; exact ⟨_, rfl, rfl⟩
  | _ => simp

/-- `exists` and `not` are complementary. -/
theorem c11_exists_not (p : Parser I A) (s : State I) :
    (not_ p s = .success () 0 ↔ exists_ p s = .success false 0) := by
  rw [c11_not_success_iff, c11_exists_iff]; simp

example : not_ (elm 'a') ⟨['x', 'b'], 1⟩ = .success () 0 ∧
    not_ (elm 'b') ⟨['x', 'b'], 1⟩ = .failure (.mismatch ['b'] 0 0) .uncommitted ∧
    peek (elm 'b') ⟨['x', 'b'], 1⟩ = .success 'b' 0 := by decide

/-! ## C20 chain with default -/

theorem c20_chainLeft0_chain (p : Parser I A) (op : Parser I (A → A → A)) (x v : A) (s : State I)
    (n : Nat) (h : chainLeft1 p op s = .success v n) : chainLeft0 p op x s = .success v n := by
  simp [chainLeft0, or, h]

theorem c20_chainLeft0_default (p : Parser I A) (op : Parser I (A → A → A)) (x : A) (s : State I)
    (e : PError I) (h : p s = .failure e .uncommitted) : chainLeft0 p op x s = .success x 0 := by
  simp [chainLeft0, or, chainLeft1, flatMap, h, successful]

theorem c20_chainRight0_chain (p : Parser I A) (op : Parser I (A → A → A)) (x v : A) (s : State I)
    (n : Nat) (h : chainRight1 p op s = .success v n) : chainRight0 p op x s = .success v n := by
  simp [chainRight0, or, h]

theorem c20_chainRight0_default (p : Parser I A) (op : Parser I (A → A → A)) (x : A) (s : State I)
    (e : PError I) (h : p s = .failure e .uncommitted) : chainRight0 p op x s = .success x 0 := by
  simp [chainRight0, or, chainRight1, flatMap, h, successful]

/-- A committed failure inside the chain is not replaced by the default. -/
theorem c20_chain0_committed (p : Parser I A) (op : Parser I (A → A → A)) (x : A) (s : State I)
    (e : PError I) (h : chainLeft1 p op s = .failure e .committed) :
    chainLeft0 p op x s = .failure e .committed := by
  simp [chainLeft0, or, h]

example : chainLeft0 (map (elmDigit (I := Char)) fun c => c.toNat - 48)
    (map (elm '+') fun _ => (· + ·)) 7 ⟨['x'], 0⟩ = .success 7 0 := by decide
example : chainLeft0 (map (elmDigit (I := Char)) fun c => c.toNat - 48)
    (map (elm '+') fun _ => (· + ·)) 7 ⟨['1', '+', '2', '+', '3'], 0⟩ = .success 6 5 := by decide

/-! ## C27 filter -/

theorem c27_filter_success_iff (p : Parser I A) (f : A → Bool) (s : State I) (v : A) (n : Nat) :
    filter p f s = .success v n ↔ p s = .success v n ∧ f v = true := by
  simp only [filter]
  cases h : p s with
  | success w m =>
    by_cases hf : f w = true
    · simp only [hf, if_true, Res.success.injEq]
      constructor
      · rintro ⟨rfl, rfl⟩; exact ⟨⟨rfl, rfl⟩, hf⟩
      · rintro ⟨⟨rfl, rfl⟩, -⟩; exact ⟨rfl, rfl⟩
    · simp only [hf, Bool.false_eq_true, if_false, Res.success.injEq, reduceCtorEq, false_iff]
      rintro ⟨⟨rfl, rfl⟩, h⟩; exact hf h
  | _ => simp

/-- A rejected value is an uncommitted failure located right after the rejected text. -/
theorem c27_filter_rejects (p : Parser I A) (f : A → Bool) (s : State I) (v : A) (n : Nat)
    (h : p s = .success v n) (hf : f v = false) :
    filter p f s = .failure (.custom (s.offset + n) (.text "filter: predicate returned false"))
      .uncommitted := by
  simp [filter, h, hf]

theorem c27_filter_failure (p : Parser I A) (f : A → Bool) (s : State I) (e : PError I) (c : Committed)
    (h : p s = .failure e c) : filter p f s = .failure e c := by
  simp [filter, h]

/-- For each success of `p` exactly one of `with_filter(f)` and `with_filter_not(f)` succeeds. -/
theorem c27_filterNot_complement (p : Parser I A) (f : A → Bool) (s : State I) (v : A) (n : Nat)
    (h : p s = .success v n) :
    (filter p f s = .success v n ∧ ¬ ∃ w m, filterNot p f s = .success w m) ∨
    (filterNot p f s = .success v n ∧ ¬ ∃ w m, filter p f s = .success w m) := by
  cases hf : f v
  · right; simp [filterNot, filter, h, hf]
  · left; simp [filterNot, filter, h, hf]

example : filterNot (elmDigit (I := Char)) (· == '0') ⟨['7'], 0⟩ = .success '7' 1 ∧
    filterNot (elmDigit (I := Char)) (· == '0') ⟨['0'], 0⟩ =
      .failure (.custom 1 (.text "filter: predicate returned false")) .uncommitted := by decide

/-! ## C28 conversions -/

theorem c28_mapRes_success_iff (p : Parser I A) (f : A → Option B) (s : State I) (w : B) (n : Nat) :
    mapRes p f s = .success w n ↔ ∃ v, p s = .success v n ∧ f v = some w := by
  simp only [mapRes]
  cases h : p s with
  | success v m =>
    cases hf : f v with
    | some b =>
      simp only [hf, Res.success.injEq]
      constructor
      · rintro ⟨rfl, rfl⟩; exact ⟨v, ⟨rfl, rfl⟩, hf⟩
      · rintro ⟨v', ⟨rfl, rfl⟩, h'⟩; rw [hf] at h'; cases h'; exact ⟨rfl, rfl⟩
    | none =>
      simp only [hf, State.withInput, Res.success.injEq]
      constructor
      · intro h'; split at h' <;> cases h'
      · rintro ⟨v', ⟨rfl, rfl⟩, h'⟩; rw [hf] at h'; cases h'
  | _ => simp

/-- A failed conversion inside the input is an uncommitted `Conversion` failure. -/
theorem c28_mapRes_conversion_failure (p : Parser I A) (f : A → Option B) (s : State I) (v : A) (n : Nat)
    (hs : s.offset ≤ s.input.length) (h : p s = .success v n) (hf : f v = none) :
    ∃ off, mapRes p f s = .failure (.conversion (s.input.drop s.offset) off 0) .uncommitted := by
  simp [mapRes, h, hf, State.withInput, hs]

theorem c28_mapRes_failure (p : Parser I A) (f : A → Option B) (s : State I) (e : PError I) (c : Committed)
    (h : p s = .failure e c) : mapRes p f s = .failure e c := by
  simp [mapRes, h]

theorem c28_mapOpt_success_iff (p : Parser I A) (f : A → Option B) (s : State I) (w : B) (n : Nat) :
    mapOpt p f s = .success w n ↔ ∃ v, p s = .success v n ∧ f v = some w :=
  c28_mapRes_success_iff p f s w n

theorem c28_mapOpt_conversion_failure (p : Parser I A) (f : A → Option B) (s : State I) (v : A) (n : Nat)
    (hs : s.offset ≤ s.input.length) (h : p s = .success v n) (hf : f v = none) :
    ∃ off, mapOpt p f s = .failure (.conversion (s.input.drop s.offset) off 0) .uncommitted :=
  c28_mapRes_conversion_failure p f s v n hs h hf

example : mapRes (elmAny (I := Char)) (fun c => if c = '1' then some 1 else none) ⟨['x', '1'], 1⟩
      = .success 1 1 ∧
    mapRes (elmAny (I := Char)) (fun c => if c = '1' then some 1 else none) ⟨['x', '1'], 0⟩
      = .failure (.conversion ['x', '1'] 0 0) .uncommitted := by decide

/-! ## C29 collect -/

/-- A success of `collect` is a success of `p` whose value is the consumed text. -/
theorem c29_collect_success_iff (p : Parser I A) (s : State I) (t : List I) (n : Nat) :
    collect p s = .success t n ↔
      (∃ v, p s = .success v n) ∧ s.offset + n ≤ s.input.length ∧
        t = (s.input.drop s.offset).take n := by
  simp only [collect]
  cases h : p s with
  | success v m =>
    simp only [State.withSlice, Res.success.injEq]
    by_cases hb : s.offset + m ≤ s.input.length
    · simp only [hb, if_true, Res.success.injEq]
      constructor
      · rintro ⟨rfl, rfl⟩; exact ⟨⟨v, rfl, rfl⟩, hb, rfl⟩
      · rintro ⟨⟨v', -, rfl⟩, -, rfl⟩; exact ⟨rfl, rfl⟩
    · simp only [hb, if_false, reduceCtorEq, false_iff]
      rintro ⟨⟨v', -, rfl⟩, h2, -⟩; exact hb h2
  | _ => simp

/-- The text collected from a sequence is the concatenation of the texts collected from its parts. -/
theorem c29_collect_andThen (p : Parser I A) (q : Parser I B) (s : State I) (t : List I) (n : Nat)
    (h : collect (andThen p q) s = .success t n) :
    ∃ n1 n2 t1 t2, n = n1 + n2 ∧ collect p s = .success t1 n1 ∧
      collect q ⟨s.input, s.offset + n1⟩ = .success t2 n2 ∧ t = t1 ++ t2 := by
  obtain ⟨⟨v, hv⟩, hb, rfl⟩ := (c29_collect_success_iff _ _ _ _).1 h
  obtain ⟨n1, n2, rfl, h1, h2⟩ := (c07_andThen_success_iff _ _ _ _ _).1 hv
  refine ⟨n1, n2, _, _, rfl, (c29_collect_success_iff _ _ _ _).2 ⟨⟨_, h1⟩, by omega, rfl⟩,
    (c29_collect_success_iff _ _ _ _).2 ⟨⟨_, h2⟩, by simp; omega, rfl⟩, ?_⟩
  simp only [List.take_add, List.drop_drop]

/-- The collected text really is the text between the start and the end position. -/
theorem c29_collect_text (p : Parser I A) (s : State I) (t : List I) (n : Nat)
    (h : collect p s = .success t n) :
    t.length = n ∧ s.input = s.input.take s.offset ++ t ++ s.input.drop (s.offset + n) := by
  obtain ⟨-, hb, rfl⟩ := (c29_collect_success_iff _ _ _ _).1 h
  refine ⟨by simp; omega, ?_⟩
  rw [List.append_assoc, ← List.drop_drop, List.take_append_drop, List.take_append_drop]

example : collect (andThen (elm 'a') (elm 'b')) ⟨['x', 'a', 'b', 'c'], 1⟩ = .success ['a', 'b'] 2 := by
  decide

/-! ## C30 naming, expecting, logging, lazy -/

/-- Two parsers that recognise the same: same successes, failures with the same status, same panics
and same non-termination; only the error payload may differ. -/
def SameUpToError (p q : Parser I A) : Prop :=
  ∀ s, (∀ v n, p s = .success v n ↔ q s = .success v n) ∧
    (∀ c, (∃ e, p s = .failure e c) ↔ (∃ e, q s = .failure e c)) ∧
    (p s = .panic ↔ q s = .panic) ∧ (p s = .diverge ↔ q s = .diverge)

theorem c30_name_transparent (p : Parser I A) (l : String) : SameUpToError (name p l) p := by
  intro s
  simp only [name]
  cases h : p s with
  | failure e c => by_cases hc : e.isCustom = true <;> simp [hc]
  | _ => simp

theorem c30_expect_transparent (p : Parser I A) (l : String) : SameUpToError (expect p l) p := by
  intro s
  simp only [expect]
  cases h : p s <;> simp

/-- Naming keeps an error that is already custom (for instance one from an inner `name`). -/
theorem c30_name_innermost (p : Parser I A) (l m : String) : name (name p l) m = name p l := by
  funext s
  simp only [name]
  cases h : p s with
  | failure e c =>
    by_cases hc : e.isCustom = true
    · simp [hc]
    · simp only [hc, Bool.false_eq_true, if_false]; simp [PError.isCustom]
  | _ => simp

/-- Naming attaches the label and keeps the original error inside. -/
theorem c30_name_wraps (p : Parser I A) (l : String) (s : State I) (e : PError I) (c : Committed)
    (h : p s = .failure e c) (he : e.isCustom = false) :
    ∃ off, name p l s = .failure (.customInner off e (.failedToParse l)) c := by
  simp [name, h, he]

/-- `name`/`expect` can be put anywhere in an alternative without changing what is recognised. -/
theorem c30_name_or (p q : Parser I A) (l : String) :
    SameUpToError (or (name p l) q) (or p q) := by
  intro s
  simp only [name, or]
  cases h : p s with
  | failure e c => by_cases hc : e.isCustom = true <;> cases c <;> simp [hc]
  | _ => simp

example : name (elm 'a') "letter" ⟨['b'], 0⟩ =
    .failure (.customInner 0 (.mismatch ['b'] 1 1) (.failedToParse "letter")) .uncommitted := by decide

/-! ## C34 end -/

/-- `(p - end()).parse(input)` is `Ok(v)` exactly if `p` succeeds with `v` consuming everything. -/
theorem c34_whole_input (p : Parser I A) (input : List I) (v : A) :
    parse (skipRight p end_) input = .ok v ↔ p ⟨input, 0⟩ = .success v input.length := by
  simp only [parse, skipRight, State.advanceBy, Nat.zero_add]
  cases h : p ⟨input, 0⟩ with
  | success a n =>
    simp only [end_, State.withInput, Res.success.injEq]
    by_cases hn : n ≤ input.length
    · simp only [hn, if_true]
      cases hd : input.drop n with
      | nil =>
        have : input.length ≤ n := by simpa using hd
        simp only [Res.toOut, Res.Out.ok.injEq]
        exact ⟨fun h => ⟨h, by omega⟩, fun h => h.1⟩
      | cons x xs =>
        have : n < input.length := by
          rcases Nat.lt_or_ge n input.length with h | h
          · exact h
          · rw [List.drop_eq_nil_of_le h] at hd; cases hd
        simp only [Res.toOut, Res.advanceSuccess, reduceCtorEq, false_iff]
        omega
    · simp only [hn, if_false, Res.toOut, reduceCtorEq, false_iff]
      omega
  | _ => simp [Res.toOut]

theorem c34_end_iff (s : State I) :
    end_ s = .success () 0 ↔ s.offset = s.input.length := by
  simp only [end_, State.withInput]
  by_cases hn : s.offset ≤ s.input.length
  · simp only [hn, if_true]
    cases hd : s.input.drop s.offset with
    | nil => have : s.input.length ≤ s.offset := by simpa using hd
             simp; omega
    | cons x xs =>
      have : ¬ s.input.length ≤ s.offset := fun h => by
        rw [List.drop_eq_nil_of_le h] at hd; cases hd
      simp; omega
  · simp [hn]; omega

example : parse (skipRight (elm 'a') end_) ['a'] = .ok 'a' ∧
    parse (skipRight (elm 'a') end_) ['a', 'b'] = .err (.mismatch ['b'] 2 1) := by decide

/-! ### C67: `next_offset` and `last_offset` -/

/-- C67: `p.next_offset()` succeeds exactly when `p` does, consumes the same, and its value is the absolute
position behind the consumed elements; failures are those of `p`. -/
theorem c67_nextOffset (p : Parser I A) (s : State I) (v n : Nat) :
    nextOffset p s = .success v n ↔ (∃ a, p s = .success a n) ∧ v = s.offset + n := by
  unfold nextOffset
  cases p s <;> simp [State.advanceBy]
  constructor
  · rintro ⟨rfl, rfl⟩; exact ⟨rfl, rfl⟩
  · rintro ⟨rfl, rfl⟩; exact ⟨rfl, rfl⟩

/-- C67: `p.last_offset()` succeeds exactly when `p` does and consumes the same; its value is the position
of the last element before the end of the match, and 0 when nothing of the input lies before it. -/
theorem c67_lastOffset (p : Parser I A) (s : State I) (v n : Nat) :
    lastOffset p s = .success v n ↔
      (∃ a, p s = .success a n) ∧ (s.offset + n = v + 1 ∨ s.offset + n = 0 ∧ v = 0) := by
  unfold lastOffset
  cases p s <;> simp [State.advanceBy, State.lastOffset]
  constructor
  · rintro ⟨rfl, rfl⟩; split <;> omega
  · rintro ⟨rfl, h⟩; exact ⟨by split <;> omega, rfl⟩

theorem c67_offsets_failure (p : Parser I A) (s : State I) (e : PError I) (c : Committed) :
    (nextOffset p s = .failure e c ↔ p s = .failure e c) ∧ (lastOffset p s = .failure e c ↔ p s = .failure e c) := by
  unfold nextOffset lastOffset
  cases p s <;> simp

/-- Both positions of a two element match that starts at position 1. -/
example : nextOffset (andThen (elm 'b') (elm 'c')) ⟨['a', 'b', 'c'], 1⟩ = .success 3 2 ∧
    lastOffset (andThen (elm 'b') (elm 'c')) ⟨['a', 'b', 'c'], 1⟩ = .success 2 2 := by decide

end OniComb
