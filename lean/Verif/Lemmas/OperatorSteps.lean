import Verif.Lemmas.Fair
import Verif.Spec.OperatorTicks

/-! # Helper lemmas: the steps of operator tables -/

namespace OniComb.Operators
open OniComb OniComb.Steps
open OniComb.Counted (prim)
variable {I A B : Type} {a w W : Nat}

/-- A success of `n` elements takes at most `a * n + w` steps, everything else `a` steps for every element that is left, and `W`. -/
structure Paid (a w W : Nat) (c : Counted I A) : Prop where
  ok : ∀ s v n, s.offset ≤ s.input.length → c.run s = .success v n → n ≤ left s ∧ c.steps s ≤ a * n + w
  other : ∀ s, s.offset ≤ s.input.length → (∀ v n, c.run s ≠ .success v n) → c.steps s ≤ a * left s + W

/-- An operator: one element, one step. -/
structure Sign (op : Counted I B) : Prop where
  ok : ∀ s v n, s.offset ≤ s.input.length → op.run s = .success v n → n = 1 ∧ 1 ≤ left s
  steps : ∀ s, op.steps s = 1

theorem Paid.lazy {f : Unit → Counted I A} (h : Paid a w W (f ())) : Paid a (w + 1) (W + 1) (.lazy f) where
  ok := fun s v n hs hr => by
    have := h.ok s v n hs hr
    refine ⟨this.1, ?_⟩
    show 1 + (f ()).steps s ≤ _
    omega
  other := fun s hs hr => by
    have := h.other s hs hr
    show 1 + (f ()).steps s ≤ _
    omega

theorem onSuccess_other {r : Res I A} (h : ∀ v n, r ≠ .success v n) (k : A → Nat → Nat) : r.onSuccess k = 0 := by
  cases r with
  | success v n => exact (h v n rfl).elim
  | _ => rfl

theorem rest_bound {p : Counted I A} {op : Counted I (A → A → A)} (hp : Paid a w W p) (hop : Sign op) (ha : w + 1 ≤ a)
    (hW : w + 1 ≤ W) : ∀ (k : Nat) (x : A) (s : State I), s.offset ≤ s.input.length →
    (∀ v n, restLeft1N p.run op.run k x s = .success v n → n ≤ left s ∧ Counted.restSteps p op k x s ≤ a * n + 1) ∧
    ((∀ v n, restLeft1N p.run op.run k x s ≠ .success v n) → Counted.restSteps p op k x s + w ≤ a * left s + W)
  | 0, x, s, hs => ⟨fun v n h => (by cases h), fun _ => by rw [Counted.restSteps]; omega⟩
  | k + 1, x, s, hs => by
    have hstep : Counted.restSteps p op (k + 1) x s = 1 + (op.run s).onSuccess fun f n1 => p.steps (s.advanceBy n1) +
      (p.run (s.advanceBy n1)).onSuccess fun y n2 => Counted.restSteps p op k (f x y) ((s.advanceBy n1).advanceBy n2) := by
      rw [Counted.restSteps, hop.steps]
    have hrun : restLeft1N p.run op.run (k + 1) x s = OniComb.or (fun s =>
        match op.run s with
        | .success f n1 => (((match p.run (s.advanceBy n1) with
            | .success y n2 => ((restLeft1N p.run op.run k (f x y)) ((s.advanceBy n1).advanceBy n2)).advanceSuccess n2
            | .failure e c => .failure e c
            | .panic => .panic
            | .diverge => .diverge) : Res I A).addCommit (n1 != 0)).advanceSuccess n1
        | .failure e c => .failure e c
        | .panic => .panic
        | .diverge => .diverge) (successful x) s := by
      rw [restLeft1N]
      simp only [OniComb.or, advance_zero]
      cases op.run s with
      | success f n1 => cases h : p.run (s.advanceBy n1) <;> simp only [h]
      | _ => rfl
    rw [hstep, hrun]
    cases h1 : op.run s with
    | success f n1 =>
      obtain ⟨rfl, h3⟩ := hop.ok s f n1 hs h1
      have hs1 := fits_advance hs h3
      have hl1 := left_advance h3
      simp only [OniComb.or, h1, Res.onSuccess]
      cases h5 : p.run (s.advanceBy 1) with
      | success y n2 =>
        obtain ⟨h7, h8⟩ := hp.ok _ y n2 hs1 h5
        have hs2 := fits_advance hs1 h7
        have hl2 := left_advance h7
        obtain ⟨ih1, ih2⟩ := rest_bound hp hop ha hW k (f x y) _ hs2
        dsimp only
        cases hk : restLeft1N p.run op.run k (f x y) ((s.advanceBy 1).advanceBy n2) with
        | success v' n' =>
          obtain ⟨h9, h10⟩ := ih1 v' n' hk
          refine ⟨fun v n hv => ?_, fun hv => ?_⟩
          · simp only [Res.advanceSuccess, Res.addCommit, Res.success.injEq] at hv
            obtain ⟨-, rfl⟩ := hv
            refine ⟨by omega, ?_⟩
            rw [Nat.mul_add, Nat.mul_add, Nat.mul_one]
            omega
          · exact (hv _ _ rfl).elim
        | failure e c =>
          have h10 := ih2 (by rw [hk]; simp)
          refine ⟨fun v n hv => ?_, fun _ => ?_⟩
          · cases c <;> simp [Res.advanceSuccess, Res.addCommit, Committed.or, Committed.ofBool] at hv
          · rw [hl1, hl2, Nat.mul_add, Nat.mul_add, Nat.mul_one]
            omega
        | _ =>
          have h10 := ih2 (by rw [hk]; simp)
          refine ⟨fun v n hv => ?_, fun _ => ?_⟩
          · simp [Res.advanceSuccess, Res.addCommit] at hv
          · rw [hl1, hl2, Nat.mul_add, Nat.mul_add, Nat.mul_one]
            omega
      | failure e c =>
        have h6 := hp.other _ hs1 (by rw [h5]; simp)
        refine ⟨fun v n hv => ?_, fun _ => ?_⟩
        · cases c <;> simp [Res.advanceSuccess, Res.addCommit, Committed.or, Committed.ofBool] at hv
        · rw [hl1, Nat.mul_add, Nat.mul_one]
          dsimp only
          omega
      | _ =>
        have h6 := hp.other _ hs1 (by rw [h5]; simp)
        refine ⟨fun v n hv => ?_, fun _ => ?_⟩
        · simp [Res.advanceSuccess, Res.addCommit] at hv
        · rw [hl1, Nat.mul_add, Nat.mul_one]
          dsimp only
          omega
    | failure e c =>
      simp only [OniComb.or, h1, Res.onSuccess]
      refine ⟨fun v n hv => ?_, fun _ => by omega⟩
      cases c <;> simp [successful] at hv
      exact ⟨by omega, by omega⟩
    | _ =>
      simp only [OniComb.or, h1, Res.onSuccess]
      exact ⟨fun v n hv => by simp at hv, fun _ => by omega⟩

/-- Operators that associate to the left. -/
theorem chain_bound {p : Counted I A} {op : Counted I (A → A → A)} (hp : Paid a w W p) (hop : Sign op) (ha : w + 1 ≤ a)
    (hW : w + 1 ≤ W) : Paid a (w + 2) W (.chainLeft1 p op) := by
  have hsteps : ∀ s, (Counted.chainLeft1 p op).steps s = p.steps s + (p.run s).onSuccess fun x n =>
    Counted.restSteps p op ((s.advanceBy n).input.length - (s.advanceBy n).offset + 2) x (s.advanceBy n) := fun _ => rfl
  have hrun : ∀ s, (Counted.chainLeft1 p op).run s = OniComb.flatMap p.run (fun x => OniComb.restLeft1 p.run op.run x) s := fun _ => rfl
  refine ⟨fun s v n hs hr => ?_, fun s hs hr => ?_⟩
  · rw [hrun] at hr
    rw [hsteps]
    simp only [OniComb.flatMap] at hr
    cases h1 : p.run s with
    | success x n1 =>
      simp only [h1, OniComb.restLeft1] at hr
      obtain ⟨h3, h4⟩ := hp.ok s x n1 hs h1
      have hl1 := left_advance h3
      obtain ⟨h5, -⟩ := rest_bound hp hop ha hW ((s.advanceBy n1).input.length - (s.advanceBy n1).offset + 2) x _ (fits_advance hs h3)
      cases hk : restLeft1N p.run op.run ((s.advanceBy n1).input.length - (s.advanceBy n1).offset + 2) x (s.advanceBy n1) with
      | success v' n' =>
        rw [hk] at hr
        simp only [Res.advanceSuccess, Res.addCommit, Res.success.injEq] at hr
        obtain ⟨-, rfl⟩ := hr
        obtain ⟨h6, h7⟩ := h5 v' n' hk
        simp only [Res.onSuccess]
        rw [Nat.mul_add]
        exact ⟨by omega, by omega⟩
      | _ => rw [hk] at hr; simp [Res.advanceSuccess, Res.addCommit] at hr
    | _ => simp [h1] at hr
  · rw [hsteps]
    by_cases h1 : ∃ x n1, p.run s = .success x n1
    · obtain ⟨x, n1, h1⟩ := h1
      obtain ⟨h3, h4⟩ := hp.ok s x n1 hs h1
      have hl1 := left_advance h3
      obtain ⟨-, h5⟩ := rest_bound hp hop ha hW ((s.advanceBy n1).input.length - (s.advanceBy n1).offset + 2) x _ (fits_advance hs h3)
      have h6 := h5 fun v n hk => by
        refine hr v (n + n1) ?_
        rw [hrun]
        simp only [OniComb.flatMap, h1, OniComb.restLeft1]
        rw [hk]
        rfl
      rw [h1]
      simp only [Res.onSuccess]
      rw [hl1, Nat.mul_add]
      omega
    · have h1 : ∀ v n, p.run s ≠ .success v n := fun v n h => h1 ⟨v, n, h⟩
      have h2 := hp.other s hs h1
      rw [onSuccess_other h1]
      omega

/-- Operators that associate to the right. -/
def rightLevel (p q : Counted I A) (op : Counted I (A → A → A)) : Counted I A :=
  .flatMap p fun x => .or (.flatMap op fun f => .unary (fun p => map p fun y => f x y) q) (prim (successful x))

theorem right_bound {p q : Counted I A} {op : Counted I (A → A → A)} {W' : Nat} (hp : Paid a w W p) (hq : Paid a (w + 3) W' q)
    (hop : Sign op) (ha : w + 2 ≤ a) (hW : w + 1 ≤ W) (hW' : W' ≤ W + 1) : Paid a (w + 2) W (rightLevel p q op) := by
  have hsteps : ∀ s, (rightLevel p q op).steps s = p.steps s + (p.run s).onSuccess fun x n => 1 + ((op.run (s.advanceBy n)).onSuccess fun f n1 =>
      q.steps ((s.advanceBy n).advanceBy n1)) +
      ((OniComb.flatMap op.run fun f => map q.run fun y => f x y) (s.advanceBy n)).onUncommitted 1 := fun s => by
    show p.steps s + (p.run s).onSuccess (fun x n => op.steps (s.advanceBy n) + _ + _) = _
    simp only [hop.steps]
    rfl
  have hrun : ∀ s, (rightLevel p q op).run s = OniComb.flatMap p.run (fun x => OniComb.or (OniComb.flatMap op.run fun f =>
    map q.run fun y => f x y) (successful x)) s := fun _ => rfl
  have key : ∀ s x n1, s.offset ≤ s.input.length → p.run s = .success x n1 →
      (∀ v n, (rightLevel p q op).run s = .success v n → n ≤ left s ∧ (rightLevel p q op).steps s ≤ a * n + (w + 2)) ∧
      ((∀ v n, (rightLevel p q op).run s ≠ .success v n) → (rightLevel p q op).steps s ≤ a * left s + W) := by
    intro s x n1 hs h1
    obtain ⟨h3, h4⟩ := hp.ok s x n1 hs h1
    have hl1 := left_advance h3
    have hs1 := fits_advance hs h3
    rw [hrun, hsteps, h1]
    simp only [OniComb.flatMap, OniComb.or, h1, Res.onSuccess]
    cases h5 : op.run (s.advanceBy n1) with
    | success f m =>
      obtain ⟨rfl, h6⟩ := hop.ok _ f m hs1 h5
      have hl2 := left_advance h6
      have hs2 := fits_advance hs1 h6
      dsimp only
      unfold OniComb.map
      cases h7 : q.run ((s.advanceBy n1).advanceBy 1) with
      | success y n2 =>
        obtain ⟨h8, h9⟩ := hq.ok _ y n2 hs2 h7
        refine ⟨fun v n hv => ?_, fun hv => ?_⟩
        · simp only [Res.advanceSuccess, Res.addCommit, Res.success.injEq] at hv
          obtain ⟨-, rfl⟩ := hv
          simp only [Res.advanceSuccess, Res.addCommit, Res.onUncommitted]
          refine ⟨by omega, ?_⟩
          rw [Nat.mul_add, Nat.mul_add, Nat.mul_one]
          omega
        · exact (hv _ _ rfl).elim
      | failure e c =>
        have h8 := hq.other _ hs2 (by rw [h7]; simp)
        refine ⟨fun v n hv => ?_, fun _ => ?_⟩
        · cases c <;> simp [Res.advanceSuccess, Res.addCommit, Committed.or, Committed.ofBool] at hv
        · rw [hl1, hl2, Nat.mul_add, Nat.mul_add, Nat.mul_one]
          cases c <;> simp [Res.advanceSuccess, Res.addCommit, Committed.or, Committed.ofBool, Res.onUncommitted] <;> omega
      | _ =>
        have h8 := hq.other _ hs2 (by rw [h7]; simp)
        refine ⟨fun v n hv => ?_, fun _ => ?_⟩
        · simp [Res.advanceSuccess, Res.addCommit] at hv
        · rw [hl1, hl2, Nat.mul_add, Nat.mul_add, Nat.mul_one]
          simp [Res.advanceSuccess, Res.addCommit, Res.onUncommitted]; omega
    | failure e c =>
      refine ⟨fun v n hv => ?_, fun hv => ?_⟩
      · cases c <;> simp [successful, Res.advanceSuccess, Res.addCommit] at hv
        obtain ⟨-, rfl⟩ := hv
        simp only [Res.onUncommitted]
        exact ⟨by omega, by omega⟩
      · cases c with
        | uncommitted => exact (hv x n1 (by simp [successful, Res.advanceSuccess, Res.addCommit])).elim
        | committed =>
          simp only [Res.onUncommitted]
          rw [hl1, Nat.mul_add]
          omega
    | _ =>
      refine ⟨fun v n hv => by simp [Res.advanceSuccess, Res.addCommit] at hv, fun _ => ?_⟩
      simp only [Res.onUncommitted]
      rw [hl1, Nat.mul_add]
      omega
  refine ⟨fun s v n hs hr => ?_, fun s hs hr => ?_⟩
  · cases h1 : p.run s with
    | success x n1 => exact (key s x n1 hs h1).1 v n hr
    | _ => rw [hrun] at hr; simp [OniComb.flatMap, h1] at hr
  · by_cases h1 : ∃ x n1, p.run s = .success x n1
    · obtain ⟨x, n1, h1⟩ := h1
      exact (key s x n1 hs h1).2 hr
    · have h1 : ∀ v n, p.run s ≠ .success v n := fun v n h => h1 ⟨v, n, h⟩
      have h2 := hp.other s hs h1
      rw [hsteps, onSuccess_other h1]
      omega

/-! ### Levels -/

section
variable [DecidableEq I] {T : Table I A} {g : Nat}

/-- `Table.op`, counted. -/
def Table.opCounted (T : Table I A) (k : Nat) : Counted I (A → A → A) :=
  .unary (fun p => map p T.apply) (prim (elmPred fun c => T.rank c == some k))

/-- `Table.level`, counted. -/
def Table.levelCounted (T : Table I A) (atom : Counted I A) (self : Nat → Counted I A) : Nat → Counted I A
  | 0 => .or atom (.surround (prim (elm T.lp)) (.lazy fun _ => self T.height) (prim (elm T.rp)))
  | k + 1 =>
    if T.right k then rightLevel (T.levelCounted atom self k) (.lazy fun _ => self (k + 1)) (T.opCounted k)
    else .chainLeft1 (T.levelCounted atom self k) (T.opCounted k)

/-- `Table.tower`, counted. -/
def Table.towerCounted (T : Table I A) (atom : Counted I A) : Nat → Nat → Counted I A
  | 0, _ => prim diverging
  | n + 1, k => T.levelCounted atom (T.towerCounted atom n) k

omit [DecidableEq I] in
theorem pred_ok {f : I → Bool} {s : State I} {x : I} {n : Nat} (hs : s.offset ≤ s.input.length) (h : elmPred f s = .success x n) :
    n = 1 ∧ 1 ≤ left s := by
  have h1 := (fair_elmPred f).ok s x n hs h
  have : n = 1 := by
    simp only [elmPred, State.withInput] at h
    repeat' split at h
    all_goals first
      | (simp only [Res.success.injEq] at h; exact h.2.symm)
      | cases h
  omega

omit [DecidableEq I] in
theorem sign_op (k : Nat) : Sign (T.opCounted k) where
  ok := fun s v n hs h => by
    obtain ⟨v', h'⟩ := (same_map _).ok _ _ _ _ h
    exact pred_ok hs h'
  steps := fun _ => rfl

theorem level_run {atom : Counted I A} (ha : atom.run = T.atom) {self : Nat → Counted I A} : ∀ k,
    (T.levelCounted atom self k).run = T.level (fun k => (self k).run) k
  | 0 => by
    show OniComb.or atom.run _ = _
    rw [ha]
    rfl
  | k + 1 => by
    have ih := level_run ha (self := self) k
    rw [Table.levelCounted, Table.level]
    split
    · show OniComb.flatMap (T.levelCounted atom self k).run _ = _
      rw [ih]
      rfl
    · show OniComb.flatMap (T.levelCounted atom self k).run (fun x => OniComb.restLeft1 (T.levelCounted atom self k).run _ x) = _
      rw [ih]
      rfl

theorem tower_run {atom : Counted I A} (ha : atom.run = T.atom) : ∀ n k, (T.towerCounted atom n k).run = T.tower n k
  | 0, _ => rfl
  | n + 1, k => by
    rw [Table.towerCounted, level_run ha, Table.tower]
    congr 1
    exact funext fun k => tower_run ha n k

/-- Operands and brackets. -/
theorem bottom_bound {atom e : Counted I A} {m : Stateful.SParser Nat I A} (hg : Operand g atom.run m atom.steps) (he : Paid a (w + 1) (W + 1) e)
    (ha : g + 3 + w ≤ a) (hW : g + 1 ≤ W) : Paid a g W (.or atom (.surround (prim (elm T.lp)) e (prim (elm T.rp)))) := by
  have h1 : Both (.surround (prim (elm T.lp)) e (prim (elm T.rp))) (prim (elm T.lp)) (.skipRight e (prim (elm T.rp))) := both_skipLeft _ _
  have h2 : Both (.skipRight e (prim (elm T.rp))) e (prim (elm T.rp)) := both_skipRight _ _
  have hin : ∀ {s : State I} {v : A} {n : Nat}, s.offset ≤ s.input.length → atom.run s = .success v n → n ≤ left s := by
    intro s v n hs h
    have := hg.bounds s v n hs h
    unfold left
    omega
  generalize hc : Counted.surround (prim (elm T.lp)) e (prim (elm T.rp)) = c at h1
  have good : ∀ s v n, s.offset ≤ s.input.length → c.run s = .success v n → n ≤ left s ∧ c.steps s + g ≤ a * n + g := by
    intro s v n hs hr
    obtain ⟨v1, n1, v2, n2, h3, h4, rfl⟩ := h1.ok _ _ _ hr
    obtain ⟨v3, n3, v4, n4, h5, h6, rfl⟩ := h2.ok _ _ _ h4
    obtain ⟨rfl, h7⟩ := pred_ok hs h3
    have hs1 := fits_advance hs h7
    have l1 := left_advance h7
    obtain ⟨h8, h9⟩ := he.ok _ _ _ hs1 h5
    have hs2 := fits_advance hs1 h8
    have l2 := left_advance h8
    obtain ⟨rfl, h10⟩ := pred_ok hs2 h6
    rw [h1.steps_ok h3, h2.steps_ok h5]
    refine ⟨by omega, ?_⟩
    show 1 + (_ + 1) + g ≤ _
    rw [Nat.mul_add, Nat.mul_add, Nat.mul_one]
    omega
  have bad : ∀ s, s.offset ≤ s.input.length → (∀ v n, c.run s ≠ .success v n) → c.steps s + g ≤ a * left s + W := by
    intro s hs hr
    by_cases h3 : ∃ x n, (prim (elm T.lp)).run s = .success x n
    · obtain ⟨x, n, h3⟩ := h3
      obtain ⟨rfl, h7⟩ := pred_ok hs h3
      have hs1 := fits_advance hs h7
      have l1 := left_advance h7
      rw [h1.steps_ok h3, l1, Nat.mul_add, Nat.mul_one]
      show 1 + _ + g ≤ _
      by_cases h5 : ∃ x n, e.run (s.advanceBy 1) = .success x n
      · obtain ⟨y, n, h5⟩ := h5
        obtain ⟨h8, h9⟩ := he.ok _ _ _ hs1 h5
        have l2 := left_advance h8
        rw [h2.steps_ok h5, l2, Nat.mul_add]
        show 1 + (_ + 1) + g ≤ _
        omega
      · have h5 : ∀ v n, e.run (s.advanceBy 1) ≠ .success v n := fun v n h => h5 ⟨v, n, h⟩
        rw [h2.steps_other h5]
        have := he.other _ hs1 h5
        omega
    · rw [h1.steps_other fun v n h => h3 ⟨v, n, h⟩]
      show 1 + g ≤ _
      omega
  have pays : ∀ n, g * (n + 1) ≤ a * n + g := fun n => by
    rw [Nat.mul_add, Nat.mul_one]
    exact Nat.add_le_add_right (Nat.mul_le_mul_right _ (by omega)) _
  have hsteps : ∀ s, (Counted.or atom c).steps s = atom.steps s + (atom.run s).onUncommitted (c.steps s) := fun _ => rfl
  have hrun : ∀ s, (Counted.or atom c).run s = OniComb.or atom.run c.run s := fun _ => rfl
  refine ⟨fun s v n hs hr => ?_, fun s hs hr => ?_⟩
  · rw [hrun] at hr
    rw [hsteps]
    unfold OniComb.or at hr
    cases h3 : atom.run s with
    | success x j =>
      rw [h3] at hr
      simp only [Res.success.injEq] at hr
      obtain ⟨-, rfl⟩ := hr
      exact ⟨hin hs h3, Nat.le_trans (hg.read _ _ _ h3) (pays _)⟩
    | failure err st =>
      rw [h3] at hr
      cases st with
      | committed => cases hr
      | uncommitted =>
        have h4 := good s v n hs hr
        have h5 := hg.none _ _ h3
        refine ⟨h4.1, ?_⟩
        show _ + c.steps s ≤ _
        omega
    | _ => rw [h3] at hr; cases hr
  · rw [hrun] at hr
    rw [hsteps]
    have h6 := hg.all s
    have h7 := pays (left s)
    unfold OniComb.or at hr
    cases h3 : atom.run s with
    | success x j => rw [h3] at hr; exact (hr _ _ rfl).elim
    | failure err st =>
      rw [h3] at hr
      cases st with
      | committed =>
        show atom.steps s + 0 ≤ _
        unfold left at h7 ⊢
        omega
      | uncommitted =>
        have h4 := bad s hs hr
        have h5 := hg.none _ _ h3
        show _ + c.steps s ≤ _
        omega
    | _ =>
      show atom.steps s + 0 ≤ _
      unfold left at h7 ⊢
      omega

theorem level_bound {atom : Counted I A} {m : Stateful.SParser Nat I A} (hg : Operand g atom.run m atom.steps) {self : Nat → Counted I A}
    (hs : ∀ k, k ≤ T.height → Paid a (g + 2 * k) W (self k)) (ha : 2 * g + 2 * T.height + 3 ≤ a) (hW : g + 2 * T.height + 1 ≤ W) :
    ∀ k, k ≤ T.height → Paid a (g + 2 * k) W (T.levelCounted atom self k)
  | 0, _ => bottom_bound (w := g + 2 * T.height) hg (hs _ (Nat.le_refl _)).lazy (by omega) (by omega)
  | k + 1, hk => by
    have ih := level_bound hg hs ha hW k (by omega)
    rw [Table.levelCounted]
    split
    · exact right_bound (w := g + 2 * k) ih (hs (k + 1) hk).lazy (sign_op k) (by omega) (by omega) (Nat.le_refl _)
    · exact chain_bound (w := g + 2 * k) ih (sign_op k) (by omega) (by omega)

theorem tower_bound {atom : Counted I A} {m : Stateful.SParser Nat I A} (hg : Operand g atom.run m atom.steps) : ∀ n k, k ≤ T.height →
    Paid (2 * g + 2 * T.height + 3) (g + 2 * k) (g + 2 * T.height + 1) (T.towerCounted atom n k)
  | 0, _, _ => ⟨fun _ _ _ _ h => (by cases h), fun _ _ _ => (by show 1 ≤ _; omega)⟩
  | n + 1, k, hk => level_bound hg (tower_bound hg n) (Nat.le_refl _) (Nat.le_refl _) k hk
end

end OniComb.Operators
