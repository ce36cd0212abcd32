import Verif.Lemmas.Live
import Verif.Lemmas.Lin
import Verif.Spec.Plain

/-!
# Helper lemmas: parsers whose steps are bounded by a power of what is left

`Pow d k c`: a run of `c` returns within `k * (left + 1) ^ d` steps. Only a repetition without an upper bound raises the exponent.
-/

namespace OniComb.Plain
open OniComb
open OniComb.Steps (left left_advance fits_advance)
variable {I A B D : Type} {d k k' : Nat}

structure Pow (d k : Nat) (c : Counted I A) : Prop where
  ok : ∀ s : State I, s.offset ≤ s.input.length → LiveAt s (c.run s)
  le : ∀ s : State I, s.offset ≤ s.input.length → c.steps s ≤ k * (left s + 1) ^ d

theorem Pow.live {c : Counted I A} (h : Pow d k c) (n : Nat) : Live n c.run := ⟨fun s hs _ => h.ok s hs⟩

theorem Pow.fits {c : Counted I A} (h : Pow d k c) {s : State I} {v : A} {n : Nat} (hs : s.offset ≤ s.input.length)
    (hr : c.run s = .success v n) : n ≤ left s := by
  have := h.ok s hs
  rw [hr] at this
  have : s.offset + n ≤ s.input.length := this
  unfold left
  omega

theorem pow_mono {a b : Nat} (h : a ≤ b) : (a + 1) ^ d ≤ (b + 1) ^ d := Nat.pow_le_pow_left (by omega) d

theorem one_le (s : State I) : 1 ≤ (left s + 1) ^ d := Nat.one_le_pow _ _ (by omega)

theorem Pow.mono {c : Counted I A} (h : Pow d k c) (hk : k ≤ k') : Pow d k' c where
  ok := h.ok
  le := fun s hs => Nat.le_trans (h.le s hs) (Nat.mul_le_mul_right _ hk)

theorem Pow.more {c : Counted I A} (h : Pow d k c) : Pow (d + 1) k c where
  ok := h.ok
  le := fun s hs => Nat.le_trans (h.le s hs) (Nat.mul_le_mul_left _ (Nat.pow_le_pow_right (by omega) (by omega)))

theorem ok_of {p : Parser I A} (hb : InBounds p) (hd : ∀ s, p s ≠ .diverge) (s : State I) (hs : s.offset ≤ s.input.length) :
    LiveAt s (p s) := by
  cases h : p s with
  | success v n => exact hb s v n hs h
  | diverge => exact hd s h
  | _ => trivial

theorem Pow.unary {C : Parser I A → Parser I B} (hC : Asks C) {c : Counted I A} (h : Pow d k c) : Pow d k (.unary C c) where
  ok := fun s hs => by
    have h1 := h.ok s hs
    show LiveAt s (C c.run s)
    rw [← hC.once]
    cases h2 : C (fun _ => c.run s) s with
    | success v n =>
      rcases hC.less _ _ _ _ h2 with rfl | ⟨w, h3⟩
      · exact hs
      · rw [h3] at h1; exact h1
    | diverge => rw [hC.ends _ _ h2] at h1; exact h1
    | _ => trivial
  le := h.le

theorem pow_both {c : Counted I D} {p : Counted I A} {q : Counted I B} (hc : Steps.Both c p q) (hl : ∀ n, Live n c.run) (hp : Pow d k p)
    (hq : Pow d k' q) : Pow d (k + k') c where
  ok := fun s hs => (hl _).live s hs (Nat.lt_succ_self _)
  le := fun s hs => by
    rw [hc.steps, Nat.add_mul]
    refine Nat.add_le_add (hp.le s hs) ?_
    cases hr : p.run s with
    | success v n =>
      have h1 := hp.fits hs hr
      have h2 := left_advance h1
      exact Nat.le_trans (hq.le _ (fits_advance hs h1)) (Nat.mul_le_mul_left _ (pow_mono (by omega)))
    | _ => exact Nat.zero_le _

theorem Pow.andThen {p : Counted I A} {q : Counted I B} (hp : Pow d k p) (hq : Pow d k' q) : Pow d (k + k') (.andThen p q) :=
  pow_both (Steps.both_andThen p q) (fun n => have := hp.live n; have := hq.live n; inferInstanceAs (Live n (OniComb.andThen p.run q.run))) hp hq
theorem Pow.skipLeft {p : Counted I A} {q : Counted I B} (hp : Pow d k p) (hq : Pow d k' q) : Pow d (k + k') (.skipLeft p q) :=
  pow_both (Steps.both_skipLeft p q) (fun n => have := hp.live n; have := hq.live n; inferInstanceAs (Live n (OniComb.skipLeft p.run q.run))) hp hq
theorem Pow.skipRight {p : Counted I A} {q : Counted I B} (hp : Pow d k p) (hq : Pow d k' q) : Pow d (k + k') (.skipRight p q) :=
  pow_both (Steps.both_skipRight p q) (fun n => have := hp.live n; have := hq.live n; inferInstanceAs (Live n (OniComb.skipRight p.run q.run))) hp hq

theorem Pow.or {p q : Counted I A} (hp : Pow d k p) (hq : Pow d k' q) : Pow d (k + k') (.or p q) where
  ok := fun s hs => by
    have := hp.live (left s + 1); have := hq.live (left s + 1)
    exact (inferInstance : Live (left s + 1) (OniComb.or p.run q.run)).live s hs (Nat.lt_succ_self _)
  le := fun s hs => by
    show p.steps s + (p.run s).onUncommitted (q.steps s) ≤ _
    have h1 := hp.le s hs
    have h2 := hq.le s hs
    rw [Nat.add_mul]
    cases p.run s with
    | failure e st => cases st <;> simp only [Res.onUncommitted] <;> omega
    | _ => simp only [Res.onUncommitted]; omega

/-- A result behind `n` elements. -/
theorem ok_behind {s : State I} {n : Nat} {r : Res I A} (h : LiveAt (s.advanceBy n) r) (b : Bool) :
    LiveAt s ((r.addCommit b).advanceSuccess n) := by
  cases r with
  | success v j =>
    have h : s.offset + n + j ≤ s.input.length := h
    simp only [Res.addCommit, Res.advanceSuccess, LiveAt]
    omega
  | diverge => exact h
  | _ => trivial

theorem ok_after {s : State I} {n : Nat} {r : Res I A} (h : LiveAt (s.advanceBy n) r) : LiveAt s (r.advanceSuccess n) := by
  cases r with
  | success v j =>
    have h : s.offset + n + j ≤ s.input.length := h
    simp only [Res.advanceSuccess, LiveAt]
    omega
  | diverge => exact h
  | _ => trivial

theorem Pow.flatMap {p : Counted I A} {q : A → Counted I B} (hp : Pow d k p) (hq : ∀ a, Pow d k' (q a)) :
    Pow d (k + k') (.flatMap p q) where
  ok := fun s hs => by
    have h1 := hp.ok s hs
    show LiveAt s (OniComb.flatMap p.run (fun v => (q v).run) s)
    unfold OniComb.flatMap
    cases hr : p.run s with
    | success v n => exact ok_behind ((hq v).ok _ (fits_advance hs (hp.fits hs hr))) _
    | diverge => rw [hr] at h1; exact h1
    | _ => trivial
  le := fun s hs => by
    show p.steps s + (p.run s).onSuccess (fun v n => (q v).steps (s.advanceBy n)) ≤ _
    rw [Nat.add_mul]
    refine Nat.add_le_add (hp.le s hs) ?_
    cases hr : p.run s with
    | success v n =>
      have h1 := hp.fits hs hr
      have h2 := left_advance h1
      exact Nat.le_trans ((hq v).le _ (fits_advance hs h1)) (Nat.mul_le_mul_left _ (pow_mono (by omega)))
    | _ => exact Nat.zero_le _

/-! ### Repetition -/

def SepPow (d k : Nat) (sep : Option (Counted I B)) : Prop := ∀ q, sep = some q → Pow d k q

theorem SepPow.live {sep : Option (Counted I B)} (h : SepPow d k sep) (n : Nat) (q : Parser I B) (hq : sep.map Counted.run = some q) :
    Live n q := by
  cases sep with
  | none => cases hq
  | some c => cases hq; exact (h c rfl).live n

/-- The steps of one turn, and those of the turns that follow. -/
theorem turn_le {p : Counted I A} {sep : Option (Counted I B)} (hp : Pow d k p) (hq : SepPow d k' sep) (stop : Bound) (N fuel : Nat)
    (st : LoopState I A) (hs : st.cur.offset ≤ st.cur.input.length) (hN : left st.cur ≤ N) :
    ∃ T, T ≤ (k + k') * (N + 1) ^ d ∧ Counted.repSteps p sep stop (fuel + 1) st = T +
      match repTurn p.run (sep.map Counted.run) stop st with
      | .again st' => Counted.repSteps p sep stop fuel st'
      | _ => 0 := by
  have item : ∀ st : LoopState I A, st.cur.offset ≤ st.cur.input.length → left st.cur ≤ N →
      ∃ T, T ≤ k * (N + 1) ^ d ∧ Counted.itemSteps p (Counted.repSteps p sep stop fuel) st = T +
        match repItem p.run st with
        | .again st' => Counted.repSteps p sep stop fuel st'
        | _ => 0 := fun st hs hN => by
    refine ⟨_, Nat.le_trans (hp.le _ hs) (Nat.mul_le_mul_left k (pow_mono hN)), ?_⟩
    unfold Counted.itemSteps repItem
    cases p.run st.cur <;> rfl
  rw [Counted.repSteps.eq_def]
  unfold repTurn
  dsimp only
  cases hb : boundReached stop st.items.length with
  | true => exact ⟨0, Nat.zero_le _, rfl⟩
  | false =>
    simp only [Bool.false_eq_true, if_false]
    cases sep with
    | none =>
      obtain ⟨T, h1, h2⟩ := item st hs hN
      exact ⟨T, Nat.le_trans h1 (Nat.mul_le_mul_right _ (Nat.le_add_right _ _)), h2⟩
    | some q =>
      have hq := hq q rfl
      have h1 := Nat.le_trans (hq.le _ hs) (Nat.mul_le_mul_left k' (pow_mono hN))
      rw [Nat.add_mul]
      dsimp only [Option.map_some]
      cases hr : q.run st.cur with
      | success b n =>
        have h2 := hq.fits hs hr
        have h3 := left_advance h2
        obtain ⟨T, h4, h5⟩ := item ⟨st.cur.advanceBy n, st.items, st.length + n⟩ (fits_advance hs h2) (by dsimp only; omega)
        refine ⟨q.steps st.cur + T, by omega, ?_⟩
        simp only [Res.onSuccess]
        rw [h5, Nat.add_assoc]
      | _ => exact ⟨q.steps st.cur, by omega, rfl⟩

theorem loop_le {p : Counted I A} {sep : Option (Counted I B)} (hp : Pow d k p) (hq : SepPow d k' sep) (stop : Bound) (N : Nat) :
    ∀ (fuel : Nat) (st : LoopState I A) (o : Nat), st.cur.offset ≤ st.cur.input.length → left st.cur ≤ N → st.cur.offset = o + st.length →
      Counted.repSteps p sep stop fuel st ≤ fuel * ((k + k') * (N + 1) ^ d)
  | 0, _, _, _, _, _ => Nat.zero_le _
  | fuel + 1, st, o, hs, hN, ho => by
    obtain ⟨T, h1, h2⟩ := turn_le hp hq stop N fuel st hs hN
    have := hp.live (left st.cur + 1)
    have ht := repTurn_live (p := p.run) (fun q hq' => hq.live (left st.cur + 1) q hq') stop hs (Nat.lt_succ_self _) ho
    rw [h2, Nat.add_mul, Nat.one_mul, Nat.add_comm]
    refine Nat.add_le_add ?_ h1
    cases h : repTurn p.run (sep.map Counted.run) stop st with
    | again st' =>
      rw [h] at ht
      obtain ⟨h3, h4, h5, h6, -, -⟩ := ht
      exact loop_le hp hq stop N fuel st' o (by rw [h3]; exact h5) (by unfold left at *; rw [h3]; omega) h6
    | _ => exact Nat.zero_le _

theorem rep_le {p : Counted I A} {sep : Option (Counted I B)} (hp : Pow d k p) (hq : SepPow d k' sep) (range : Range) (s : State I)
    (hs : s.offset ≤ s.input.length) :
    (Counted.repeatSep p range sep).steps s ≤ (repFuel range.stop s + 1) * ((k + k') * (left s + 1) ^ d) := by
  rw [Nat.add_mul, Nat.one_mul, Nat.add_comm]
  refine Nat.add_le_add (Nat.le_trans (hp.le s hs) (Nat.mul_le_mul_right _ (Nat.le_add_right _ _))) ?_
  cases hr : p.run s with
  | success v n =>
    have h2 := hp.fits hs hr
    have h3 := left_advance h2
    exact loop_le hp hq range.stop (left s) _ ⟨s.advanceBy n, [v], n⟩ s.offset (fits_advance hs h2) (by dsimp only; omega) rfl
  | _ => exact Nat.zero_le _

/-- What is the case if the loop returns. -/
theorem ok_rep {p : Parser I A} {sep : Option (Parser I B)} (range : Range) (s : State I) (hs : s.offset ≤ s.input.length)
    (hp : LiveAt s (p s)) (hl : ∀ v n, p s = .success v n →
      LoopLive s.offset s.input.length (repLoop p sep range.stop (repFuel range.stop s) ⟨s.advanceBy n, [v], n⟩)) :
    LiveAt s (repeatSep p range sep s) := by
  unfold repeatSep
  cases h : p s with
  | success v n =>
    have h2 := hl v n h
    dsimp only
    cases h3 : repLoop p sep range.stop (repFuel range.stop s) ⟨s.advanceBy n, [v], n⟩ with
    | exit items l => rw [h3] at h2; exact repFinish_live range s items l h2
    | panic => trivial
    | diverge => rw [h3] at h2; exact h2
  | failure e c => exact repFinish_live range s [] 0 hs
  | panic => trivial
  | diverge => rw [h] at hp; exact hp

/-- An item or a separator consumes something. -/
def Moves (p : Parser I A) (sep : Option (Parser I B)) : Prop := Consumes p ∨ ∃ q, sep = some q ∧ Consumes q

theorem turn_moves {p : Parser I A} {sep : Option (Parser I B)} (h : Moves p sep) {stop : Bound} {st st' : LoopState I A}
    (ht : repTurn p sep stop st = .again st') : st.cur.offset < st'.cur.offset := by
  obtain ⟨-, k, v, n, h1, h2, rfl⟩ := (repTurn_again_iff _ _ _ _ _).1 ht
  dsimp only
  rcases h with h | ⟨q, rfl, h⟩
  · have := h _ _ _ h2
    omega
  · obtain ⟨b, hb⟩ := h1
    have := h _ _ _ hb
    omega

/-- The loop returns: every turn consumes something, or the number of turns is bounded. -/
theorem loop_ok {p : Counted I A} {sep : Option (Counted I B)} (hp : Pow d k p) (hq : SepPow d k' sep) (stop : Bound) (len : Nat) :
    ∀ (fuel : Nat) (st : LoopState I A) (o : Nat), st.cur.input.length = len → st.cur.offset ≤ len → st.cur.offset = o + st.length → 0 < fuel →
      (match stop with
        | .unbounded => Moves p.run (sep.map Counted.run) ∧ len - st.cur.offset < fuel
        | .included m => m < fuel + st.items.length
        | .excluded m => m < fuel + st.items.length) →
      LoopLive o len (repLoop p.run (sep.map Counted.run) stop fuel st)
  | 0, _, _, _, _, _, h, _ => by omega
  | fuel + 1, st, o, hlen, hs, ho, _, hf => by
    subst hlen
    have := hp.live (left st.cur + 1)
    have ht := repTurn_live (p := p.run) (fun q hq' => hq.live (left st.cur + 1) q hq') stop hs (Nat.lt_succ_self _) ho
    rw [repLoop]
    cases h : repTurn p.run (sep.map Counted.run) stop st with
    | again st' =>
      rw [h] at ht
      obtain ⟨h1, h2, h3, h4, h5, -⟩ := ht
      obtain ⟨hb, -⟩ := (repTurn_again_iff _ _ _ _ _).1 h
      refine loop_ok hp hq stop st.cur.input.length fuel st' o (by rw [h1]) h3 h4 ?_ ?_
      · cases stop with
        | unbounded => have := turn_moves hf.1 h; have := hf.2; omega
        | _ => simp only [boundReached, decide_eq_false_iff_not] at hb; dsimp only at hf; omega
      · cases stop with
        | unbounded => have := turn_moves hf.1 h; exact ⟨hf.1, by have := hf.2; omega⟩
        | _ => dsimp only at hf ⊢; omega
    | exit items l => rw [h] at ht; exact ht
    | panic => trivial
    | diverge => rw [h] at ht; exact ht

/-- With an upper bound the exponent stays. -/
theorem Pow.times {p : Counted I A} {sep : Option (Counted I B)} (hp : Pow d k p) (hq : SepPow d k' sep) (range : Range)
    (hr : range.stop ≠ .unbounded) : ∃ j, Pow d j (.repeatSep p range sep) := by
  refine ⟨(repFuel range.stop (⟨[], 0⟩ : State I) + 1) * (k + k'), fun s hs => ?_, fun s hs => ?_⟩
  · refine ok_rep range s hs (hp.ok s hs) fun v n h => ?_
    have h1 := hp.fits hs h
    have h2 := fits_advance hs h1
    refine loop_ok hp hq range.stop s.input.length _ ⟨s.advanceBy n, [v], n⟩ s.offset rfl h2 rfl ?_ ?_
    · cases h : range.stop <;> simp [repFuel]
    · cases h : range.stop with
      | unbounded => exact absurd h hr
      | _ => simp only [repFuel, List.length_singleton]; omega
  · have h := rep_le hp hq range s hs
    have e : repFuel range.stop s = repFuel range.stop (⟨[], 0⟩ : State I) := by
      cases h : range.stop with
      | unbounded => exact absurd h hr
      | _ => rfl
    rw [e, ← Nat.mul_assoc] at h
    exact h

/-- Without one it grows by one. -/
theorem Pow.many {p : Counted I A} {sep : Option (Counted I B)} (hp : Pow d k p) (hq : SepPow d k' sep) (start : Bound)
    (hm : Moves p.run (sep.map Counted.run)) : Pow (d + 1) (3 * (k + k')) (.repeatSep p ⟨start, .unbounded⟩ sep) where
  ok := fun s hs => by
    refine ok_rep _ s hs (hp.ok s hs) fun v n h => ?_
    have h1 := hp.fits hs h
    have h2 := fits_advance hs h1
    refine loop_ok hp hq .unbounded s.input.length _ ⟨s.advanceBy n, [v], n⟩ s.offset rfl h2 rfl ?_ ⟨hm, ?_⟩
    · simp [repFuel]
    · simp only [repFuel, State.advanceBy]; omega
  le := fun s hs => by
    have h := rep_le hp hq ⟨start, .unbounded⟩ s hs
    have e : 3 * (k + k') * (left s + 1) ^ (d + 1) = (3 * (left s + 1)) * ((k + k') * (left s + 1) ^ d) := by
      rw [Nat.pow_succ, Nat.mul_comm ((left s + 1) ^ d), ← Nat.mul_assoc, Nat.mul_right_comm 3, Nat.mul_assoc]
    rw [e]
    exact Nat.le_trans h (Nat.mul_le_mul_right _ (by simp only [repFuel, left]; omega))

/-! ### Operator chains -/

theorem rest_ok {p : Counted I A} {q : Counted I (A → A → A)} (hp : Pow d k p) (hq : Pow d k' q)
    (hm : Consumes p.run ∨ Consumes q.run) : ∀ (fuel : Nat) (x : A) (s : State I), s.offset ≤ s.input.length → left s < fuel →
      LiveAt s (restLeft1N p.run q.run fuel x s)
  | 0, _, _, _, h => by omega
  | fuel + 1, x, s, hs, hl => by
    rw [restLeft1N]
    have h1 := hq.ok s hs
    simp only [OniComb.or, Steps.advance_zero]
    have key : ∀ r : Res I A, LiveAt s r → LiveAt s (match r with
        | .failure _ .uncommitted => successful x s
        | r => r) := fun r hr => by
      cases r with
      | failure e st => cases st with
        | committed => trivial
        | uncommitted => exact hs
      | _ => exact hr
    refine key _ ?_
    cases h2 : q.run s with
    | success f n =>
      have h3 := hq.fits hs h2
      have h4 := left_advance h3
      have h5 := fits_advance hs h3
      have h6 := hp.ok _ h5
      dsimp only
      refine ok_behind ?_ _
      cases h7 : p.run (s.advanceBy n) with
      | success y j =>
        have h8 := hp.fits h5 h7
        have h9 := left_advance h8
        have h10 : 0 < n ∨ 0 < j := hm.elim (fun h => .inr (h _ _ _ h7)) fun h => .inl (h _ _ _ h2)
        have := rest_ok hp hq hm fuel (f x y) _ (fits_advance h5 h8) (by omega)
        exact ok_after (s := s.advanceBy n) this
      | diverge => rw [h7] at h6; exact h6
      | _ => trivial
    | diverge => rw [h2] at h1; exact h1
    | _ => trivial

theorem rest_le {p : Counted I A} {q : Counted I (A → A → A)} (hp : Pow d k p) (hq : Pow d k' q) (N : Nat) :
    ∀ (fuel : Nat) (x : A) (s : State I), s.offset ≤ s.input.length → left s ≤ N →
      Counted.restSteps p q fuel x s ≤ fuel * ((k + k') * (N + 1) ^ d)
  | 0, _, _, _, _ => Nat.zero_le _
  | fuel + 1, x, s, hs, hN => by
    have h1 := Nat.le_trans (hq.le s hs) (Nat.mul_le_mul_left k' (pow_mono hN))
    rw [Counted.restSteps]
    have e : (fuel + 1) * ((k + k') * (N + 1) ^ d) = k' * (N + 1) ^ d + (k * (N + 1) ^ d + fuel * ((k + k') * (N + 1) ^ d)) := by
      rw [Nat.add_mul, Nat.one_mul, Nat.add_mul k k']; omega
    rw [e]
    refine Nat.add_le_add h1 ?_
    cases h2 : q.run s with
    | success f n =>
      have h3 := hq.fits hs h2
      have h4 := left_advance h3
      have h5 := fits_advance hs h3
      refine Nat.add_le_add (Nat.le_trans (hp.le _ h5) (Nat.mul_le_mul_left k (pow_mono (by omega)))) ?_
      cases h7 : p.run (s.advanceBy n) with
      | success y j =>
        have h8 := hp.fits h5 h7
        have h9 := left_advance h8
        exact rest_le hp hq N fuel (f x y) _ (fits_advance h5 h8) (by omega)
      | _ => exact Nat.zero_le _
    | _ => exact Nat.zero_le _

theorem Pow.rest {p : Counted I A} {q : Counted I (A → A → A)} (hp : Pow d k p) (hq : Pow d k' q)
    (hm : Consumes p.run ∨ Consumes q.run) (x : A) : Pow (d + 1) (2 * (k + k')) (.restLeft1 p q x) where
  ok := fun s hs => rest_ok hp hq hm _ x s hs (by unfold left; omega)
  le := fun s hs => by
    have h := rest_le hp hq (left s) (s.input.length - s.offset + 2) x s hs (Nat.le_refl _)
    have e : 2 * (k + k') * (left s + 1) ^ (d + 1) = (2 * (left s + 1)) * ((k + k') * (left s + 1) ^ d) := by
      rw [Nat.pow_succ, Nat.mul_comm ((left s + 1) ^ d), ← Nat.mul_assoc, Nat.mul_right_comm 2, Nat.mul_assoc]
    rw [e]
    exact Nat.le_trans h (Nat.mul_le_mul_right _ (by simp only [left]; omega))

/-- Finitely many parsers have a common bound. -/
theorem pow_finite : ∀ {j : Nat} {c : Fin j → Counted I A}, (∀ i, ∃ k, Pow d k (c i)) → ∃ k, ∀ i, Pow d k (c i)
  | 0, _, _ => ⟨0, fun i => i.elim0⟩
  | j + 1, c, h => by
    obtain ⟨k, hk⟩ := h 0
    obtain ⟨k', hk'⟩ := pow_finite (c := fun i : Fin j => c i.succ) fun i => h i.succ
    refine ⟨k + k', fun i => ?_⟩
    refine Fin.cases ?_ (fun i => ?_) i
    · exact hk.mono (Nat.le_add_right _ _)
    · exact (hk' i).mono (Nat.le_add_left _ _)

end OniComb.Plain
