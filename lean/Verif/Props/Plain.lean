import Verif.Lemmas.Pow
import Verif.Props.CalcTicks

/-!
# C150: parsers without recursion take polynomially many steps

The exponent is the depth to which repetitions are nested, and it is reached.
-/

namespace OniComb.Plain
open OniComb OniComb.Stateful
open OniComb.Peg (tick Clocked clocked_prim clocked_unary clocked_or clocked_flatMap clocked_andThen clocked_skipRight)
open OniComb.Json.Ticking (clocked_skipLeft clocked_repeatSep ClockedSep)
open OniComb.Calc.Ticking (clocked_chainLeft1)
open OniComb.Steps (left_advance fits_advance)
variable {I A B : Type} {d : Nat}

/-! ### Combinators with one argument -/

section
variable (f : A → B) (g : A → Option B) (e : A → Bool) (l : String)

theorem asks_map : Asks (I := I) (fun p => map p f) :=
  ⟨fun _ _ => rfl, fun s r v n h => by cases r <;> simp [map] at h; exact .inr ⟨_, by rw [h.2]⟩, fun s r h => by cases r <;> simp [map] at h ⊢⟩
theorem asks_filter : Asks (I := I) (fun p => filter p e) :=
  ⟨fun _ _ => rfl, fun s r v n h => by
    cases r <;> simp only [filter] at h <;> try cases h
    split at h <;> cases h
    exact .inr ⟨_, rfl⟩,
   fun s r h => by
    cases r <;> simp only [filter] at h <;> try cases h
    · split at h <;> cases h
    · rfl⟩
theorem asks_mapRes : Asks (I := I) (fun p => mapRes p g) :=
  ⟨fun _ _ => rfl, fun s r v n h => by
    obtain ⟨w, hw⟩ := Steps.mapRes_ok g (fun _ => r) s v n h
    exact .inr ⟨w, hw⟩,
   fun s r h => by
    cases r <;> simp only [mapRes] at h <;> try cases h
    · split at h
      · cases h
      · exact absurd h (withInput_ne fun i => by simp)
    · rfl⟩
theorem asks_attempt : Asks (attempt : Parser I A → Parser I A) :=
  ⟨fun _ _ => rfl, (fun s r v n h => by
    cases r with
    | success w j => simp [attempt, Res.withUncommitted] at h; exact .inr ⟨_, by rw [h.2]⟩
    | failure e c => cases c <;> cases h
    | panic => cases h
    | diverge => cases h),
   (fun s r h => by
    cases r with
    | success w j => cases h
    | failure e c => cases c <;> cases h
    | panic => cases h
    | diverge => rfl)⟩
theorem asks_discard : Asks (discard : Parser I A → Parser I Unit) :=
  ⟨fun _ _ => rfl, fun s r v n h => by cases r <;> simp [discard] at h; exact .inr ⟨_, by rw [h]⟩,
   fun s r h => by cases r <;> simp [discard] at h ⊢⟩
theorem asks_peek : Asks (peek : Parser I A → Parser I A) :=
  ⟨fun _ _ => rfl, fun s r v n h => by cases r <;> simp [peek] at h; exact .inl h.2.symm,
   fun s r h => by cases r <;> simp [peek] at h ⊢⟩
theorem asks_exists : Asks (exists_ : Parser I A → Parser I Bool) :=
  ⟨fun _ _ => rfl, fun s r v n h => by cases r <;> simp [exists_] at h <;> exact .inl h.2.symm,
   fun s r h => by cases r <;> simp [exists_] at h ⊢⟩
theorem asks_not : Asks (not_ : Parser I A → Parser I Unit) :=
  ⟨fun _ _ => rfl, fun s r v n h => by
    cases r with
    | success w j =>
      simp only [not_, State.withInput] at h
      split at h <;> cases h
    | failure e c => simp [not_] at h; exact .inl h.symm
    | _ => simp [not_] at h,
   fun s r h => by
    cases r with
    | success w j => simp only [not_] at h; exact absurd h (withInput_ne fun i => by simp)
    | _ => simp [not_] at h ⊢⟩
theorem asks_collect : Asks (collect : Parser I A → Parser I (List I)) :=
  ⟨fun _ _ => rfl, fun s r v n h => by
    cases r with
    | success w j =>
      simp only [collect, State.withSlice] at h
      split at h
      · cases h; exact .inr ⟨_, rfl⟩
      · cases h
    | _ => simp [collect] at h,
   fun s r h => by
    cases r with
    | success w j => simp only [collect] at h; exact absurd h (withSlice_ne fun i => by simp)
    | _ => simp [collect] at h ⊢⟩
theorem asks_name : Asks (I := I) (A := A) (name · l) :=
  ⟨fun _ _ => rfl, fun s r v n h => by
    cases r with
    | success w j => simp [name] at h; exact .inr ⟨_, by rw [h.2]⟩
    | failure e c => simp only [name] at h; split at h <;> cases h
    | _ => simp [name] at h,
   fun s r h => by
    cases r with
    | failure e c => simp only [name] at h; split at h <;> cases h
    | _ => simp [name] at h ⊢⟩
theorem asks_expect : Asks (I := I) (A := A) (expect · l) :=
  ⟨fun _ _ => rfl, fun s r v n h => by
    cases r with
    | success w j => simp [expect] at h; exact .inr ⟨_, by rw [h.2]⟩
    | _ => simp [expect] at h,
   fun s r h => by
    cases r with
    | failure e c => simp [expect] at h
    | _ => simp [expect] at h ⊢⟩
end

/-! ### The bound -/

/-- The steps of a parser without recursion. -/
theorem counted {m : SParser Nat I A} {p : Parser I A} (h : Plain d m p) : ∃ (c : Counted I A) (k : Nat), c.run = p ∧ Clocked m c ∧ Pow d k c := by
  induction h with
  | prim c hb hd =>
    refine ⟨⟨_, fun _ => c⟩, c, rfl, fun _ _ _ _ => Iff.rfl, ok_of hb hd, fun s _ => Nat.le_mul_of_pos_right _ (one_le s)⟩
  | scan f hb hd hf =>
    refine ⟨⟨_, f⟩, 1, rfl, fun _ _ _ _ => Iff.rfl, ok_of hb hd, fun s _ => ?_⟩
    rw [Nat.one_mul, Nat.pow_succ]
    exact Nat.le_trans (hf s) (Nat.le_mul_of_pos_left _ (one_le s))
  | more _ ih =>
    obtain ⟨c, k, rfl, h1, h2⟩ := ih
    exact ⟨c, k, rfl, h1, h2.more⟩
  | unary hC _ ih =>
    obtain ⟨c, k, rfl, h1, h2⟩ := ih
    exact ⟨_, k, rfl, clocked_unary h1 _ hC.once, h2.unary hC⟩
  | or _ _ ih ih' =>
    obtain ⟨c, k, rfl, h1, h2⟩ := ih
    obtain ⟨c', k', rfl, h1', h2'⟩ := ih'
    exact ⟨_, _, rfl, clocked_or h1 h1', h2.or h2'⟩
  | andThen _ _ ih ih' =>
    obtain ⟨c, k, rfl, h1, h2⟩ := ih
    obtain ⟨c', k', rfl, h1', h2'⟩ := ih'
    exact ⟨_, _, rfl, clocked_andThen h1 h1', h2.andThen h2'⟩
  | skipLeft _ _ ih ih' =>
    obtain ⟨c, k, rfl, h1, h2⟩ := ih
    obtain ⟨c', k', rfl, h1', h2'⟩ := ih'
    exact ⟨_, _, rfl, clocked_skipLeft h1 h1', h2.skipLeft h2'⟩
  | skipRight _ _ ih ih' =>
    obtain ⟨c, k, rfl, h1, h2⟩ := ih
    obtain ⟨c', k', rfl, h1', h2'⟩ := ih'
    exact ⟨_, _, rfl, clocked_skipRight h1 h1', h2.skipRight h2'⟩
  | @flatMap d A B j m p m' p' f _ _ ih ih' =>
    obtain ⟨c, k, rfl, h1, h2⟩ := ih
    have hc := Classical.axiomOfChoice ih'
    obtain ⟨c', hc⟩ := hc
    have e : p' = fun i => (c' i).run := funext fun i => by obtain ⟨_, h, -⟩ := hc i; exact h.symm
    subst e
    obtain ⟨k', hk⟩ := pow_finite fun i => by obtain ⟨k, -, -, h⟩ := hc i; exact ⟨k, h⟩
    exact ⟨.flatMap c fun a => c' (f a), _, rfl, clocked_flatMap h1 fun a => by obtain ⟨_, -, h, -⟩ := hc (f a); exact h,
      h2.flatMap fun a => hk (f a)⟩
  | times range hr _ ih =>
    obtain ⟨c, k, rfl, h1, h2⟩ := ih
    obtain ⟨j, hj⟩ := h2.times (B := Unit) (k' := 0) (sep := none) (fun q hq => by cases hq) range hr
    exact ⟨_, j, rfl, clocked_repeatSep h1 .none range, hj⟩
  | timesSep range hr _ _ ih ih' =>
    obtain ⟨c, k, rfl, h1, h2⟩ := ih
    obtain ⟨c', k', rfl, h1', h2'⟩ := ih'
    obtain ⟨j, hj⟩ := h2.times (k' := k') (sep := some c') (fun q hq => by cases hq; exact h2') range hr
    exact ⟨_, j, rfl, clocked_repeatSep h1 (.some h1') range, hj⟩
  | many start hc _ ih =>
    obtain ⟨c, k, rfl, h1, h2⟩ := ih
    exact ⟨_, _, rfl, clocked_repeatSep h1 .none _, h2.many (B := Unit) (k' := 0) (sep := none) (fun q hq => by cases hq) start (.inl hc)⟩
  | manySep start hc _ _ ih ih' =>
    obtain ⟨c, k, rfl, h1, h2⟩ := ih
    obtain ⟨c', k', rfl, h1', h2'⟩ := ih'
    exact ⟨_, _, rfl, clocked_repeatSep h1 (.some h1') _, h2.many (sep := some c') (fun q hq => by cases hq; exact h2') start
      (hc.imp id fun h => ⟨_, rfl, h⟩)⟩
  | chainLeft1 hc _ _ ih ih' =>
    obtain ⟨c, k, rfl, h1, h2⟩ := ih
    obtain ⟨c', k', rfl, h1', h2'⟩ := ih'
    exact ⟨_, _, rfl, clocked_chainLeft1 h1 h1', h2.more.flatMap fun x => h2.rest h2' hc x⟩

/-- A parser without recursion returns on every text, and the clock is then advanced by at most `k * (length + 1) ^ d`. -/
theorem c150_polynomial {m : SParser Nat I A} {p : Parser I A} (h : Plain d m p) :
    ∃ k, ∀ (t : List I) (σ : Nat), p ⟨t, 0⟩ ≠ .diverge ∧
      ∃ n, n ≤ k * (t.length + 1) ^ d ∧ ∀ r σ', m ⟨t, 0⟩ σ r σ' ↔ r = p ⟨t, 0⟩ ∧ σ' = σ + n := by
  obtain ⟨c, k, rfl, h1, h2⟩ := counted h
  refine ⟨k, fun t σ => ⟨fun hd => ?_, c.steps ⟨t, 0⟩, h2.le ⟨t, 0⟩ (Nat.zero_le _), fun r σ' => h1 _ _ _ _⟩⟩
  have := h2.ok ⟨t, 0⟩ (Nat.zero_le _)
  rw [hd] at this
  exact this

section
private theorem bounds_pred {f : I → Bool} : InBounds (elmPred f) := fun s v n hs h => by
  have := (inferInstance : Live (Steps.left s + 1) (elmPred f)).live s hs (Nat.lt_succ_self _)
  rw [h] at this
  exact this
private theorem ends_pred {f : I → Bool} (s : State I) : elmPred f s ≠ .diverge := by
  unfold elmPred
  exact withInput_ne fun i => by cases i <;> dsimp only <;> (try split) <;> simp
private theorem consumes_pred {f : I → Bool} : Consumes (elmPred f) := fun s v n h => by
  simp only [elmPred, State.withInput] at h
  split at h
  · split at h
    · split at h
      · simp at h; omega
      · cases h
    · cases h
  · cases h
private theorem consumes_many1 {p : Parser I A} (hp : Consumes p) : Consumes (many1 p) := fun s v n h =>
  have : Adv p := ⟨hp⟩
  (inferInstance : Adv (many1 p)).adv s v n h

/-- `many0(many1(digit) separated by ',' and ended by ';')`, as for a table: three repetitions, two inside each other. -/
example : ∃ k, ∀ (t : List Char) (σ : Nat), ∃ n, n ≤ k * (t.length + 1) ^ 3 ∧ ∀ r σ',
    Stateful.repeatSep (Stateful.skipRight (Stateful.repeatSep
        (Stateful.repeatSep (tick 1 (elmPred Char.isDigit)) (.from_ 1) (none : Option (SParser Nat Char Unit)))
        (.from_ 1) (some (tick 1 (elmPred (· == ','))))) (tick 1 (elmPred (· == ';')))) (.from_ 0) (none : Option (SParser Nat Char Unit))
      ⟨t, 0⟩ σ r σ' ↔
    r = many0 (skipRight (many1Sep (many1 (elmPred Char.isDigit)) (elmPred (· == ','))) (elmPred (· == ';'))) ⟨t, 0⟩ ∧ σ' = σ + n := by
  have h1 : Plain 1 _ (many1 (elmPred Char.isDigit)) := .many (.included 1) consumes_pred (.prim 1 bounds_pred ends_pred)
  have h2 : Plain 2 _ (many1Sep (many1 (elmPred Char.isDigit)) (elmPred (· == ','))) :=
    .manySep (.included 1) (.inr consumes_pred) h1 (.prim 1 bounds_pred ends_pred)
  have hc : Consumes (many1Sep (many1 (elmPred Char.isDigit)) (elmPred (· == ','))) := fun s v n h =>
    have : Adv (many1 (elmPred Char.isDigit)) := ⟨consumes_many1 consumes_pred⟩
    (inferInstance : Adv (many1Sep (many1 (elmPred Char.isDigit)) (elmPred (· == ',')))).adv s v n h
  obtain ⟨k, hk⟩ := c150_polynomial (.many (.included 0) (p := skipRight _ (elmPred (· == ';'))) (fun s v n h => by
    simp only [skipRight] at h
    split at h <;> try cases h
    rename_i h1
    split at h <;> try cases h
    have := hc _ _ _ h1
    omega) (.skipRight h2 (.prim 1 bounds_pred ends_pred)))
  exact ⟨k, fun t σ => (hk t σ).2⟩
end

/-! ### The exponent is reached -/

theorem consumes_elm : Consumes (elmAny : Parser I I) := fun s v n h => by
  simp only [elmAny, elmPred, State.withInput] at h
  split at h
  · split at h
    · simp at h; omega
    · cases h
  · cases h

theorem consumes_skipRight {p : Parser I A} {q : Parser I B} (hp : Consumes p) : Consumes (skipRight p q) := fun s v n h => by
  simp only [skipRight] at h
  split at h <;> try cases h
  rename_i h1
  split at h <;> try cases h
  have := hp _ _ _ h1
  omega

theorem bounds_elm : InBounds (elmAny : Parser I I) := fun s v n hs h => by
  have := (inferInstance : Live (Steps.left s + 1) (elmPred fun _ : I => true)).live s hs (Nat.lt_succ_self _)
  unfold elmAny at h
  rw [h] at this
  exact this

theorem ends_elm (s : State I) : (elmAny : Parser I I) s ≠ .diverge := by
  unfold elmAny elmPred
  exact withInput_ne fun i => by cases i <;> simp

/-- Repetitions in each other are parsers without recursion. -/
theorem nested_plain : ∀ d, Plain d (nestedTicked d) (nested d : Parser I Unit)
  | 0 => .prim 1 (fun s v n hs h => by cases h; exact hs) fun s h => by cases h
  | d + 1 => .unary asks_discard (.many _ (consumes_skipRight consumes_elm)
      (.skipRight (.prim 1 bounds_elm ends_elm) (.unary asks_peek (nested_plain d))))

/-- The steps of `nested`. -/
def nestedCounted : Nat → Counted I Unit
  | 0 => .prim unit
  | d + 1 => .unary discard (.repeatSep (.skipRight (.prim elmAny) (.unary peek (nestedCounted d))) (.from_ 0) (none : Option (Counted I Unit)))

theorem nested_clocked : ∀ d, Clocked (nestedTicked d) (nestedCounted d : Counted I Unit)
  | 0 => clocked_prim _
  | d + 1 => clocked_unary (clocked_repeatSep (clocked_skipRight (clocked_prim _) (clocked_unary (nested_clocked d) _ asks_peek.once)) .none _) _
      asks_discard.once

/-- One item of the outermost repetition. -/
def item (d : Nat) : Counted I I := .skipRight (.prim elmAny) (.unary peek (nestedCounted d))

def Succeeds (p : Parser I A) : Prop := ∀ s : State I, s.offset ≤ s.input.length → ∃ v n, p s = .success v n

theorem elm_more {s : State I} (h : 0 < Steps.left s) : ∃ x, (elmAny : Parser I I) s = .success x 1 := by
  have h1 : s.offset < s.input.length := by unfold Steps.left at h; omega
  refine ⟨s.input[s.offset], ?_⟩
  simp only [elmAny, elmPred, State.withInput, Nat.le_of_lt h1, if_true]
  rw [List.drop_eq_getElem_cons h1]

theorem elm_end {s : State I} (hs : s.offset ≤ s.input.length) (h : Steps.left s = 0) : ∃ e c, (elmAny : Parser I I) s = .failure e c := by
  have h1 : s.input.drop s.offset = [] := List.drop_eq_nil_iff.2 (by unfold Steps.left at h; omega)
  simp only [elmAny, elmPred, State.withInput, hs, if_true, h1]
  exact ⟨_, _, rfl⟩

theorem item_more (hd : Succeeds (nestedCounted d : Counted I Unit).run) {s : State I} (hs : s.offset ≤ s.input.length) (h : 0 < Steps.left s) :
    ∃ x, (item d : Counted I I).run s = .success x 1 := by
  obtain ⟨x, hx⟩ := elm_more h
  obtain ⟨v, n, hv⟩ := hd (s.advanceBy 1) (fits_advance hs h)
  refine ⟨x, ?_⟩
  show OniComb.skipRight elmAny (peek (nestedCounted d).run) s = _
  simp only [OniComb.skipRight, hx, peek, hv]

theorem item_end {s : State I} (hs : s.offset ≤ s.input.length) (h : Steps.left s = 0) : ∃ e c, (item d : Counted I I).run s = .failure e c := by
  obtain ⟨e, c, hx⟩ := elm_end hs h
  refine ⟨e, c, ?_⟩
  show OniComb.skipRight elmAny (peek (nestedCounted d).run) s = _
  simp only [OniComb.skipRight, hx]

theorem item_loop (hd : Succeeds (nestedCounted d : Counted I Unit).run) : ∀ (fuel : Nat) (st : LoopState I I),
    st.cur.offset ≤ st.cur.input.length → Steps.left st.cur < fuel →
    ∃ items l, repLoop (item d).run (none : Option (Parser I Unit)) .unbounded fuel st = .exit items l
  | 0, _, _, h => by omega
  | fuel + 1, st, hs, h => by
    simp only [repLoop, repTurn, boundReached, Bool.false_eq_true, if_false, repItem]
    by_cases h0 : Steps.left st.cur = 0
    · obtain ⟨e, c, he⟩ := item_end (d := d) hs h0
      simp only [he]
      exact ⟨_, _, rfl⟩
    · obtain ⟨x, hx⟩ := item_more hd hs (by omega)
      have h1 : Steps.left st.cur = 1 + Steps.left (st.cur.advanceBy 1) := left_advance (by omega)
      simp only [hx]
      exact item_loop hd fuel _ (fits_advance hs (by omega)) (by dsimp only; omega)

theorem nested_succeeds : ∀ d, Succeeds (nestedCounted d : Counted I Unit).run
  | 0 => fun _ _ => ⟨(), 0, rfl⟩
  | d + 1 => fun s hs => by
    have hd := (nested_succeeds d : Succeeds (nestedCounted d : Counted I Unit).run)
    suffices h : ∃ v n, repeatSep (item d).run (.from_ 0) (none : Option (Parser I Unit)) s = .success v n by
      obtain ⟨v, n, h⟩ := h
      refine ⟨(), n, ?_⟩
      show discard (repeatSep (item d).run (.from_ 0) (none : Option (Parser I Unit))) s = _
      simp only [discard, h]
    unfold repeatSep
    by_cases h0 : Steps.left s = 0
    · obtain ⟨e, c, he⟩ := item_end (d := d) hs h0
      simp only [he]
      exact ⟨_, _, rfl⟩
    · obtain ⟨x, hx⟩ := item_more hd hs (by omega)
      have h1 : Steps.left s = 1 + Steps.left (s.advanceBy 1) := left_advance (by omega)
      obtain ⟨items, l, hl⟩ := item_loop hd (repFuel .unbounded s) ⟨s.advanceBy 1, [x], 1⟩ (fits_advance hs (by omega))
        (by simp only [repFuel]; unfold Steps.left at *; omega)
      simp only [hx]
      rw [show (Range.from_ 0).stop = .unbounded from rfl, hl]
      exact ⟨_, _, rfl⟩

theorem item_steps {W j : Nat} (hW : ∀ s : State I, s.offset ≤ s.input.length → j ≤ Steps.left s → W ≤ (nestedCounted d : Counted I Unit).steps s)
    {s : State I} (hs : s.offset ≤ s.input.length) (h : j + 1 ≤ Steps.left s) : W ≤ (item d : Counted I I).steps s := by
  obtain ⟨x, hx⟩ := elm_more (s := s) (by omega)
  have h1 : Steps.left s = 1 + Steps.left (s.advanceBy 1) := left_advance (by omega)
  have h2 := hW (s.advanceBy 1) (fits_advance hs (by omega)) (by omega)
  show W ≤ 1 + ((elmAny : Parser I I) s).onSuccess fun _ n => (nestedCounted d).steps (s.advanceBy n)
  rw [hx]
  simp only [Res.onSuccess]
  omega

theorem item_turns {W j : Nat} (hW : ∀ s : State I, s.offset ≤ s.input.length → j ≤ Steps.left s → W ≤ (nestedCounted d : Counted I Unit).steps s) :
    ∀ (i fuel : Nat) (st : LoopState I I), st.cur.offset ≤ st.cur.input.length → j + i ≤ Steps.left st.cur → i ≤ fuel →
    i * W ≤ Counted.repSteps (item d) (none : Option (Counted I Unit)) .unbounded fuel st
  | 0, _, _, _, _, _ => by rw [Nat.zero_mul]; exact Nat.zero_le _
  | i + 1, 0, _, _, _, h => by omega
  | i + 1, fuel + 1, st, hs, hl, hf => by
    obtain ⟨x, hx⟩ := item_more (nested_succeeds d) hs (show 0 < Steps.left st.cur by omega)
    have h1 : Steps.left st.cur = 1 + Steps.left (st.cur.advanceBy 1) := left_advance (by omega)
    have h2 := item_steps hW hs (by omega)
    have h3 := item_turns hW i fuel ⟨st.cur.advanceBy 1, st.items ++ [x], st.length + 1⟩ (fits_advance hs (by omega)) (by dsimp only; omega)
      (by omega)
    simp only [Counted.repSteps, boundReached, Bool.false_eq_true, if_false, Counted.itemSteps, hx, Res.onSuccess]
    rw [Nat.add_mul, Nat.one_mul]
    omega

theorem nested_steps (m : Nat) : ∀ (d : Nat) (s : State I), s.offset ≤ s.input.length → d * m ≤ Steps.left s →
    m ^ d ≤ (nestedCounted d : Counted I Unit).steps s
  | 0, s, _, _ => by rw [Nat.pow_zero]; exact Nat.le_refl _
  | d + 1, s, hs, h => by
    cases m with
    | zero => rw [Nat.pow_succ, Nat.mul_zero]; exact Nat.zero_le _
    | succ m =>
      have hW := fun s : State I => nested_steps (m + 1) d s
      rw [Nat.add_mul, Nat.one_mul] at h
      obtain ⟨x, hx⟩ := item_more (nested_succeeds d) hs (show 0 < Steps.left s by omega)
      have h1 : Steps.left s = 1 + Steps.left (s.advanceBy 1) := left_advance (by omega)
      have h2 := item_steps hW hs (by omega)
      have h3 := item_turns hW m (repFuel .unbounded s) ⟨s.advanceBy 1, [x], 1⟩ (fits_advance hs (by omega)) (by dsimp only; omega)
        (by simp only [repFuel]; unfold Steps.left at *; omega)
      show _ ≤ (item d).steps s + ((item d).run s).onSuccess fun v n =>
        Counted.repSteps (item d) (none : Option (Counted I Unit)) .unbounded (repFuel .unbounded s) ⟨s.advanceBy n, [v], n⟩
      rw [hx, Nat.pow_succ, Nat.mul_comm, Nat.add_mul, Nat.one_mul]
      simp only [Res.onSuccess]
      omega

/-- The exponent cannot be improved: `d` repetitions in each other need at least `m ^ d` steps for a text of `d * m` elements. -/
theorem c150_exponent (d m : Nat) (t : List I) (ht : t.length = d * m) (σ : Nat) (r : Res I Unit) (σ' : Nat)
    (h : nestedTicked d ⟨t, 0⟩ σ r σ') : Plain d (nestedTicked d) (nested d : Parser I Unit) ∧ σ + m ^ d ≤ σ' := by
  refine ⟨nested_plain d, ?_⟩
  obtain ⟨-, rfl⟩ := (nested_clocked d _ _ _ _).1 h
  exact Nat.add_le_add_left (nested_steps m d ⟨t, 0⟩ (Nat.zero_le _) (by unfold Steps.left; dsimp only; omega)) σ

/-- Three repetitions in each other do run on 300 elements, and take a million steps. -/
example : ∃ r σ', nestedTicked 3 ⟨List.replicate 300 'x', 0⟩ 0 r σ' ∧ 10 ^ 6 ≤ σ' := by
  refine ⟨_, _, (nested_clocked 3 _ _ _ _).2 ⟨rfl, rfl⟩, ?_⟩
  have := (c150_exponent 3 100 (List.replicate 300 'x') List.length_replicate 0 _ _ ((nested_clocked 3 _ _ _ _).2 ⟨rfl, rfl⟩)).2
  omega

/-- The polynomial of lower degree is exceeded on some text, whatever its factor. -/
theorem c150_exponent_needed (d k : Nat) (x : I) : ∃ (t : List I), ∀ (σ : Nat) (r : Res I Unit) (σ' : Nat),
    nestedTicked (d + 1) ⟨t, 0⟩ σ r σ' → σ + k * (t.length + 1) ^ d < σ' := by
  refine ⟨List.replicate ((d + 1) * (k * (d + 2) ^ d + 1)) x, fun σ r σ' h => ?_⟩
  have h1 := (c150_exponent (d + 1) (k * (d + 2) ^ d + 1) _ List.length_replicate σ r σ' h).2
  rw [List.length_replicate]
  generalize hm : k * (d + 2) ^ d + 1 = m at h1 ⊢
  have h2 : (d + 1) * m + 1 ≤ (d + 2) * m := by
    rw [show d + 2 = d + 1 + 1 from rfl, Nat.add_mul (d + 1) 1 m, Nat.one_mul]
    omega
  have h3 : k * ((d + 1) * m + 1) ^ d ≤ k * (((d + 2) * m) ^ d) := Nat.mul_le_mul_left _ (Nat.pow_le_pow_left h2 d)
  rw [Nat.mul_pow, ← Nat.mul_assoc] at h3
  have h4 : k * (d + 2) ^ d * m ^ d < m ^ (d + 1) := by
    rw [Nat.pow_succ, Nat.mul_comm (m ^ d) m]
    exact Nat.mul_lt_mul_of_pos_right (by omega) (Nat.pow_pos (by omega))
  omega

end OniComb.Plain
