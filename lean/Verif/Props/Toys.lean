import Verif.Spec.Toys

/-!
# C43–C48, C64–C66: the toys interpreter
-/

namespace OniComb.Toys

/-! ## C43: arithmetic -/

private theorem inI64_iff {i : Int} : inI64 i = true ↔ Fits i := by
  unfold inI64 Fits i64Min i64Max
  simp only [Bool.and_eq_true, decide_eq_true_eq]
  omega

private theorem checked_fits {cfg : Cfg} {i : Int} (h : Fits i) : checked cfg i = some i := by
  simp [checked, inI64_iff.2 h]

private theorem checked_not {cfg : Cfg} (hc : cfg.overflowChecks = true) {i : Int} (h : ¬ Fits i) :
    checked cfg i = none := by
  have : inI64 i = false := by
    cases hi : inI64 i with
    | false => rfl
    | true => exact absurd (inI64_iff.1 hi) h
  simp [checked, this, hc]

private theorem inI64_not {i : Int} (h : ¬ Fits i) : inI64 i = false := by
  cases hi : inI64 i with
  | false => rfl
  | true => exact absurd (inI64_iff.1 hi) h

/-- Arithmetic has its mathematical value, in every state and every build, and changes nothing. -/
theorem c43_arithmetic (cfg : Cfg) (st : St) (e : Expr) (i : Int) (h : Num e i) :
    Runs cfg e st (.int i) st := by
  induction h with
  | lit i _ => exact runs_integer
  | paren _ ih => exact runs_parenthesized.2 ih
  | add _ _ hf h1 h2 | sub _ _ hf h1 h2 | mul _ _ hf h1 h2 =>
    exact runs_binary.2 ⟨_, st, _, h1, h2, by simp [applyOp, ints, Value.asInt, checked_fits hf]⟩
  | div _ _ hb hf h1 h2 =>
    exact runs_binary.2 ⟨_, st, _, h1, h2, by
      simp [applyOp, ints, Value.asInt, divI64, hb, inI64_iff.2 hf]⟩
  | mod _ _ hb hf h1 h2 =>
    exact runs_binary.2 ⟨_, st, _, h1, h2, by
      simp [applyOp, ints, Value.asInt, modI64, hb, inI64_iff.2 hf]⟩

/-- Conditions have their truth value. -/
theorem c43_conditions (cfg : Cfg) (st : St) (e : Expr) (p : Prop) (h : Truth e p) :
    ∃ b, Runs cfg e st (.bool b) st ∧ (b = true ↔ p) := by
  have num : ∀ {e i}, Num e i → Runs cfg e st (.int i) st := fun h => c43_arithmetic cfg st _ _ h
  induction h with
  | paren _ ih => obtain ⟨b, h1, h2⟩ := ih; exact ⟨b, runs_parenthesized.2 h1, h2⟩
  | @lt l r a b h1 h2 =>
    exact ⟨decide (a < b), runs_binary.2 ⟨_, st, _, num h1, num h2, rfl⟩, by simp⟩
  | @le l r a b h1 h2 =>
    exact ⟨decide (a ≤ b), runs_binary.2 ⟨_, st, _, num h1, num h2, rfl⟩, by simp⟩
  | @gt l r a b h1 h2 =>
    exact ⟨decide (b < a), runs_binary.2 ⟨_, st, _, num h1, num h2, rfl⟩, by simp⟩
  | @ge l r a b h1 h2 =>
    exact ⟨decide (b ≤ a), runs_binary.2 ⟨_, st, _, num h1, num h2, rfl⟩, by simp⟩
  | @eq l r a b h1 h2 =>
    exact ⟨decide (a = b), runs_binary.2 ⟨_, st, _, num h1, num h2, rfl⟩, by simp⟩
  | @ne l r a b h1 h2 =>
    exact ⟨decide (a ≠ b), runs_binary.2 ⟨_, st, _, num h1, num h2, rfl⟩, by simp⟩
  | and _ _ ih1 ih2 =>
    obtain ⟨x, h1, h2⟩ := ih1
    obtain ⟨y, h3, h4⟩ := ih2
    refine ⟨x && y, runs_binary.2 ⟨_, st, _, h1, h3, ?_⟩, by simp [h2, h4]⟩
    cases x <;> simp [applyOp, Value.asBool]
  | or _ _ ih1 ih2 =>
    obtain ⟨x, h1, h2⟩ := ih1
    obtain ⟨y, h3, h4⟩ := ih2
    refine ⟨x || y, runs_binary.2 ⟨_, st, _, h1, h3, ?_⟩, by simp [h2, h4]⟩
    cases x <;> simp [applyOp, Value.asBool]

/-- With overflow checks, an arithmetic expression without value (overflow or zero divisor) panics. -/
theorem c43_no_wrong_result (cfg : Cfg) (hc : cfg.overflowChecks = true) (st : St) (e : Expr)
    (h : IsArith e) : (∃ i, Num e i ∧ Fits i ∧ Runs cfg e st (.int i) st) ∨
      ((¬ ∃ i, Num e i) ∧ Panics cfg e st) := by
  induction h with
  | lit i hi => exact .inl ⟨i, .lit i hi, hi, runs_integer⟩
  | paren _ ih =>
    rcases ih with ⟨i, h1, h2, h3⟩ | ⟨h1, h2⟩
    · exact .inl ⟨i, .paren h1, h2, runs_parenthesized.2 h3⟩
    · refine .inr ⟨?_, panics_parenthesized.2 h2⟩
      rintro ⟨i, h⟩
      cases h with | paren h => exact h1 ⟨i, h⟩
  | @bin op l r hop _ _ ihl ihr =>
    rcases ihl with ⟨a, l1, l2, l3⟩ | ⟨l1, l2⟩
    · rcases ihr with ⟨b, r1, r2, r3⟩ | ⟨r1, r2⟩
      · have uniq : ∀ {a' b'}, Num l a' → Num r b' → a' = a ∧ b' = b := by
          intro a' b' ha hb
          have e1 := (c43_arithmetic cfg st l a' ha).unique l3
          have e2 := (c43_arithmetic cfg st r b' hb).unique r3
          simpa using And.intro e1.1 e2.1
        have hr : ∀ {v}, applyOp cfg op (.int a) (.int b) = some v → Runs cfg (.binary op l r) st v st :=
          fun h => runs_binary.2 ⟨_, st, _, l3, r3, h⟩
        have hp : applyOp cfg op (.int a) (.int b) = none → Panics cfg (.binary op l r) st :=
          fun h => panics_binary.2 (.inr ⟨_, st, l3, .inr ⟨_, st, r3, h⟩⟩)
        simp only [List.mem_cons, List.not_mem_nil, or_false] at hop
        rcases hop with rfl | rfl | rfl | rfl | rfl
        · by_cases hf : Fits (a + b)
          · exact .inl ⟨_, .add l1 r1 hf, hf, hr (by simp [applyOp, ints, Value.asInt, checked_fits hf])⟩
          · refine .inr ⟨?_, hp (by simp [applyOp, ints, Value.asInt, checked_not hc hf])⟩
            rintro ⟨i, h⟩
            cases h with
            | add ha hb hf' => obtain ⟨rfl, rfl⟩ := uniq ha hb; exact hf hf'
        · by_cases hf : Fits (a - b)
          · exact .inl ⟨_, .sub l1 r1 hf, hf, hr (by simp [applyOp, ints, Value.asInt, checked_fits hf])⟩
          · refine .inr ⟨?_, hp (by simp [applyOp, ints, Value.asInt, checked_not hc hf])⟩
            rintro ⟨i, h⟩
            cases h with
            | sub ha hb hf' => obtain ⟨rfl, rfl⟩ := uniq ha hb; exact hf hf'
        · by_cases hf : Fits (a * b)
          · exact .inl ⟨_, .mul l1 r1 hf, hf, hr (by simp [applyOp, ints, Value.asInt, checked_fits hf])⟩
          · refine .inr ⟨?_, hp (by simp [applyOp, ints, Value.asInt, checked_not hc hf])⟩
            rintro ⟨i, h⟩
            cases h with
            | mul ha hb hf' => obtain ⟨rfl, rfl⟩ := uniq ha hb; exact hf hf'
        · by_cases hb0 : b = 0
          · refine .inr ⟨?_, hp (by simp [applyOp, ints, Value.asInt, divI64, hb0])⟩
            rintro ⟨i, h⟩
            cases h with
            | div ha hb hb' hf' => obtain ⟨rfl, rfl⟩ := uniq ha hb; exact hb' hb0
          · by_cases hf : Fits (a.tdiv b)
            · exact .inl ⟨_, .div l1 r1 hb0 hf, hf,
                hr (by simp [applyOp, ints, Value.asInt, divI64, hb0, inI64_iff.2 hf])⟩
            · refine .inr ⟨?_, hp (by simp [applyOp, ints, Value.asInt, divI64, hb0, inI64_not hf])⟩
              rintro ⟨i, h⟩
              cases h with
              | div ha hb hb' hf' => obtain ⟨rfl, rfl⟩ := uniq ha hb; exact hf hf'
        · by_cases hb0 : b = 0
          · refine .inr ⟨?_, hp (by simp [applyOp, ints, Value.asInt, modI64, hb0])⟩
            rintro ⟨i, h⟩
            cases h with
            | mod ha hb hb' hf' => obtain ⟨rfl, rfl⟩ := uniq ha hb; exact hb' hb0
          · by_cases hf : Fits (a.tdiv b)
            · have hm : Fits (a.tmod b) := by
                have h1 := Int.natAbs_tmod a b
                have h2 : a.natAbs % b.natAbs ≤ a.natAbs := Nat.mod_le _ _
                have h3 : a.natAbs % b.natAbs < b.natAbs := Nat.mod_lt _ (by omega)
                unfold Fits at l2 r2 ⊢
                omega
              exact .inl ⟨_, .mod l1 r1 hb0 hf, hm,
                hr (by simp [applyOp, ints, Value.asInt, modI64, hb0, inI64_iff.2 hf])⟩
            · refine .inr ⟨?_, hp (by simp [applyOp, ints, Value.asInt, modI64, hb0, inI64_not hf])⟩
              rintro ⟨i, h⟩
              cases h with
              | mod ha hb hb' hf' => obtain ⟨rfl, rfl⟩ := uniq ha hb; exact hf hf'
      · refine .inr ⟨?_, panics_binary.2 (.inr ⟨_, st, l3, .inl r2⟩)⟩
        rintro ⟨i, h⟩
        cases h <;> exact r1 ⟨_, by assumption⟩
    · refine .inr ⟨?_, panics_binary.2 (.inl l2)⟩
      rintro ⟨i, h⟩
      cases h <;> exact l1 ⟨_, by assumption⟩

/-- `(7 - 10) * 2 % 4` is `-2`. -/
example : Num (.binary .mod (.binary .multiply (.parenthesized (.binary .subtract (.integerLiteral 7)
    (.integerLiteral 10))) (.integerLiteral 2)) (.integerLiteral 4)) (-2) :=
  Num.mod (a := -6) (b := 4) (.mul (a := -3) (b := 2)
    (.paren (.sub (a := 7) (b := 10) (.lit 7 (by unfold Fits; omega)) (.lit 10 (by unfold Fits; omega)) (by unfold Fits; omega)))
    (.lit 2 (by unfold Fits; omega)) (by unfold Fits; omega))
    (.lit 4 (by unfold Fits; omega)) (by decide) (by unfold Fits; decide)

/-! ## Frames -/

/-- The enclosing environments are unchanged and the innermost bindings are related. -/
def Frame (R : Map Value → Map Value → Prop) (st st' : St) : Prop :=
  st'.env.next = st.env.next ∧ R st.env.bindings st'.env.bindings

/-- A reflexive and transitive relation that holds for insertions of names without `P`. -/
structure FrameRel (P : Name → Prop) (R : Map Value → Map Value → Prop) : Prop where
  refl : ∀ m, R m m
  trans : ∀ {a b c}, R a b → R b c → R a c
  insert : ∀ m x v, ¬ P x → R m (m.insert x v)

private theorem frame_all {cfg : Cfg} {P : Name → Prop} {R : Map Value → Map Value → Prop}
    (hR : FrameRel P R) {es : List Expr} {st st' : St} {vs : List Value}
    {n : Nat}
    (ih : ∀ e ∈ es, ∀ st st' v, interpret cfg n e st = .ok v st' →
      Frame R st st')
    (h : evalAll (interpret cfg n) es st = .ok vs st') :
    Frame R st st' := by
  induction es generalizing st vs with
  | nil =>
    simp only [evalAll, Out.ok.injEq] at h
    obtain ⟨-, rfl⟩ := h
    exact ⟨rfl, hR.refl _⟩
  | cons e es ihs =>
    rw [evalAll] at h
    obtain ⟨v, st1, h1, h2⟩ := bind_ok h
    obtain ⟨vs', st2, h3, h4⟩ := bind_ok h2
    simp only [Out.ok.injEq] at h4
    obtain ⟨-, rfl⟩ := h4
    obtain ⟨a1, a2⟩ := ih e (by simp) _ _ _ h1
    obtain ⟨b1, b2⟩ := ihs (fun e he => ih e (List.mem_cons_of_mem _ he)) h3
    exact ⟨b1.trans a1, hR.trans a2 b2⟩

private theorem frame_aux {cfg : Cfg} {P : Name → Prop} {R : Map Value → Map Value → Prop}
    (hR : FrameRel P R) : ∀ {n : Nat} {e : Expr} {st st' : St} {v : Value},
    Avoids P e → interpret cfg n e st = .ok v st' →
    Frame R st st'
  | 0, _, _, _, _, _, h => by simp [interpret] at h
  | n + 1, e, st, st', v, ha, h => by
    have ih : ∀ {e st st' v}, Avoids P e → interpret cfg n e st = .ok v st' →
      Frame R st st' := frame_aux hR
    have trans : ∀ {a b c : St}, Frame R a b → Frame R b c → Frame R a c :=
      fun h1 h2 => ⟨h2.1.trans h1.1, hR.trans h1.2 h2.2⟩
    have triv : ∀ {a : St}, Frame R a a := ⟨rfl, hR.refl _⟩
    unfold interpret at h
    cases ha with
    | stringLiteral s => simp only [Out.ok.injEq] at h; obtain ⟨-, rfl⟩ := h; exact triv
    | integerLiteral s => simp only [Out.ok.injEq] at h; obtain ⟨-, rfl⟩ := h; exact triv
    | boolLiteral s => simp at h
    | arrayLiteral s => simp at h
    | symbol x =>
      dsimp only at h
      cases hf : st.env.findBinding x with
      | none => simp [hf] at h
      | some m =>
        cases hm : m x with
        | none => simp [hf, hm] at h
        | some w =>
          simp only [hf, hm, Out.ok.injEq] at h; obtain ⟨-, rfl⟩ := h; exact triv
    | @binary op l r hl hr =>
      obtain ⟨a, st1, h1, h2⟩ := bind_ok h
      obtain ⟨b, st2, h3, h4⟩ := bind_ok h2
      cases ho : applyOp cfg op a b with
      | none => simp [ho] at h4
      | some w =>
        simp only [ho, Out.ok.injEq] at h4
        obtain ⟨-, rfl⟩ := h4
        exact trans (ih hl h1) (ih hr h3)
    | @functionCall f args hargs =>
      dsimp only at h
      cases hf : cfg.fns f with
      | none => simp [hf] at h
      | some pb =>
        simp only [hf] at h
        obtain ⟨vs, st1, h1, h2⟩ := bind_ok h
        cases hb : bindParams pb.1 0 vs Map.empty with
        | none => simp [hb] at h2
        | some m =>
          simp only [hb] at h2
          obtain ⟨w, st2, h3, h4⟩ := bind_ok h2
          simp only [Out.ok.injEq] at h4
          obtain ⟨-, rfl⟩ := h4
          have := frame_all hR (fun e he st st' v => ih (hargs e he)) h1; exact this
    | @labelledCall f args hargs =>
      dsimp only at h
      cases hf : cfg.fns f with
      | none => simp [hf] at h
      | some pb =>
        simp only [hf] at h
        obtain ⟨vs, st1, h1, h2⟩ := bind_ok h
        obtain ⟨w, st2, h3, h4⟩ := bind_ok h2
        simp only [Out.ok.injEq] at h4
        obtain ⟨-, rfl⟩ := h4
        have := frame_all hR (fun e he st st' v => ih (hargs e he)) h1; exact this
    | println he =>
      obtain ⟨a, st1, h1, h2⟩ := bind_ok h
      simp only [Out.ok.injEq] at h2
      obtain ⟨-, rfl⟩ := h2
      have := ih he h1; exact this
    | «while» hc hb =>
      obtain ⟨a, st1, h1, h2⟩ := bind_ok h
      cases hab : a.asBool with
      | none => simp [hab] at h2
      | some x =>
        simp only [hab] at h2
        cases x with
        | false =>
          simp only [Out.ok.injEq] at h2
          obtain ⟨-, rfl⟩ := h2
          exact ih hc h1
        | true =>
          obtain ⟨b, st2, h3, h4⟩ := bind_ok h2
          exact trans (trans (ih hc h1) (ih hb h3)) (ih (.while hc hb) h4)
    | ifElse hc hb he =>
      obtain ⟨a, st1, h1, h2⟩ := bind_ok h
      cases hab : a.asBool with
      | none => simp [hab] at h2
      | some x =>
        simp only [hab] at h2
        cases x with
        | false => exact trans (ih hc h1) (ih he h2)
        | true => exact trans (ih hc h1) (ih hb h2)
    | «if» hc hb =>
      obtain ⟨a, st1, h1, h2⟩ := bind_ok h
      cases hab : a.asBool with
      | none => simp [hab] at h2
      | some x =>
        simp only [hab] at h2
        cases x with
        | false =>
          simp only [Out.ok.injEq] at h2
          obtain ⟨-, rfl⟩ := h2
          exact ih hc h1
        | true => exact trans (ih hc h1) (ih hb h2)
    | block hes =>
      obtain ⟨vs, st1, h1, h2⟩ := bind_ok h
      cases hl : vs.getLast? with
      | none => simp [hl] at h2
      | some w =>
        simp only [hl, Out.ok.injEq] at h2
        obtain ⟨-, rfl⟩ := h2
        exact frame_all hR (fun e he st st' v => ih (hes e he)) h1
    | @assignment x e hx he =>
      dsimp only at h
      cases hf : st.env.findBinding x with
      | none =>
        simp only [hf] at h
        obtain ⟨a, st1, h1, h2⟩ := bind_ok h
        simp only [Out.ok.injEq] at h2
        obtain ⟨-, rfl⟩ := h2
        exact trans (ih he h1) ⟨rfl, hR.insert _ _ _ hx⟩
      | some m =>
        simp only [hf] at h
        obtain ⟨a, st1, h1, h2⟩ := bind_ok h
        cases hb : st1.env.bindings x with
        | none => simp [hb] at h2
        | some y =>
          simp only [hb, Out.ok.injEq] at h2
          obtain ⟨-, rfl⟩ := h2
          exact trans (ih he h1) ⟨rfl, hR.insert _ _ _ hx⟩
    | parenthesized he => exact ih he h
    | identifier | plus | minus | globalVariableDefinition | functionDefinition | program => simp at h

private theorem keeps_rel (P : Name → Prop) :
    FrameRel P fun m m' => ∀ x, P x → m' x = m x where
  refl _ _ _ := rfl
  trans h1 h2 x hx := (h2 x hx).trans (h1 x hx)
  insert m x v hx y hy := by
    have : y ≠ x := by rintro rfl; exact hx hy
    simp [Map.insert, this]

private theorem grows_rel : FrameRel (fun _ => False) fun m m' => ∀ x, m x ≠ none → m' x ≠ none where
  refl _ _ h := h
  trans h1 h2 x hx := h2 x (h1 x hx)
  insert m x v _ y hy := by
    by_cases h : y = x <;> simp [Map.insert, h, hy]

private theorem avoids_false : ∀ e : Expr, Avoids (fun _ => False) e
  | .stringLiteral s => .stringLiteral s
  | .integerLiteral i => .integerLiteral i
  | .boolLiteral b => .boolLiteral b
  | .arrayLiteral es => .arrayLiteral es
  | .symbol x => .symbol x
  | .binary _ l r => .binary (avoids_false l) (avoids_false r)
  | .functionCall _ args => .functionCall fun a _ => avoids_false a
  | .labelledCall _ args => .labelledCall fun a ha => by
      obtain ⟨p, hp, rfl⟩ := List.mem_map.1 ha
      exact avoids_false p.2
  | .println e => .println (avoids_false e)
  | .while c b => .while (avoids_false c) (avoids_false b)
  | .if c b (some e) => .ifElse (avoids_false c) (avoids_false b) (avoids_false e)
  | .if c b none => .if (avoids_false c) (avoids_false b)
  | .block es => .block fun a _ => avoids_false a
  | .assignment _ e => .assignment id (avoids_false e)
  | .parenthesized e => .parenthesized (avoids_false e)
  | .identifier x => .identifier x
  | .plus e => .plus e
  | .minus e => .minus e
  | .globalVariableDefinition x e => .globalVariableDefinition x e
  | .functionDefinition f ps b => .functionDefinition f ps b
  | .program ds => .program ds
termination_by e => sizeOf e
decreasing_by
  all_goals simp_wf
  all_goals first
    | omega
    | (have := List.sizeOf_lt_of_mem ‹_ ∈ args›
       have : sizeOf p.2 < sizeOf p := by cases p; simp; omega
       omega)
    | (have := List.sizeOf_lt_of_mem ‹_›; omega)

private theorem frame {cfg : Cfg} {P : Name → Prop} {e : Expr} {st st' : St} {v : Value}
    (ha : Avoids P e) (h : Runs cfg e st v st') :
    st'.env.next = st.env.next ∧ (∀ x, P x → st'.env.bindings x = st.env.bindings x) := by
  obtain ⟨n, h⟩ := h
  exact frame_aux (keeps_rel P) ha h

private theorem env_ext {a b : Env} (h1 : a.next = b.next) (h2 : ∀ x, a.bindings x = b.bindings x) :
    a = b := by
  cases a; cases b
  simp only at h1 h2
  rw [h1, show _ = _ from funext h2]

private theorem frame_grows {cfg : Cfg} {e : Expr} {st st' : St} {v : Value}
    (h : Runs cfg e st v st') (x : Name) : st.env.bindings x ≠ none → st'.env.bindings x ≠ none := by
  obtain ⟨n, h⟩ := h
  exact (frame_aux grows_rel (avoids_false e) h).2 x

private theorem env_eq {cfg : Cfg} {e : Expr} {st st' : St} {v : Value}
    (ha : Avoids (fun _ => True) e) (h : Runs cfg e st v st') : st'.env = st.env := by
  obtain ⟨h1, h2⟩ := frame ha h
  exact env_ext h1 fun x => h2 x trivial

private theorem envs_eq {cfg : Cfg} {es : List Expr} {st st' : St} {vs : List Value}
    (ha : ∀ e ∈ es, Avoids (fun _ => True) e) (h : RunsAll cfg es st vs st') : st'.env = st.env := by
  induction h with
  | nil => rfl
  | cons h _ ih =>
    exact (ih fun e he => ha e (List.mem_cons_of_mem _ he)).trans (env_eq (ha _ (by simp)) h)

/-! ## C44: parameters -/

private theorem lookup_inner (env : Env) (x : Name) :
    Env.lookup ⟨Map.empty, env.bindings :: env.next⟩ x = env.lookup x := by
  simp only [Env.lookup, Map.empty, List.findSome?_cons]
  cases env.bindings x <;> rfl

/-- What a call does: the arguments are evaluated from left to right, then the body runs with exactly
the variables that are visible to the caller; parameters are not bound. (Full claim: in the body each
parameter is bound to the value of its argument, `inner.env.lookup p = some v`.) -/
theorem c44_call_partial (cfg : Cfg) (f : Name) (args : List Expr) (st st' : St) (v : Value)
    (h : Runs cfg (.functionCall f args) st v st') : ∃ params body values st1 inner st2,
      cfg.fns f = some (params, body) ∧ RunsAll cfg args st values st1 ∧
      params.length ≤ values.length ∧ Runs cfg body inner v st2 ∧
      (∀ x, inner.env.lookup x = st1.env.lookup x) ∧ inner.out = st1.out ∧ st'.out = st2.out := by
  obtain ⟨params, body, values, st1, st2, h1, h2, h3, h4, rfl⟩ := runs_call.1 h
  exact ⟨params, body, values, st1, _, st2, h1, h2, h3, h4, lookup_inner st1.env, rfl, rfl⟩

/-- Hence a parameter has the value of its argument if a variable of that name with that value is
visible to the caller (as in the sample program of main.rs). -/
theorem c44_same_name_partial (cfg : Cfg) (f : Name) (params : List Name) (body : Expr)
    (args : List Expr) (values : List Value) (st st1 st' : St) (v : Value)
    (hf : cfg.fns f = some (params, body)) (ha : RunsAll cfg args st values st1)
    (hp : ∀ (i : Nat) p, params[i]? = some p → ∃ w, values[i]? = some w ∧ st1.env.lookup p = some w)
    (h : Runs cfg (.functionCall f args) st v st') : ∃ inner st2, Runs cfg body inner v st2 ∧
      ∀ (i : Nat) p, params[i]? = some p → ∃ w, values[i]? = some w ∧ inner.env.lookup p = some w := by
  obtain ⟨params', body', values', st1', st2, h1, h2, h3, h4, rfl⟩ := runs_call.1 h
  rw [hf] at h1
  simp only [Option.some.injEq, Prod.mk.injEq] at h1
  obtain ⟨rfl, rfl⟩ := h1
  obtain ⟨n, e1⟩ := runsAll_iff.1 ha
  obtain ⟨m, e2⟩ := runsAll_iff.1 h2
  have e1 := evalAll_ok_mono (Nat.le_max_left n m) e1
  have e2 := evalAll_ok_mono (Nat.le_max_right n m) e2
  rw [e1] at e2
  simp only [Out.ok.injEq] at e2
  obtain ⟨rfl, rfl⟩ := e2
  refine ⟨_, st2, h4, fun i p hi => ?_⟩
  obtain ⟨w, w1, w2⟩ := hp i p hi
  exact ⟨w, w1, by rw [lookup_inner]; exact w2⟩

private theorem runsAll_lits {cfg : Cfg} {is : List Int} {st st' : St} {vs : List Value} :
    RunsAll cfg (is.map .integerLiteral) st vs st' ↔ st' = st ∧ vs = is.map .int := by
  constructor
  · intro h
    induction is generalizing st vs with
    | nil => cases h; exact ⟨rfl, rfl⟩
    | cons i is ih =>
      cases h with
      | cons h1 h2 =>
        obtain ⟨rfl, rfl⟩ := runs_integer_iff.1 h1
        obtain ⟨rfl, rfl⟩ := ih h2
        exact ⟨rfl, rfl⟩
  · rintro ⟨rfl, rfl⟩
    induction is with
    | nil => exact .nil
    | cons i is ih => exact .cons runs_integer ih

/-- The numbers passed to a function have no influence on what it does. -/
theorem c44_arguments_ignored_violated (cfg : Cfg) (f : Name) (is js : List Int)
    (hl : is.length = js.length) (st st' : St) (v : Value) :
    Runs cfg (.functionCall f (is.map .integerLiteral)) st v st' ↔
      Runs cfg (.functionCall f (js.map .integerLiteral)) st v st' := by
  have key : ∀ {is js : List Int}, is.length = js.length →
      Runs cfg (.functionCall f (is.map .integerLiteral)) st v st' →
      Runs cfg (.functionCall f (js.map .integerLiteral)) st v st' := by
    intro is js hl h
    obtain ⟨params, body, values, st1, st2, h1, h2, h3, h4, rfl⟩ := runs_call.1 h
    obtain ⟨rfl, rfl⟩ := runsAll_lits.1 h2
    exact runs_call.2 ⟨params, body, js.map .int, st1, st2, h1, runsAll_lits.2 ⟨rfl, rfl⟩,
      by simpa [← hl] using h3, h4, rfl⟩
  exact ⟨key hl, key hl.symm⟩

/-- `fn id(n) { n; } fn main() { id(5); }` panics. -/
theorem c44_unbound_violated (b : Bool) : ∃ fuel, callMain fuel (Cfg.new b) St.new
    (.program [.functionDefinition "id" ["n"] (.block [.symbol "n"]),
      .functionDefinition "main" [] (.block [.functionCall "id" [.integerLiteral 5]])]) = .panic :=
  ⟨10, by cases b <;> rfl⟩

/-- `fn id(n) { n; } fn main() { n = 7; id(5); }` returns 7. -/
theorem c44_wrong_value_violated (b : Bool) : ∃ fuel st', callMain fuel (Cfg.new b) St.new
    (.program [.functionDefinition "id" ["n"] (.block [.symbol "n"]),
      .functionDefinition "main" [] (.block [.assignment "n" (.integerLiteral 7),
        .functionCall "id" [.integerLiteral 5]])]) = .ok (.int 7) st' :=
  ⟨10, _, by cases b <;> rfl⟩

/-- A call with too few arguments panics, if the arguments can be evaluated. -/
theorem c44_too_few (cfg : Cfg) (f : Name) (params : List Name) (body : Expr) (args : List Expr)
    (values : List Value) (st st1 : St) (hf : cfg.fns f = some (params, body))
    (ha : RunsAll cfg args st values st1) (hl : args.length < params.length) :
    Panics cfg (.functionCall f args) st := by
  have hv : values.length = args.length := by
    clear hl
    induction ha with
    | nil => rfl
    | cons _ _ ih => simp [ih]
  obtain ⟨n, h⟩ := runsAll_iff.1 ha
  refine ⟨n + 1, ?_⟩
  rw [interpret]
  simp only [hf, h, Out.bind]
  rw [bindParams_eq, if_neg (by omega)]

/-- The hypotheses of `c44_same_name_partial` hold for `fizz_buzz(i)` with `n = i`. -/
example : ∃ (cfg : Cfg) (st : St), RunsAll cfg [.symbol "i"] st [.int 3] st ∧
    (∀ (i : Nat) p, (["n"] : List Name)[i]? = some p → ∃ w, [Value.int 3][i]? = some w ∧
      st.env.lookup p = some w) := by
  refine ⟨Cfg.new true, ((St.new.set "i" (.int 3)).set "n" (.int 3)), ?_, ?_⟩
  · exact .cons (runs_symbol.2 ⟨rfl, rfl⟩) .nil
  · intro i p h
    match i with
    | 0 => simp only [List.getElem?_cons_zero, Option.some.injEq] at h; subst h; exact ⟨_, rfl, rfl⟩
    | i + 1 => simp at h

/-! ## C45: locals do not leak -/

/-- A call leaves all variables of the caller as they are, if its arguments contain no assignment. -/
theorem c45_no_leak (cfg : Cfg) (f : Name) (args : List Expr)
    (ha : ∀ a ∈ args, Avoids (fun _ => True) a) (st st' : St) (v : Value)
    (h : Runs cfg (.functionCall f args) st v st') : st'.env = st.env := by
  obtain ⟨params, body, values, st1, st2, h1, h2, h3, h4, rfl⟩ := runs_call.1 h
  have := envs_eq ha h2
  exact this

/-- The same for calls with labelled arguments. -/
theorem c45_no_leak_labelled (cfg : Cfg) (f : Name) (args : List (Name × Expr))
    (ha : ∀ a ∈ args, Avoids (fun _ => True) a.2) (st st' : St) (v : Value)
    (h : Runs cfg (.labelledCall f args) st v st') : st'.env = st.env := by
  obtain ⟨params, body, values, st1, st2, h1, h2, h3, rfl⟩ := runs_labelled.1 h
  have : st1.env = st.env := envs_eq (fun e he => by
    obtain ⟨p, hp, rfl⟩ := List.mem_map.1 he
    exact ha p hp) h2
  exact this

/-- With arbitrary arguments, a call changes exactly what the evaluation of its arguments changes. -/
theorem c45_only_arguments (cfg : Cfg) (f : Name) (args : List Expr) (st st' : St) (v : Value)
    (h : Runs cfg (.functionCall f args) st v st') :
    ∃ values st1, RunsAll cfg args st values st1 ∧ st'.env = st1.env := by
  obtain ⟨params, body, values, st1, st2, h1, h2, h3, h4, rfl⟩ := runs_call.1 h
  exact ⟨values, st1, h2, rfl⟩

/-- Whatever is evaluated, the variables of enclosing scopes do not change, no variable disappears, and
only variables that are assigned in the expression itself change. -/
theorem c45_scope (cfg : Cfg) (e : Expr) (st st' : St) (v : Value) (h : Runs cfg e st v st') :
    st'.env.next = st.env.next ∧ (∀ x, st.env.bindings x ≠ none → st'.env.bindings x ≠ none) ∧
    (∀ x, Avoids (· = x) e → st'.env.lookup x = st.env.lookup x) := by
  refine ⟨(frame (avoids_false e) h).1, frame_grows h, fun x hx => ?_⟩
  obtain ⟨h1, h2⟩ := frame hx h
  simp only [Env.lookup, h1, h2 x rfl]

/-- `fn f() { x = 2; } fn main() { y = 1; f(); y; }`: a call that assigns and returns. -/
example : ∃ fuel st', callMain fuel (Cfg.new true) St.new
    (.program [.functionDefinition "f" [] (.block [.assignment "x" (.integerLiteral 2)]),
      .functionDefinition "main" [] (.block [.assignment "y" (.integerLiteral 1),
        .functionCall "f" [], .symbol "y"])]) = .ok (.int 1) st' ∧ st'.env.lookup "x" = none :=
  ⟨10, _, rfl, rfl⟩

/-! ## C46: assignment -/

theorem set_lookup (st : St) (x : Name) (v : Value) (y : Name) :
    (st.set x v).env.lookup y = if y = x then some v else st.env.lookup y := by
  simp only [St.set, Env.lookup, Map.insert]
  by_cases h : y = x <;> simp [h]

/-- Assignment to a variable of the current scope, or to a new one: the expression is evaluated first;
then the variable has its value and nothing else changes. (Full claim: for every visible variable.) -/
theorem c46_assign_partial (cfg : Cfg) (x : Name) (e : Expr) (st st1 : St) (v : Value)
    (hx : st.env.bindings x ≠ none ∨ st.env.lookup x = none) (h : Runs cfg e st v st1) :
    ∃ st', Runs cfg (.assignment x e) st v st' ∧ st'.env.lookup x = some v ∧
      (∀ y, y ≠ x → st'.env.lookup y = st1.env.lookup y) ∧ st'.out = st1.out := by
  refine ⟨st1.set x v, runs_assignment.2 ⟨st1, h, rfl, ?_⟩, ?_, ?_, rfl⟩
  · rcases hx with hx | hx
    · exact .inr (frame_grows h x hx)
    · exact .inl hx
  · rw [set_lookup, if_pos rfl]
  · intro y hy; rw [set_lookup, if_neg hy]

/-- Whenever an assignment returns, the variable has the assigned value, which is also the result. -/
theorem c46_value (cfg : Cfg) (x : Name) (e : Expr) (st st' : St) (v : Value)
    (h : Runs cfg (.assignment x e) st v st') : st'.env.lookup x = some v ∧
      ∃ st1, Runs cfg e st v st1 ∧ (∀ y, y ≠ x → st'.env.lookup y = st1.env.lookup y) := by
  obtain ⟨st1, h1, rfl, -⟩ := runs_assignment.1 h
  exact ⟨by rw [set_lookup, if_pos rfl], st1, h1, fun y hy => by rw [set_lookup, if_neg hy]⟩

/-- Every assignment to a variable that is visible but belongs to an enclosing scope panics. -/
theorem c46_outer_violated (cfg : Cfg) (x : Name) (e : Expr) (st st1 : St) (v : Value)
    (hx : st.env.lookup x ≠ none) (hb : st.env.bindings x = none) (ha : Avoids (· = x) e)
    (h : Runs cfg e st v st1) : Panics cfg (.assignment x e) st :=
  panics_assignment.2 (.inr ⟨v, st1, h, hx, by rw [(frame ha h).2 x rfl, hb]⟩)

/-- `fn f() { x = 2; } fn main() { x = 1; f(); }` panics. -/
theorem c46_program_violated (b : Bool) : ∃ fuel, callMain fuel (Cfg.new b) St.new
    (.program [.functionDefinition "f" [] (.block [.assignment "x" (.integerLiteral 2)]),
      .functionDefinition "main" [] (.block [.assignment "x" (.integerLiteral 1),
        .functionCall "f" []])]) = .panic :=
  ⟨10, by cases b <;> rfl⟩

example : (St.new.set "x" (.int 1)).env.bindings "x" ≠ none ∧ St.new.env.lookup "y" = none :=
  ⟨by simp [St.set, Map.insert], rfl⟩

/-! ## C47: loops -/

/-- `while`: the body runs as long as the condition holds. -/
theorem c47_while (cfg : Cfg) (c b : Expr) (st st' : St) (v : Value) :
    Runs cfg (.while c b) st v st' ↔ v = .bool true ∧ ∃ n, Loop cfg c b n st st' := by
  constructor
  · rintro ⟨n, h⟩
    induction n generalizing st with
    | zero => simp [interpret] at h
    | succ n ih =>
      rw [interpret] at h
      obtain ⟨w, st1, h1, h2⟩ := bind_ok h
      cases w with
      | bool x =>
        cases x with
        | true =>
          obtain ⟨w, st2, h3, h4⟩ := bind_ok h2
          obtain ⟨rfl, m, hm⟩ := ih st2 h4
          exact ⟨rfl, m + 1, .round ⟨n, h1⟩ ⟨n, h3⟩ hm⟩
        | false =>
          simp only [Value.asBool, Out.ok.injEq] at h2
          obtain ⟨rfl, rfl⟩ := h2
          exact ⟨rfl, 0, .stop ⟨n, h1⟩⟩
      | _ => simp [Value.asBool] at h2
  · rintro ⟨rfl, n, h⟩
    induction h with
    | stop h => exact runs_while.2 (.inl ⟨h, rfl⟩)
    | round h1 h2 _ ih => exact runs_while.2 (.inr ⟨_, _, _, h1, h2, ih⟩)

/-- A loop whose condition stays true never returns. -/
theorem c47_while_forever (cfg : Cfg) (c b : Expr) (I : St → Prop)
    (hc : ∀ st, I st → ∃ st1, Runs cfg c st (.bool true) st1 ∧ ∃ w st2, Runs cfg b st1 w st2 ∧ I st2)
    (st : St) (h : I st) (n : Nat) : interpret cfg n (.while c b) st = .diverge := by
  induction n generalizing st with
  | zero => rfl
  | succ n ih =>
    obtain ⟨st1, ⟨m1, h1⟩, w, st2, ⟨m2, h2⟩, h3⟩ := hc st h
    rw [interpret]
    rcases interpret_mono (cfg := cfg) (Nat.le_max_left n m1) c st with e | e
    · rw [e]; rfl
    · rw [e, interpret_ok_mono (Nat.le_max_right n m1) h1]
      simp only [Out.bind, Value.asBool]
      rcases interpret_mono (cfg := cfg) (Nat.le_max_left n m2) b st1 with e | e
      · rw [e]
      · rw [e, interpret_ok_mono (Nat.le_max_right n m2) h2]
        exact ih st2 h3

private theorem set_self {st : St} {x : Name} {v : Value} (h : st.env.bindings x = some v) :
    st.set x v = st := by
  cases st with
  | mk env out =>
    simp only [St.set]
    congr 1
    refine env_ext rfl fun y => ?_
    simp only [Map.insert]
    by_cases hy : y = x
    · subst hy; rw [if_pos rfl]; exact h.symm
    · rw [if_neg hy]

private theorem set_set (st : St) (x : Name) (v w : Value) : (st.set x v).set x w = st.set x w := by
  simp only [St.set]
  congr 1
  refine env_ext rfl fun y => ?_
  simp only [Map.insert]
  by_cases hy : y = x <;> simp [hy]

private theorem set_bindings (st : St) (x : Name) (v : Value) : (st.set x v).env.bindings x = some v := by
  simp [St.set, Map.insert]

private theorem each_set {cfg : Cfg} {x : Name} {body : Expr} {ks : List Int} {st st' : St} {k m : Value} :
    (∃ s, Each cfg x body ks (st.set x k) s ∧ st' = s.set x m) ↔
      (∃ s, Each cfg x body ks st s ∧ st' = s.set x m) := by
  cases ks with
  | nil =>
    constructor
    · rintro ⟨s, h, rfl⟩; cases h; exact ⟨st, .nil, set_set _ _ _ _⟩
    · rintro ⟨s, h, rfl⟩; cases h; exact ⟨_, .nil, (set_set _ _ _ _).symm⟩
  | cons a ks =>
    constructor
    · rintro ⟨s, h, rfl⟩
      cases h with | cons h1 h2 => rw [set_set] at h1; exact ⟨s, .cons h1 h2, rfl⟩
    · rintro ⟨s, h, rfl⟩
      cases h with
      | cons h1 h2 => exact ⟨s, .cons (by rw [set_set]; exact h1) h2, rfl⟩

private theorem intRange_nil {a b : Int} (h : b ≤ a) : intRange a b = [] := by
  have : (b - a).toNat = 0 := by omega
  simp [intRange, this]

private theorem intRange_cons {a b : Int} (h : a < b) : intRange a b = a :: intRange (a + 1) b := by
  have : (b - a).toNat = (b - (a + 1)).toNat + 1 := by omega
  rw [intRange, this, List.range_succ_eq_map, intRange]
  simp only [List.map_cons, List.map_map, List.cons.injEq]
  refine ⟨by simp, List.map_congr_left fun k _ => ?_⟩
  simp only [Function.comp]
  omega

private theorem for_while {cfg : Cfg} {x : Name} {bound body : Expr} {b : Int} (hb : Num bound b)
    (hbf : Fits b) (hx : Avoids (· = x) body) {st' : St} {v : Value} : ∀ (d : Nat) {a : Int} {st : St},
    (b - a).toNat = d → Fits a → st.env.bindings x = some (.int a) →
    (Runs cfg (.while (.binary .lessThan (.symbol x) bound)
      (.block [body, .assignment x (.binary .add (.symbol x) (.integerLiteral 1))])) st v st' ↔
    v = .bool true ∧ ∃ s, Each cfg x body (intRange a b) st s ∧ st' = s.set x (.int (max a b))) := by
  intro d
  induction d with
  | zero =>
    intro a st hd ha hst
    have hab : b ≤ a := by omega
    have hc : Runs cfg (.binary .lessThan (.symbol x) bound) st (.bool false) st :=
      runs_binary.2 ⟨.int a, st, .int b, runs_symbol.2 ⟨rfl, by simp [Env.lookup, hst]⟩,
        c43_arithmetic cfg st _ _ hb, by simp [applyOp, ints, Value.asInt, hab]⟩
    rw [intRange_nil hab, runs_while]
    constructor
    · rintro (⟨h1, h2⟩ | ⟨st1, w, st2, h1, -⟩)
      · obtain ⟨-, rfl⟩ := h1.unique hc
        exact ⟨h2, st', .nil, by rw [Int.max_eq_left hab, set_self hst]⟩
      · simpa using (h1.unique hc).1
    · rintro ⟨rfl, s, h, rfl⟩
      cases h
      rw [Int.max_eq_left hab, set_self hst]
      exact .inl ⟨hc, rfl⟩
  | succ d ih =>
    intro a st hd ha hst
    have hab : a < b := by omega
    have ha1 : Fits (a + 1) := by unfold Fits at ha hbf ⊢; omega
    have hc : Runs cfg (.binary .lessThan (.symbol x) bound) st (.bool true) st :=
      runs_binary.2 ⟨.int a, st, .int b, runs_symbol.2 ⟨rfl, by simp [Env.lookup, hst]⟩,
        c43_arithmetic cfg st _ _ hb, by simp [applyOp, ints, Value.asInt, hab]⟩
    have hblock : ∀ {w s}, Runs cfg (.block [body, .assignment x (.binary .add (.symbol x)
        (.integerLiteral 1))]) st w s ↔ ∃ u s1, Runs cfg body st u s1 ∧ w = .int (a + 1) ∧
        s = s1.set x (.int (a + 1)) := by
      intro w s
      have hinc : ∀ {s1 : St}, s1.env.bindings x = some (.int a) →
          Runs cfg (.assignment x (.binary .add (.symbol x) (.integerLiteral 1))) s1 (.int (a + 1))
            (s1.set x (.int (a + 1))) := by
        intro s1 hs1
        refine runs_assignment.2 ⟨s1, runs_binary.2 ⟨.int a, s1, .int 1, runs_symbol.2
          ⟨rfl, by simp [Env.lookup, hs1]⟩, runs_integer, ?_⟩, rfl, .inr (by simp [hs1])⟩
        simp [applyOp, ints, Value.asInt, checked_fits ha1]
      rw [runs_block]
      constructor
      · rintro ⟨vs, h1, h2⟩
        cases h1 with
        | cons h1 h3 =>
          cases h3 with
          | cons h3 h4 =>
            cases h4
            have hs1 := ((frame hx h1).2 x rfl).trans hst
            obtain ⟨rfl, rfl⟩ := h3.unique (hinc hs1)
            simp only [List.getLast?_cons_cons, List.getLast?_singleton, Option.some.injEq] at h2
            exact ⟨_, _, h1, h2.symm, rfl⟩
      · rintro ⟨u, s1, h1, rfl, rfl⟩
        have hs1 := ((frame hx h1).2 x rfl).trans hst
        exact ⟨[u, .int (a + 1)], .cons h1 (.cons (hinc hs1) .nil), rfl⟩
    have step : ∀ {s1 : St}, (Runs cfg (.while (.binary .lessThan (.symbol x) bound)
        (.block [body, .assignment x (.binary .add (.symbol x) (.integerLiteral 1))]))
          (s1.set x (.int (a + 1))) v st' ↔ v = .bool true ∧
          ∃ s, Each cfg x body (intRange (a + 1) b) s1 s ∧ st' = s.set x (.int (max a b))) := by
      intro s1
      rw [ih (a := a + 1) (by omega) ha1 (set_bindings _ _ _), each_set]
      have e1 : max (a + 1) b = b := Int.max_eq_right (by omega)
      have e2 : max a b = b := Int.max_eq_right (by omega)
      rw [e1, e2]
    rw [intRange_cons hab, runs_while]
    constructor
    · rintro (⟨h1, -⟩ | ⟨st1, w, st2, h1, h2, h3⟩)
      · simpa using (h1.unique hc).1
      · obtain ⟨-, rfl⟩ := h1.unique hc
        obtain ⟨u, s1, h4, rfl, rfl⟩ := hblock.1 h2
        obtain ⟨rfl, s, h5, rfl⟩ := step.1 h3
        exact ⟨rfl, s, .cons (by rw [set_self hst]; exact h4) h5, rfl⟩
    · rintro ⟨rfl, s, h, rfl⟩
      cases h with
      | cons h1 h2 =>
        rw [set_self hst] at h1
        exact .inr ⟨st, _, _, hc, hblock.2 ⟨_, _, h1, rfl, rfl⟩, step.2 ⟨rfl, s, h2, rfl⟩⟩

/-- `for (x in start to bound) body`, with an arithmetic bound and a body that does not assign `x`:
the body runs once for each `a ≤ x < b` in order, and afterwards `x` is `max a b`. -/
theorem c47_for (cfg : Cfg) (x : Name) (start bound body : Expr) (a b : Int) (hb : Num bound b)
    (hbf : Fits b) (haf : Fits a) (hx : Avoids (· = x) body) (st st1 st' : St) (v : Value)
    (hs : st.env.bindings x ≠ none ∨ st.env.lookup x = none) (ha : Runs cfg start st (.int a) st1) :
    Runs cfg (forLoop x start bound body) st v st' ↔
      v = .bool true ∧ ∃ s, Each cfg x body (intRange a b) st1 s ∧ st' = s.set x (.int (max a b)) := by
  have hassign : Runs cfg (.assignment x start) st (.int a) (st1.set x (.int a)) := by
    refine runs_assignment.2 ⟨st1, ha, rfl, ?_⟩
    rcases hs with hs | hs
    · exact .inr (frame_grows ha x hs)
    · exact .inl hs
  have hw := for_while (cfg := cfg) hb hbf hx (st' := st') (v := v) (b - a).toNat rfl haf
    (set_bindings st1 x (.int a))
  rw [each_set] at hw
  rw [← hw, forLoop, runs_block]
  constructor
  · rintro ⟨vs, h1, h2⟩
    cases h1 with
    | cons h1 h3 =>
      cases h3 with
      | cons h3 h4 =>
        cases h4
        obtain ⟨rfl, rfl⟩ := h1.unique hassign
        simp only [List.getLast?_cons_cons, List.getLast?_singleton, Option.some.injEq] at h2
        rw [← h2]; exact h3
  · intro h
    exact ⟨[.int a, v], .cons hassign (.cons h .nil), rfl⟩

/-- The list of values of the loop variable. -/
theorem c47_range (a b k : Int) : k ∈ intRange a b ↔ a ≤ k ∧ k < b := by
  simp only [intRange, List.mem_map, List.mem_range]
  constructor
  · rintro ⟨n, hn, rfl⟩; omega
  · rintro ⟨h1, h2⟩; exact ⟨(k - a).toNat, by omega, by omega⟩

/-- The values of the loop variable are increasing. -/
theorem c47_range_sorted (a b : Int) : (intRange a b).Pairwise (· < ·) := by
  refine List.pairwise_map.2 (List.pairwise_lt_range.imp ?_)
  intro i j h; omega

/-- `for (i in 1 to n) println(i);` prints 1, …, n - 1, for every `n`. -/
theorem c47_for_prints (cfg : Cfg) (n : Int) (hn : Fits n) (st : St)
    (hs : st.env.lookup "i" = none) : ∃ st', Runs cfg (forLoop "i" (.integerLiteral 1)
      (.integerLiteral n) (.println (.symbol "i"))) st (.bool true) st' ∧
      st'.out = st.out ++ (intRange 1 n).map .int := by
  have each : ∀ (ks : List Int) (st : St), ∃ s, Each cfg "i" (.println (.symbol "i")) ks st s ∧
      s.out = st.out ++ ks.map .int := by
    intro ks
    induction ks with
    | nil => intro st; exact ⟨st, .nil, by simp⟩
    | cons k ks ih =>
      intro st
      obtain ⟨s, h1, h2⟩ := ih ({ (st.set "i" (.int k)) with out := st.out ++ [.int k] })
      exact ⟨s, .cons (runs_println.2 ⟨st.set "i" (.int k), runs_symbol.2
        ⟨rfl, by rw [set_lookup, if_pos rfl]⟩, rfl⟩) h1, by simp [h2]⟩
  obtain ⟨s, h1, h2⟩ := each (intRange 1 n) st
  exact ⟨_, (c47_for cfg "i" _ _ _ 1 n (.lit n hn) hn (by unfold Fits; omega)
    (.println (.symbol _)) st st _ _ (.inr hs) runs_integer).2 ⟨rfl, s, h1, rfl⟩, h2⟩

/-- The bound is evaluated again before every round: `n = 4; for (i in 0 to n) n = n - 1;` runs twice. -/
theorem c47_bound_reevaluated : ∃ fuel v st', interpret (Cfg.new true) fuel (.block
    [.assignment "n" (.integerLiteral 4), forLoop "i" (.integerLiteral 0) (.symbol "n")
      (.assignment "n" (.binary .subtract (.symbol "n") (.integerLiteral 1)))]) St.new = .ok v st' ∧
    getValue st' "i" = some (.int 2) ∧ getValue st' "n" = some (.int 2) :=
  ⟨20, _, _, rfl, rfl, rfl⟩

/-! ## C48: globals -/

/-- Definitions without assignments leave the variables unchanged: `main` runs in an environment that
does not contain the globals. (Full claim: the environment of `main` binds each global.) -/
theorem c48_globals_partial (fuel : Nat) (ds : List Expr) (cfg cfg' : Cfg) (st st' : St)
    (hd : ∀ x e, Expr.globalVariableDefinition x e ∈ ds → Avoids (fun _ => True) e)
    (h : define fuel ds cfg st = .ok cfg' st') : st'.env = st.env := by
  induction ds generalizing cfg st with
  | nil => simp only [define, Out.ok.injEq] at h; rw [h.2]
  | cons d ds ih =>
    have ih' := fun cfg st => ih cfg st fun x e he => hd x e (List.mem_cons_of_mem _ he)
    cases d
    case globalVariableDefinition x e =>
      rw [define] at h
      obtain ⟨v, st1, h1, h2⟩ := bind_ok h
      rw [ih' cfg st1 h2]
      exact env_eq (hd x e (by simp)) ⟨fuel, h1⟩
    case functionDefinition f ps b =>
      rw [define] at h
      exact ih' _ st h
    all_goals simp [define] at h

/-- Reading a global in `main` panics, for every initial value. -/
theorem c48_lost_violated (b : Bool) (i : Int) : ∃ fuel, callMain fuel (Cfg.new b) St.new
    (.program [.globalVariableDefinition "x" (.integerLiteral i),
      .functionDefinition "main" [] (.block [.symbol "x"])]) = .panic :=
  ⟨10, by cases b <;> rfl⟩

/-- The names of globals are never used: with other names in their definitions every program runs in the same way. -/
theorem c48_names_violated (rename : Name → Name) (fuel : Nat) (cfg : Cfg) (st : St) (ds : List Expr) :
    callMain fuel cfg st (.program (ds.map fun d => match d with
      | .globalVariableDefinition x e => .globalVariableDefinition (rename x) e
      | d => d)) = callMain fuel cfg st (.program ds) := by
  simp only [callMain]
  congr 1
  induction ds generalizing cfg st with
  | nil => rfl
  | cons d ds ih =>
    cases d
    case globalVariableDefinition x e =>
      simp only [List.map_cons, define]
      congr 1
      funext _ st'
      exact ih cfg st'
    case functionDefinition f ps b =>
      simp only [List.map_cons, define]
      exact ih _ st
    all_goals rfl

/-- Any program whose `main` begins by reading or printing a name panics if its globals are defined without
assignments, whatever globals there are. -/
theorem c48_read_violated (fuel : Nat) (ds : List Expr) (b : Bool) (cfg : Cfg) (st : St) (ps : List Name) (x : Name)
    (rest : List Expr) (hd : ∀ x e, Expr.globalVariableDefinition x e ∈ ds → Avoids (fun _ => True) e)
    (h : define fuel ds (Cfg.new b) St.new = .ok cfg st) (hf : 3 ≤ fuel) :
    (cfg.fns "main" = some (ps, .block (.symbol x :: rest)) → callMain fuel (Cfg.new b) St.new (.program ds) = .panic) ∧
    (cfg.fns "main" = some (ps, .block (.println (.symbol x) :: rest)) →
      callMain fuel (Cfg.new b) St.new (.program ds) = .panic) := by
  have he := c48_globals_partial fuel ds _ cfg _ st hd h
  obtain ⟨k, rfl⟩ : ∃ k, fuel = k + 3 := ⟨fuel - 3, by omega⟩
  have hx : ∀ n, interpret cfg (n + 1) (.symbol x) st = .panic := by
    intro n
    have : st.env.lookup x = none := by rw [he]; rfl
    rw [interpret_symbol, this]
  have hb : ∀ e, interpret cfg (k + 2) e st = .panic → interpret cfg (k + 3) (.block (e :: rest)) st = .panic := by
    intro e he
    show ((evalAll (interpret cfg (k + 2)) (e :: rest) st).bind _) = _
    rw [evalAll, he]; rfl
  have hp : interpret cfg (k + 2) (.println (.symbol x)) st = .panic := by
    show ((interpret cfg (k + 1) (.symbol x) st).bind _) = _
    rw [hx]; rfl
  constructor <;> intro hm
  · have e1 := hb _ (hx (k + 1))
    simp only [callMain, h, Out.bind, hm]
    exact e1
  · have e1 := hb _ hp
    simp only [callMain, h, Out.bind, hm]
    exact e1

/-- Functions are found in `main` and the last definition of a name wins. -/
theorem c48_functions (fuel : Nat) (ds : List Expr) (cfg cfg' : Cfg) (st st' : St) (f : Name)
    (ps : List Name) (b : Expr) (h : define fuel (ds ++ [.functionDefinition f ps b]) cfg st = .ok cfg' st') :
    cfg'.fns f = some (ps, b) := by
  induction ds generalizing cfg st with
  | nil =>
    simp only [List.nil_append, define, Out.ok.injEq] at h
    rw [← h.1]; simp [Map.insert]
  | cons d ds ih =>
    rw [List.cons_append] at h
    cases d
    case globalVariableDefinition x e =>
      rw [define] at h
      obtain ⟨v, st1, h1, h2⟩ := bind_ok h
      exact ih cfg st1 h2
    case functionDefinition g qs c => rw [define] at h; exact ih _ st h
    all_goals simp [define] at h

/-! ## C64: literals -/

/-- Integer and string literals evaluate to themselves. (Full claim: every literal the parser accepts.) -/
theorem c64_literals_partial (cfg : Cfg) (st : St) (i : Int) (s : String) :
    Runs cfg (.integerLiteral i) st (.int i) st ∧ Runs cfg (.stringLiteral s) st (.string s) st :=
  ⟨⟨1, rfl⟩, ⟨1, rfl⟩⟩

/-- Boolean and array literals, which the parser accepts, always panic. -/
theorem c64_literals_violated (cfg : Cfg) (st : St) (b : Bool) (es : List Expr) :
    Panics cfg (.boolLiteral b) st ∧ Panics cfg (.arrayLiteral es) st :=
  ⟨⟨1, rfl⟩, ⟨1, rfl⟩⟩

/-! ## C65: `&&` and `||` -/

/-- The right operand is always evaluated: if it panics, so does the whole, whatever the left one is. -/
theorem c65_short_circuit_violated (cfg : Cfg) (op : Operator) (l r : Expr) (st st1 : St) (a : Value)
    (hl : Runs cfg l st a st1) (hr : Panics cfg r st1) : Panics cfg (.binary op l r) st :=
  panics_binary.2 (.inr ⟨a, st1, hl, .inl hr⟩)

/-- When both operands return booleans, the result is right and the effects happen in order. -/
theorem c65_value_partial (cfg : Cfg) (l r : Expr) (st st1 st2 : St) (a b : Bool)
    (hl : Runs cfg l st (.bool a) st1) (hr : Runs cfg r st1 (.bool b) st2) :
    Runs cfg (.binary .and l r) st (.bool (a && b)) st2 ∧
    Runs cfg (.binary .or l r) st (.bool (a || b)) st2 := by
  constructor <;> refine runs_binary.2 ⟨_, st1, _, hl, hr, ?_⟩ <;> cases a <;>
    simp [applyOp, Value.asBool]

/-- `1 == 2 && 1 / 0 == 0` panics. -/
example : Panics (Cfg.new true) (.binary .and (.binary .equalEqual (.integerLiteral 1) (.integerLiteral 2))
    (.binary .equalEqual (.binary .divide (.integerLiteral 1) (.integerLiteral 0)) (.integerLiteral 0)))
    St.new := ⟨5, rfl⟩

/-! ## C66: output -/

private theorem out_all {cfg : Cfg} {es : List Expr} {st st' : St} {vs : List Value} {n : Nat}
    (ih : ∀ e st st' v, interpret cfg n e st = .ok v st' → st.out <+: st'.out)
    (h : evalAll (interpret cfg n) es st = .ok vs st') : st.out <+: st'.out := by
  induction es generalizing st vs with
  | nil =>
    simp only [evalAll, Out.ok.injEq] at h
    obtain ⟨-, rfl⟩ := h
    exact List.prefix_rfl
  | cons e es ihs =>
    rw [evalAll] at h
    obtain ⟨v, st1, h1, h2⟩ := bind_ok h
    obtain ⟨vs', st2, h3, h4⟩ := bind_ok h2
    simp only [Out.ok.injEq] at h4
    obtain ⟨-, rfl⟩ := h4
    exact (ih _ _ _ _ h1).trans (ihs h3)

private theorem out_aux {cfg : Cfg} : ∀ {n : Nat} {e : Expr} {st st' : St} {v : Value},
    interpret cfg n e st = .ok v st' → st.out <+: st'.out
  | 0, _, _, _, _, h => by simp [interpret] at h
  | n + 1, e, st, st', v, h => by
    have ih : ∀ e st st' v, interpret cfg n e st = .ok v st' → st.out <+: st'.out :=
      fun _ _ _ _ => out_aux
    have hr : Runs cfg e st v st' := ⟨n + 1, h⟩
    unfold interpret at h
    cases e
    case stringLiteral s => simp only [Out.ok.injEq] at h; obtain ⟨-, rfl⟩ := h; exact List.prefix_rfl
    case integerLiteral s => simp only [Out.ok.injEq] at h; obtain ⟨-, rfl⟩ := h; exact List.prefix_rfl
    case symbol x => rw [(runs_symbol.1 hr).1]; exact List.prefix_rfl
    case binary op l r =>
      obtain ⟨a, st1, h1, h2⟩ := bind_ok h
      obtain ⟨b, st2, h3, h4⟩ := bind_ok h2
      cases ho : applyOp cfg op a b with
      | none => simp [ho] at h4
      | some w =>
        simp only [ho, Out.ok.injEq] at h4
        obtain ⟨-, rfl⟩ := h4
        exact (ih _ _ _ _ h1).trans (ih _ _ _ _ h3)
    case functionCall f args =>
      dsimp only at h
      cases hf : cfg.fns f with
      | none => simp [hf] at h
      | some pb =>
        simp only [hf] at h
        obtain ⟨vs, st1, h1, h2⟩ := bind_ok h
        cases hb : bindParams pb.1 0 vs Map.empty with
        | none => simp [hb] at h2
        | some m =>
          simp only [hb] at h2
          obtain ⟨w, st2, h3, h4⟩ := bind_ok h2
          simp only [Out.ok.injEq] at h4
          obtain ⟨-, rfl⟩ := h4
          have := ih _ _ _ _ h3
          exact (out_all ih h1).trans this
    case labelledCall f args =>
      dsimp only at h
      cases hf : cfg.fns f with
      | none => simp [hf] at h
      | some pb =>
        simp only [hf] at h
        obtain ⟨vs, st1, h1, h2⟩ := bind_ok h
        obtain ⟨w, st2, h3, h4⟩ := bind_ok h2
        simp only [Out.ok.injEq] at h4
        obtain ⟨-, rfl⟩ := h4
        have := ih _ _ _ _ h3
        exact (out_all ih h1).trans this
    case println e =>
      obtain ⟨a, st1, h1, h2⟩ := bind_ok h
      simp only [Out.ok.injEq] at h2
      obtain ⟨-, rfl⟩ := h2
      exact (ih _ _ _ _ h1).trans (List.prefix_append _ _)
    case «while» c b =>
      obtain ⟨a, st1, h1, h2⟩ := bind_ok h
      cases hab : a.asBool with
      | none => simp [hab] at h2
      | some x =>
        simp only [hab] at h2
        cases x with
        | false =>
          simp only [Out.ok.injEq] at h2
          obtain ⟨-, rfl⟩ := h2
          exact ih _ _ _ _ h1
        | true =>
          obtain ⟨b, st2, h3, h4⟩ := bind_ok h2
          exact ((ih _ _ _ _ h1).trans (ih _ _ _ _ h3)).trans (ih _ _ _ _ h4)
    case «if» c b eb =>
      obtain ⟨a, st1, h1, h2⟩ := bind_ok h
      cases hab : a.asBool with
      | none => simp [hab] at h2
      | some x =>
        simp only [hab] at h2
        cases x with
        | true => exact (ih _ _ _ _ h1).trans (ih _ _ _ _ h2)
        | false =>
          cases eb with
          | some e => exact (ih _ _ _ _ h1).trans (ih _ _ _ _ h2)
          | none =>
            simp only [Out.ok.injEq] at h2
            obtain ⟨-, rfl⟩ := h2
            exact ih _ _ _ _ h1
    case block es =>
      obtain ⟨vs, st1, h1, h2⟩ := bind_ok h
      cases hl : vs.getLast? with
      | none => simp [hl] at h2
      | some w =>
        simp only [hl, Out.ok.injEq] at h2
        obtain ⟨-, rfl⟩ := h2
        exact out_all ih h1
    case assignment x e =>
      obtain ⟨st1, ⟨m, h1⟩, rfl, -⟩ := runs_assignment.1 hr
      dsimp only at h
      cases hf : st.env.findBinding x with
      | none =>
        simp only [hf] at h
        obtain ⟨a, st2, h3, h2⟩ := bind_ok h
        simp only [Out.ok.injEq] at h2
        have := ih _ _ _ _ h3
        rw [← h2.2]; exact this
      | some m =>
        simp only [hf] at h
        obtain ⟨a, st2, h3, h2⟩ := bind_ok h
        cases hb : st2.env.bindings x with
        | none => simp [hb] at h2
        | some y =>
          simp only [hb, Out.ok.injEq] at h2
          have := ih _ _ _ _ h3
          rw [← h2.2]; exact this
    case parenthesized e => exact ih _ _ _ _ h
    all_goals simp at h

/-- Output is never taken back or reordered. -/
theorem c66_append_only (cfg : Cfg) (e : Expr) (st st' : St) (v : Value) (h : Runs cfg e st v st') :
    st.out <+: st'.out := by
  obtain ⟨n, h⟩ := h
  exact out_aux h

/-- `println` prints the value of its argument after everything its evaluation prints, and returns it. -/
theorem c66_println (cfg : Cfg) (e : Expr) (st st' : St) (v : Value) :
    Runs cfg (.println e) st v st' ↔ ∃ st1, Runs cfg e st v st1 ∧ st'.env = st1.env ∧
      st'.out = st1.out ++ [v] := by
  rw [runs_println]
  constructor
  · rintro ⟨st1, h, rfl⟩; exact ⟨st1, h, rfl, rfl⟩
  · rintro ⟨st1, h, h1, h2⟩
    refine ⟨st1, h, ?_⟩
    cases st'
    simp only at h1 h2
    rw [h1, h2]

/-- A run has one outcome: value, final variables and output are determined, and a run that returns
does not panic. -/
theorem c66_deterministic (cfg : Cfg) (e : Expr) (st st1 st2 : St) (v1 v2 : Value)
    (h1 : Runs cfg e st v1 st1) (h2 : Runs cfg e st v2 st2) :
    v1 = v2 ∧ st1 = st2 ∧ ¬ Panics cfg e st :=
  ⟨(h1.unique h2).1, (h1.unique h2).2, h1.not_panics⟩

/-- `if` runs exactly one branch; without `else` the value is `true`. -/
theorem c66_if (cfg : Cfg) (c b e : Expr) (p : Prop) (hc : Truth c p) (st st' : St) (v : Value) :
    (Runs cfg (.if c b (some e)) st v st' ↔ (p ∧ Runs cfg b st v st') ∨ (¬ p ∧ Runs cfg e st v st')) ∧
    (Runs cfg (.if c b none) st v st' ↔
      (p ∧ Runs cfg b st v st') ∨ (¬ p ∧ v = .bool true ∧ st' = st)) := by
  obtain ⟨x, h1, h2⟩ := c43_conditions cfg st c p hc
  constructor
  · rw [runs_if]
    constructor
    · rintro ⟨y, st1, h3, h4⟩
      obtain ⟨hy, rfl⟩ := h3.unique h1
      simp only [Value.bool.injEq] at hy
      subst hy
      cases y
      · exact .inr ⟨fun hp => by simpa using h2.2 hp, h4⟩
      · exact .inl ⟨h2.1 rfl, h4⟩
    · rintro (⟨hp, h⟩ | ⟨hp, h⟩)
      · have := h2.2 hp; subst this; exact ⟨true, st, h1, h⟩
      · cases x
        · exact ⟨false, st, h1, h⟩
        · exact absurd (h2.1 rfl) hp
  · rw [runs_if]
    constructor
    · rintro ⟨y, st1, h3, h4⟩
      obtain ⟨hy, rfl⟩ := h3.unique h1
      simp only [Value.bool.injEq] at hy
      subst hy
      cases y
      · exact .inr ⟨fun hp => by simpa using h2.2 hp, h4⟩
      · exact .inl ⟨h2.1 rfl, h4⟩
    · rintro (⟨hp, h⟩ | ⟨hp, h⟩)
      · have := h2.2 hp; subst this; exact ⟨true, st, h1, h⟩
      · cases x
        · exact ⟨false, st, h1, h⟩
        · exact absurd (h2.1 rfl) hp

/-- `if` for every condition, whatever it prints or assigns: the condition is evaluated first, exactly
one branch runs, and it runs in the state the condition has left; without `else` the value is `true`. -/
theorem c66_if_any (cfg : Cfg) (c b e : Expr) (st st' : St) (v : Value) :
    (Runs cfg (.if c b (some e)) st v st' ↔
      (∃ st1, Runs cfg c st (.bool true) st1 ∧ Runs cfg b st1 v st') ∨
      (∃ st1, Runs cfg c st (.bool false) st1 ∧ Runs cfg e st1 v st')) ∧
    (Runs cfg (.if c b none) st v st' ↔
      (∃ st1, Runs cfg c st (.bool true) st1 ∧ Runs cfg b st1 v st') ∨
      (Runs cfg c st (.bool false) st' ∧ v = .bool true)) := by
  constructor
  · rw [runs_if]
    constructor
    · rintro ⟨x, st1, h1, h2⟩
      cases x
      · exact .inr ⟨st1, h1, h2⟩
      · exact .inl ⟨st1, h1, h2⟩
    · rintro (⟨st1, h1, h2⟩ | ⟨st1, h1, h2⟩)
      · exact ⟨true, st1, h1, h2⟩
      · exact ⟨false, st1, h1, h2⟩
  · rw [runs_if]
    constructor
    · rintro ⟨x, st1, h1, h2⟩
      cases x
      · obtain ⟨rfl, rfl⟩ := h2
        exact .inr ⟨h1, rfl⟩
      · exact .inl ⟨st1, h1, h2⟩
    · rintro (⟨st1, h1, h2⟩ | ⟨h1, rfl⟩)
      · exact ⟨true, st1, h1, h2⟩
      · exact ⟨false, st', h1, rfl, rfl⟩

/-- A condition that is not a truth value panics, and no branch runs. -/
theorem c66_if_number (cfg : Cfg) (c b : Expr) (eb : Option Expr) (st st1 : St) (v : Value)
    (h : Runs cfg c st v st1) (hv : ∀ x, v ≠ .bool x) : Panics cfg (.if c b eb) st := by
  obtain ⟨n, h⟩ := h
  refine ⟨n + 1, ?_⟩
  cases v with
  | bool x => exact absurd rfl (hv x)
  | _ => simp [interpret, h, Out.bind, Value.asBool]

example : ∃ st', Runs (Cfg.new true)
    (.if (.binary .lessThan (.println (.integerLiteral 1)) (.integerLiteral 2))
      (.println (.integerLiteral 3)) (some (.println (.integerLiteral 4)))) St.new (.int 3) st' ∧
    st'.out = [.int 1, .int 3] :=
  ⟨{ St.new with out := [.int 1, .int 3] }, ⟨10, by rfl⟩, rfl⟩

end OniComb.Toys
