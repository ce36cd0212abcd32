import Verif.Model.Toys

/-!
# Fuel of the toys interpreter
-/

namespace OniComb.Toys

/-- `o'` is `o`, unless `o` did not finish. -/
def Le {A : Type} (o o' : Out A) : Prop := o = .diverge ∨ o = o'

theorem Le.refl {A : Type} (o : Out A) : Le o o := .inr rfl

theorem Le.bind {A B : Type} {o o' : Out A} {f f' : A → St → Out B} (h : Le o o')
    (hf : ∀ a st, Le (f a st) (f' a st)) : Le (o.bind f) (o'.bind f') := by
  rcases h with rfl | rfl
  · exact .inl rfl
  · cases o with
    | ok a st => exact hf a st
    | panic => exact .inr rfl
    | diverge => exact .inl rfl

theorem evalAll_le {ev ev' : Expr → St → Out Value} (h : ∀ e st, Le (ev e st) (ev' e st)) :
    ∀ es st, Le (evalAll ev es st) (evalAll ev' es st)
  | [], _ => Le.refl _
  | e :: es, st => by
    rw [evalAll, evalAll]
    exact (h e st).bind fun v st => (evalAll_le h es st).bind fun vs st => Le.refl _

theorem interpret_succ (cfg : Cfg) : ∀ (n : Nat) (e : Expr) (st : St),
    Le (interpret cfg n e st) (interpret cfg (n + 1) e st)
  | 0, _, _ => .inl rfl
  | n + 1, e, st => by
    have ih := interpret_succ cfg n
    have ihs := evalAll_le ih
    unfold interpret
    cases e <;> dsimp only
    case binary op l r =>
      exact (ih l st).bind fun v st => (ih r st).bind fun w st => Le.refl _
    case symbol name => exact Le.refl _
    case functionCall name args =>
      cases cfg.fns name with
      | none => exact Le.refl _
      | some pb =>
        refine (ihs args st).bind fun vs st => ?_
        cases bindParams pb.1 0 vs Map.empty with
        | none => exact Le.refl _
        | some b => exact (ih _ _).bind fun v st => Le.refl _
    case labelledCall name args =>
      cases cfg.fns name with
      | none => exact Le.refl _
      | some pb => exact (ihs _ st).bind fun vs st => (ih _ _).bind fun v st => Le.refl _
    case println e => exact (ih e st).bind fun v st => Le.refl _
    case «while» c b =>
      refine (ih c st).bind fun v st => ?_
      cases v.asBool with
      | none => exact Le.refl _
      | some x =>
        cases x
        · exact Le.refl _
        · exact (ih b st).bind fun _ st => ih _ st
    case «if» c b eb =>
      refine (ih c st).bind fun v st => ?_
      cases v.asBool with
      | none => exact Le.refl _
      | some x =>
        cases x
        · cases eb with
          | none => exact Le.refl _
          | some e => exact ih e st
        · exact ih b st
    case block es => exact (ihs es st).bind fun v st => Le.refl _
    case assignment name e =>
      cases st.env.findBinding name with
      | none => exact (ih e st).bind fun v st => Le.refl _
      | some m => exact (ih e st).bind fun v st => Le.refl _
    case parenthesized e => exact ih e st
    all_goals exact Le.refl _

/-- More fuel does not change a finished run. -/
theorem interpret_mono {cfg : Cfg} {n m : Nat} (h : n ≤ m) (e : Expr) (st : St) :
    Le (interpret cfg n e st) (interpret cfg m e st) := by
  induction h with
  | refl => exact Le.refl _
  | step _ ih =>
    rcases ih with h1 | h1
    · exact .inl h1
    · rw [h1]; exact interpret_succ cfg _ e st

theorem interpret_ok_mono {cfg : Cfg} {n m : Nat} (h : n ≤ m) {e : Expr} {st st' : St} {v : Value}
    (ho : interpret cfg n e st = .ok v st') : interpret cfg m e st = .ok v st' := by
  rcases interpret_mono (cfg := cfg) h e st with h1 | h1
  · rw [ho] at h1; simp at h1
  · rw [← h1, ho]

theorem interpret_panic_mono {cfg : Cfg} {n m : Nat} (h : n ≤ m) {e : Expr} {st : St}
    (ho : interpret cfg n e st = .panic) : interpret cfg m e st = .panic := by
  rcases interpret_mono (cfg := cfg) h e st with h1 | h1
  · rw [ho] at h1; simp at h1
  · rw [← h1, ho]

/-- The run finishes with a value. -/
def Runs (cfg : Cfg) (e : Expr) (st : St) (v : Value) (st' : St) : Prop :=
  ∃ n, interpret cfg n e st = .ok v st'

/-- The run panics. -/
def Panics (cfg : Cfg) (e : Expr) (st : St) : Prop := ∃ n, interpret cfg n e st = .panic

/-- A run has at most one outcome. -/
theorem Runs.unique {cfg : Cfg} {e : Expr} {st st1 st2 : St} {v1 v2 : Value}
    (h1 : Runs cfg e st v1 st1) (h2 : Runs cfg e st v2 st2) : v1 = v2 ∧ st1 = st2 := by
  obtain ⟨n, h1⟩ := h1
  obtain ⟨m, h2⟩ := h2
  have a := interpret_ok_mono (Nat.le_max_left n m) h1
  have b := interpret_ok_mono (Nat.le_max_right n m) h2
  rw [a] at b
  simpa using b

theorem Runs.not_panics {cfg : Cfg} {e : Expr} {st st1 : St} {v1 : Value}
    (h1 : Runs cfg e st v1 st1) : ¬ Panics cfg e st := by
  rintro ⟨m, h2⟩
  obtain ⟨n, h1⟩ := h1
  have a := interpret_ok_mono (Nat.le_max_left n m) h1
  have b := interpret_panic_mono (Nat.le_max_right n m) h2
  rw [a] at b
  simp at b

/-! ## Rules: what a run of each construct is -/

theorem bind_ok {A B : Type} {o : Out A} {f : A → St → Out B} {b : B} {st' : St}
    (h : o.bind f = .ok b st') : ∃ a st, o = .ok a st ∧ f a st = .ok b st' := by
  cases o with
  | ok a st => exact ⟨a, st, rfl, h⟩
  | panic => simp [Out.bind] at h
  | diverge => simp [Out.bind] at h

theorem bind_panic {A B : Type} {o : Out A} {f : A → St → Out B}
    (h : o.bind f = .panic) : o = .panic ∨ ∃ a st, o = .ok a st ∧ f a st = .panic := by
  cases o with
  | ok a st => exact .inr ⟨a, st, rfl, h⟩
  | panic => exact .inl rfl
  | diverge => simp [Out.bind] at h

/-- A list is evaluated from left to right. -/
inductive RunsAll (cfg : Cfg) : List Expr → St → List Value → St → Prop where
  | nil {st : St} : RunsAll cfg [] st [] st
  | cons {e : Expr} {es : List Expr} {st st1 st2 : St} {v : Value} {vs : List Value} :
      Runs cfg e st v st1 → RunsAll cfg es st1 vs st2 → RunsAll cfg (e :: es) st (v :: vs) st2

theorem evalAll_ok_mono {cfg : Cfg} {n m : Nat} (h : n ≤ m) {es : List Expr} {st st' : St}
    {vs : List Value} (ho : evalAll (interpret cfg n) es st = .ok vs st') :
    evalAll (interpret cfg m) es st = .ok vs st' := by
  rcases evalAll_le (fun e st => interpret_mono (cfg := cfg) h e st) es st with h1 | h1
  · rw [ho] at h1; simp at h1
  · rw [← h1, ho]

theorem runsAll_iff {cfg : Cfg} {es : List Expr} {st st' : St} {vs : List Value} :
    RunsAll cfg es st vs st' ↔ ∃ n, evalAll (interpret cfg n) es st = .ok vs st' := by
  constructor
  · intro h
    induction h with
    | nil => exact ⟨0, rfl⟩
    | cons h _ ih =>
      obtain ⟨n, h⟩ := h
      obtain ⟨m, ih⟩ := ih
      refine ⟨max n m, ?_⟩
      rw [evalAll, interpret_ok_mono (Nat.le_max_left n m) h]
      simp only [Out.bind]
      rw [evalAll_ok_mono (Nat.le_max_right n m) ih]
  · rintro ⟨n, h⟩
    induction es generalizing st vs with
    | nil =>
      simp only [evalAll, Out.ok.injEq] at h
      obtain ⟨rfl, rfl⟩ := h
      exact .nil
    | cons e es ih =>
      rw [evalAll] at h
      obtain ⟨v, st1, h1, h2⟩ := bind_ok h
      obtain ⟨vs', st2, h3, h4⟩ := bind_ok h2
      simp only [Out.ok.injEq] at h4
      obtain ⟨rfl, rfl⟩ := h4
      exact .cons ⟨n, h1⟩ (ih h3)

theorem runs_integer {cfg : Cfg} {i : Int} {st : St} : Runs cfg (.integerLiteral i) st (.int i) st :=
  ⟨1, rfl⟩

theorem runs_integer_iff {cfg : Cfg} {i : Int} {st st' : St} {v : Value} :
    Runs cfg (.integerLiteral i) st v st' ↔ v = .int i ∧ st' = st :=
  ⟨fun h => h.unique runs_integer, by rintro ⟨rfl, rfl⟩; exact runs_integer⟩

theorem runs_binary {cfg : Cfg} {op : Operator} {l r : Expr} {st st' : St} {v : Value} :
    Runs cfg (.binary op l r) st v st' ↔ ∃ a st1 b, Runs cfg l st a st1 ∧ Runs cfg r st1 b st' ∧
      applyOp cfg op a b = some v := by
  constructor
  · rintro ⟨n, h⟩
    cases n with
    | zero => simp [interpret] at h
    | succ n =>
      rw [interpret] at h
      obtain ⟨a, st1, h1, h2⟩ := bind_ok h
      obtain ⟨b, st2, h3, h4⟩ := bind_ok h2
      cases ha : applyOp cfg op a b with
      | none => simp [ha] at h4
      | some w =>
        simp only [ha, Out.ok.injEq] at h4
        obtain ⟨rfl, rfl⟩ := h4
        exact ⟨a, st1, b, ⟨n, h1⟩, ⟨n, h3⟩, ha⟩
  · rintro ⟨a, st1, b, ⟨n, h1⟩, ⟨m, h2⟩, h3⟩
    refine ⟨max n m + 1, ?_⟩
    rw [interpret, interpret_ok_mono (Nat.le_max_left n m) h1]
    simp only [Out.bind]
    rw [interpret_ok_mono (Nat.le_max_right n m) h2]
    simp only [h3]

theorem panics_binary {cfg : Cfg} {op : Operator} {l r : Expr} {st : St} :
    Panics cfg (.binary op l r) st ↔ Panics cfg l st ∨ (∃ a st1, Runs cfg l st a st1 ∧
      (Panics cfg r st1 ∨ ∃ b st2, Runs cfg r st1 b st2 ∧ applyOp cfg op a b = none)) := by
  constructor
  · rintro ⟨n, h⟩
    cases n with
    | zero => simp [interpret] at h
    | succ n =>
      rw [interpret] at h
      rcases bind_panic h with h | ⟨a, st1, h1, h2⟩
      · exact .inl ⟨n, h⟩
      · refine .inr ⟨a, st1, ⟨n, h1⟩, ?_⟩
        rcases bind_panic h2 with h2 | ⟨b, st2, h3, h4⟩
        · exact .inl ⟨n, h2⟩
        · refine .inr ⟨b, st2, ⟨n, h3⟩, ?_⟩
          cases ha : applyOp cfg op a b with
          | none => rfl
          | some w => simp [ha] at h4
  · rintro (⟨n, h⟩ | ⟨a, st1, ⟨n, h1⟩, h⟩)
    · exact ⟨n + 1, by rw [interpret, h]; rfl⟩
    · rcases h with ⟨m, h⟩ | ⟨b, st2, ⟨m, h2⟩, h3⟩
      · refine ⟨max n m + 1, ?_⟩
        rw [interpret, interpret_ok_mono (Nat.le_max_left n m) h1]
        simp only [Out.bind]
        rw [interpret_panic_mono (Nat.le_max_right n m) h]
      · refine ⟨max n m + 1, ?_⟩
        rw [interpret, interpret_ok_mono (Nat.le_max_left n m) h1]
        simp only [Out.bind]
        rw [interpret_ok_mono (Nat.le_max_right n m) h2]
        simp only [h3]

theorem runs_parenthesized {cfg : Cfg} {e : Expr} {st st' : St} {v : Value} :
    Runs cfg (.parenthesized e) st v st' ↔ Runs cfg e st v st' := by
  constructor
  · rintro ⟨n, h⟩
    cases n with
    | zero => simp [interpret] at h
    | succ n => exact ⟨n, h⟩
  · rintro ⟨n, h⟩; exact ⟨n + 1, h⟩

theorem panics_parenthesized {cfg : Cfg} {e : Expr} {st : St} :
    Panics cfg (.parenthesized e) st ↔ Panics cfg e st := by
  constructor
  · rintro ⟨n, h⟩
    cases n with
    | zero => simp [interpret] at h
    | succ n => exact ⟨n, h⟩
  · rintro ⟨n, h⟩; exact ⟨n + 1, h⟩

/-- What reading a variable gives. -/
def Env.lookup (env : Env) (name : Name) : Option Value :=
  match env.bindings name with
  | some v => some v
  | none => env.next.findSome? (· name)

theorem findIn_lookup (name : Name) : ∀ ms : List (Map Value),
    ((findIn name ms).bind (· name)) = ms.findSome? (· name)
  | [] => rfl
  | m :: ms => by
    rw [findIn, List.findSome?_cons]
    cases h : m name with
    | none => simp only; exact findIn_lookup name ms
    | some v => simp [h]

theorem findIn_isSome (name : Name) : ∀ ms : List (Map Value),
    (findIn name ms).isSome = (ms.findSome? (· name)).isSome
  | [] => rfl
  | m :: ms => by
    rw [findIn, List.findSome?_cons]
    cases h : m name with
    | none => simp only; exact findIn_isSome name ms
    | some v => simp

theorem findBinding_lookup (env : Env) (name : Name) :
    ((env.findBinding name).bind (· name)) = env.lookup name := by
  rw [Env.findBinding, findIn_lookup, List.findSome?_cons, Env.lookup]
  cases env.bindings name <;> rfl

theorem findBinding_isSome (env : Env) (name : Name) :
    (env.findBinding name).isSome = (env.lookup name).isSome := by
  rw [Env.findBinding, findIn_isSome, List.findSome?_cons, Env.lookup]
  cases env.bindings name <;> rfl

theorem interpret_symbol {cfg : Cfg} {n : Nat} {name : Name} {st : St} :
    interpret cfg (n + 1) (.symbol name) st =
      match st.env.lookup name with
      | some v => .ok v st
      | none => .panic := by
  rw [interpret, ← findBinding_lookup]
  cases st.env.findBinding name with
  | none => rfl
  | some m =>
    simp only [Option.bind_some]
    cases m name <;> rfl

theorem runs_symbol {cfg : Cfg} {name : Name} {st st' : St} {v : Value} :
    Runs cfg (.symbol name) st v st' ↔ st' = st ∧ st.env.lookup name = some v := by
  constructor
  · rintro ⟨n, h⟩
    cases n with
    | zero => simp [interpret] at h
    | succ n =>
      rw [interpret_symbol] at h
      cases hl : st.env.lookup name with
      | none => simp [hl] at h
      | some w =>
        simp only [hl, Out.ok.injEq] at h
        exact ⟨h.2.symm, by rw [h.1]⟩
  · rintro ⟨rfl, h⟩
    exact ⟨1, by rw [interpret_symbol, h]⟩

theorem panics_symbol {cfg : Cfg} {name : Name} {st : St} :
    Panics cfg (.symbol name) st ↔ st.env.lookup name = none := by
  constructor
  · rintro ⟨n, h⟩
    cases n with
    | zero => simp [interpret] at h
    | succ n =>
      rw [interpret_symbol] at h
      cases hl : st.env.lookup name with
      | none => rfl
      | some w => simp [hl] at h
  · intro h
    exact ⟨1, by rw [interpret_symbol, h]⟩

/-- The state after the variable is set in the innermost environment. -/
def St.set (st : St) (name : Name) (v : Value) : St :=
  { st with env := ⟨st.env.bindings.insert name v, st.env.next⟩ }

theorem runs_assignment {cfg : Cfg} {name : Name} {e : Expr} {st st' : St} {v : Value} :
    Runs cfg (.assignment name e) st v st' ↔ ∃ st1, Runs cfg e st v st1 ∧ st' = st1.set name v ∧
      (st.env.lookup name = none ∨ st1.env.bindings name ≠ none) := by
  have hs := findBinding_isSome st.env name
  constructor
  · rintro ⟨n, h⟩
    cases n with
    | zero => simp [interpret] at h
    | succ n =>
      rw [interpret] at h
      cases hf : st.env.findBinding name with
      | none =>
        rw [hf] at hs
        simp only [hf] at h
        obtain ⟨w, st1, h1, h2⟩ := bind_ok h
        simp only [Out.ok.injEq] at h2
        obtain ⟨rfl, rfl⟩ := h2
        refine ⟨st1, ⟨n, h1⟩, rfl, .inl ?_⟩
        cases hl : st.env.lookup name with
        | none => rfl
        | some x => rw [hl] at hs; simp at hs
      | some m =>
        simp only [hf] at h
        obtain ⟨w, st1, h1, h2⟩ := bind_ok h
        cases hb : st1.env.bindings name with
        | none => simp [hb] at h2
        | some x =>
          simp only [hb, Out.ok.injEq] at h2
          obtain ⟨rfl, rfl⟩ := h2
          exact ⟨st1, ⟨n, h1⟩, rfl, .inr (by simp [hb])⟩
  · rintro ⟨st1, ⟨n, h1⟩, rfl, h2⟩
    refine ⟨n + 1, ?_⟩
    rw [interpret]
    cases hf : st.env.findBinding name with
    | none => simp only [h1, Out.bind]; rfl
    | some m =>
      simp only [h1, Out.bind]
      have hb : st1.env.bindings name ≠ none := by
        rcases h2 with h2 | h2
        · rw [hf, h2] at hs; simp at hs
        · exact h2
      cases hbb : st1.env.bindings name with
      | none => exact absurd hbb hb
      | some x => rfl

theorem panics_assignment {cfg : Cfg} {name : Name} {e : Expr} {st : St} :
    Panics cfg (.assignment name e) st ↔ Panics cfg e st ∨ ∃ v st1, Runs cfg e st v st1 ∧
      st.env.lookup name ≠ none ∧ st1.env.bindings name = none := by
  have hs := findBinding_isSome st.env name
  constructor
  · rintro ⟨n, h⟩
    cases n with
    | zero => simp [interpret] at h
    | succ n =>
      rw [interpret] at h
      cases hf : st.env.findBinding name with
      | none =>
        simp only [hf] at h
        rcases bind_panic h with h | ⟨w, st1, h1, h2⟩
        · exact .inl ⟨n, h⟩
        · simp at h2
      | some m =>
        simp only [hf] at h
        rcases bind_panic h with h | ⟨w, st1, h1, h2⟩
        · exact .inl ⟨n, h⟩
        · refine .inr ⟨w, st1, ⟨n, h1⟩, ?_, ?_⟩
          · intro hl; rw [hf, hl] at hs; simp at hs
          · cases hb : st1.env.bindings name with
            | none => rfl
            | some x => simp [hb] at h2
  · rintro (⟨n, h⟩ | ⟨v, st1, ⟨n, h1⟩, h2, h3⟩)
    · refine ⟨n + 1, ?_⟩
      rw [interpret]
      cases st.env.findBinding name <;> simp only [h] <;> rfl
    · refine ⟨n + 1, ?_⟩
      rw [interpret]
      cases hf : st.env.findBinding name with
      | none =>
        rw [hf] at hs
        cases hl : st.env.lookup name with
        | none => exact absurd hl h2
        | some x => rw [hl] at hs; simp at hs
      | some m => simp only [h1, Out.bind, h3]

theorem runs_println {cfg : Cfg} {e : Expr} {st st' : St} {v : Value} :
    Runs cfg (.println e) st v st' ↔ ∃ st1, Runs cfg e st v st1 ∧
      st' = { st1 with out := st1.out ++ [v] } := by
  constructor
  · rintro ⟨n, h⟩
    cases n with
    | zero => simp [interpret] at h
    | succ n =>
      rw [interpret] at h
      obtain ⟨w, st1, h1, h2⟩ := bind_ok h
      simp only [Out.ok.injEq] at h2
      obtain ⟨rfl, rfl⟩ := h2
      exact ⟨st1, ⟨n, h1⟩, rfl⟩
  · rintro ⟨st1, ⟨n, h1⟩, rfl⟩
    exact ⟨n + 1, by rw [interpret, h1]; rfl⟩

theorem runs_block {cfg : Cfg} {es : List Expr} {st st' : St} {v : Value} :
    Runs cfg (.block es) st v st' ↔ ∃ vs, RunsAll cfg es st vs st' ∧ vs.getLast? = some v := by
  constructor
  · rintro ⟨n, h⟩
    cases n with
    | zero => simp [interpret] at h
    | succ n =>
      rw [interpret] at h
      obtain ⟨vs, st1, h1, h2⟩ := bind_ok h
      cases hl : vs.getLast? with
      | none => simp [hl] at h2
      | some w =>
        simp only [hl, Out.ok.injEq] at h2
        obtain ⟨rfl, rfl⟩ := h2
        exact ⟨vs, runsAll_iff.2 ⟨n, h1⟩, hl⟩
  · rintro ⟨vs, h1, h2⟩
    obtain ⟨n, h1⟩ := runsAll_iff.1 h1
    exact ⟨n + 1, by rw [interpret, h1]; simp only [Out.bind, h2]⟩

theorem runs_if {cfg : Cfg} {c b : Expr} {eb : Option Expr} {st st' : St} {v : Value} :
    Runs cfg (.if c b eb) st v st' ↔ ∃ x st1, Runs cfg c st (.bool x) st1 ∧
      match x, eb with
      | true, _ => Runs cfg b st1 v st'
      | false, some e => Runs cfg e st1 v st'
      | false, none => v = .bool true ∧ st' = st1 := by
  constructor
  · rintro ⟨n, h⟩
    cases n with
    | zero => simp [interpret] at h
    | succ n =>
      rw [interpret] at h
      obtain ⟨w, st1, h1, h2⟩ := bind_ok h
      cases w with
      | bool x =>
        refine ⟨x, st1, ⟨n, h1⟩, ?_⟩
        cases x with
        | true => exact ⟨n, h2⟩
        | false =>
          cases eb with
          | none =>
            simp only [Value.asBool, Out.ok.injEq] at h2
            exact ⟨h2.1.symm, h2.2.symm⟩
          | some e => exact ⟨n, h2⟩
      | _ => simp [Value.asBool] at h2
  · rintro ⟨x, st1, ⟨n, h1⟩, h2⟩
    cases x with
    | true =>
      obtain ⟨m, h2⟩ := h2
      refine ⟨max n m + 1, ?_⟩
      rw [interpret, interpret_ok_mono (Nat.le_max_left n m) h1]
      exact interpret_ok_mono (Nat.le_max_right n m) h2
    | false =>
      cases eb with
      | none =>
        obtain ⟨rfl, rfl⟩ := h2
        exact ⟨n + 1, by rw [interpret, h1]; rfl⟩
      | some e =>
        obtain ⟨m, h2⟩ := h2
        refine ⟨max n m + 1, ?_⟩
        rw [interpret, interpret_ok_mono (Nat.le_max_left n m) h1]
        exact interpret_ok_mono (Nat.le_max_right n m) h2

theorem runs_while {cfg : Cfg} {c b : Expr} {st st' : St} {v : Value} :
    Runs cfg (.while c b) st v st' ↔
      (Runs cfg c st (.bool false) st' ∧ v = .bool true) ∨
      (∃ st1 w st2, Runs cfg c st (.bool true) st1 ∧ Runs cfg b st1 w st2 ∧
        Runs cfg (.while c b) st2 v st') := by
  constructor
  · rintro ⟨n, h⟩
    cases n with
    | zero => simp [interpret] at h
    | succ n =>
      rw [interpret] at h
      obtain ⟨w, st1, h1, h2⟩ := bind_ok h
      cases w with
      | bool x =>
        cases x with
        | true =>
          obtain ⟨w, st2, h3, h4⟩ := bind_ok h2
          exact .inr ⟨st1, w, st2, ⟨n, h1⟩, ⟨n, h3⟩, ⟨n, h4⟩⟩
        | false =>
          simp only [Value.asBool, Out.ok.injEq] at h2
          obtain ⟨rfl, rfl⟩ := h2
          exact .inl ⟨⟨n, h1⟩, rfl⟩
      | _ => simp [Value.asBool] at h2
  · rintro (⟨⟨n, h⟩, rfl⟩ | ⟨st1, w, st2, ⟨n, h1⟩, ⟨m, h2⟩, ⟨k, h3⟩⟩)
    · exact ⟨n + 1, by rw [interpret, h]; rfl⟩
    · refine ⟨max n (max m k) + 1, ?_⟩
      rw [interpret, interpret_ok_mono (Nat.le_max_left n _) h1]
      simp only [Out.bind, Value.asBool]
      rw [interpret_ok_mono (by omega) h2]
      exact interpret_ok_mono (by omega) h3

theorem bindParams_eq (params : List Name) (i : Nat) (values : List Value) (b : Map Value) :
    bindParams params i values b = if params.length + i ≤ max values.length i then some b else none := by
  induction params generalizing i with
  | nil => simp [bindParams]; omega
  | cons p ps ih =>
    rw [bindParams]
    cases h : values[i]? with
    | none =>
      have := List.getElem?_eq_none_iff.1 h
      simp only [List.length_cons]
      rw [if_neg (by omega)]
    | some v =>
      have : i < values.length := (List.getElem?_eq_some_iff.1 h).1
      simp only [List.length_cons]
      rw [ih]
      congr 1
      simp only [eq_iff_iff]
      omega

theorem runs_call {cfg : Cfg} {name : Name} {args : List Expr} {st st' : St} {v : Value} :
    Runs cfg (.functionCall name args) st v st' ↔ ∃ params body values st1 st2,
      cfg.fns name = some (params, body) ∧ RunsAll cfg args st values st1 ∧
      params.length ≤ values.length ∧
      Runs cfg body { st1 with env := ⟨Map.empty, st1.env.bindings :: st1.env.next⟩ } v st2 ∧
      st' = { st2 with env := st1.env } := by
  constructor
  · rintro ⟨n, h⟩
    cases n with
    | zero => simp [interpret] at h
    | succ n =>
      rw [interpret] at h
      cases hf : cfg.fns name with
      | none => simp [hf] at h
      | some pb =>
        obtain ⟨params, body⟩ := pb
        simp only [hf] at h
        obtain ⟨values, st1, h1, h2⟩ := bind_ok h
        rw [bindParams_eq] at h2
        by_cases hl : params.length + 0 ≤ max values.length 0
        · simp only [if_pos hl] at h2
          obtain ⟨w, st2, h3, h4⟩ := bind_ok h2
          simp only [Out.ok.injEq] at h4
          obtain ⟨rfl, rfl⟩ := h4
          exact ⟨params, body, values, st1, st2, rfl, runsAll_iff.2 ⟨n, h1⟩, by omega, ⟨n, h3⟩, rfl⟩
        · simp only [if_neg hl] at h2; simp at h2
  · rintro ⟨params, body, values, st1, st2, hf, h1, hl, ⟨m, h3⟩, rfl⟩
    obtain ⟨n, h1⟩ := runsAll_iff.1 h1
    refine ⟨max n m + 1, ?_⟩
    rw [interpret]
    simp only [hf]
    rw [evalAll_ok_mono (Nat.le_max_left n m) h1]
    simp only [Out.bind]
    rw [bindParams_eq, if_pos (by omega)]
    simp only
    rw [interpret_ok_mono (Nat.le_max_right n m) h3]

theorem runs_labelled {cfg : Cfg} {name : Name} {args : List (Name × Expr)} {st st' : St} {v : Value} :
    Runs cfg (.labelledCall name args) st v st' ↔ ∃ params body values st1 st2,
      cfg.fns name = some (params, body) ∧ RunsAll cfg (args.map (·.2)) st values st1 ∧
      Runs cfg body { st1 with env := ⟨Map.empty, st1.env.bindings :: st1.env.next⟩ } v st2 ∧
      st' = { st2 with env := st1.env } := by
  constructor
  · rintro ⟨n, h⟩
    cases n with
    | zero => simp [interpret] at h
    | succ n =>
      rw [interpret] at h
      cases hf : cfg.fns name with
      | none => simp [hf] at h
      | some pb =>
        obtain ⟨params, body⟩ := pb
        simp only [hf] at h
        obtain ⟨values, st1, h1, h2⟩ := bind_ok h
        obtain ⟨w, st2, h3, h4⟩ := bind_ok h2
        simp only [Out.ok.injEq] at h4
        obtain ⟨rfl, rfl⟩ := h4
        exact ⟨params, body, values, st1, st2, rfl, runsAll_iff.2 ⟨n, h1⟩, ⟨n, h3⟩, rfl⟩
  · rintro ⟨params, body, values, st1, st2, hf, h1, ⟨m, h3⟩, rfl⟩
    obtain ⟨n, h1⟩ := runsAll_iff.1 h1
    refine ⟨max n m + 1, ?_⟩
    rw [interpret]
    simp only [hf]
    rw [evalAll_ok_mono (Nat.le_max_left n m) h1]
    simp only [Out.bind]
    rw [interpret_ok_mono (Nat.le_max_right n m) h3]

end OniComb.Toys
