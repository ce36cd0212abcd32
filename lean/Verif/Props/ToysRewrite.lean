import Verif.Lemmas.ToysRewrite
import Verif.Props.Toys

/-!
# C140: equals may be replaced by equals in toys programs
-/

namespace OniComb.Toys

/-! ## Replacing -/

/-- C140: an expression in which parts are replaced by parts that do the same does the same. -/
theorem c140_inside {e e' : Expr} (h : Replaced e e') : Same e e' := by
  have hself : ∀ {Q : Expr → Expr → Prop}, Replacement Q → ∀ cfg, Linked Q cfg cfg := fun hQ cfg => ⟨rfl, fun f => by
    cases hf : cfg.fns f with
    | none => exact .inl ⟨rfl, rfl⟩
    | some pb => exact .inr ⟨pb.1, pb.2, pb.2, rfl, rfl, hQ.refl _⟩⟩
  exact same_of_sim (fun cfg n st => sim replaced (hself replaced cfg) n e e' st h)
    fun cfg n st => sim replaced.symm (hself replaced.symm cfg) n e' e st h

theorem replacedIn_forall₂ {ds ds' : List Expr} (h : ReplacedIn ds ds') :
    List.Forall₂ (fun d d' => (∃ f ps b b', d = .functionDefinition f ps b ∧ d' = .functionDefinition f ps b' ∧ Replaced b b') ∨
      ∃ x e e', d = .globalVariableDefinition x e ∧ d' = .globalVariableDefinition x e' ∧ Replaced e e') ds ds' := by
  induction h with
  | nil => exact .nil
  | function h _ ih => exact .cons (.inl ⟨_, _, _, _, rfl, rfl, h⟩) ih
  | global h _ ih => exact .cons (.inr ⟨_, _, _, rfl, rfl, h⟩) ih

/-- C140: a program in whose functions, also in functions that call each other, parts are replaced by parts that do the
same returns the same value and prints the same, panics or never ends as before. -/
theorem c140_program {ds ds' : List Expr} (h : ReplacedIn ds ds') (cfg : Cfg) (st : St) :
    (∀ v st', (∃ n, callMain n cfg st (.program ds) = .ok v st') ↔ ∃ n, callMain n cfg st (.program ds') = .ok v st') ∧
    ((∃ n, callMain n cfg st (.program ds) = .panic) ↔ ∃ n, callMain n cfg st (.program ds') = .panic) ∧
    ((∀ n, callMain n cfg st (.program ds) = .diverge) ↔ ∀ n, callMain n cfg st (.program ds') = .diverge) := by
  have hd := replacedIn_forall₂ h
  have h1 : ∀ n, Simulates (callMain n cfg st (.program ds)) fun k => callMain k cfg st (.program ds') :=
    fun n => sim_main replaced n hd cfg st
  have h2 : ∀ n, Simulates (callMain n cfg st (.program ds')) fun k => callMain k cfg st (.program ds) := by
    intro n
    refine sim_main replaced.symm n ?_ cfg st
    refine hd.flip.imp ?_
    rintro d' d (⟨f, ps, b, b', h1, h2, h3⟩ | ⟨x, e, e', h1, h2, h3⟩)
    · exact .inl ⟨f, ps, b', b, h2, h1, h3⟩
    · exact .inr ⟨x, e', e, h2, h1, h3⟩
  have key : ∀ {p q : Expr}, (∀ n, Simulates (callMain n cfg st p) fun k => callMain k cfg st q) → ∀ o, o ≠ .diverge →
      (∃ n, callMain n cfg st p = o) → ∃ n, callMain n cfg st q = o := by
    rintro p q h o ho ⟨n, rfl⟩
    rcases h n with h | ⟨m, h⟩
    · exact (ho h).elim
    · exact ⟨m, h m (Nat.le_refl _)⟩
  refine ⟨fun v st' => ⟨key h1 _ nofun, key h2 _ nofun⟩, ⟨key h1 _ nofun, key h2 _ nofun⟩, ?_⟩
  have never : ∀ {p q : Expr}, (∀ n, Simulates (callMain n cfg st q) fun k => callMain k cfg st p) →
      (∀ n, callMain n cfg st p = .diverge) → ∀ n, callMain n cfg st q = .diverge := by
    intro p q h hp n
    rcases h n with h | ⟨m, h⟩
    · exact h
    · exact (h m (Nat.le_refl _)).symm.trans (hp m)
  exact ⟨never h2, never h1⟩

/-! ## Laws -/

theorem Runs.or_diverge {cfg : Cfg} {e : Expr} {st st' : St} {v : Value} (h : Runs cfg e st v st') (n : Nat) :
    interpret cfg n e st = .diverge ∨ interpret cfg n e st = .ok v st' := by
  obtain ⟨m, h⟩ := h
  rcases interpret_mono (Nat.le_max_left n m) e st with h1 | h1
  · exact .inl h1
  · exact .inr (h1.trans (interpret_ok_mono (Nat.le_max_right n m) h))

theorem same_of_runs {e e' : Expr} (h : ∀ cfg st, ∃ v st', Runs cfg e st v st' ∧ Runs cfg e' st v st') : Same e e' := by
  intro cfg st
  obtain ⟨v, st', h1, h2⟩ := h cfg st
  refine ⟨fun w st1 => ⟨fun h => ?_, fun h => ?_⟩, ⟨fun h => (h1.not_panics h).elim, fun h => (h2.not_panics h).elim⟩⟩
  · obtain ⟨rfl, rfl⟩ := h.unique h1
    exact h2
  · obtain ⟨rfl, rfl⟩ := h.unique h2
    exact h1

/-- Parentheses. -/
theorem c140_parentheses (e : Expr) : Same (.parenthesized e) e := by
  refine same_of_sim (fun cfg n st => ?_) fun cfg n st => Simulates.shift (Simulates.self cfg n e st)
  cases n with
  | zero => exact .inl rfl
  | succ n => exact Simulates.self cfg n e st

/-- An arithmetic expression is replaced by its mathematical value. -/
theorem c140_fold (e : Expr) (i : Int) (h : Num e i) : Same e (.integerLiteral i) :=
  same_of_runs fun cfg st => ⟨_, _, c43_arithmetic cfg st e i h, 1, rfl⟩

theorem if_of_runs {c a : Expr} {x : Expr} {y : Option Expr} (h : ∀ cfg st, ∃ b, Runs cfg c st (.bool b) st ∧
    ∀ n, (if b then interpret cfg n x st else match y with
      | some e => interpret cfg n e st
      | none => .ok (.bool true) st) = interpret cfg n a st) : Same (.if c x y) a := by
  refine same_of_sim (fun cfg n st => ?_) fun cfg n st => ?_
  · obtain ⟨b, hc, hb⟩ := h cfg st
    cases n with
    | zero => exact .inl rfl
    | succ n =>
      rcases hc.or_diverge n with h1 | h1
      · left
        simp only [interpret, h1, Out.bind]
      · have : interpret cfg (n + 1) (.if c x y) st = interpret cfg n a st := by
          rw [← hb n]
          simp only [interpret, h1, Out.bind, Value.asBool]
          cases b <;> rfl
        rw [this]
        exact Simulates.self cfg n a st
  · obtain ⟨b, ⟨m, hc⟩, hb⟩ := h cfg st
    rcases Simulates.self cfg n a st with h1 | ⟨l, h1⟩
    · exact .inl h1
    · refine Simulates.shift (.inr ⟨max m l, fun k hk => ?_⟩)
      have h2 := interpret_ok_mono (show m ≤ k by omega) hc
      refine Eq.trans ?_ (h1 k (by omega))
      show interpret cfg (k + 1) _ st = interpret cfg k a st
      rw [← hb k]
      simp only [interpret, h2, Out.bind, Value.asBool]
      cases b <;> rfl

/-- A branch whose condition is true is taken. -/
theorem c140_then (c a : Expr) (b : Option Expr) (p : Prop) (hc : Truth c p) (hp : p) : Same (.if c a b) a :=
  if_of_runs fun cfg st => by
    obtain ⟨x, h1, h2⟩ := c43_conditions cfg st c p hc
    rw [h2.2 hp] at h1
    exact ⟨true, h1, fun n => rfl⟩

/-- A branch whose condition is false is not taken. -/
theorem c140_else (c a b : Expr) (p : Prop) (hc : Truth c p) (hp : ¬p) : Same (.if c a (some b)) b :=
  if_of_runs fun cfg st => by
    obtain ⟨x, h1, h2⟩ := c43_conditions cfg st c p hc
    cases x with
    | true => exact (hp (h2.1 rfl)).elim
    | false => exact ⟨false, h1, fun n => rfl⟩

theorem pair_eq (cfg : Cfg) (n : Nat) (a b : Expr) (st : St) :
    interpret cfg (n + 1) (.block [a, b]) st = (interpret cfg n a st).bind fun _ st => interpret cfg n b st := by
  simp only [interpret, evalAll]
  cases interpret cfg n a st with
  | ok v st1 =>
    simp only [Out.bind]
    cases interpret cfg n b st1 <;> rfl
  | _ => rfl

theorem round_eq (cfg : Cfg) (n : Nat) (c b : Expr) (st : St) :
    interpret cfg (n + 1) (.while c b) st = (interpret cfg n c st).bind fun v st => match v.asBool with
      | none => .panic
      | some true => (interpret cfg n b st).bind fun _ st => interpret cfg n (.while c b) st
      | some false => .ok (.bool true) st := by
  simp only [interpret]
  rfl

/-- The first round of a loop can be written in front of it. -/
theorem c140_unroll (c b : Expr) : Same (.while c b) (.if c (.block [b, .while c b]) none) := by
  refine same_of_sim (fun cfg n st => ?_) fun cfg n st => ?_
  · cases n with
    | zero => exact .inl rfl
    | succ n =>
      refine Simulates.shift (Simulates.shift ?_)
      simp only [round_eq, interpret.eq_def cfg _ (.if _ _ _), pair_eq]
      refine (Simulates.self cfg n c st).up.bind fun v st => ?_
      cases v.asBool with
      | none => exact Simulates.const _
      | some x =>
        cases x
        · exact Simulates.const _
        · exact (Simulates.self cfg n b st).bind fun _ st => Simulates.self cfg n (.while c b) st
  · cases n with
    | zero => exact .inl rfl
    | succ n =>
      refine Simulates.shift ?_
      simp only [round_eq, interpret.eq_def cfg _ (.if _ _ _)]
      refine (Simulates.self cfg n c st).bind fun v st => ?_
      cases v.asBool with
      | none => exact Simulates.const _
      | some x =>
        cases x
        · exact Simulates.const _
        · cases n with
          | zero => exact .inl rfl
          | succ n =>
            show Simulates (interpret cfg (n + 1) (.block _) st) _
            rw [pair_eq]
            exact (Simulates.self cfg n b st).bind fun _ st => Simulates.self cfg n (.while c b) st

/-- A block with one expression is that expression. -/
theorem c140_single (e : Expr) : Same (.block [e]) e := by
  have hb : ∀ cfg n st, interpret cfg (n + 1) (.block [e]) st = interpret cfg n e st := by
    intro cfg n st
    simp only [interpret, evalAll]
    cases interpret cfg n e st <;> rfl
  refine same_of_sim (fun cfg n st => ?_) fun cfg n st => Simulates.shift ?_
  · cases n with
    | zero => exact .inl rfl
    | succ n =>
      rw [hb]
      exact Simulates.self cfg n e st
  · simp only [hb]
    exact Simulates.self cfg n e st

/-! ### Blocks -/

/-- The value of the last expression. -/
def lastOf (ev : Expr → St → Out Value) : Option Value → List Expr → St → Out (Option Value)
  | o, [], st => .ok o st
  | _, e :: es, st => (ev e st).bind fun v st => lastOf ev (some v) es st

/-- The value of a block. -/
def valueOf (o : Option Value) (st : St) : Out Value :=
  match o with
  | none => .panic
  | some v => .ok v st

theorem lastOf_eq (ev : Expr → St → Out Value) : ∀ (es : List Expr) (o : Option Value) (st : St),
    lastOf ev o es st = (evalAll ev es st).bind fun vs st => .ok (vs.getLast?.or o) st
  | [], o, st => by cases o <;> rfl
  | e :: es, o, st => by
    rw [lastOf, evalAll]
    cases ev e st with
    | ok v st1 =>
      simp only [Out.bind]
      rw [lastOf_eq ev es (some v) st1]
      cases evalAll ev es st1 with
      | ok vs st2 =>
        simp only [Out.bind]
        cases vs with
        | nil => rfl
        | cons w ws => simp [List.getLast?_cons]
      | _ => rfl
    | _ => rfl

theorem block_eq (cfg : Cfg) (n : Nat) (es : List Expr) (st : St) :
    interpret cfg (n + 1) (.block es) st = (lastOf (interpret cfg n) none es st).bind valueOf := by
  rw [lastOf_eq]
  simp only [interpret]
  cases evalAll (interpret cfg n) es st with
  | ok vs st1 =>
    simp only [Out.bind]
    cases vs.getLast? <;> rfl
  | _ => rfl

theorem lastOf_append (ev : Expr → St → Out Value) (bs : List Expr) : ∀ (as : List Expr) (o : Option Value) (st : St),
    lastOf ev o (as ++ bs) st = (lastOf ev o as st).bind fun o st => lastOf ev o bs st
  | [], _, _ => rfl
  | a :: as, o, st => by
    rw [List.cons_append, lastOf, lastOf]
    cases ev a st with
    | ok v st1 => exact lastOf_append ev bs as (some v) st1
    | _ => rfl

theorem lastOf_some (ev : Expr → St → Out Value) : ∀ (es : List Expr) (v : Value) (st st' : St) (o : Option Value),
    lastOf ev (some v) es st = .ok o st' → ∃ w, o = some w
  | [], v, st, st', o, h => by
    simp only [lastOf, Out.ok.injEq] at h
    exact ⟨v, h.1.symm⟩
  | e :: es, v, st, st', o, h => by
    rw [lastOf] at h
    obtain ⟨w, st1, -, h⟩ := bind_ok h
    exact lastOf_some ev es w st1 st' o h

theorem sim_lastOf (cfg : Cfg) (n : Nat) : ∀ (es : List Expr) (o : Option Value) (st : St),
    Simulates (lastOf (interpret cfg n) o es st) fun k => lastOf (interpret cfg k) o es st
  | [], _, _ => Simulates.const _
  | e :: es, o, st => by
    simp only [lastOf]
    exact (Simulates.self cfg n e st).bind fun v st => sim_lastOf cfg n es (some v) st

theorem same_block {es es' : List Expr}
    (h : ∀ cfg n st, Simulates (lastOf (interpret cfg n) none es st) fun k => lastOf (interpret cfg k) none es' st)
    (h' : ∀ cfg n st, Simulates (lastOf (interpret cfg n) none es' st) fun k => lastOf (interpret cfg k) none es st) :
    Same (.block es) (.block es') := by
  have key : ∀ {es es' : List Expr},
      (∀ cfg n st, Simulates (lastOf (interpret cfg n) none es st) fun k => lastOf (interpret cfg k) none es' st) →
      ∀ cfg n st, Simulates (interpret cfg n (.block es) st) fun k => interpret cfg k (.block es') st := by
    intro es es' h cfg n st
    cases n with
    | zero => exact .inl rfl
    | succ n =>
      refine Simulates.shift ?_
      simp only [block_eq]
      exact (h cfg n st).bind fun _ _ => Simulates.const _
  exact same_of_sim (key h) (key h')

/-- A literal whose value is not used can be left out. -/
theorem c140_unused (as bs : List Expr) (e b : Expr) (he : Still e) :
    Same (.block (as ++ e :: b :: bs)) (.block (as ++ b :: bs)) := by
  have hv : ∃ v, ∀ cfg n st, interpret cfg (n + 1) e st = .ok v st := by
    cases he with
    | stringLiteral s => exact ⟨_, fun _ _ _ => rfl⟩
    | integerLiteral i => exact ⟨_, fun _ _ _ => rfl⟩
  obtain ⟨v, hv⟩ := hv
  have hskip : ∀ cfg n o st, lastOf (interpret cfg (n + 1)) o (e :: b :: bs) st = lastOf (interpret cfg (n + 1)) o (b :: bs) st := by
    intro cfg n o st
    rw [lastOf, hv]
    rfl
  refine same_block (fun cfg n st => ?_) fun cfg n st => ?_
  · simp only [lastOf_append]
    refine (sim_lastOf cfg n as none st).bind fun o st => ?_
    cases n with
    | zero => exact .inl rfl
    | succ n =>
      rw [hskip]
      exact sim_lastOf cfg (n + 1) _ o st
  · simp only [lastOf_append]
    refine (sim_lastOf cfg n as none st).bind fun o st => Simulates.shift ?_
    simp only [hskip]
    exact (sim_lastOf cfg n _ o st).up

/-- A block in a block can be written without its braces. -/
theorem c140_braces (as bs cs : List Expr) (b : Expr) :
    Same (.block (as ++ .block (b :: bs) :: cs)) (.block (as ++ (b :: bs) ++ cs)) := by
  have hinner : ∀ cfg n o st, lastOf (interpret cfg (n + 1)) o (.block (b :: bs) :: cs) st =
      (lastOf (interpret cfg n) o (b :: bs) st).bind fun o st => lastOf (interpret cfg (n + 1)) o cs st := by
    intro cfg n o st
    rw [lastOf, block_eq]
    have : lastOf (interpret cfg n) none (b :: bs) st = lastOf (interpret cfg n) o (b :: bs) st := rfl
    rw [this]
    cases h : lastOf (interpret cfg n) o (b :: bs) st with
    | ok o' st1 =>
      rw [lastOf] at h
      obtain ⟨v, st2, -, h⟩ := bind_ok h
      obtain ⟨w, rfl⟩ := lastOf_some _ _ _ _ _ _ h
      rfl
    | _ => rfl
  refine same_block (fun cfg n st => ?_) fun cfg n st => ?_
  · rw [List.append_assoc]
    simp only [lastOf_append]
    refine (sim_lastOf cfg n as none st).bind fun o st => ?_
    cases n with
    | zero => exact .inl rfl
    | succ n =>
      rw [hinner]
      exact (sim_lastOf cfg n _ o st).bind fun o st => sim_lastOf cfg (n + 1) cs o st
  · rw [List.append_assoc]
    simp only [lastOf_append]
    refine (sim_lastOf cfg n as none st).bind fun o st => Simulates.shift ?_
    simp only [hinner]
    exact (sim_lastOf cfg n _ o st).bind fun o st => (sim_lastOf cfg n cs o st).up

/-! ### Operators -/

/-- Variables and literals are added, multiplied and compared in any order. -/
theorem c140_commute (op : Operator) (hop : op ∈ [Operator.add, .multiply, .equalEqual, .notEqual]) (l r : Expr) (hl : Atom l)
    (hr : Atom r) : Same (.binary op l r) (.binary op r l) := by
  have atom : ∀ {e : Expr}, Atom e → ∃ val : St → Option Value, ∀ cfg n st, interpret cfg (n + 1) e st = match val st with
      | none => .panic
      | some v => .ok v st := by
    intro e he
    cases he with
    | stringLiteral s => exact ⟨fun _ => some (.string s), fun _ _ _ => rfl⟩
    | integerLiteral i => exact ⟨fun _ => some (.int i), fun _ _ _ => rfl⟩
    | symbol x =>
      refine ⟨fun st => (st.env.findBinding x).bind fun m => m x, fun cfg n st => ?_⟩
      simp only [interpret]
      cases st.env.findBinding x with
      | none => rfl
      | some m =>
        simp only [Option.bind]
        cases m x <;> rfl
  have comm : ∀ cfg a b, applyOp cfg op a b = applyOp cfg op b a := by
    intro cfg a b
    have hints : ∀ f : Int → Int → Option Value, (∀ x y, f x y = f y x) → ints a b f = ints b a f := by
      intro f hf
      unfold ints
      cases a.asInt <;> cases b.asInt <;> simp [hf]
    simp only [List.mem_cons, List.not_mem_nil, or_false] at hop
    rcases hop with rfl | rfl | rfl | rfl <;> simp only [applyOp] <;> refine hints _ fun x y => ?_
    · rw [Int.add_comm]
    · rw [Int.mul_comm]
    · simp only [eq_comm]
    · simp only [ne_comm]
  obtain ⟨vl, hvl⟩ := atom hl
  obtain ⟨vr, hvr⟩ := atom hr
  have key : ∀ cfg n st, interpret cfg n (.binary op l r) st = interpret cfg n (.binary op r l) st := by
    intro cfg n st
    match n with
    | 0 => rfl
    | 1 => rfl
    | n + 2 =>
      have binary : ∀ l r, interpret cfg (n + 2) (.binary op l r) st =
          (interpret cfg (n + 1) l st).bind fun a st => (interpret cfg (n + 1) r st).bind fun b st =>
            match applyOp cfg op a b with
            | some v => .ok v st
            | none => .panic := by
        intro l r
        rw [interpret]
        rfl
      rw [binary, binary, hvl, hvr]
      cases h1 : vl st <;> cases h2 : vr st <;> simp only [Out.bind, hvl, hvr, h1, h2, comm]
  refine same_of_sim (fun cfg n st => ?_) fun cfg n st => ?_
  · rw [key]
    exact Simulates.self cfg n _ st
  · rw [← key]
    exact Simulates.self cfg n _ st

/-! ### Limits -/

/-- An expression that prints cannot be left out, and the order matters if an operand assigns. -/
theorem c140_effects : ¬Same (.block [.println (.integerLiteral 1), .integerLiteral 2]) (.integerLiteral 2) ∧
    ¬Same (.binary .add (.assignment "x" (.integerLiteral 1)) (.symbol "x"))
      (.binary .add (.symbol "x") (.assignment "x" (.integerLiteral 1))) := by
  constructor
  · intro h
    have h1 : Runs (Cfg.new true) (.integerLiteral 2) St.new (.int 2) St.new := ⟨1, rfl⟩
    have h2 : Runs (Cfg.new true) (.block [.println (.integerLiteral 1), .integerLiteral 2]) St.new (.int 2)
        { St.new with out := [.int 1] } := ⟨5, rfl⟩
    have h3 := congrArg St.out (h2.unique (((h _ _).1 _ _).2 h1)).2
    exact nomatch h3
  · intro h
    have h1 : Runs (Cfg.new true) (.binary .add (.assignment "x" (.integerLiteral 1)) (.symbol "x")) St.new (.int 2)
        (St.new.set "x" (.int 1)) := ⟨5, rfl⟩
    exact (((h _ _).1 _ _).1 h1).not_panics ⟨5, rfl⟩

/-- A recursive function whose condition is computed while the program is compiled, and whose loop is unrolled. -/
example : ReplacedIn
    [.functionDefinition "f" [] (.block [.while (.binary .lessThan (.symbol "x") (.integerLiteral 3))
        (.assignment "x" (.binary .add (.symbol "x") (.integerLiteral 1))), .functionCall "f" []]),
      .functionDefinition "main" [] (.println (.parenthesized (.binary .add (.integerLiteral 1) (.integerLiteral 2))))]
    [.functionDefinition "f" [] (.block [.if (.binary .lessThan (.symbol "x") (.integerLiteral 3)) (.block [
          .assignment "x" (.binary .add (.symbol "x") (.integerLiteral 1)),
          .while (.binary .lessThan (.symbol "x") (.integerLiteral 3))
            (.assignment "x" (.binary .add (.symbol "x") (.integerLiteral 1)))]) none, .functionCall "f" []]),
      .functionDefinition "main" [] (.println (.integerLiteral 3))] := by
  refine .function (.inside (Q := Replaced) (fun _ _ h => h) (.block (.cons (.here (c140_unroll _ _)) (.cons (.here (Same.refl _))
    .nil)))) (.function (.inside (Q := Replaced) (fun _ _ h => h) (.println (.here (c140_fold _ 3 ?_)))) .nil)
  exact .paren (.add (a := 1) (b := 2) (.lit 1 (by unfold Fits; omega)) (.lit 2 (by unfold Fits; omega)) (by unfold Fits; omega))

/-- A program and the same with its sum computed: both print 3. -/
example : ∃ n st', callMain n (Cfg.new true) St.new (.program [.functionDefinition "main" []
    (.println (.parenthesized (.binary .add (.integerLiteral 1) (.integerLiteral 2))))]) = .ok (.int 3) st' ∧
    st'.out = [.int 3] := ⟨10, _, rfl, rfl⟩

example : Atom (.symbol "x") ∧ Atom (.integerLiteral 3) ∧ Still (.stringLiteral "unused") ∧
    Truth (.binary .lessThan (.integerLiteral 1) (.integerLiteral 2)) ((1 : Int) < 2) :=
  ⟨.symbol _, .integerLiteral _, .stringLiteral _, .lt (.lit 1 (by unfold Fits; omega)) (.lit 2 (by unfold Fits; omega))⟩

end OniComb.Toys
