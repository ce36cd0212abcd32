import Verif.Spec.ToysMeaning
import Verif.Lemmas.ToysFunctions
import Verif.Props.ToysParse

/-!
# Toys programs mean what they say (C132)
-/

namespace OniComb.Toys

theorem inI64_fits (i : Int) : inI64 i = true ↔ Fits i := by
  rw [inI64, Bool.and_eq_true, decide_eq_true_iff, decide_eq_true_iff, i64Min, i64Max, Fits]
  omega

theorem applyOp_iff {cfg : Cfg} (hc : cfg.overflowChecks = true) (op : Operator) (l r v : Value) :
    applyOp cfg op l r = some v ↔ Operates op l r v := by
  have chk : ∀ i, checked cfg i = if inI64 i then some i else none := by
    intro i
    simp [checked, hc]
  constructor
  · intro h
    cases op <;> cases l <;> cases r <;>
      simp [applyOp, ints, Value.asInt, Value.asBool, chk, divI64, modI64, inI64_fits] at h
    case mod.int.int => obtain ⟨_, ⟨h1, h2, rfl⟩, rfl⟩ := h; exact .mod h1 h2
    case divide.int.int => obtain ⟨_, ⟨h1, h2, rfl⟩, rfl⟩ := h; exact .divide h1 h2
    case add.int.int => obtain ⟨h, rfl⟩ := h; exact .add h
    case subtract.int.int => obtain ⟨h, rfl⟩ := h; exact .subtract h
    case multiply.int.int => obtain ⟨h, rfl⟩ := h; exact .multiply h
    case notEqual.int.int a b => subst h; simpa using Operates.notEqual a b
    case and.bool.bool p q => cases p <;> simp at h <;> subst h <;> constructor
    case or.bool.bool p q => cases p <;> simp at h <;> subst h <;> constructor
    all_goals first
      | (subst h; constructor)
      | (rename_i p _; cases p <;> simp at h; subst h; constructor)
  · intro h
    cases h <;> simp_all [applyOp, ints, Value.asInt, Value.asBool, divI64, modI64, inI64_fits]

variable {cfg : Cfg} {D : Name → Prop} {R : Name → Prop}

/-- The expression uses only these variables and calls only these functions. -/
structure Uses (D R : Name → Prop) (e : Expr) : Prop where
  vars : ∀ x ∈ e.vars, D x
  calls : ∀ f ∈ e.calls, R f

/-- `D` are the variables of the function that is executed, `R` the functions that may be called: none of these variables
is in an enclosing scope, and no variable of these functions is visible. -/
structure Scope (cfg : Cfg) (D R : Name → Prop) (next : List (Map Value)) : Prop where
  hidden : ∀ x, D x → next.findSome? (· x) = none
  closed : ∀ f ps b, R f → cfg.fns f = some (ps, b) → ∀ g ∈ b.calls, R g
  others : ∀ f ps b, R f → cfg.fns f = some (ps, b) → ∀ x ∈ b.vars, ¬D x ∧ next.findSome? (· x) = none

/-- The variables that are set are those of the function. -/
def Own (D : Name → Prop) (m : Map Value) : Prop := ∀ x, m x ≠ none → D x

/-- The state of the interpreter. -/
def Store.st (s : Store) (next : List (Map Value)) : St := ⟨⟨s.vars, next⟩, s.out⟩

/-- The outcome of the interpreter that belongs to a result. -/
def outcome (next : List (Map Value)) : Option (Value × Store) → Out Value
  | some (v, s) => .ok v (s.st next)
  | none => .panic

/-- For every result with a store: only own variables are set. -/
def OwnResult (D : Name → Prop) : Option (Value × Store) → Prop
  | some (_, s) => Own D s.vars
  | none => True

theorem Uses.mono {e e' : Expr} (h : Uses D R e) (hv : ∀ x ∈ e'.vars, x ∈ e.vars) (hc : ∀ f ∈ e'.calls, f ∈ e.calls) :
    Uses D R e' :=
  ⟨fun x hx => h.vars x (hv x hx), fun f hf => h.calls f (hc f hf)⟩

theorem lookup_own {m : Map Value} {next : List (Map Value)} {x : Name} (hx : next.findSome? (· x) = none) :
    Env.lookup ⟨m, next⟩ x = m x := by
  simp only [Env.lookup, hx]
  cases m x <;> rfl

theorem interpret_block_one (n : Nat) (e : Expr) (st : St) :
    interpret cfg (n + 1) (.block [e]) st = interpret cfg n e st := by
  simp only [interpret, evalAll]
  cases interpret cfg n e st <;> rfl

theorem interpret_block_more (n : Nat) (e e' : Expr) (es : List Expr) (st : St) :
    interpret cfg (n + 1) (.block (e :: e' :: es)) st =
      (interpret cfg n e st).bind fun _ st => interpret cfg (n + 1) (.block (e' :: es)) st := by
  rw [interpret, evalAll]
  cases interpret cfg n e st with
  | ok v st =>
    simp only [Out.bind]
    rw [interpret]
    cases h : evalAll (interpret cfg n) (e' :: es) st with
    | ok vs st =>
      rw [evalAll] at h
      obtain ⟨w, _, _, h⟩ := bind_ok h
      obtain ⟨ws, _, _, h⟩ := bind_ok h
      simp only [Out.ok.injEq] at h
      obtain ⟨rfl, rfl⟩ := h
      simp [Out.bind]
    | _ => rfl
  | _ => rfl

/-- The frame of a function that is called. -/
theorem Scope.call (ht : Tidy cfg.fns) {next : List (Map Value)} (hF : Scope cfg D R next) {m : Map Value}
    (hm : Own D m) {f : Name} (hf : R f) {ps : List Name} {b : Expr} (hb : cfg.fns f = some (ps, b)) :
    Scope cfg (· ∈ b.vars) (Reached cfg.fns b) (m :: next) := by
  have reach : ∀ g, Reached cfg.fns b g → R g := by
    intro g hg
    induction hg with
    | here h => exact hF.closed f ps b hf hb _ h
    | through _ hb h ih => exact hF.closed _ _ _ ih hb _ h
  have unset : ∀ x, ¬D x → next.findSome? (· x) = none → (m :: next).findSome? (· x) = none := by
    intro x hx hn
    rw [List.findSome?_cons]
    cases h : m x with
    | none => exact hn
    | some v => exact (hx (hm x (by simp [h]))).elim
  refine ⟨fun x hx => ?_, fun g qs c hg hc k hk => .through hg hc hk, fun g qs c hg hc x hx => ?_⟩
  · have := hF.others f ps b hf hb x hx
    exact unset x this.1 this.2
  · have := hF.others g qs c (reach g hg) hc x hx
    exact ⟨(ht f ps b hb).2.2 g qs c hg hc x hx, unset x this.1 this.2⟩

theorem uses_body (fns : Map (List Name × Expr)) (b : Expr) : Uses (· ∈ b.vars) (Reached fns b) b :=
  ⟨fun _ h => h, fun _ h => .here h⟩

theorem interpret_assignment {next : List (Map Value)} {x : Name} (hx : next.findSome? (· x) = none) {n : Nat} {e : Expr}
    {s t : Store} {v : Value} (h : interpret cfg n e (s.st next) = .ok v (t.st next))
    (hm : s.vars x ≠ none → t.vars x ≠ none) : interpret cfg (n + 1) (.assignment x e) (s.st next) =
      .ok v (Store.st ⟨fun y => if y = x then some v else t.vars y, t.out⟩ next) := by
  have hl := findBinding_isSome (s.st next).env x
  rw [show (s.st next).env.lookup x = s.vars x from lookup_own hx] at hl
  rw [interpret]
  cases hf : (s.st next).env.findBinding x with
  | none =>
    simp only [h, Out.bind]
    rfl
  | some m =>
    simp only [h, Out.bind]
    have : t.vars x ≠ none := by
      refine hm ?_
      intro hn
      rw [hf, hn] at hl
      simp at hl
    cases hb : t.vars x with
    | none => exact (this hb).elim
    | some w =>
      simp only [Store.st, hb]
      rfl

theorem interpret_assignment_wrong {n : Nat} {x : Name} {e : Expr} {st : St} (h : interpret cfg n e st = .panic) :
    interpret cfg (n + 1) (.assignment x e) st = .panic := by
  rw [interpret]
  cases st.env.findBinding x <;> simp only [h, Out.bind]

theorem interpret_call {n : Nat} {f : Name} {b : Expr} (hf : cfg.fns f = some ([], b)) (s : Store)
    (next : List (Map Value)) : interpret cfg (n + 1) (.functionCall f []) (s.st next) =
      (interpret cfg n b (Store.st ⟨fun _ => none, s.out⟩ (s.vars :: next))).bind
        fun v st => .ok v ⟨⟨s.vars, next⟩, st.out⟩ := by
  rw [interpret]
  simp only [hf, evalAll, Out.bind, bindParams]
  rfl

/-- What the interpreter does with the expression, from this store. -/
structure Does (cfg : Cfg) (D : Name → Prop) (next : List (Map Value)) (e : Expr) (s : Store)
    (r : Option (Value × Store)) : Prop where
  runs : ∃ k, ∀ n, k ≤ n → interpret cfg n e (s.st next) = outcome next r
  own : OwnResult D r
  grows : ∀ v t, r = some (v, t) → ∀ x, s.vars x ≠ none → t.vars x ≠ none

theorem Does.of {next : List (Map Value)} {e : Expr} {s : Store} {r : Option (Value × Store)} (k : Nat)
    (h : ∀ n, k ≤ n → interpret cfg (n + 1) e (s.st next) = outcome next r) (ho : OwnResult D r)
    (hg : ∀ v t, r = some (v, t) → ∀ x, s.vars x ≠ none → t.vars x ≠ none) : Does cfg D next e s r :=
  ⟨⟨k + 1, fun n hn => by
    obtain ⟨n, rfl⟩ : ∃ m, n = m + 1 := ⟨n - 1, by omega⟩
    exact h n (by omega)⟩, ho, hg⟩

theorem Does.wrong {next : List (Map Value)} {e : Expr} {s : Store} (k : Nat)
    (h : ∀ n, k ≤ n → interpret cfg (n + 1) e (s.st next) = .panic) : Does cfg D next e s none :=
  .of k h trivial nofun

/-- The interpreter does what the execution says. -/
theorem exec_complete (hc : cfg.overflowChecks = true) (ht : Tidy cfg.fns) {e : Expr} {s : Store}
    {r : Option (Value × Store)} (h : Exec cfg.fns e s r) : ∀ (D R : Name → Prop) (next : List (Map Value)),
    Scope cfg D R next → Own D s.vars → Uses D R e → Does cfg D next e s r := by
  induction h with
  | integer i s => exact fun D R next hF hs hu => .of 0 (fun n _ => rfl) hs (by rintro v t ⟨⟩ x hx; exact hx)
  | string t s => exact fun D R next hF hs hu => .of 0 (fun n _ => rfl) hs (by rintro v t ⟨⟩ x hx; exact hx)
  | parenthesized h ih =>
    intro D R next hF hs hu
    obtain ⟨⟨k, h1⟩, h2, h3⟩ := ih D R next hF hs
      (hu.mono (fun x h => by simpa [Expr.vars] using h) fun f h => by simpa [Expr.calls] using h)
    exact .of k (fun n hn => by rw [interpret]; exact h1 n hn) h2 h3
  | @symbol x s v h =>
    intro D R next hF hs hu
    have hx := hF.hidden x (hu.vars x (by simp [Expr.vars]))
    refine .of 0 (fun n _ => ?_) hs (by rintro v t ⟨⟩ x hx; exact hx)
    rw [interpret_symbol, Store.st, lookup_own hx, h]
    rfl
  | @symbolUnset x s h =>
    intro D R next hF hs hu
    have hx := hF.hidden x (hu.vars x (by simp [Expr.vars]))
    refine .wrong 0 (fun n _ => ?_)
    rw [interpret_symbol, Store.st, lookup_own hx, h]
  | @assignment x e s t v h ih =>
    intro D R next hF hs hu
    obtain ⟨⟨k, h1⟩, h2, h3⟩ := ih D R next hF hs
      (hu.mono (fun x h => by simp [Expr.vars, h]) fun f h => by simpa [Expr.calls] using h)
    have hx := hF.hidden x (hu.vars x (by simp [Expr.vars]))
    refine .of k (fun n hn => interpret_assignment hx (h1 n hn) (h3 _ _ rfl x)) ?_ ?_
    · intro y hy
      by_cases hyx : y = x
      · subst hyx; exact hu.vars _ (by simp [Expr.vars])
      · simp only [hyx, if_false] at hy
        exact h2 y hy
    · rintro v t ⟨⟩ y hy
      by_cases hyx : y = x
      · simp [hyx]
      · simpa only [hyx, if_false] using h3 _ _ rfl y hy
  | @assignmentWrong x e s h ih =>
    intro D R next hF hs hu
    obtain ⟨⟨k, h1⟩, -, -⟩ := ih D R next hF hs
      (hu.mono (fun x h => by simp [Expr.vars, h]) fun f h => by simpa [Expr.calls] using h)
    exact .wrong k fun n hn => interpret_assignment_wrong (h1 n hn)
  | println h ih =>
    intro D R next hF hs hu
    obtain ⟨⟨k, h1⟩, h2, h3⟩ := ih D R next hF hs
      (hu.mono (fun x h => by simpa [Expr.vars] using h) fun f h => by simpa [Expr.calls] using h)
    refine .of k (fun n hn => ?_) h2 (by rintro v t ⟨⟩ x hx; exact h3 _ _ rfl x hx)
    rw [interpret, h1 n hn]
    rfl
  | printlnWrong h ih =>
    intro D R next hF hs hu
    obtain ⟨⟨k, h1⟩, -, -⟩ := ih D R next hF hs
      (hu.mono (fun x h => by simpa [Expr.vars] using h) fun f h => by simpa [Expr.calls] using h)
    exact .wrong k fun n hn => by rw [interpret, h1 n hn]; rfl
  | @binary op l r s t u a b v hl hr h ihl ihr =>
    intro D R next hF hs hu
    obtain ⟨⟨k, h1⟩, h2, h3⟩ := ihl D R next hF hs
      (hu.mono (fun x h => by simp [Expr.vars, h]) fun f h => by simp [Expr.calls, h])
    obtain ⟨⟨k', h1'⟩, h2', h3'⟩ := ihr D R next hF h2
      (hu.mono (fun x h => by simp [Expr.vars, h]) fun f h => by simp [Expr.calls, h])
    refine .of (k + k') (fun n hn => ?_) h2' (by rintro v t ⟨⟩ x hx; exact h3' _ _ rfl x (h3 _ _ rfl x hx))
    rw [interpret, h1 n (by omega)]
    simp only [outcome, Out.bind]
    rw [h1' n (by omega)]
    simp only [outcome, (applyOp_iff hc op a b v).2 h]
  | @binaryWrong op l r s t u a b hl hr h ihl ihr =>
    intro D R next hF hs hu
    obtain ⟨⟨k, h1⟩, h2, h3⟩ := ihl D R next hF hs
      (hu.mono (fun x h => by simp [Expr.vars, h]) fun f h => by simp [Expr.calls, h])
    obtain ⟨⟨k', h1'⟩, h2', h3'⟩ := ihr D R next hF h2
      (hu.mono (fun x h => by simp [Expr.vars, h]) fun f h => by simp [Expr.calls, h])
    refine .wrong (k + k') (fun n hn => ?_)
    rw [interpret, h1 n (by omega)]
    simp only [outcome, Out.bind]
    rw [h1' n (by omega)]
    have : applyOp cfg op a b = none := by
      cases ha : applyOp cfg op a b with
      | none => rfl
      | some v => exact (h ⟨v, (applyOp_iff hc op a b v).1 ha⟩).elim
    simp only [outcome, this]
  | binaryLeft hl ihl =>
    intro D R next hF hs hu
    obtain ⟨⟨k, h1⟩, -, -⟩ := ihl D R next hF hs
      (hu.mono (fun x h => by simp [Expr.vars, h]) fun f h => by simp [Expr.calls, h])
    exact .wrong k fun n hn => by rw [interpret, h1 n hn]; rfl
  | binaryRight hl hr ihl ihr =>
    intro D R next hF hs hu
    obtain ⟨⟨k, h1⟩, h2, h3⟩ := ihl D R next hF hs
      (hu.mono (fun x h => by simp [Expr.vars, h]) fun f h => by simp [Expr.calls, h])
    obtain ⟨⟨k', h1'⟩, h2', h3'⟩ := ihr D R next hF h2
      (hu.mono (fun x h => by simp [Expr.vars, h]) fun f h => by simp [Expr.calls, h])
    refine .wrong (k + k') (fun n hn => ?_)
    rw [interpret, h1 n (by omega)]
    simp only [outcome, Out.bind]
    rw [h1' n (by omega)]
    rfl
  | blockEmpty s => exact fun D R next hF hs hu => .wrong 0 (fun n _ => rfl)
  | blockOne h ih =>
    intro D R next hF hs hu
    obtain ⟨⟨k, h1⟩, h2, h3⟩ := ih D R next hF hs
      (hu.mono (fun x h => by simp [Expr.vars, varsAll, h]) fun f h => by simp [Expr.calls, callsAll, h])
    exact .of k (fun n hn => by rw [interpret_block_one]; exact h1 n hn) h2 h3
  | blockMore h hb ih ihb =>
    intro D R next hF hs hu
    obtain ⟨⟨k, h1⟩, h2, h3⟩ := ih D R next hF hs
      (hu.mono (fun x h => by simp [Expr.vars, varsAll, h]) fun f h => by simp [Expr.calls, callsAll, h])
    obtain ⟨⟨k', h1'⟩, h2', h3'⟩ := ihb D R next hF h2
      (hu.mono (fun x h => by simp only [Expr.vars, varsAll, List.mem_append] at h ⊢; exact .inr h)
        fun f h => by simp only [Expr.calls, callsAll, List.mem_append] at h ⊢; exact .inr h)
    refine .of (k + k') (fun n hn => ?_) h2' (by rintro v t e x hx; exact h3' v t e x (h3 _ _ rfl x hx))
    rw [interpret_block_more, h1 n (by omega)]
    simp only [outcome, Out.bind]
    exact h1' (n + 1) (by omega)
  | blockWrong h ih =>
    intro D R next hF hs hu
    obtain ⟨⟨k, h1⟩, -, -⟩ := ih D R next hF hs
      (hu.mono (fun x h => by simp [Expr.vars, varsAll, h]) fun f h => by simp [Expr.calls, callsAll, h])
    exact .wrong k fun n hn => by rw [interpret_block_more, h1 n hn]; rfl
  | @ifTrue c b eb s t r h hb ih ihb =>
    intro D R next hF hs hu
    obtain ⟨⟨k, h1⟩, h2, h3⟩ := ih D R next hF hs
      (hu.mono (fun x h => by cases eb <;> simp [Expr.vars, h]) fun f h => by cases eb <;> simp [Expr.calls, h])
    obtain ⟨⟨k', h1'⟩, h2', h3'⟩ := ihb D R next hF h2
      (hu.mono (fun x h => by cases eb <;> simp [Expr.vars, h]) fun f h => by cases eb <;> simp [Expr.calls, h])
    refine .of (k + k') (fun n hn => ?_) h2' (by rintro v t e x hx; exact h3' v t e x (h3 _ _ rfl x hx))
    rw [interpret, h1 n (by omega)]
    exact h1' n (by omega)
  | ifElse h he ih ihe =>
    intro D R next hF hs hu
    obtain ⟨⟨k, h1⟩, h2, h3⟩ := ih D R next hF hs
      (hu.mono (fun x h => by simp [Expr.vars, h]) fun f h => by simp [Expr.calls, h])
    obtain ⟨⟨k', h1'⟩, h2', h3'⟩ := ihe D R next hF h2
      (hu.mono (fun x h => by simp [Expr.vars, h]) fun f h => by simp [Expr.calls, h])
    refine .of (k + k') (fun n hn => ?_) h2' (by rintro v t e x hx; exact h3' v t e x (h3 _ _ rfl x hx))
    rw [interpret, h1 n (by omega)]
    exact h1' n (by omega)
  | ifFalse h ih =>
    intro D R next hF hs hu
    obtain ⟨⟨k, h1⟩, h2, h3⟩ := ih D R next hF hs
      (hu.mono (fun x h => by simp [Expr.vars, h]) fun f h => by simp [Expr.calls, h])
    exact .of k (fun n hn => by rw [interpret, h1 n hn]; rfl) h2 (by rintro v t ⟨⟩ x hx; exact h3 _ _ rfl x hx)
  | @ifWrong c b eb s h ih =>
    intro D R next hF hs hu
    obtain ⟨⟨k, h1⟩, -, -⟩ := ih D R next hF hs
      (hu.mono (fun x h => by cases eb <;> simp [Expr.vars, h]) fun f h => by cases eb <;> simp [Expr.calls, h])
    exact .wrong k fun n hn => by rw [interpret, h1 n hn]; rfl
  | @ifOther c b eb s t v h hv ih =>
    intro D R next hF hs hu
    obtain ⟨⟨k, h1⟩, -, -⟩ := ih D R next hF hs
      (hu.mono (fun x h => by cases eb <;> simp [Expr.vars, h]) fun f h => by cases eb <;> simp [Expr.calls, h])
    refine .wrong k fun n hn => ?_
    rw [interpret, h1 n hn]
    cases v with
    | bool q => exact (hv q rfl).elim
    | _ => rfl
  | whileStop h ih =>
    intro D R next hF hs hu
    obtain ⟨⟨k, h1⟩, h2, h3⟩ := ih D R next hF hs
      (hu.mono (fun x h => by simp [Expr.vars, h]) fun f h => by simp [Expr.calls, h])
    exact .of k (fun n hn => by rw [interpret, h1 n hn]; rfl) h2 (by rintro v t ⟨⟩ x hx; exact h3 _ _ rfl x hx)
  | whileRound h hb hw ih ihb ihw =>
    intro D R next hF hs hu
    obtain ⟨⟨k, h1⟩, h2, h3⟩ := ih D R next hF hs
      (hu.mono (fun x h => by simp [Expr.vars, h]) fun f h => by simp [Expr.calls, h])
    obtain ⟨⟨k', h1'⟩, h2', h3'⟩ := ihb D R next hF h2
      (hu.mono (fun x h => by simp [Expr.vars, h]) fun f h => by simp [Expr.calls, h])
    obtain ⟨⟨k'', h1''⟩, h2'', h3''⟩ := ihw D R next hF h2' hu
    refine .of (k + k' + k'') (fun n hn => ?_) h2''
      (by rintro v t e x hx; exact h3'' v t e x (h3' _ _ rfl x (h3 _ _ rfl x hx)))
    rw [interpret, h1 n (by omega)]
    simp only [outcome, Out.bind, Value.asBool]
    rw [h1' n (by omega)]
    exact h1'' n (by omega)
  | whileBody h hb ih ihb =>
    intro D R next hF hs hu
    obtain ⟨⟨k, h1⟩, h2, h3⟩ := ih D R next hF hs
      (hu.mono (fun x h => by simp [Expr.vars, h]) fun f h => by simp [Expr.calls, h])
    obtain ⟨⟨k', h1'⟩, -, -⟩ := ihb D R next hF h2
      (hu.mono (fun x h => by simp [Expr.vars, h]) fun f h => by simp [Expr.calls, h])
    refine .wrong (k + k') (fun n hn => ?_)
    rw [interpret, h1 n (by omega)]
    simp only [outcome, Out.bind, Value.asBool]
    rw [h1' n (by omega)]
    rfl
  | whileWrong h ih =>
    intro D R next hF hs hu
    obtain ⟨⟨k, h1⟩, -, -⟩ := ih D R next hF hs
      (hu.mono (fun x h => by simp [Expr.vars, h]) fun f h => by simp [Expr.calls, h])
    exact .wrong k fun n hn => by rw [interpret, h1 n hn]; rfl
  | @whileOther c b s t v h hv ih =>
    intro D R next hF hs hu
    obtain ⟨⟨k, h1⟩, -, -⟩ := ih D R next hF hs
      (hu.mono (fun x h => by simp [Expr.vars, h]) fun f h => by simp [Expr.calls, h])
    refine .wrong k fun n hn => ?_
    rw [interpret, h1 n hn]
    cases v with
    | bool q => exact (hv q rfl).elim
    | _ => rfl
  | @call f b s t v hf hb ih =>
    intro D R next hF hs hu
    obtain ⟨⟨k, h1⟩, -, -⟩ := ih _ _ (s.vars :: next) (hF.call ht hs (hu.calls f (by simp [Expr.calls])) hf)
      (fun x hx => (hx rfl).elim) (uses_body _ _)
    refine .of k (fun n hn => ?_) hs (by rintro v t ⟨⟩ x hx; exact hx)
    rw [interpret_call hf, h1 n hn]
    rfl
  | @callWrong f b s hf hb ih =>
    intro D R next hF hs hu
    obtain ⟨⟨k, h1⟩, -, -⟩ := ih _ _ (s.vars :: next) (hF.call ht hs (hu.calls f (by simp [Expr.calls])) hf)
      (fun x hx => (hx rfl).elim) (uses_body _ _)
    refine .wrong k fun n hn => ?_
    rw [interpret_call hf, h1 n hn]
    rfl
  | callMissing hf =>
    intro D R next hF hs hu
    exact .wrong 0 fun n _ => by rw [interpret, hf]

/-- An expression that the interpreter finishes is executed so. -/
theorem exec_sound (hc : cfg.overflowChecks = true) (ht : Tidy cfg.fns) (n : Nat) : ∀ (e : Expr), Plain e →
    ∀ (s : Store) (D R : Name → Prop) (next : List (Map Value)), Scope cfg D R next → Own D s.vars → Uses D R e →
      interpret cfg n e (s.st next) = .diverge ∨
        ∃ r, interpret cfg n e (s.st next) = outcome next r ∧ Exec cfg.fns e s r := by
  induction n with
  | zero => exact fun e _ s D R next _ _ _ => .inl rfl
  | succ n ih =>
    intro e he s D R next hF hs hu
    have own : ∀ {e' : Expr} {s t : Store} {v : Value}, Own D s.vars → Uses D R e' → Exec cfg.fns e' s (some (v, t)) →
        Own D t.vars := fun hs hu h => (exec_complete hc ht h D R next hF hs hu).own
    cases he with
    | integer i => exact .inr ⟨_, rfl, .integer i s⟩
    | string t => exact .inr ⟨_, rfl, .string t s⟩
    | @parenthesized e he =>
      rw [interpret]
      rcases ih e he s D R next hF hs
        (hu.mono (fun x h => by simpa [Expr.vars] using h) fun f h => by simpa [Expr.calls] using h) with h | ⟨r, h, hx⟩
      · exact .inl h
      · exact .inr ⟨r, h, .parenthesized hx⟩
    | symbol x =>
      have hx := hF.hidden x (hu.vars x (by simp [Expr.vars]))
      right
      rw [interpret_symbol, Store.st, lookup_own hx]
      cases h : s.vars x with
      | none => exact ⟨none, rfl, .symbolUnset h⟩
      | some v => exact ⟨some (v, s), rfl, .symbol h⟩
    | @assignment x e he =>
      have hu' : Uses D R e :=
        hu.mono (fun x h => by simp [Expr.vars, h]) fun f h => by simpa [Expr.calls] using h
      rcases ih e he s D R next hF hs hu' with h | ⟨r, h, hx⟩
      · left
        rw [interpret]
        cases (s.st next).env.findBinding x <;> simp only [h, Out.bind]
      · right
        rcases r with _ | ⟨v, t⟩
        · exact ⟨none, interpret_assignment_wrong h, .assignmentWrong hx⟩
        · exact ⟨some (v, ⟨fun y => if y = x then some v else t.vars y, t.out⟩), interpret_assignment (hF.hidden x (hu.vars x (by simp [Expr.vars]))) h
            ((exec_complete hc ht hx D R next hF hs hu').grows v t rfl x), .assignment hx⟩
    | @println e he =>
      rw [interpret]
      rcases ih e he s D R next hF hs
        (hu.mono (fun x h => by simpa [Expr.vars] using h) fun f h => by simpa [Expr.calls] using h) with h | ⟨r, h, hx⟩
      · left; rw [h]; rfl
      · right
        rw [h]
        rcases r with _ | ⟨v, t⟩
        · exact ⟨none, rfl, .printlnWrong hx⟩
        · exact ⟨_, rfl, .println hx⟩
    | @binary op l r hl hr =>
      have hul : Uses D R l := hu.mono (fun x h => by simp [Expr.vars, h]) fun f h => by simp [Expr.calls, h]
      have hur : Uses D R r := hu.mono (fun x h => by simp [Expr.vars, h]) fun f h => by simp [Expr.calls, h]
      rw [interpret]
      rcases ih l hl s D R next hF hs hul with h | ⟨r1, h, hx⟩
      · left; rw [h]; rfl
      · rw [h]
        rcases r1 with _ | ⟨a, t⟩
        · exact .inr ⟨none, rfl, .binaryLeft hx⟩
        · simp only [outcome, Out.bind]
          rcases ih r hr t D R next hF (own hs hul hx) hur with h' | ⟨r2, h', hy⟩
          · left; rw [h']
          · rw [h']
            rcases r2 with _ | ⟨b, u⟩
            · exact .inr ⟨none, rfl, .binaryRight hx hy⟩
            · right
              simp only [outcome]
              cases ha : applyOp cfg op a b with
              | none =>
                refine ⟨none, rfl, .binaryWrong hx hy ?_⟩
                rintro ⟨v, hv⟩
                rw [(applyOp_iff hc op a b v).2 hv] at ha
                simp at ha
              | some v => exact ⟨some (v, u), rfl, .binary hx hy ((applyOp_iff hc op a b v).1 ha)⟩
    | @block es hes =>
      induction es generalizing s with
      | nil => exact .inr ⟨none, rfl, .blockEmpty s⟩
      | cons e es ihes =>
        have hue : Uses D R e :=
          hu.mono (fun x h => by simp [Expr.vars, varsAll, h]) fun f h => by simp [Expr.calls, callsAll, h]
        have h0 := ih e (hes e (by simp)) s D R next hF hs hue
        cases es with
        | nil =>
          rw [interpret_block_one]
          rcases h0 with h | ⟨r, h, hx⟩
          · exact .inl h
          · exact .inr ⟨r, h, .blockOne hx⟩
        | cons e' es =>
          rw [interpret_block_more]
          rcases h0 with h | ⟨r, h, hx⟩
          · left; rw [h]; rfl
          · rw [h]
            rcases r with _ | ⟨v, t⟩
            · exact .inr ⟨none, rfl, .blockWrong hx⟩
            · simp only [outcome, Out.bind]
              rcases ihes t (own hs hue hx) (fun e he => hes e (List.mem_cons_of_mem _ he))
                (hu.mono (fun x h => by simp only [Expr.vars, varsAll, List.mem_append] at h ⊢; exact .inr h)
                  fun f h => by simp only [Expr.calls, callsAll, List.mem_append] at h ⊢; exact .inr h) with
                h' | ⟨r2, h', hy⟩
              · exact .inl h'
              · exact .inr ⟨r2, h', .blockMore hx hy⟩
    | @«if» c b hpc hpb =>
      have huc : Uses D R c := hu.mono (fun x h => by simp [Expr.vars, h]) fun f h => by simp [Expr.calls, h]
      have hub : Uses D R b := hu.mono (fun x h => by simp [Expr.vars, h]) fun f h => by simp [Expr.calls, h]
      rw [interpret]
      rcases ih c hpc s D R next hF hs huc with h | ⟨r1, h, hx⟩
      · left; rw [h]; rfl
      · rw [h]
        rcases r1 with _ | ⟨a, t⟩
        · exact .inr ⟨none, rfl, .ifWrong hx⟩
        · simp only [outcome, Out.bind]
          cases a with
          | bool q =>
            cases q with
            | false => exact .inr ⟨_, rfl, .ifFalse hx⟩
            | true =>
              simp only [Value.asBool]
              rcases ih b hpb t D R next hF (own hs huc hx) hub with h' | ⟨r2, h', hy⟩
              · exact .inl h'
              · exact .inr ⟨r2, h', .ifTrue hx hy⟩
          | _ => exact .inr ⟨none, rfl, .ifOther hx nofun⟩
    | @ifElse c b e hpc hpb hpe =>
      have huc : Uses D R c := hu.mono (fun x h => by simp [Expr.vars, h]) fun f h => by simp [Expr.calls, h]
      have hub : Uses D R b := hu.mono (fun x h => by simp [Expr.vars, h]) fun f h => by simp [Expr.calls, h]
      have hue : Uses D R e := hu.mono (fun x h => by simp [Expr.vars, h]) fun f h => by simp [Expr.calls, h]
      rw [interpret]
      rcases ih c hpc s D R next hF hs huc with h | ⟨r1, h, hx⟩
      · left; rw [h]; rfl
      · rw [h]
        rcases r1 with _ | ⟨a, t⟩
        · exact .inr ⟨none, rfl, .ifWrong hx⟩
        · simp only [outcome, Out.bind]
          cases a with
          | bool q =>
            cases q with
            | false =>
              simp only [Value.asBool]
              rcases ih e hpe t D R next hF (own hs huc hx) hue with h' | ⟨r2, h', hy⟩
              · exact .inl h'
              · exact .inr ⟨r2, h', .ifElse hx hy⟩
            | true =>
              simp only [Value.asBool]
              rcases ih b hpb t D R next hF (own hs huc hx) hub with h' | ⟨r2, h', hy⟩
              · exact .inl h'
              · exact .inr ⟨r2, h', .ifTrue hx hy⟩
          | _ => exact .inr ⟨none, rfl, .ifOther hx nofun⟩
    | @«while» c b hpc hpb =>
      have huc : Uses D R c := hu.mono (fun x h => by simp [Expr.vars, h]) fun f h => by simp [Expr.calls, h]
      have hub : Uses D R b := hu.mono (fun x h => by simp [Expr.vars, h]) fun f h => by simp [Expr.calls, h]
      rw [interpret]
      rcases ih c hpc s D R next hF hs huc with h | ⟨r1, h, hx⟩
      · left; rw [h]; rfl
      · rw [h]
        rcases r1 with _ | ⟨a, t⟩
        · exact .inr ⟨none, rfl, .whileWrong hx⟩
        · simp only [outcome, Out.bind]
          cases a with
          | bool q =>
            cases q with
            | false => exact .inr ⟨_, rfl, .whileStop hx⟩
            | true =>
              simp only [Value.asBool]
              have ho := own hs huc hx
              rcases ih b hpb t D R next hF ho hub with h' | ⟨r2, h', hy⟩
              · left; rw [h']
              · rw [h']
                rcases r2 with _ | ⟨v, u⟩
                · exact .inr ⟨none, rfl, .whileBody hx hy⟩
                · simp only [outcome]
                  rcases ih _ (.while hpc hpb) u D R next hF (own ho hub hy) hu with h'' | ⟨r3, h'', hz⟩
                  · exact .inl h''
                  · exact .inr ⟨r3, h'', .whileRound hx hy hz⟩
          | _ => exact .inr ⟨none, rfl, .whileOther hx nofun⟩
    | call f =>
      cases hf : cfg.fns f with
      | none => exact .inr ⟨none, by rw [interpret, hf]; rfl, .callMissing hf⟩
      | some d =>
        obtain ⟨ps, b⟩ := d
        obtain ⟨rfl, hpb, -⟩ := ht f ps b hf
        rw [interpret_call hf]
        rcases ih b hpb ⟨fun _ => none, s.out⟩ _ _ (s.vars :: next)
          (hF.call ht hs (hu.calls f (by simp [Expr.calls])) hf) (fun x hx => (hx rfl).elim) (uses_body _ _) with
          h | ⟨r, h, hx⟩
        · left; rw [h]; rfl
        · right
          rw [h]
          rcases r with _ | ⟨v, t⟩
          · exact ⟨none, rfl, .callWrong hf hx⟩
          · exact ⟨_, rfl, .call hf hx⟩

/-- A body that is executed on its own. -/
theorem Scope.start (ht : Tidy cfg.fns) {g : Name} {ps : List Name} {b : Expr} (hb : cfg.fns g = some (ps, b)) :
    Scope cfg (· ∈ b.vars) (Reached cfg.fns b) [] :=
  ⟨fun _ _ => rfl, fun _ _ _ hg hc _ hk => .through hg hc hk, fun h qs c hg hc x hx =>
    ⟨(ht g ps b hb).2.2 h qs c hg hc x hx, rfl⟩⟩

/-- C132: a function is executed in one way at most. -/
theorem c132_unique {fns : Map (List Name × Expr)} (ht : Tidy fns) {g : Name} {ps : List Name} {b : Expr}
    (hb : fns g = some (ps, b)) {r r' : Option (Value × Store)} {out : List Value}
    (h : Exec fns b ⟨fun _ => none, out⟩ r) (h' : Exec fns b ⟨fun _ => none, out⟩ r') : r = r' := by
  obtain ⟨⟨k, h1⟩, -, -⟩ := exec_complete (cfg := ⟨fns, true⟩) rfl ht h _ _ [] (Scope.start ht hb)
    (fun x hx => (hx rfl).elim) (uses_body _ _)
  obtain ⟨⟨k', h2⟩, -, -⟩ := exec_complete (cfg := ⟨fns, true⟩) rfl ht h' _ _ [] (Scope.start ht hb)
    (fun x hx => (hx rfl).elim) (uses_body _ _)
  have := (h1 (k + k') (by omega)).symm.trans (h2 (k + k') (by omega))
  rcases r with _ | ⟨v, t⟩ <;> rcases r' with _ | ⟨v', t'⟩ <;> simp only [outcome, Store.st] at this
  · rfl
  · cases this
  · cases this
  · obtain ⟨m, o⟩ := t
    obtain ⟨m', o'⟩ := t'
    simp only [Out.ok.injEq, St.mk.injEq, Env.mk.injEq] at this
    obtain ⟨rfl, ⟨rfl, -⟩, rfl⟩ := this
    rfl

theorem define_bodies (n : Nat) (st : St) : ∀ (ds : List Expr), (∀ d ∈ ds, IsFun d) → ∀ (cfg : Cfg),
    define n ds cfg st = .ok ⟨fun g => (bodies ds g).or (cfg.fns g), cfg.overflowChecks⟩ st
  | [], _, cfg => by simp [define, bodies]
  | d :: ds, hd, cfg => by
    cases d with
    | functionDefinition f ps b =>
      rw [define, define_bodies n st ds (fun d h => hd d (List.mem_cons_of_mem _ h))]
      congr 1
      simp only [Cfg.mk.injEq, and_true]
      funext g
      simp only [bodies, Map.insert]
      cases bodies ds g with
      | some d => rfl
      | none =>
        by_cases hg : g = f <;> simp [hg]
    | _ => exact (hd _ List.mem_cons_self).elim

theorem callMain_bodies (n : Nat) (ds : List Expr) (hd : ∀ d ∈ ds, IsFun d) :
    callMain n (Cfg.new true) St.new (.program ds) = runMain n ⟨bodies ds, true⟩ St.new := by
  rw [callMain_eq, define_bodies n _ ds hd]
  simp [Out.bind, Cfg.new, Map.empty]

/-- The interpreter of a program and the execution of its main function. -/
theorem runMain_sound {ds : List Expr} (ht : Tidy (bodies ds)) {ps : List Name} {b : Expr}
    (hb : bodies ds "main" = some (ps, b)) (n : Nat) : runMain n ⟨bodies ds, true⟩ St.new = .diverge ∨
      ∃ r, runMain n ⟨bodies ds, true⟩ St.new = outcome [] r ∧ Exec (bodies ds) b Store.start r := by
  unfold runMain
  simp only [hb]
  exact exec_sound (cfg := ⟨bodies ds, true⟩) rfl ht n b (ht _ _ _ hb).2.1 Store.start _ _ [] (Scope.start ht hb)
    (fun x hx => (hx rfl).elim) (uses_body _ _)

theorem runMain_complete {ds : List Expr} (ht : Tidy (bodies ds)) {ps : List Name} {b : Expr}
    (hb : bodies ds "main" = some (ps, b)) {r : Option (Value × Store)} (h : Exec (bodies ds) b Store.start r) :
    ∃ k, ∀ n, k ≤ n → runMain n ⟨bodies ds, true⟩ St.new = outcome [] r := by
  obtain ⟨k, hk⟩ := (exec_complete (cfg := ⟨bodies ds, true⟩) rfl ht h _ _ [] (Scope.start ht hb)
    (fun x hx => (hx rfl).elim) (uses_body _ _)).runs
  refine ⟨k, fun n hn => ?_⟩
  unfold runMain
  simp only [hb]
  exact hk n hn

section
variable {ds : List Expr} (hd : ∀ d ∈ ds, IsFun d) (ht : Tidy (bodies ds)) {ps : List Name} {b : Expr}
  (hb : bodies ds "main" = some (ps, b))
include hd ht hb

/-- C132: a program ends with this value and this output exactly if its main function is executed so. -/
theorem c132_ends (v : Value) (out : List Value) :
    (∃ n st, callMain n (Cfg.new true) St.new (.program ds) = .ok v st ∧ st.out = out) ↔
      ∃ m, Exec (bodies ds) b Store.start (some (v, ⟨m, out⟩)) := by
  simp only [callMain_bodies _ ds hd]
  constructor
  · rintro ⟨n, st, h, rfl⟩
    rcases runMain_sound ht hb n with h' | ⟨r, h', hx⟩
    · rw [h] at h'; cases h'
    · rw [h] at h'
      rcases r with _ | ⟨w, t⟩
      · cases h'
      · simp only [outcome, Out.ok.injEq] at h'
        obtain ⟨rfl, rfl⟩ := h'
        exact ⟨t.vars, hx⟩
  · rintro ⟨m, h⟩
    obtain ⟨k, hk⟩ := runMain_complete ht hb h
    exact ⟨k, _, hk k (Nat.le_refl _), rfl⟩

/-- C132: a program panics exactly if the execution of its main function ends with an error. -/
theorem c132_wrong : (∃ n, callMain n (Cfg.new true) St.new (.program ds) = .panic) ↔
    Exec (bodies ds) b Store.start none := by
  simp only [callMain_bodies _ ds hd]
  constructor
  · rintro ⟨n, h⟩
    rcases runMain_sound ht hb n with h' | ⟨r, h', hx⟩
    · rw [h] at h'; cases h'
    · rw [h] at h'
      rcases r with _ | ⟨w, t⟩
      · exact hx
      · cases h'
  · intro h
    obtain ⟨k, hk⟩ := runMain_complete ht hb h
    exact ⟨k, hk k (Nat.le_refl _)⟩

/-- C132: a program runs forever exactly if its main function is not executed to an end. -/
theorem c132_forever : (∀ n, callMain n (Cfg.new true) St.new (.program ds) = .diverge) ↔
    ¬∃ r, Exec (bodies ds) b Store.start r := by
  simp only [callMain_bodies _ ds hd]
  constructor
  · rintro h ⟨r, hr⟩
    obtain ⟨k, hk⟩ := runMain_complete ht hb hr
    have := (h k).symm.trans (hk k (Nat.le_refl _))
    rcases r with _ | ⟨w, t⟩ <;> cases this
  · intro h n
    rcases runMain_sound ht hb n with h' | ⟨r, h', hx⟩
    · exact h'
    · exact (h ⟨r, hx⟩).elim
end

/-- C132, from the text: whatever the layout, the program that is read from the text of these definitions ends with this
value and this output exactly if main is executed so. -/
theorem c132_text (S : Parse.Std) {ds : List Expr} {t : List Char} (htext : Text.Prog false ds t) (hd : ∀ d ∈ ds, IsFun d)
    (ht : Tidy (bodies ds)) {ps : List Name} {b : Expr} (hb : bodies ds "main" = some (ps, b)) (k : Nat)
    (hk : t.length < k) (v : Value) (out : List Value) :
    (∃ e n st, parse (Parse.program S k) t = .ok e ∧ callMain n (Cfg.new true) St.new e = .ok v st ∧ st.out = out) ↔
      ∃ m, Exec (bodies ds) b Store.start (some (v, ⟨m, out⟩)) := by
  rw [← c132_ends hd ht hb v out, Parse.c77_program S k t ds hk htext]
  constructor
  · rintro ⟨_, n, st, ⟨⟩, h⟩
    exact ⟨n, st, h⟩
  · rintro ⟨n, st, h⟩
    exact ⟨_, n, st, rfl, h⟩

/-- C132: a program without main function panics. -/
theorem c132_missing {ds : List Expr} (hd : ∀ d ∈ ds, IsFun d) (hb : bodies ds "main" = none) (n : Nat) :
    callMain n (Cfg.new true) St.new (.program ds) = .panic := by
  rw [callMain_bodies _ ds hd, runMain]
  simp only [hb]

/-! ## A program that counts and calls -/

/-- `fn bye() { x = "bye"; println(x); }` and
`fn main() { i = 0; while (i < n) { println(i); i = i + 1; } bye(); }` -/
def counting (n : Nat) : List Expr :=
  [.functionDefinition "bye" [] (.block [.assignment "x" (.stringLiteral "bye"), .println (.symbol "x")]),
   .functionDefinition "main" [] (.block [.assignment "i" (.integerLiteral 0),
     .while (.binary .lessThan (.symbol "i") (.integerLiteral n))
       (.block [.println (.symbol "i"), .assignment "i" (.binary .add (.symbol "i") (.integerLiteral 1))]),
     .functionCall "bye" []])]

theorem counting_tidy (n : Nat) : Tidy (bodies (counting n)) := by
  have cases_of : ∀ {g ps b}, bodies (counting n) g = some (ps, b) →
      (g = "main" ∧ ps = [] ∧ b = .block [.assignment "i" (.integerLiteral 0),
        .while (.binary .lessThan (.symbol "i") (.integerLiteral n))
          (.block [.println (.symbol "i"), .assignment "i" (.binary .add (.symbol "i") (.integerLiteral 1))]),
        .functionCall "bye" []]) ∨
      (g = "bye" ∧ ps = [] ∧ b = .block [.assignment "x" (.stringLiteral "bye"), .println (.symbol "x")]) := by
    intro g ps b h
    simp only [bodies, counting] at h
    by_cases h1 : g = "main"
    · simp only [h1, if_true, Option.some.injEq, Prod.mk.injEq] at h
      exact .inl ⟨h1, h.1.symm, h.2.symm⟩
    · by_cases h2 : g = "bye"
      · simp [h2] at h
        exact .inr ⟨h2, h.1, h.2.symm⟩
      · simp [h1, h2] at h
  have reach : ∀ {g ps b h}, bodies (counting n) g = some (ps, b) → Reached (bodies (counting n)) b h →
      g = "main" ∧ h = "bye" := by
    intro g ps b h hg hr
    induction hr with
    | here h =>
      rcases cases_of hg with ⟨rfl, -, rfl⟩ | ⟨rfl, -, rfl⟩
      · simpa [Expr.calls, callsAll] using h
      · simp [Expr.calls, callsAll] at h
    | through _ hb h ih =>
      obtain ⟨rfl, rfl⟩ := ih
      rcases cases_of hb with ⟨h1, -⟩ | ⟨-, -, rfl⟩
      · simp at h1
      · simp [Expr.calls, callsAll] at h
  intro g ps b hg
  refine ⟨?_, ?_, ?_⟩
  · rcases cases_of hg with ⟨-, rfl, -⟩ | ⟨-, rfl, -⟩ <;> rfl
  · rcases cases_of hg with ⟨-, -, rfl⟩ | ⟨-, -, rfl⟩
    · refine .block fun e he => ?_
      simp only [List.mem_cons, List.not_mem_nil, or_false] at he
      rcases he with rfl | rfl | rfl
      · exact .assignment _ (.integer _)
      · refine .while (.binary _ (.symbol _) (.integer _)) (.block fun e he => ?_)
        simp only [List.mem_cons, List.not_mem_nil, or_false] at he
        rcases he with rfl | rfl
        · exact .println (.symbol _)
        · exact .assignment _ (.binary _ (.symbol _) (.integer _))
      · exact .call _
    · refine .block fun e he => ?_
      simp only [List.mem_cons, List.not_mem_nil, or_false] at he
      rcases he with rfl | rfl
      · exact .assignment _ (.string _)
      · exact .println (.symbol _)
  · intro h qs c hr hc x hx
    obtain ⟨rfl, rfl⟩ := reach hg hr
    rcases cases_of hg with ⟨-, -, rfl⟩ | ⟨h1, -⟩
    · rcases cases_of hc with ⟨h1, -⟩ | ⟨-, -, rfl⟩
      · simp at h1
      · simp [Expr.vars, varsAll] at hx ⊢
        simp [hx]
    · simp at h1

/-- The loop, from any start. -/
theorem counting_loop (fns : Map (List Name × Expr)) (n : Nat) (hn : Fits n) : ∀ (k i : Nat), i + k = n →
    ∀ (s : Store), s.vars "i" = some (.int i) → ∃ t, Exec fns
      (.while (.binary .lessThan (.symbol "i") (.integerLiteral n))
        (.block [.println (.symbol "i"), .assignment "i" (.binary .add (.symbol "i") (.integerLiteral 1))])) s
      (some (.bool true, t)) ∧ t.out = s.out ++ (List.range' i k).map fun (j : Nat) => .int j
  | 0, i, hk, s, hs => by
    refine ⟨s, .whileStop ?_, by simp⟩
    have := Operates.lessThan i n
    rw [show decide ((i : Int) < n) = false by simp; omega] at this
    exact .binary (.symbol hs) (.integer _ _) this
  | k + 1, i, hk, s, hs => by
    obtain ⟨t, ht, ho⟩ := counting_loop fns n hn k (i + 1) (by omega)
      ⟨fun y => if y = "i" then some (.int (i + 1)) else s.vars y, s.out ++ [.int i]⟩ (by simp)
    refine ⟨t, .whileRound (t := s) ?_ (.blockMore (.println (.symbol hs)) (.blockOne (.assignment (.binary
      (.symbol (s := ⟨s.vars, _⟩) hs) (.integer _ _) (.add ?_))))) ht, ?_⟩
    · have := Operates.lessThan i n
      rw [show decide ((i : Int) < n) = true by simp; omega] at this
      exact .binary (.symbol hs) (.integer _ _) this
    · unfold Fits at hn ⊢
      omega
    · rw [ho]
      simp [List.range'_succ]

/-- The program prints the numbers below `n`, then `bye`, for every `n`. -/
example (n : Nat) (hn : Fits n) : ∃ k st, callMain k (Cfg.new true) St.new (.program (counting n)) = .ok (.string "bye") st ∧
    st.out = (List.range n).map (fun (j : Nat) => Value.int j) ++ [.string "bye"] := by
  refine (c132_ends (fun d hd => ?_) (counting_tidy n) (show bodies (counting n) "main" = some _ from rfl) _ _).2 ?_
  · simp only [counting, List.mem_cons, List.not_mem_nil, or_false] at hd
    rcases hd with rfl | rfl <;> trivial
  · obtain ⟨t, ht, ho⟩ := counting_loop (bodies (counting n)) n hn n 0 (by omega)
      ⟨fun y => if y = "i" then some (.int 0) else none, []⟩ rfl
    refine ⟨t.vars, .blockMore (.assignment (.integer _ _)) (.blockMore ht (.blockOne ?_))⟩
    have h : Exec (bodies (counting n)) (.functionCall "bye" []) t (some (.string "bye", ⟨t.vars, t.out ++ [.string "bye"]⟩)) :=
      .call (t := ⟨fun y => if y = "x" then some (.string "bye") else none, _⟩) rfl
        (.blockMore (.assignment (.string _ _)) (.blockOne (.println (.symbol rfl))))
    rw [ho] at h
    simpa [List.range_eq_range'] using h

/-- `while (1 < 2) { println("again"); }` is not executed to an end. -/
theorem again_forever (fns : Map (List Name × Expr)) (s : Store) (r : Option (Value × Store)) :
    ¬Exec fns (.while (.binary .lessThan (.integerLiteral 1) (.integerLiteral 2)) (.println (.stringLiteral "again"))) s r := by
  have cond : ∀ {s r}, Exec fns (.binary .lessThan (.integerLiteral 1) (.integerLiteral 2)) s r →
      r = some (.bool true, s) := by
    intro s r h
    cases h with
    | binary hl hr h => cases hl; cases hr; cases h; rfl
    | binaryWrong hl hr h => cases hl; cases hr; exact (h ⟨_, .lessThan 1 2⟩).elim
    | binaryLeft hl => cases hl
    | binaryRight _ hr => cases hr
  intro h
  generalize he : (Expr.while (.binary .lessThan (.integerLiteral 1) (.integerLiteral 2)) (.println (.stringLiteral "again"))) = e at h
  induction h with
  | whileStop h => cases he; simpa using cond h
  | whileRound _ _ _ _ _ ih => exact ih he
  | whileBody _ hb =>
    cases he
    cases hb with
    | printlnWrong h => cases h
  | whileWrong h => cases he; simpa using cond h
  | whileOther h hv => cases he; have := cond h; simp at this; exact hv true this.1
  | _ => cases he

/-- Such a main function runs forever. -/
example (n : Nat) : callMain n (Cfg.new true) St.new (.program [.functionDefinition "main" []
    (.while (.binary .lessThan (.integerLiteral 1) (.integerLiteral 2)) (.println (.stringLiteral "again")))]) = .diverge := by
  refine (c132_forever (b := .while (.binary .lessThan (.integerLiteral 1) (.integerLiteral 2))
    (.println (.stringLiteral "again"))) (by simp [IsFun]) ?_ rfl).2 (fun ⟨r, h⟩ => again_forever _ _ r h) n
  intro g ps b hg
  simp only [bodies] at hg
  by_cases h : g = "main" <;> simp [h] at hg
  obtain ⟨rfl, rfl⟩ := hg
  refine ⟨rfl, .while (.binary _ (.integer _) (.integer _)) (.println (.string _)), fun h qs c _ hc x hx hx' => ?_⟩
  simp [Expr.vars] at hx'

/-- A main function that reads a variable that it never sets panics. -/
example : ∃ n, callMain n (Cfg.new true) St.new (.program [.functionDefinition "main" [] (.println (.symbol "x"))]) =
    .panic := by
  refine (c132_wrong (b := .println (.symbol "x")) (by simp [IsFun]) ?_ rfl).2 (.printlnWrong (.symbolUnset rfl))
  intro g ps b hg
  simp only [bodies] at hg
  by_cases h : g = "main" <;> simp [h] at hg
  obtain ⟨rfl, rfl⟩ := hg
  refine ⟨rfl, .println (.symbol _), fun h qs c hr _ _ _ _ => ?_⟩
  have : ∀ {fns h}, ¬Reached fns (.println (.symbol "x")) h := by
    intro fns h hr
    induction hr with
    | here h => simp [Expr.calls] at h
    | through _ _ _ ih => exact ih
  exact this hr

end OniComb.Toys
