import Verif.Spec.ToysEnds
import Verif.Props.Toys
import Verif.Props.ToysMeaning

/-!
# Toys programs without recursion whose loops count always end (C134)
-/

namespace OniComb.Toys

variable {cfg : Cfg}

/-- The value is no integer or has 64 bits. -/
def Value.Small (v : Value) : Prop := ∀ i, v = .int i → Fits i

/-- All variables have small values. -/
def St.Small (st : St) : Prop :=
  (∀ x v, st.env.bindings x = some v → v.Small) ∧ ∀ m ∈ st.env.next, ∀ x v, m x = some v → v.Small

/-- All integers in the expression have 64 bits. -/
inductive Small : Expr → Prop where
  | stringLiteral (s) : Small (.stringLiteral s)
  | integerLiteral (i) (h : Fits i) : Small (.integerLiteral i)
  | boolLiteral (b) : Small (.boolLiteral b)
  | arrayLiteral (es) : Small (.arrayLiteral es)
  | symbol (x) : Small (.symbol x)
  | binary {op l r} : Small l → Small r → Small (.binary op l r)
  | functionCall {f args} : (∀ a ∈ args, Small a) → Small (.functionCall f args)
  | labelledCall {f args} : (∀ a ∈ args.map Prod.snd, Small a) → Small (.labelledCall f args)
  | println {e} : Small e → Small (.println e)
  | while {c b} : Small c → Small b → Small (.while c b)
  | ifElse {c b e} : Small c → Small b → Small e → Small (.if c b (some e))
  | if {c b} : Small c → Small b → Small (.if c b none)
  | block {es} : (∀ e ∈ es, Small e) → Small (.block es)
  | assignment {x e} : Small e → Small (.assignment x e)
  | parenthesized {e} : Small e → Small (.parenthesized e)

theorem Simple.small {e : Expr} (h : Simple e) : Small e := by
  induction h with
  | integer i h => exact .integerLiteral i h
  | symbol x => exact .symbol x
  | parenthesized _ ih => exact .parenthesized ih
  | binary op _ _ ihl ihr => exact .binary ihl ihr

theorem Counting.small {e : Expr} (h : Counting e) : Small e := by
  induction h with
  | integer i h => exact .integerLiteral i h
  | string t => exact .stringLiteral t
  | bool q => exact .boolLiteral q
  | array es => exact .arrayLiteral es
  | symbol x => exact .symbol x
  | parenthesized _ ih => exact .parenthesized ih
  | assignment x _ ih => exact .assignment ih
  | println _ ih => exact .println ih
  | binary op _ _ ihl ihr => exact .binary ihl ihr
  | block _ ih => exact .block ih
  | «if» _ _ ihc ihb => exact .if ihc ihb
  | ifElse _ _ _ ihc ihb ihe => exact .ifElse ihc ihb ihe
  | call f _ ih => exact .functionCall ih
  | labelledCall f _ ih => exact .labelledCall ih
  | «for» x hs hb hx h ha ihs ihb =>
    refine .block fun e he => ?_
    simp only [List.mem_cons, List.not_mem_nil, or_false] at he
    rcases he with rfl | rfl
    · exact .assignment ihs
    · refine .while (.binary (.symbol _) hb.small) (.block fun e he => ?_)
      simp only [List.mem_cons, List.not_mem_nil, or_false] at he
      rcases he with rfl | rfl
      · exact ihb
      · exact .assignment (.binary (.symbol _) (.integerLiteral 1 (by unfold Fits; omega)))

theorem wrap_fits (i : Int) : Fits (wrapI64 i) := by
  unfold wrapI64 Fits i64Min
  omega

theorem checked_small {i j : Int} (h : checked cfg i = some j) : Fits j := by
  unfold checked at h
  split at h
  · cases h; exact (inI64_fits _).1 ‹_›
  · split at h
    · cases h
    · cases h; exact wrap_fits i

theorem applyOp_small {op : Operator} {l r v : Value} (hl : l.Small) (hr : r.Small) (h : applyOp cfg op l r = some v) :
    v.Small := by
  rintro i rfl
  cases op <;> cases l <;> cases r <;> simp [applyOp, ints, Value.asInt, Value.asBool] at h
  case add.int.int => exact checked_small h
  case subtract.int.int => exact checked_small h
  case multiply.int.int => exact checked_small h
  case divide.int.int a b =>
    unfold divI64 at h
    split at h
    · cases h
    · split at h
      · cases h; exact (inI64_fits _).1 ‹_›
      · cases h
  case mod.int.int a b =>
    unfold modI64 at h
    split at h
    · cases h
    · split at h
      · cases h
        have h1 := Int.natAbs_tmod a b
        have h2 : a.natAbs % b.natAbs ≤ a.natAbs := Nat.mod_le _ _
        have h3 := hl a rfl
        have h4 : a.tmod b = 0 ∨ (0 < a.tmod b → 0 < a) := by
          by_cases h : 0 ≤ a
          · right; intro h'; rcases Int.lt_or_eq_of_le h with h | h
            · exact h
            · subst h; simp at h'
          · right; intro h'
            have h5 := Int.tmod_nonneg (a := -a) b (by omega)
            rw [Int.neg_tmod] at h5
            omega
        unfold Fits at h3 ⊢
        omega
      · cases h
  all_goals (rename_i p _; cases p <;> simp at h)

theorem lookup_small {st : St} (h : st.Small) {x : Name} {v : Value} (hx : st.env.lookup x = some v) : v.Small := by
  unfold Env.lookup at hx
  cases hb : st.env.bindings x with
  | some w => rw [hb] at hx; cases hx; exact h.1 x _ hb
  | none =>
    rw [hb] at hx
    obtain ⟨m, hm, hv⟩ := List.exists_of_findSome?_eq_some hx
    exact h.2 m hm x v hv

theorem set_small {st : St} (h : st.Small) (x : Name) {v : Value} (hv : v.Small) : (st.set x v).Small := by
  refine ⟨fun y w hy => ?_, h.2⟩
  simp only [St.set, Map.insert] at hy
  split at hy
  · cases hy; exact hv
  · exact h.1 y w hy

theorem inner_small {st : St} (h : st.Small) :
    St.Small { st with env := ⟨Map.empty, st.env.bindings :: st.env.next⟩ } := by
  refine ⟨fun x v hx => by simp [Map.empty] at hx, fun m hm x v hx => ?_⟩
  simp only [List.mem_cons] at hm
  rcases hm with rfl | hm
  · exact h.1 x v hx
  · exact h.2 m hm x v hx

/-- All function bodies are small. -/
def BodiesSmall (cfg : Cfg) : Prop := ∀ f ps b, cfg.fns f = some (ps, b) → Small b

theorem all_small {ev : Expr → St → Out Value} : ∀ {es : List Expr} {st st' : St} {vs : List Value},
    (∀ e ∈ es, ∀ st st' v, st.Small → ev e st = .ok v st' → v.Small ∧ st'.Small) → st.Small →
    evalAll ev es st = .ok vs st' → (∀ v ∈ vs, v.Small) ∧ st'.Small
  | [], st, st', vs, _, hs, h => by
    simp only [evalAll, Out.ok.injEq] at h
    obtain ⟨rfl, rfl⟩ := h
    exact ⟨by simp, hs⟩
  | e :: es, st, st', vs, he, hs, h => by
    rw [evalAll] at h
    obtain ⟨v, st1, h1, h2⟩ := bind_ok h
    obtain ⟨ws, st2, h3, h4⟩ := bind_ok h2
    simp only [Out.ok.injEq] at h4
    obtain ⟨rfl, rfl⟩ := h4
    obtain ⟨hv, hs1⟩ := he e (by simp) _ _ _ hs h1
    obtain ⟨hw, hs2⟩ := all_small (fun e' h' => he e' (List.mem_cons_of_mem _ h')) hs1 h3
    refine ⟨fun w hw' => ?_, hs2⟩
    simp only [List.mem_cons] at hw'
    rcases hw' with rfl | hw'
    · exact hv
    · exact hw w hw'

/-- Values remain 64 bit integers. -/
theorem stays_small (hB : BodiesSmall cfg) : ∀ (n : Nat) {e : Expr} {st st' : St} {v : Value},
    Small e → st.Small → interpret cfg n e st = .ok v st' → v.Small ∧ st'.Small
  | 0, _, _, _, _, _, _, h => by simp [interpret] at h
  | n + 1, e, st, st', v, he, hs, h => by
    have ih : ∀ {e st st' v}, Small e → St.Small st → interpret cfg n e st = .ok v st' → v.Small ∧ st'.Small :=
      stays_small hB n
    have inner : ∀ {f : Name} {ps : List Name} {b : Expr} {st st2 : St} {w : Value}, cfg.fns f = some (ps, b) → st.Small →
        interpret cfg n b { st with env := ⟨Map.empty, st.env.bindings :: st.env.next⟩ } = .ok w st2 → w.Small :=
      fun hf hs h => (ih (hB _ _ _ hf) (inner_small hs) h).1
    cases he with
    | stringLiteral s =>
      simp only [interpret, Out.ok.injEq] at h; obtain ⟨rfl, rfl⟩ := h; exact ⟨by rintro i ⟨⟩, hs⟩
    | integerLiteral i hi =>
      simp only [interpret, Out.ok.injEq] at h; obtain ⟨rfl, rfl⟩ := h; exact ⟨by rintro i ⟨⟩; exact hi, hs⟩
    | boolLiteral s => simp [interpret] at h
    | arrayLiteral s => simp [interpret] at h
    | symbol x =>
      obtain ⟨rfl, hl⟩ := runs_symbol.1 ⟨n + 1, h⟩
      exact ⟨lookup_small hs hl, hs⟩
    | @binary op l r hl hr =>
      rw [interpret] at h
      obtain ⟨a, st1, h1, h2⟩ := bind_ok h
      obtain ⟨b, st2, h3, h4⟩ := bind_ok h2
      obtain ⟨ha, hs1⟩ := ih hl hs h1
      obtain ⟨hb, hs2⟩ := ih hr hs1 h3
      cases ho : applyOp cfg op a b with
      | none => simp [ho] at h4
      | some w =>
        simp only [ho, Out.ok.injEq] at h4
        obtain ⟨rfl, rfl⟩ := h4
        exact ⟨applyOp_small ha hb ho, hs2⟩
    | @functionCall f args hargs =>
      rw [interpret] at h
      cases hf : cfg.fns f with
      | none => simp [hf] at h
      | some pb =>
        obtain ⟨ps, b⟩ := pb
        simp only [hf] at h
        obtain ⟨vs, st1, h1, h2⟩ := bind_ok h
        have hs1 := (all_small (fun e he _ _ _ => ih (hargs e he)) hs h1).2
        rw [bindParams_eq] at h2
        by_cases hl : ps.length + 0 ≤ max vs.length 0
        · simp only [if_pos hl] at h2
          obtain ⟨w, st2, h3, h4⟩ := bind_ok h2
          simp only [Out.ok.injEq] at h4
          obtain ⟨rfl, rfl⟩ := h4
          exact ⟨inner hf hs1 h3, hs1⟩
        · simp only [if_neg hl] at h2; cases h2
    | @labelledCall f args hargs =>
      rw [interpret] at h
      cases hf : cfg.fns f with
      | none => simp [hf] at h
      | some pb =>
        obtain ⟨ps, b⟩ := pb
        simp only [hf] at h
        obtain ⟨vs, st1, h1, h2⟩ := bind_ok h
        have hs1 := (all_small (fun e he _ _ _ => ih (hargs e he)) hs h1).2
        obtain ⟨w, st2, h3, h4⟩ := bind_ok h2
        simp only [Out.ok.injEq] at h4
        obtain ⟨rfl, rfl⟩ := h4
        exact ⟨inner hf hs1 h3, hs1⟩
    | println he =>
      rw [interpret] at h
      obtain ⟨a, st1, h1, h2⟩ := bind_ok h
      simp only [Out.ok.injEq] at h2
      obtain ⟨rfl, rfl⟩ := h2
      have := ih he hs h1; exact this
    | «while» hc hb =>
      rw [interpret] at h
      obtain ⟨a, st1, h1, h2⟩ := bind_ok h
      have hs1 := (ih hc hs h1).2
      cases hab : a.asBool with
      | none => simp [hab] at h2
      | some x =>
        simp only [hab] at h2
        cases x with
        | false =>
          simp only [Out.ok.injEq] at h2
          obtain ⟨rfl, rfl⟩ := h2
          exact ⟨by rintro i ⟨⟩, hs1⟩
        | true =>
          obtain ⟨b, st2, h3, h4⟩ := bind_ok h2
          exact ih (.while hc hb) (ih hb hs1 h3).2 h4
    | ifElse hc hb he =>
      rw [interpret] at h
      obtain ⟨a, st1, h1, h2⟩ := bind_ok h
      have hs1 := (ih hc hs h1).2
      cases hab : a.asBool with
      | none => simp [hab] at h2
      | some x =>
        simp only [hab] at h2
        cases x with
        | false => exact ih he hs1 h2
        | true => exact ih hb hs1 h2
    | «if» hc hb =>
      rw [interpret] at h
      obtain ⟨a, st1, h1, h2⟩ := bind_ok h
      have hs1 := (ih hc hs h1).2
      cases hab : a.asBool with
      | none => simp [hab] at h2
      | some x =>
        simp only [hab] at h2
        cases x with
        | false =>
          simp only [Out.ok.injEq] at h2
          obtain ⟨rfl, rfl⟩ := h2
          exact ⟨by rintro i ⟨⟩, hs1⟩
        | true => exact ih hb hs1 h2
    | block hes =>
      rw [interpret] at h
      obtain ⟨vs, st1, h1, h2⟩ := bind_ok h
      obtain ⟨hv, hs1⟩ := all_small (fun e he _ _ _ => ih (hes e he)) hs h1
      cases hl : vs.getLast? with
      | none => simp [hl] at h2
      | some w =>
        simp only [hl, Out.ok.injEq] at h2
        obtain ⟨rfl, rfl⟩ := h2
        exact ⟨hv _ (List.mem_of_getLast? hl), hs1⟩
    | @assignment x e he =>
      obtain ⟨st1, ⟨m, h1⟩, rfl, -⟩ := runs_assignment.1 ⟨n + 1, h⟩
      have h1 : interpret cfg n e st = .ok v st1 := by
        rw [interpret] at h
        cases hf : st.env.findBinding x with
        | none =>
          simp only [hf] at h
          obtain ⟨w, s, h2, h3⟩ := bind_ok h
          obtain ⟨rfl, rfl⟩ := Runs.unique ⟨n, h2⟩ ⟨m, h1⟩
          exact h2
        | some b =>
          simp only [hf] at h
          obtain ⟨w, s, h2, h3⟩ := bind_ok h
          obtain ⟨rfl, rfl⟩ := Runs.unique ⟨n, h2⟩ ⟨m, h1⟩
          exact h2
      obtain ⟨hv, hs1⟩ := ih he hs h1
      exact ⟨hv, set_small hs1 _ hv⟩
    | parenthesized he =>
      rw [interpret] at h
      exact ih he hs h

/-! ## Ending -/

/-- The evaluation ends, with a value or with a panic. -/
def Ends (cfg : Cfg) (e : Expr) (st : St) : Prop := ∃ n, interpret cfg n e st ≠ .diverge

theorem Le.ends {A : Type} {o o' : Out A} (h : Le o o') (ho : o ≠ .diverge) : o' = o := by
  rcases h with h | h
  · exact (ho h).elim
  · exact h.symm

theorem ends_bind {A B : Type} {o : Nat → Out A} {f : Nat → A → St → Out B} (hmo : ∀ n m, n ≤ m → Le (o n) (o m))
    (hmf : ∀ n m a s, n ≤ m → Le (f n a s) (f m a s)) (ho : ∃ n, o n ≠ .diverge)
    (hf : ∀ n a s, o n = .ok a s → ∃ m, f m a s ≠ .diverge) : ∃ n, (o n).bind (f n) ≠ .diverge := by
  obtain ⟨n, hn⟩ := ho
  cases h : o n with
  | diverge => exact (hn h).elim
  | panic => exact ⟨n, by rw [h]; simp [Out.bind]⟩
  | ok a s =>
    obtain ⟨m, hm⟩ := hf n a s h
    refine ⟨max n m, ?_⟩
    rw [(hmo n _ (Nat.le_max_left n m)).ends hn, h]
    simp only [Out.bind]
    rw [(hmf m _ a s (Nat.le_max_right n m)).ends hm]
    exact hm

theorem all_mono (es : List Expr) (st : St) (n m : Nat) (h : n ≤ m) :
    Le (evalAll (interpret cfg n) es st) (evalAll (interpret cfg m) es st) :=
  evalAll_le (fun e st => interpret_mono h e st) es st

theorem ends_all (hB : BodiesSmall cfg) : ∀ (es : List Expr) (st : St), (∀ e ∈ es, Small e) → st.Small →
    (∀ e ∈ es, ∀ st, st.Small → Ends cfg e st) → ∃ n, evalAll (interpret cfg n) es st ≠ .diverge
  | [], st, _, _, _ => ⟨0, by simp [evalAll]⟩
  | e :: es, st, he, hs, h => by
    simp only [evalAll]
    refine ends_bind (fun n m hm => interpret_mono hm e st)
      (fun n m a s hm => Le.bind (all_mono es s n m hm) fun _ _ => .refl _) (h e (by simp) st hs) fun n a s hn => ?_
    have hs1 := (stays_small hB n (he e (by simp)) hs hn).2
    exact ends_bind (fun n m hm => all_mono es s n m hm) (fun _ _ _ _ _ => .refl _)
      (ends_all hB es s (fun e' h' => he e' (List.mem_cons_of_mem _ h')) hs1 fun e' h' => h e' (List.mem_cons_of_mem _ h'))
      fun _ _ _ _ => ⟨0, by simp⟩

theorem Ends.of {e : Expr} {st : St} {o : Nat → Out Value} (h : ∃ n, o n ≠ .diverge)
    (he : ∀ n, interpret cfg (n + 1) e st = o n) : Ends cfg e st := by
  obtain ⟨n, hn⟩ := h
  exact ⟨n + 1, by rw [he]; exact hn⟩

theorem ends_binary {op : Operator} {l r : Expr} {st : St} (hl : Ends cfg l st)
    (hr : ∀ v s, Runs cfg l st v s → Ends cfg r s) : Ends cfg (.binary op l r) st := by
  refine Ends.of ?_ fun n => by rw [interpret]
  exact ends_bind (fun n m hm => interpret_mono hm _ _)
    (fun n m a s hm => Le.bind (interpret_mono hm _ _) fun _ _ => .refl _) hl fun n a s hn =>
      ends_bind (fun n m hm => interpret_mono hm _ _) (fun _ _ _ _ _ => .refl _) (hr a s ⟨n, hn⟩)
        fun _ b s _ => ⟨0, by cases applyOp cfg op a b <;> simp⟩

theorem ends_symbol (x : Name) (st : St) : Ends cfg (.symbol x) st :=
  ⟨1, by rw [interpret_symbol]; cases st.env.lookup x <;> simp⟩

theorem ends_parenthesized {e : Expr} {st : St} (h : Ends cfg e st) : Ends cfg (.parenthesized e) st :=
  Ends.of h fun n => by rw [interpret]

theorem Simple.ends {e : Expr} (h : Simple e) (st : St) : Ends cfg e st := by
  induction h generalizing st with
  | integer i _ => exact ⟨1, by simp [interpret]⟩
  | symbol x => exact ends_symbol x st
  | parenthesized _ ih => exact ends_parenthesized (ih st)
  | binary op _ _ ihl ihr => exact ends_binary (ihl st) fun _ s _ => ihr s

theorem ends_assignment {x : Name} {e : Expr} {st : St} (h : Ends cfg e st) : Ends cfg (.assignment x e) st := by
  cases hf : st.env.findBinding x with
  | none =>
    refine Ends.of ?_ fun n => by rw [interpret]
    simp only [hf]
    exact ends_bind (fun n m hm => interpret_mono hm _ _) (fun _ _ _ _ _ => .refl _) h fun _ _ _ _ => ⟨0, by simp⟩
  | some b =>
    refine Ends.of ?_ fun n => by rw [interpret]
    simp only [hf]
    exact ends_bind (fun n m hm => interpret_mono hm _ _) (fun _ _ _ _ _ => .refl _) h
      fun _ _ s _ => ⟨0, by cases s.env.bindings x <;> simp⟩

theorem ends_block {es : List Expr} {st : St} (h : ∃ n, evalAll (interpret cfg n) es st ≠ .diverge) :
    Ends cfg (.block es) st := by
  refine Ends.of ?_ fun n => by rw [interpret]
  exact ends_bind (fun n m hm => all_mono es st n m hm) (fun _ _ _ _ _ => .refl _) h
    fun _ vs _ _ => ⟨0, by cases vs.getLast? <;> simp⟩

/-- Simple expressions change nothing and depend on their variables only. -/
theorem Simple.runs {e : Expr} (h : Simple e) {st st1 st' : St} {v : Value}
    (hl : ∀ y ∈ e.vars, st'.env.lookup y = st.env.lookup y) (hr : Runs cfg e st v st1) : st1 = st ∧ Runs cfg e st' v st' := by
  induction h generalizing st1 v with
  | integer i _ =>
    obtain ⟨rfl, rfl⟩ := runs_integer_iff.1 hr
    exact ⟨rfl, runs_integer⟩
  | symbol x =>
    obtain ⟨rfl, h⟩ := runs_symbol.1 hr
    exact ⟨rfl, runs_symbol.2 ⟨rfl, by rw [hl x (by simp [Expr.vars])]; exact h⟩⟩
  | parenthesized _ ih =>
    obtain ⟨h1, h2⟩ := ih (fun y hy => hl y (by simpa [Expr.vars] using hy)) (runs_parenthesized.1 hr)
    exact ⟨h1, runs_parenthesized.2 h2⟩
  | binary op _ _ ihl ihr =>
    obtain ⟨a, s, b, h1, h2, h3⟩ := runs_binary.1 hr
    obtain ⟨rfl, h4⟩ := ihl (fun y hy => hl y (by simp [Expr.vars, hy])) h1
    obtain ⟨rfl, h5⟩ := ihr (fun y hy => hl y (by simp [Expr.vars, hy])) h2
    exact ⟨rfl, runs_binary.2 ⟨a, _, b, h4, h5, h3⟩⟩

theorem Avoids.weaken {P Q : Name → Prop} (hPQ : ∀ x, Q x → P x) {e : Expr} (h : Avoids P e) : Avoids Q e := by
  induction h with
  | assignment hx _ ih => exact .assignment (fun hq => hx (hPQ _ hq)) ih
  | _ => constructor <;> assumption

/-- Counting loops end: the distance to the bound shrinks. -/
theorem ends_loop (hB : BodiesSmall cfg) {x : Name} {bound body : Expr} (hb : Simple bound) (hx : x ∉ bound.vars)
    (hbody : Small body) (ha : Avoids (fun y => y = x ∨ y ∈ bound.vars) body) (he : ∀ st, st.Small → Ends cfg body st)
    (b : Int) (hfb : Fits b) : ∀ (k : Nat) (i : Int) (st : St), st.Small → (b - i).toNat ≤ k → Fits i →
      st.env.lookup x = some (.int i) → Runs cfg bound st (.int b) st →
      Ends cfg (.while (.binary .lessThan (.symbol x) bound)
        (.block [body, .assignment x (.binary .add (.symbol x) (.integerLiteral 1))])) st := by
  intro k
  induction k with
  | zero =>
    intro i st hs hk hi hl hr
    have hc : Runs cfg (.binary .lessThan (.symbol x) bound) st (.bool false) st :=
      runs_binary.2 ⟨.int i, st, .int b, runs_symbol.2 ⟨rfl, hl⟩, hr, by simp [applyOp, ints, Value.asInt]; omega⟩
    obtain ⟨n, hn⟩ := hc
    exact ⟨n + 1, by rw [interpret, hn]; simp [Out.bind, Value.asBool]⟩
  | succ k ih =>
    intro i st hs hk hi hl hr
    by_cases hib : i < b
    · have hc : Runs cfg (.binary .lessThan (.symbol x) bound) st (.bool true) st :=
        runs_binary.2 ⟨.int i, st, .int b, runs_symbol.2 ⟨rfl, hl⟩, hr, by simp [applyOp, ints, Value.asInt, hib]⟩
      refine Ends.of ?_ fun n => by rw [interpret]
      refine ends_bind (fun n m hm => interpret_mono hm _ _) ?_ ?_ ?_
      · intro n m a s hm
        cases a.asBool with
        | none => exact .refl _
        | some q =>
          cases q with
          | false => exact .refl _
          | true => exact Le.bind (interpret_mono hm _ _) fun _ _ => interpret_mono hm _ _
      · obtain ⟨n, hn⟩ := hc
        exact ⟨n, by rw [hn]; simp⟩
      · intro n a s hn
        obtain ⟨rfl, rfl⟩ := Runs.unique ⟨n, hn⟩ hc
        simp only [Value.asBool]
        have hinc : Small (.assignment x (.binary .add (.symbol x) (.integerLiteral 1))) :=
          .assignment (.binary (.symbol _) (.integerLiteral 1 (by unfold Fits; omega)))
        refine ends_bind (fun n m hm => interpret_mono hm _ _) (fun n m _ s hm => interpret_mono hm _ _) ?_ ?_
        · refine ends_block (ends_all hB _ _ ?_ hs ?_)
          · intro e hm
            simp only [List.mem_cons, List.not_mem_nil, or_false] at hm
            rcases hm with rfl | rfl
            · exact hbody
            · exact hinc
          · intro e hm st hs
            simp only [List.mem_cons, List.not_mem_nil, or_false] at hm
            rcases hm with rfl | rfl
            · exact he st hs
            · exact ends_assignment (ends_binary (ends_symbol x st) fun _ s _ => ⟨1, by simp [interpret]⟩)
        · intro m w s2 hm
          obtain ⟨vs, hall, -⟩ := runs_block.1 ⟨m, hm⟩
          cases hall with
          | cons h1 h2 =>
            rename_i v1 vs1 s1
            cases h2 with
            | cons h3 h4 =>
              cases h4
              obtain ⟨s3, h5, rfl, -⟩ := runs_assignment.1 h3
              obtain ⟨c, s4, d, h6, h7, h8⟩ := runs_binary.1 h5
              obtain ⟨rfl, h9⟩ := runs_symbol.1 h6
              obtain ⟨rfl, rfl⟩ := runs_integer_iff.1 h7
              have hkeep := (c45_scope cfg body _ _ _ h1).2.2
              rw [hkeep x (ha.weaken fun y hy => .inl hy), hl] at h9
              cases h9
              have h10 : inI64 (i + 1) = true := (inI64_fits _).2 (by unfold Fits at *; omega)
              simp only [applyOp, ints, Value.asInt, checked, h10, if_true, Option.map_some, Option.some.injEq] at h8
              subst h8
              have hf1 := (inI64_fits _).1 h10
              obtain ⟨m1, h1'⟩ := h1
              have hs1 := (stays_small hB m1 hbody hs h1').2
              refine ih (i + 1) _ (set_small hs1 x (by rintro j ⟨⟩; exact hf1)) (by omega) hf1
                (by rw [set_lookup, if_pos rfl]) (hb.runs (fun y hy => ?_) hr).2
              have hyx : y ≠ x := fun h => hx (h ▸ hy)
              rw [set_lookup, if_neg hyx]
              exact hkeep y (ha.weaken fun z hz => .inr (by subst hz; exact hy))
    · exact ih i st hs (by omega) hi hl hr

theorem mem_callsAll {es : List Expr} {e : Expr} (he : e ∈ es) {f : Name} (h : f ∈ e.calls) : f ∈ callsAll es := by
  induction es with
  | nil => cases he
  | cons a es ih =>
    simp only [callsAll, List.mem_append]
    simp only [List.mem_cons] at he
    rcases he with rfl | he
    · exact .inl h
    · exact .inr (ih he)

theorem mem_callsArgs {es : List (Name × Expr)} {e : Expr} (he : e ∈ es.map (·.2)) {f : Name} (h : f ∈ e.calls) :
    f ∈ callsArgs es := by
  induction es with
  | nil => cases he
  | cons a es ih =>
    obtain ⟨y, a⟩ := a
    simp only [callsArgs, List.mem_append]
    simp only [List.map_cons, List.mem_cons] at he
    rcases he with rfl | he
    · exact .inl h
    · exact .inr (ih he)

/-- If the functions called in an expression end, then it ends. -/
theorem Counting.ends (hB : BodiesSmall cfg) {e : Expr} (h : Counting e)
    (hc : ∀ f ∈ e.calls, ∀ ps b, cfg.fns f = some (ps, b) → ∀ st, st.Small → Ends cfg b st) (st : St) (hs : st.Small) :
    Ends cfg e st := by
  have ifs : ∀ {c b : Expr} {eb : Option Expr} {st : St}, Ends cfg c st →
      (∀ v s, Runs cfg c st v s → Ends cfg b s ∧ ∀ e, eb = some e → Ends cfg e s) → Ends cfg (.if c b eb) st := by
    intro c b eb st hc hb
    refine Ends.of ?_ fun n => by rw [interpret]
    refine ends_bind (fun n m hm => interpret_mono hm _ _) ?_ hc ?_
    · intro n m a s hm
      cases a.asBool with
      | none => exact .refl _
      | some q =>
        cases q with
        | true => exact interpret_mono hm _ _
        | false =>
          cases eb with
          | none => exact .refl _
          | some e => exact interpret_mono hm _ _
    · intro n a s hn
      obtain ⟨h1, h2⟩ := hb a s ⟨n, hn⟩
      cases a.asBool with
      | none => exact ⟨0, by simp⟩
      | some q =>
        cases q with
        | true => exact h1
        | false =>
          cases eb with
          | none => exact ⟨0, by simp⟩
          | some e => exact h2 e rfl
  have after : ∀ {e : Expr} {st s : St} {v : Value}, Small e → st.Small → Runs cfg e st v s → s.Small :=
    fun he hs ⟨n, h⟩ => (stays_small hB n he hs h).2
  induction h generalizing st with
  | integer i _ => exact ⟨1, by simp [interpret]⟩
  | string t => exact ⟨1, by simp [interpret]⟩
  | bool q => exact ⟨1, by simp [interpret]⟩
  | array es => exact ⟨1, by simp [interpret]⟩
  | symbol x => exact ends_symbol x st
  | parenthesized _ ih => exact ends_parenthesized (ih (fun f hf => hc f (by simpa [Expr.calls] using hf)) st hs)
  | assignment x _ ih => exact ends_assignment (ih (fun f hf => hc f (by simpa [Expr.calls] using hf)) st hs)
  | println _ ih =>
    refine Ends.of ?_ fun n => by rw [interpret]
    exact ends_bind (fun n m hm => interpret_mono hm _ _) (fun _ _ _ _ _ => .refl _)
      (ih (fun f hf => hc f (by simpa [Expr.calls] using hf)) st hs) fun _ _ _ _ => ⟨0, by simp⟩
  | binary op hl hr ihl ihr =>
    exact ends_binary (ihl (fun f hf => hc f (by simp [Expr.calls, hf])) st hs) fun v s h =>
      ihr (fun f hf => hc f (by simp [Expr.calls, hf])) s (after hl.small hs h)
  | block h ih =>
    exact ends_block (ends_all hB _ _ (fun e he => (h e he).small) hs fun e he st hs =>
      ih e he (fun f hf => hc f (by rw [Expr.calls]; exact mem_callsAll he hf)) st hs)
  | «if» hcond hb ihc ihb =>
    exact ifs (ihc (fun f hf => hc f (by simp [Expr.calls, hf])) st hs) fun v s h =>
      ⟨ihb (fun f hf => hc f (by simp [Expr.calls, hf])) s (after hcond.small hs h), by rintro e ⟨⟩⟩
  | ifElse hcond hb he ihc ihb ihe =>
    exact ifs (ihc (fun f hf => hc f (by simp [Expr.calls, hf])) st hs) fun v s h =>
      ⟨ihb (fun f hf => hc f (by simp [Expr.calls, hf])) s (after hcond.small hs h), by
        rintro e ⟨⟩; exact ihe (fun f hf => hc f (by simp [Expr.calls, hf])) s (after hcond.small hs h)⟩
  | @call f es h ih =>
    cases hf : cfg.fns f with
    | none => exact ⟨1, by simp [interpret, hf]⟩
    | some pb =>
      obtain ⟨ps, b⟩ := pb
      refine Ends.of ?_ fun n => by rw [interpret]
      simp only [hf]
      refine ends_bind (fun n m hm => all_mono es st n m hm) ?_ (ends_all hB _ _ (fun e he => (h e he).small) hs
        fun e he st hs => ih e he (fun f hf => hc f (by rw [Expr.calls]; exact List.mem_cons_of_mem _ (mem_callsAll he hf))) st hs) ?_
      · intro n m vs s hm
        cases bindParams ps 0 vs Map.empty with
        | none => exact .refl _
        | some _ => exact Le.bind (interpret_mono hm _ _) fun _ _ => .refl _
      · intro n vs s hn
        have hs1 := (all_small (fun e he _ _ _ => stays_small hB n (h e he).small) hs hn).2
        rw [bindParams_eq]
        by_cases hl : ps.length + 0 ≤ max vs.length 0
        · simp only [if_pos hl]
          exact ends_bind (fun n m hm => interpret_mono hm _ _) (fun _ _ _ _ _ => .refl _)
            (hc f (by simp [Expr.calls]) ps b hf _ (inner_small hs1)) fun _ _ _ _ => ⟨0, by simp⟩
        · simp only [if_neg hl]
          exact ⟨0, by simp⟩
  | @labelledCall f es h ih =>
    cases hf : cfg.fns f with
    | none => exact ⟨1, by simp [interpret, hf]⟩
    | some pb =>
      obtain ⟨ps, b⟩ := pb
      refine Ends.of ?_ fun n => by rw [interpret]
      simp only [hf]
      refine ends_bind (fun n m hm => all_mono _ st n m hm) ?_ (ends_all hB _ _ (fun e he => (h e he).small) hs
        fun e he st hs => ih e he (fun f hf => hc f (by rw [Expr.calls]; exact List.mem_cons_of_mem _ (mem_callsArgs he hf))) st hs) ?_
      · intro n m vs s hm
        exact Le.bind (interpret_mono hm _ _) fun _ _ => .refl _
      · intro n vs s hn
        have hs1 := (all_small (fun e he _ _ _ => stays_small hB n (h e he).small) hs hn).2
        exact ends_bind (fun n m hm => interpret_mono hm _ _) (fun _ _ _ _ _ => .refl _)
          (hc f (by simp [Expr.calls]) ps b hf _ (inner_small hs1)) fun _ _ _ _ => ⟨0, by simp⟩
  | @«for» x start bound body hst hb hx h ha ihs ihb =>
    have hcb : ∀ f ∈ body.calls, ∀ ps b, cfg.fns f = some (ps, b) → ∀ st, st.Small → Ends cfg b st :=
      fun f hf => hc f (by simp [forLoop, Expr.calls, callsAll, hf])
    have hw := (Counting.for x hst hb hx h ha).small
    refine ends_block ?_
    simp only [evalAll]
    refine ends_bind (fun n m hm => interpret_mono hm _ _) ?_
      (ends_assignment (ihs (fun f hf => hc f (by simp [forLoop, Expr.calls, callsAll, hf])) st hs)) ?_
    · intro n m a s hm
      exact Le.bind (Le.bind (interpret_mono hm _ _) fun _ _ => .refl _) fun _ _ => .refl _
    · intro n a s hn
      have ⟨hav, hs1⟩ := stays_small hB n (.assignment hst.small) hs hn
      obtain ⟨s0, -, rfl, -⟩ := runs_assignment.1 ⟨n, hn⟩
      refine ends_bind ?_ (fun _ _ _ _ _ => .refl _) ?_ fun _ _ _ _ => ⟨0, by simp⟩
      · intro n m hm
        exact Le.bind (interpret_mono hm _ _) fun _ _ => .refl _
      refine ends_bind (fun n m hm => interpret_mono hm _ _) (fun _ _ _ _ _ => .refl _) ?_
        fun _ _ _ _ => ⟨0, by simp [Out.bind]⟩
      generalize hS : s0.set x a = S at *
      have hSx : S.env.lookup x = some a := by rw [← hS, set_lookup, if_pos rfl]
      have stop : (∀ v s, ¬Runs cfg (.binary .lessThan (.symbol x) bound) S v s) →
          Ends cfg (.while (.binary .lessThan (.symbol x) bound)
            (.block [body, .assignment x (.binary .add (.symbol x) (.integerLiteral 1))])) S := by
        intro hno
        obtain ⟨k, hk⟩ : Ends cfg (.binary .lessThan (.symbol x) bound) S :=
          ends_binary (ends_symbol x S) fun _ s _ => hb.ends s
        cases hq : interpret cfg k (.binary .lessThan (.symbol x) bound) S with
        | ok v s => exact (hno v s ⟨k, hq⟩).elim
        | diverge => exact (hk hq).elim
        | panic => exact ⟨k + 1, by rw [interpret, hq]; simp [Out.bind]⟩
      by_cases hrun : ∃ i b, a = .int i ∧ Runs cfg bound S (.int b) S
      · obtain ⟨i, b, rfl, hr⟩ := hrun
        obtain ⟨k, hk⟩ := hr
        have hfb := (stays_small hB k hb.small hs1 hk).1 b rfl
        exact ends_loop hB hb hx h.small ha (fun st hs => ihb hcb st hs) b hfb _ i S hs1 (Nat.le_refl _) (hav i rfl) hSx ⟨k, hk⟩
      · refine stop fun v s hv => hrun ?_
        obtain ⟨c, s4, d, h6, h7, h8⟩ := runs_binary.1 hv
        obtain ⟨rfl, h9⟩ := runs_symbol.1 h6
        rw [hSx] at h9
        cases h9
        obtain ⟨rfl, -⟩ := hb.runs (fun _ _ => rfl) h7
        cases a <;> cases d <;> simp [applyOp, ints, Value.asInt] at h8
        exact ⟨_, _, rfl, h7⟩

/-! ## No recursion -/

theorem Reached.through_call {fns : Map (List Name × Expr)} {e b : Expr} {f g : Name} {ps : List Name} (hf : f ∈ e.calls)
    (hb : fns f = some (ps, b)) (h : Reached fns b g) : Reached fns e g := by
  induction h with
  | here h => exact .through (.here hf) hb h
  | through _ hg h ih => exact .through ih hg h

theorem countP_lt {p q : Name → Bool} (h : ∀ x, p x = true → q x = true) {f : Name} (hq : q f = true) (hp : p f = false) :
    ∀ {L : List Name}, f ∈ L → L.countP p < L.countP q
  | a :: L, hf => by
    have hle : L.countP p ≤ L.countP q := List.countP_mono_left fun x _ => h x
    simp only [List.mem_cons] at hf
    simp only [List.countP_cons]
    rcases hf with rfl | hf
    · simp [hp, hq]; omega
    · have := countP_lt h hq hp hf
      have := h a
      cases hpa : p a <;> cases hqa : q a <;> simp_all
      omega

open Classical in
/-- Without recursion every counting expression ends. -/
theorem ends_without_recursion (L : List Name) (hL : ∀ f, cfg.fns f ≠ none → f ∈ L) (hr : NoRecursion cfg.fns)
    (hb : ∀ f ps b, cfg.fns f = some (ps, b) → Counting b) : ∀ (k : Nat) (e : Expr), Counting e →
      L.countP (fun f => decide (Reached cfg.fns e f)) ≤ k → ∀ st, st.Small → Ends cfg e st := by
  have hB : BodiesSmall cfg := fun f ps b h => (hb f ps b h).small
  intro k
  induction k with
  | zero =>
    intro e he hk st hs
    refine he.ends hB (fun f hf ps b hfb => ?_) st hs
    have := List.countP_pos_iff (p := fun f => decide (Reached cfg.fns e f)).2 ⟨f, hL f (by simp [hfb]), decide_eq_true (Reached.here (fns := cfg.fns) hf)⟩
    omega
  | succ k ih =>
    intro e he hk st hs
    refine he.ends hB (fun f hf ps b hfb => ih b (hb f ps b hfb) ?_) st hs
    have := countP_lt (p := fun g => decide (Reached cfg.fns b g)) (q := fun g => decide (Reached cfg.fns e g))
      (fun g hg => decide_eq_true (Reached.through_call hf hfb (of_decide_eq_true hg)))
      (decide_eq_true (.here hf)) (decide_eq_false (hr f ps b hfb)) (hL f (by simp [hfb]))
    omega

theorem bodies_names (ds : List Expr) : ∃ L : List Name, ∀ f, bodies ds f ≠ none → f ∈ L := by
  induction ds with
  | nil => exact ⟨[], fun f h => (h rfl).elim⟩
  | cons d ds ih =>
    obtain ⟨L, hL⟩ := ih
    by_cases hd : ∃ g ps b, d = .functionDefinition g ps b
    · obtain ⟨g, ps, b, rfl⟩ := hd
      refine ⟨g :: L, fun f h => ?_⟩
      simp only [bodies] at h
      by_cases hg : f = g
      · simp [hg]
      · refine List.mem_cons_of_mem _ (hL f fun hn => h ?_)
        simp [hn, hg]
    · refine ⟨L, fun f h => hL f fun hn => h ?_⟩
      cases d <;> first | exact hn | exact (hd ⟨_, _, _, rfl⟩).elim

theorem callMain_functions (q : Bool) (n : Nat) (ds : List Expr) (hd : ∀ d ∈ ds, IsFun d) :
    callMain n (Cfg.new q) St.new (.program ds) = match bodies ds "main" with
      | none => .panic
      | some (_, b) => interpret ⟨bodies ds, q⟩ n b St.new := by
  simp only [callMain, define_bodies n _ ds hd, Out.bind, Cfg.new, Map.empty, Option.or_none]
  cases bodies ds "main" <;> rfl

theorem new_small : St.new.Small := ⟨fun x v h => by simp [St.new, Map.empty] at h, fun m h => by simp [St.new] at h⟩

/-! ## C134 -/

/-- A program of functions that do not call themselves, directly or through others, and whose only loops are counting
loops always ends, with a value or with a panic, whether or not overflows are checked. -/
theorem c134_ends (q : Bool) (ds : List Expr) (hd : ∀ d ∈ ds, IsFun d)
    (hb : ∀ f ps b, bodies ds f = some (ps, b) → Counting b) (hr : NoRecursion (bodies ds)) :
    ∃ n, callMain n (Cfg.new q) St.new (.program ds) = .panic ∨
      ∃ v st, callMain n (Cfg.new q) St.new (.program ds) = .ok v st := by
  suffices h : ∃ n, callMain n (Cfg.new q) St.new (.program ds) ≠ .diverge by
    obtain ⟨n, hn⟩ := h
    refine ⟨n, ?_⟩
    cases ho : callMain n (Cfg.new q) St.new (.program ds) with
    | ok v st => exact .inr ⟨v, st, rfl⟩
    | panic => exact .inl rfl
    | diverge => exact (hn ho).elim
  simp only [callMain_functions q _ ds hd]
  cases hm : bodies ds "main" with
  | none => exact ⟨0, by simp⟩
  | some pb =>
    obtain ⟨ps, b⟩ := pb
    obtain ⟨L, hL⟩ := bodies_names ds
    exact ends_without_recursion (cfg := ⟨bodies ds, q⟩) L hL hr hb _ b (hb _ _ _ hm) (Nat.le_refl _) St.new new_small

/-- `fn row() { for (j in 0 to 3) println(j); } fn main() { n = 5; for (i in 0 to n) row(); }` -/
def rows : List Expr :=
  [.functionDefinition "row" [] (forLoop "j" (.integerLiteral 0) (.integerLiteral 3) (.println (.symbol "j"))),
   .functionDefinition "main" [] (.block [.assignment "n" (.integerLiteral 5),
     forLoop "i" (.integerLiteral 0) (.symbol "n") (.functionCall "row" [])])]

example : (∀ d ∈ rows, IsFun d) ∧ (∀ f ps b, bodies rows f = some (ps, b) → Counting b) ∧ NoRecursion (bodies rows) := by
  have hbod : ∀ {f ps b}, bodies rows f = some (ps, b) →
      (f = "row" ∧ b = forLoop "j" (.integerLiteral 0) (.integerLiteral 3) (.println (.symbol "j"))) ∨
      (f = "main" ∧ b = .block [.assignment "n" (.integerLiteral 5),
        forLoop "i" (.integerLiteral 0) (.symbol "n") (.functionCall "row" [])]) := by
    intro f ps b h
    simp only [rows, bodies] at h
    by_cases h1 : f = "main"
    · subst h1; simp at h; exact .inr ⟨rfl, h.2.symm⟩
    · by_cases h2 : f = "row"
      · subst h2; simp at h; exact .inl ⟨rfl, h.2.symm⟩
      · simp [h1, h2] at h
  have hf : ∀ i : Int, 0 ≤ i → i ≤ 5 → Fits i := fun i _ _ => by unfold Fits; omega
  refine ⟨?_, ?_, ?_⟩
  · intro d h
    simp only [rows, List.mem_cons, List.not_mem_nil, or_false] at h
    rcases h with rfl | rfl <;> trivial
  · intro f ps b h
    rcases hbod h with ⟨-, rfl⟩ | ⟨-, rfl⟩
    · exact .for "j" (.integer 0 (hf 0 (by omega) (by omega))) (.integer 3 (hf 3 (by omega) (by omega))) (by simp [Expr.vars])
        (.println (.symbol _)) (.println (.symbol _))
    · refine .block fun e he => ?_
      simp only [List.mem_cons, List.not_mem_nil, or_false] at he
      rcases he with rfl | rfl
      · exact .assignment _ (.integer 5 (hf 5 (by omega) (by omega)))
      · exact .for "i" (.integer 0 (hf 0 (by omega) (by omega))) (.symbol _) (by simp [Expr.vars])
          (.call _ (by simp)) (.functionCall (by simp))
  · have row : ∀ {g}, Reached (bodies rows) (forLoop "j" (.integerLiteral 0) (.integerLiteral 3) (.println (.symbol "j"))) g →
        False := by
      intro g h
      induction h with
      | here h => simp [forLoop, Expr.calls, callsAll] at h
      | through _ _ _ ih => exact ih
    have main : ∀ {g}, Reached (bodies rows) (.block [.assignment "n" (.integerLiteral 5),
        forLoop "i" (.integerLiteral 0) (.symbol "n") (.functionCall "row" [])]) g → g = "row" := by
      intro g h
      induction h with
      | here h => simpa [forLoop, Expr.calls, callsAll] using h
      | through _ hb h ih =>
        subst ih
        rcases hbod hb with ⟨-, rfl⟩ | ⟨h', -⟩
        · exact (row (.here h)).elim
        · simp at h'
    intro f ps b h hR
    rcases hbod h with ⟨-, rfl⟩ | ⟨rfl, rfl⟩
    · exact row hR
    · exact absurd (main hR) (by decide)

/-- Without recursion is needed: `fn main() { main(); }` never ends. -/
theorem c134_recursion (q : Bool) (n : Nat) : callMain n (Cfg.new q) St.new
    (.program [.functionDefinition "main" [] (.functionCall "main" [])]) = .diverge := by
  rw [callMain_functions q n _ (by intro d h; simp only [List.mem_singleton] at h; subst h; trivial)]
  have hb : bodies [.functionDefinition "main" [] (.functionCall "main" [])] "main" = some ([], .functionCall "main" []) := by
    simp [bodies]
  simp only [hb]
  generalize St.new = st
  induction n generalizing st with
  | zero => rfl
  | succ n ih =>
    rw [interpret]
    simp only [hb, evalAll, Out.bind, bindParams, ih]

/-- That the body leaves the counter alone is needed: `fn main() { for (i in 0 to 1) i = i - 1; }` never ends. -/
theorem c134_counter (q : Bool) (n : Nat) : callMain n (Cfg.new q) St.new
    (.program [.functionDefinition "main" [] (forLoop "i" (.integerLiteral 0) (.integerLiteral 1)
      (.assignment "i" (.binary .subtract (.symbol "i") (.integerLiteral 1))))]) = .diverge := by
  rw [callMain_functions q n _ (by intro d h; simp only [List.mem_singleton] at h; subst h; trivial)]
  have hb : bodies [.functionDefinition "main" [] (forLoop "i" (.integerLiteral 0) (.integerLiteral 1)
      (.assignment "i" (.binary .subtract (.symbol "i") (.integerLiteral 1))))] "main" =
      some ([], forLoop "i" (.integerLiteral 0) (.integerLiteral 1)
        (.assignment "i" (.binary .subtract (.symbol "i") (.integerLiteral 1)))) := by simp [bodies]
  simp only [hb]
  generalize hcfg : (⟨bodies _, q⟩ : Cfg) = cfg
  have known : ∀ {e : Expr} {st st' : St} {v : Value}, Runs cfg e st v st' → ∀ k,
      interpret cfg k e st = .diverge ∨ interpret cfg k e st = .ok v st' := by
    intro e st st' v h k
    cases ho : interpret cfg k e st with
    | diverge => exact .inl rfl
    | panic => exact (h.not_panics ⟨k, ho⟩).elim
    | ok w s =>
      obtain ⟨rfl, rfl⟩ := h.unique ⟨k, ho⟩
      exact .inr rfl
  have hch : ∀ i : Int, -1 ≤ i → i ≤ 1 → checked cfg i = some i := fun i h1 h2 => by
    unfold checked; rw [if_pos ((inI64_fits i).2 (by unfold Fits; omega))]
  have loop : ∀ (k : Nat) (st : St), st.env.bindings "i" = some (.int 0) →
      interpret cfg k (.while (.binary .lessThan (.symbol "i") (.integerLiteral 1)) (.block
        [.assignment "i" (.binary .subtract (.symbol "i") (.integerLiteral 1)),
         .assignment "i" (.binary .add (.symbol "i") (.integerLiteral 1))])) st = .diverge := by
    intro k
    induction k with
    | zero => intro st _; rfl
    | succ k ih =>
      intro st h
      have h0 : st.env.lookup "i" = some (.int 0) := by simp [Env.lookup, h]
      have h1 : Runs cfg (.binary .lessThan (.symbol "i") (.integerLiteral 1)) st (.bool true) st :=
        runs_binary.2 ⟨.int 0, st, .int 1, runs_symbol.2 ⟨rfl, h0⟩, runs_integer, by simp [applyOp, ints, Value.asInt]⟩
      have h2 : Runs cfg (.assignment "i" (.binary .subtract (.symbol "i") (.integerLiteral 1))) st (.int (-1))
          (st.set "i" (.int (-1))) :=
        runs_assignment.2 ⟨st, runs_binary.2 ⟨.int 0, st, .int 1, runs_symbol.2 ⟨rfl, h0⟩, runs_integer, by
          simp [applyOp, ints, Value.asInt, hch]⟩, rfl, .inr (by simp [h])⟩
      have h3 : Runs cfg (.assignment "i" (.binary .add (.symbol "i") (.integerLiteral 1))) (st.set "i" (.int (-1))) (.int 0)
          ((st.set "i" (.int (-1))).set "i" (.int 0)) :=
        runs_assignment.2 ⟨_, runs_binary.2 ⟨.int (-1), _, .int 1, runs_symbol.2 ⟨rfl, by rw [set_lookup, if_pos rfl]⟩,
          runs_integer, by simp [applyOp, ints, Value.asInt, hch]⟩, rfl, .inr (by simp [St.set, Map.insert])⟩
      rw [interpret]
      rcases known h1 k with h | h <;> rw [h]
      · rfl
      · simp only [Out.bind, Value.asBool]
        rcases known (runs_block.2 ⟨_, .cons h2 (.cons h3 .nil), rfl⟩) k with h | h <;> rw [h]
        simp only
        exact ih _ (by simp [St.set, Map.insert])
  cases n with
  | zero => rfl
  | succ n =>
    rw [forLoop, interpret]
    simp only [evalAll]
    have h1 : Runs cfg (.assignment "i" (.integerLiteral 0)) St.new (.int 0) (St.new.set "i" (.int 0)) :=
      runs_assignment.2 ⟨_, runs_integer, rfl, .inl rfl⟩
    rcases known h1 n with h | h <;> rw [h]
    · rfl
    · simp only [Out.bind]
      rw [loop n _ (by simp [St.set, Map.insert])]

end OniComb.Toys
