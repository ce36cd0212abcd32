import Verif.Lemmas.ToysNames
import Verif.Props.Toys

/-!
# Toys: names (C123, C124, C125)
-/

namespace OniComb.Toys

/-- What can be seen of a run: `none` if it does not finish, `some none` if it panics, and otherwise the value
and everything printed. -/
def Out.seen : Out Value → Option (Option (Value × List Value))
  | .ok v st => some (some (v, st.out))
  | .panic => some none
  | .diverge => none

/-- The variable occurs in the expression or in a function that could be called. -/
def Matters (cfg : Cfg) (e : Expr) (x : Name) : Prop :=
  x ∈ e.vars ∨ ∃ f ps b, cfg.fns f = some (ps, b) ∧ x ∈ b.vars

/-! ## C123: variables that are not mentioned -/

private theorem matters_sim (cfg : Cfg) (e : Expr) (n : Nat) (st st' : St)
    (hown : ∀ x, Matters cfg e x → st'.env.bindings x = st.env.bindings x)
    (hlook : ∀ x, Matters cfg e x → st'.env.lookup x = st.env.lookup x) :
    OutSim (Sim (Matters cfg e) id st.out st'.out) (interpret cfg n e st) (interpret cfg n e st') := by
  have := interpret_sim (N := Matters cfg e) (ρ := id) (φ := id) (o := st.out) (o' := st'.out)
    (fun x y _ _ h => h) (Renamed.id cfg) (fun f ps b h x hx => .inr ⟨f, ps, b, h, hx⟩) n e
    (fun x hx => .inl hx) st st' ⟨hown, hlook, [], by simp, by simp⟩
  rwa [rename_id] at this

/-- Only the variables that occur in the expression or in the functions matter: whether a run ends, whether it
panics, its value and what it prints are the same in states that agree on these. -/
theorem c123_only_mentioned (cfg : Cfg) (e : Expr) (n : Nat) (st st' : St) (ho : st'.out = st.out)
    (hown : ∀ x, Matters cfg e x → st'.env.bindings x = st.env.bindings x)
    (hlook : ∀ x, Matters cfg e x → st'.env.lookup x = st.env.lookup x) :
    (interpret cfg n e st').seen = (interpret cfg n e st).seen := by
  have := matters_sim cfg e n st st' hown hlook
  cases h1 : interpret cfg n e st <;> cases h2 : interpret cfg n e st' <;> simp only [h1, h2, OutSim] at this
  · obtain ⟨rfl, hs⟩ := this
    obtain ⟨w, a, b⟩ := hs.out
    simp only [Out.seen]
    rw [a, b, ho]
  · rfl
  · rfl

/-- Afterwards the variables that occur have the same values, too; all others are as before. -/
theorem c123_variables (cfg : Cfg) (e : Expr) (st st' s : St) (v : Value)
    (hown : ∀ x, Matters cfg e x → st'.env.bindings x = st.env.bindings x)
    (hlook : ∀ x, Matters cfg e x → st'.env.lookup x = st.env.lookup x) (h : Runs cfg e st v s) :
    ∃ s' w, Runs cfg e st' v s' ∧ s.out = st.out ++ w ∧ s'.out = st'.out ++ w ∧
      ∀ x, Matters cfg e x → s'.env.bindings x = s.env.bindings x := by
  obtain ⟨n, h1⟩ := h
  have := matters_sim cfg e n st st' hown hlook
  cases h2 : interpret cfg n e st' <;> simp only [h1, h2, OutSim] at this
  obtain ⟨rfl, hs⟩ := this
  obtain ⟨w, a, b⟩ := hs.out
  exact ⟨_, w, ⟨n, h2⟩, a, b, hs.own⟩

/-- `a = b; println(a);` in two states which differ in `c`. -/
example : (interpret (Cfg.new true) 5 (.block [.assignment "a" (.symbol "b"), .println (.symbol "a")])
      ⟨⟨(Map.empty.insert "b" (.int 3)).insert "c" (.int 4), []⟩, []⟩).seen =
    (interpret (Cfg.new true) 5 (.block [.assignment "a" (.symbol "b"), .println (.symbol "a")])
      ⟨⟨Map.empty.insert "b" (.int 3), [Map.empty.insert "c" (.int 5)]⟩, []⟩).seen := by
  have key : ∀ x, Matters (Cfg.new true) (.block [.assignment "a" (.symbol "b"), .println (.symbol "a")]) x →
      x = "a" ∨ x = "b" := by
    rintro x (h | ⟨f, ps, b, h, -⟩)
    · simp only [Expr.vars, varsAll, List.mem_append, List.mem_cons, List.not_mem_nil] at h
      rcases h with (h | h | h) | (h | h) | h <;> simp_all
    · simp [Cfg.new, Map.empty] at h
  apply c123_only_mentioned
  · rfl
  · intro x hx
    rcases key x hx with rfl | rfl <;> rfl
  · intro x hx
    rcases key x hx with rfl | rfl <;> rfl

/-! ## C124: other names -/

/-- Renaming the variables and the functions of a program (except `main`), different names staying different,
changes nothing that can be seen. -/
theorem c124_rename (ρ φ : Name → Name) (hρ : Function.Injective ρ) (hφ : Function.Injective φ)
    (hmain : φ "main" = "main") (checks : Bool) (n : Nat) (ds : List Expr) :
    (callMain n (Cfg.new checks) St.new ((Expr.program ds).rename ρ φ)).seen =
      (callMain n (Cfg.new checks) St.new (.program ds)).seen := by
  have hc : Renamed ρ φ (Cfg.new checks) (Cfg.new checks) := ⟨rfl, fun f => rfl⟩
  have hs : Sim (fun _ => True) ρ [] [] St.new St.new := ⟨fun _ _ => rfl, fun _ _ => rfl, [], rfl, rfl⟩
  have := define_sim hρ hφ n ds _ _ hc _ _ hs
  simp only [Expr.rename, callMain]
  cases h1 : define n ds (Cfg.new checks) St.new <;>
    cases h2 : define n (renameAll ρ φ ds) (Cfg.new checks) St.new <;> simp only [h1, h2, DefSim] at this
  · rename_i c s c' s'
    obtain ⟨hc', hs'⟩ := this
    simp only [Out.bind]
    have hm := hc'.fns "main"
    rw [hmain] at hm
    rw [hm]
    cases hf : c.fns "main" with
    | none => rfl
    | some pb =>
      simp only [Option.map_some]
      have := interpret_sim (N := fun _ => True) (fun _ _ _ _ e => hρ e) hc'
        (fun _ _ _ _ _ _ => trivial) n pb.2 (fun _ _ => trivial) s s' hs'
      cases h1 : interpret c n pb.2 s <;> cases h2 : interpret c' n (pb.2.rename ρ φ) s' <;>
        simp only [h1, h2, OutSim] at this
      · obtain ⟨rfl, hs⟩ := this
        obtain ⟨w, a, b⟩ := hs.out
        simp only [Out.seen]
        rw [a, b]
      · rfl
      · rfl
  · rfl
  · rfl

/-- `fn f(a) { a = 2; } fn main() { a = 1; f(a); println(a); }` with a prime behind the names of variables. -/
example : ((Expr.program [.functionDefinition "f" ["a"] (.block [.assignment "b" (.integerLiteral 2)]),
      .functionDefinition "main" [] (.block [.assignment "a" (.integerLiteral 1),
        .functionCall "f" [.symbol "a"], .println (.symbol "a")])]).rename (· ++ "'") id) =
    .program [.functionDefinition "f" ["a'"] (.block [.assignment "b'" (.integerLiteral 2)]),
      .functionDefinition "main" [] (.block [.assignment "a'" (.integerLiteral 1),
        .functionCall "f" [.symbol "a'"], .println (.symbol "a'")])] ∧
    (callMain 9 (Cfg.new true) St.new (.program
      [.functionDefinition "f" ["a"] (.block [.assignment "b" (.integerLiteral 2)]),
        .functionDefinition "main" [] (.block [.assignment "a" (.integerLiteral 1),
          .functionCall "f" [.symbol "a"], .println (.symbol "a")])])).seen =
      some (some (.int 1, [.int 1])) := ⟨rfl, rfl⟩

example : Function.Injective fun x : Name => x ++ "'" := fun x y h => by
  have := congrArg String.toList h
  exact String.toList_inj.1 (by simpa using this)

/-! ## C125: the variables of the caller -/

private theorem runsAll_unique {cfg : Cfg} {es : List Expr} {st s s' : St} {vs vs' : List Value}
    (h : RunsAll cfg es st vs s) (h' : RunsAll cfg es st vs' s') : vs = vs' ∧ s = s' := by
  induction h generalizing vs' with
  | nil => cases h'; exact ⟨rfl, rfl⟩
  | cons h1 _ ih =>
    cases h' with
    | cons h2 h3 =>
      obtain ⟨rfl, rfl⟩ := h1.unique h2
      obtain ⟨rfl, rfl⟩ := ih h3
      exact ⟨rfl, rfl⟩

/-- A function reads the variables of whoever calls it: `fn f() { x; }` returns the caller's `x`. -/
theorem c125_caller_violated (cfg : Cfg) (f x : Name) (hf : cfg.fns f = some ([], .block [.symbol x])) (st : St)
    (v : Value) (hx : st.env.lookup x = some v) : Runs cfg (.functionCall f []) st v st := by
  rw [runs_call]
  refine ⟨[], _, [], st, ⟨⟨Map.empty, st.env.bindings :: st.env.next⟩, st.out⟩, hf, .nil, by simp, ?_, ?_⟩
  · rw [runs_block]
    refine ⟨[v], .cons (runs_symbol.2 ⟨rfl, ?_⟩) .nil, rfl⟩
    simp only [Env.lookup, Map.empty, List.findSome?_cons] at hx ⊢
    cases hb : st.env.bindings x with
    | none => simpa [hb] using hx
    | some w => simpa [hb] using hx
  · rfl

/-- The same function is fine or panics depending on a local variable of `main`:
`fn f() { x; } fn main() { x = 1; f(); }` and `fn f() { x; } fn main() { f(); }`. -/
theorem c125_program_violated (b : Bool) (i : Int) :
    (callMain 9 (Cfg.new b) St.new (.program [.functionDefinition "f" [] (.block [.symbol "x"]),
      .functionDefinition "main" [] (.block [.assignment "x" (.integerLiteral i),
        .functionCall "f" []])])).seen = some (some (.int i, [])) ∧
    (callMain 9 (Cfg.new b) St.new (.program [.functionDefinition "f" [] (.block [.symbol "x"]),
      .functionDefinition "main" [] (.block [.functionCall "f" []])])).seen = some none := ⟨rfl, rfl⟩

/-- If the caller sees none of the variables that occur in the functions, then a call does what the body does
where no variable is visible at all. (Full claim: whatever the caller sees.) -/
theorem c125_call_partial (cfg : Cfg) (f : Name) (ps : List Name) (body : Expr) (args : List Expr)
    (hf : cfg.fns f = some (ps, body)) (st st1 : St) (vs : List Value) (ha : RunsAll cfg args st vs st1)
    (hl : ps.length ≤ vs.length) (hx : ∀ x, Matters cfg body x → st1.env.lookup x = none)
    (v : Value) (out : List Value) :
    (∃ s, Runs cfg (.functionCall f args) st v s ∧ s.out = out) ↔ ∃ s, Runs cfg body st1.bare v s ∧ s.out = out := by
  have hlook : ∀ x, Matters cfg body x →
      Env.lookup ⟨Map.empty, st1.env.bindings :: st1.env.next⟩ x = st1.bare.env.lookup x := by
    intro x hm
    have := hx x hm
    simp only [Env.lookup, Map.empty, List.findSome?_cons, St.bare, List.findSome?_nil] at this ⊢
    cases hb : st1.env.bindings x with
    | none => simpa [hb] using this
    | some w => simp [hb] at this
  constructor
  · rintro ⟨s, hr, rfl⟩
    obtain ⟨ps', b', vs', t1, t2, h1, h2, h3, h4, h5⟩ := runs_call.1 hr
    rw [hf] at h1
    obtain ⟨rfl, rfl⟩ : ps = ps' ∧ body = b' := by simpa using h1
    obtain ⟨rfl, rfl⟩ := runsAll_unique ha h2
    obtain ⟨s', w, r, a, b, -⟩ := c123_variables cfg body
      ⟨⟨Map.empty, st1.env.bindings :: st1.env.next⟩, st1.out⟩ st1.bare t2 v (fun _ _ => rfl)
      (fun x hm => (hlook x hm).symm) h4
    exact ⟨s', r, by
      rw [b, h5]
      show _ = t2.out
      rw [a]; rfl⟩
  · rintro ⟨s, hr, rfl⟩
    obtain ⟨s', w, r, a, b, -⟩ := c123_variables cfg body st1.bare
      ⟨⟨Map.empty, st1.env.bindings :: st1.env.next⟩, st1.out⟩ s v (fun _ _ => rfl) hlook hr
    exact ⟨⟨st1.env, s'.out⟩, runs_call.2 ⟨ps, body, vs, st1, s', hf, ha, hl, r, rfl⟩, by
      show s'.out = s.out
      rw [a, b]; rfl⟩

/-- `fn f(p) { y = 2; println(y); }` called as `f(x)` where only `x` is visible. -/
example (b : Bool) : ∃ s, Runs ⟨Map.empty.insert "f" (["p"], .block [.assignment "y" (.integerLiteral 2),
      .println (.symbol "y")]), b⟩ (.functionCall "f" [.symbol "x"]) ⟨⟨Map.empty.insert "x" (.int 1), []⟩, []⟩
      (.int 2) s ∧ s.out = [.int 2] := by
  refine (c125_call_partial _ "f" _ _ [.symbol "x"] rfl _ _ [.int 1] (.cons (runs_symbol.2 ⟨rfl, rfl⟩) .nil)
    (by simp) ?_ _ _).2 ⟨_, ⟨5, rfl⟩, rfl⟩
  have key : ∀ x, x ∈ Expr.vars (.block [.assignment "y" (.integerLiteral 2), .println (.symbol "y")]) →
      x = "y" := by
    intro x h
    simp only [Expr.vars, varsAll, List.mem_append, List.mem_cons, List.not_mem_nil] at h
    rcases h with (h | h) | (h | h) | h <;> simp_all
  rintro x (h | ⟨f, ps, c, h, hx⟩)
  · rw [key x h]; rfl
  · by_cases e : f = "f"
    · simp only [Map.insert, e, if_true, Option.some.injEq, Prod.mk.injEq] at h
      rw [← h.2] at hx
      rw [key x hx]; rfl
    · simp [Map.insert, e, Map.empty] at h

end OniComb.Toys
