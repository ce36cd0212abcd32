import Verif.Lemmas.ToysFunctions
import Verif.Props.Toys

/-!
# Toys: which definitions matter, and their order (C127)
-/

namespace OniComb.Toys

/-- Only the functions that are reached matter: an expression runs in the same way, to the same value, state and
output, for as many steps, wherever these are the same. -/
theorem c127_reached (cfg cfg' : Cfg) (e : Expr) (hc : cfg'.overflowChecks = cfg.overflowChecks)
    (h : ∀ f, Reached cfg.fns e f → cfg'.fns f = cfg.fns f) (n : Nat) (st : St) :
    interpret cfg' n e st = interpret cfg n e st :=
  interpret_congr (R := Reached cfg.fns e) hc h (fun _ hf _ _ hb _ hg => .through hf hb hg) n e
    (fun _ hf => .here hf) st

/-- A function that no definition calls may be left out of a program. -/
theorem c127_unused (cfg : Cfg) (st : St) (as bs : List Expr) (f : Name) (ps : List Name) (b : Expr)
    (hf : f ≠ "main") (hcfg : ∀ g ps b, cfg.fns g = some (ps, b) → f ∉ b.calls) (ha : f ∉ callsAll as)
    (hb : f ∉ callsAll bs) (n : Nat) :
    callMain n cfg st (.program (as ++ .functionDefinition f ps b :: bs)) =
      callMain n cfg st (.program (as ++ bs)) := by
  rw [callMain_eq, callMain_eq, define_append, define_append]
  have hself : AgreeOff f cfg cfg := ⟨rfl, fun _ _ => rfl, fun g _ => hcfg g⟩
  have h1 := define_off n as cfg cfg st hself ha
  cases hd : define n as cfg st with
  | panic => rfl
  | diverge => rfl
  | ok c s =>
    rw [hd] at h1
    have h2 : AgreeOff f c ⟨c.fns.insert f (ps, b), c.overflowChecks⟩ :=
      ⟨rfl, fun g hg => by simp [Map.insert, hg], h1.2.calls⟩
    have h3 := define_off n bs _ _ s h2 hb
    simp only [Out.bind, define]
    cases h4 : define n bs c s <;> cases h5 : define n bs ⟨c.fns.insert f (ps, b), c.overflowChecks⟩ s <;>
      simp only [h4, h5, OffSame] at h3
    · obtain ⟨rfl, h3⟩ := h3
      exact runMain_off hf h3 n _
    · rfl
    · rfl

/-- Two definitions of different functions may change places anywhere in a program. -/
theorem c127_swap (cfg : Cfg) (st : St) (as bs : List Expr) (f g : Name) (ps qs : List Name) (b c : Expr)
    (h : f ≠ g) (n : Nat) :
    callMain n cfg st (.program (as ++ .functionDefinition f ps b :: .functionDefinition g qs c :: bs)) =
      callMain n cfg st (.program (as ++ .functionDefinition g qs c :: .functionDefinition f ps b :: bs)) := by
  have e : ∀ m : Map (List Name × Expr),
      (m.insert f (ps, b)).insert g (qs, c) = (m.insert g (qs, c)).insert f (ps, b) := by
    intro m
    funext k
    simp only [Map.insert]
    by_cases h1 : k = g
    · subst h1
      simp [Ne.symm h]
    · simp [h1]
  rw [callMain_eq, callMain_eq, define_append, define_append]
  refine congrArg (Out.bind · _) (bind_congr rfl fun c s => ?_)
  simp only [define, e]

/-- The definition of a function may also come before or after a global variable whose expression, like all that
precedes, does not call the function. -/
theorem c127_swap_global (oc : Bool) (st : St) (as bs : List Expr) (f x : Name) (ps : List Name) (b e : Expr)
    (ha : f ∉ callsAll as) (he : f ∉ e.calls) (n : Nat) :
    callMain n (Cfg.new oc) st
        (.program (as ++ .functionDefinition f ps b :: .globalVariableDefinition x e :: bs)) =
      callMain n (Cfg.new oc) st
        (.program (as ++ .globalVariableDefinition x e :: .functionDefinition f ps b :: bs)) := by
  rw [callMain_eq, callMain_eq, define_append, define_append]
  have hself : AgreeOff f (Cfg.new oc) (Cfg.new oc) :=
    ⟨rfl, fun _ _ => rfl, fun g _ ps b h => by simp [Cfg.new, Map.empty] at h⟩
  have h1 := define_off n as _ _ st hself ha
  cases hd : define n as (Cfg.new oc) st with
  | panic => rfl
  | diverge => rfl
  | ok c s =>
    rw [hd] at h1
    have h2 : AgreeOff f c ⟨c.fns.insert f (ps, b), c.overflowChecks⟩ :=
      ⟨rfl, fun g hg => by simp [Map.insert, hg], h1.2.calls⟩
    simp only [Out.bind, define, h2.interpret he]

/-- The order of the definitions of a program of functions with different names does not matter. The full claim,
for programs with global variables as well, is false: `c127_order_violated`. -/
theorem c127_order_partial (cfg : Cfg) (st : St) (ds ds' : List Expr) (hf : ∀ d ∈ ds, IsFun d)
    (hn : (ds.map defined).Nodup) (hp : ds'.Perm ds) (n : Nat) :
    callMain n cfg st (.program ds') = callMain n cfg st (.program ds) := by
  obtain ⟨c, h1, h2, h3, h4⟩ := define_functions n ds hf cfg st
  obtain ⟨c', h1', h2', h3', h4'⟩ := define_functions n ds' (fun d hd => hf d (hp.mem_iff.1 hd)) cfg st
  have hm := hp.map defined
  have hfns : c'.fns = c.fns := by
    funext g
    by_cases hg : g ∈ ds.map defined
    · obtain ⟨d, hd, rfl⟩ := List.mem_map.1 hg
      cases d with
      | functionDefinition f ps b =>
        rw [defined, h4 hn f ps b hd, h4' (hm.nodup_iff.2 hn) f ps b (hp.mem_iff.2 hd)]
      | _ => exact (hf _ hd).elim
    · rw [h3 g hg, h3' g (fun h => hg (hm.mem_iff.1 h))]
  have hcc : c' = c := by
    cases c; cases c'
    simp_all
  rw [callMain_eq, callMain_eq, h1, h1', hcc]

/-- Of two definitions of one function with only functions in between, the last one is in force. -/
theorem c127_last (cfg : Cfg) (st : St) (as ms bs : List Expr) (f : Name) (ps qs : List Name) (b c : Expr)
    (hm : ∀ d ∈ ms, IsFun d) (n : Nat) :
    callMain n cfg st (.program (as ++ .functionDefinition f ps b :: (ms ++ .functionDefinition f qs c :: bs))) =
      callMain n cfg st (.program (as ++ (ms ++ .functionDefinition f qs c :: bs))) := by
  rw [callMain_eq, callMain_eq, define_append, define_append]
  refine congrArg (Out.bind · _) (bind_congr rfl fun k s => ?_)
  rw [define]
  have key : ∀ (ms : List Expr), (∀ d ∈ ms, IsFun d) → ∀ k k' : Cfg, k'.overflowChecks = k.overflowChecks →
      (∀ g, g ≠ f → k'.fns g = k.fns g) →
      define n (ms ++ .functionDefinition f qs c :: bs) k' s =
        define n (ms ++ .functionDefinition f qs c :: bs) k s := by
    intro ms
    induction ms with
    | nil =>
      intro _ k k' h1 h2
      have : k'.fns.insert f (qs, c) = k.fns.insert f (qs, c) := by
        funext g
        by_cases hg : g = f
        · simp [Map.insert, hg]
        · simp [Map.insert, hg, h2 g hg]
      simp only [List.nil_append, define, this, h1]
    | cons d ms ih =>
      intro hd k k' h1 h2
      cases d with
      | functionDefinition g ps b =>
        rw [List.cons_append, define, define]
        refine ih (fun x hx => hd x (List.mem_cons_of_mem _ hx)) _ _ h1 fun g' hg' => ?_
        simp only [Map.insert, h2 g' hg']
      | _ => exact (hd _ List.mem_cons_self).elim
  exact key ms hm _ _ rfl fun g hg => by simp [Map.insert, hg]

/-- But the order matters as soon as a global variable calls a function: such a program panics if the function is
not defined before, whatever follows. -/
theorem c127_global_violated (oc : Bool) (st : St) (f x : Name) (args ds : List Expr) (n : Nat) :
    callMain (n + 1) (Cfg.new oc) st (.program (.globalVariableDefinition x (.functionCall f args) :: ds)) =
      .panic := by
  simp [callMain, define, interpret, Cfg.new, Map.empty, Out.bind]

/-- `fn f() { 1; }`, `fn main() { f(); }` and `global x = f();`. -/
def exF : Expr := .functionDefinition "f" [] (.block [.integerLiteral 1])
@[inherit_doc exF] def exMain : Expr := .functionDefinition "main" [] (.block [.functionCall "f" []])
@[inherit_doc exF] def exX : Expr := .globalVariableDefinition "x" (.functionCall "f" [])

/-- The value of a run. -/
def Out.value? : Out Value → Option Value
  | .ok v _ => some v
  | _ => none

/-- The same definitions in another order: a panic instead of a value. -/
theorem c127_order_violated : [exX, exF, exMain].Perm [exF, exMain, exX] ∧
    (([exF, exMain, exX].map defined).Nodup) ∧
    (callMain 9 (Cfg.new true) .new (.program [exF, exMain, exX])).value? = some (.int 1) ∧
    ∀ n, callMain (n + 1) (Cfg.new true) .new (.program [exX, exF, exMain]) = .panic :=
  ⟨(List.perm_append_comm (l₁ := [exX]) (l₂ := [exF, exMain])), by decide, rfl,
    fun n => c127_global_violated true .new "f" "x" [] [exF, exMain] n⟩

/-- `main` calls `f`, defined after it. -/
example (n : Nat) : callMain n (Cfg.new true) .new (.program [exMain, exF]) =
    callMain n (Cfg.new true) .new (.program [exF, exMain]) :=
  c127_order_partial _ _ _ _ (by simp [exF, exMain, IsFun]) (by decide) (.swap _ _ _) n
example : (callMain 9 (Cfg.new true) .new (.program [exMain, exF])).value? = some (.int 1) := rfl

/-- A function `g` that calls itself and `f`, but is not called. -/
example (n : Nat) : callMain n (Cfg.new true) .new
      (.program [exF, .functionDefinition "g" [] (.block [.functionCall "g" [], .functionCall "f" []]), exMain]) =
    callMain n (Cfg.new true) .new (.program [exF, exMain]) :=
  c127_unused _ _ [exF] [exMain] "g" [] _ (by decide) (by simp [Cfg.new, Map.empty]) (by decide) (by decide) n

/-- Two configurations which differ in `g`, and `f`, which does not call it. -/
example (n : Nat) (st : St) :
    interpret ⟨fun k => if k = "f" then some ([], .integerLiteral 1) else none, true⟩ n (.functionCall "f" []) st =
      interpret ⟨fun k => if k = "f" then some ([], .integerLiteral 1) else some ([], .integerLiteral 2), true⟩ n
        (.functionCall "f" []) st := by
  refine c127_reached _ _ _ ?_ (fun g hg => ?_) n st
  · rfl
  have : g = "f" := by
    induction hg with
    | here h => simpa [Expr.calls, callsAll] using h
    | through _ hb h ih =>
      subst ih
      simp only [if_true, Option.some.injEq, Prod.mk.injEq] at hb
      obtain ⟨-, rfl⟩ := hb
      simp [Expr.calls] at h
  simp [this]

/-- `f` defined twice, with `main` in between. -/
example (n : Nat) : callMain n (Cfg.new true) .new
      (.program [exF, exMain, .functionDefinition "f" [] (.block [.integerLiteral 2])]) =
    callMain n (Cfg.new true) .new
      (.program [exMain, .functionDefinition "f" [] (.block [.integerLiteral 2])]) :=
  c127_last _ _ [] [exMain] [] "f" [] [] _ _ (by simp [exMain, IsFun]) n

/-- `x` calls `f`, and `g` may come before or after it. -/
example (n : Nat) (b : Expr) : callMain n (Cfg.new true) .new
      (.program [exF, .functionDefinition "g" [] b, exX, exMain]) =
    callMain n (Cfg.new true) .new (.program [exF, exX, .functionDefinition "g" [] b, exMain]) :=
  c127_swap_global true .new [exF] [exMain] "g" "x" [] b _ (by decide) (by decide) n

end OniComb.Toys
