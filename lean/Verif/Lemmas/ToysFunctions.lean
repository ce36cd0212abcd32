import Verif.Lemmas.ToysNames
import Verif.Spec.ToysFunctions

/-!
# Runs with other functions
-/

namespace OniComb.Toys

variable {R : Name → Prop} {cfg cfg' : Cfg}

theorem bind_congr {A B : Type} {o o' : Out A} {f g : A → St → Out B} (h : o' = o) (hf : ∀ a st, g a st = f a st) :
    o'.bind g = o.bind f := by
  subst h
  cases o' with
  | ok a st => exact hf a st
  | _ => rfl

theorem evalAll_congr {ev ev' : Expr → St → Out Value} : ∀ (es : List Expr), (∀ f ∈ callsAll es, R f) →
    (∀ e, (∀ f ∈ e.calls, R f) → ∀ st, ev' e st = ev e st) → ∀ st, evalAll ev' es st = evalAll ev es st
  | [], _, _, _ => rfl
  | e :: es, h, ih, st => by
    simp only [callsAll, List.mem_append] at h
    rw [evalAll, evalAll]
    refine bind_congr (ih e (fun f hf => h f (.inl hf)) st) fun v s => ?_
    exact bind_congr (evalAll_congr es (fun f hf => h f (.inr hf)) ih s) fun _ _ => rfl

theorem callsArgs_eq (as : List (Name × Expr)) : callsArgs as = callsAll (as.map (·.2)) := by
  induction as with
  | nil => rfl
  | cons a as ih => obtain ⟨x, e⟩ := a; simp [callsArgs, callsAll, ih]

theorem interpret_congr (hc : cfg'.overflowChecks = cfg.overflowChecks) (hR : ∀ f, R f → cfg'.fns f = cfg.fns f)
    (hb : ∀ f, R f → ∀ ps b, cfg.fns f = some (ps, b) → ∀ g ∈ b.calls, R g) :
    ∀ (n : Nat) (e : Expr), (∀ f ∈ e.calls, R f) → ∀ st, interpret cfg' n e st = interpret cfg n e st
  | 0, _, _, _ => rfl
  | n + 1, e, h, st => by
    have ih := interpret_congr hc hR hb n
    cases e with
    | stringLiteral | integerLiteral | boolLiteral | arrayLiteral | identifier | plus | minus | symbol
    | globalVariableDefinition | functionDefinition | program => simp only [interpret]
    | binary op l r =>
      simp only [Expr.calls, List.mem_append] at h
      simp only [interpret]
      refine bind_congr (ih l (fun f hf => h f (.inl hf)) st) fun a s => ?_
      refine bind_congr (ih r (fun f hf => h f (.inr hf)) s) fun b s => ?_
      rw [applyOp_checks hc]
    | parenthesized e => simp only [interpret]; exact ih e h st
    | println e => simp only [interpret]; exact bind_congr (ih e h st) fun _ _ => rfl
    | «while» c b =>
      have hW := h
      simp only [Expr.calls, List.mem_append] at h
      simp only [interpret]
      refine bind_congr (ih c (fun f hf => h f (.inl hf)) st) fun a s => ?_
      rw [bind_congr (ih b (fun f hf => h f (.inr hf)) s) fun _ s => ih (.while c b) hW s]
    | «if» c b eb =>
      cases eb with
      | none =>
        simp only [Expr.calls, List.mem_append] at h
        simp only [interpret]
        refine bind_congr (ih c (fun f hf => h f (.inl hf)) st) fun a s => ?_
        rw [ih b (fun f hf => h f (.inr hf)) s]
      | some e =>
        simp only [Expr.calls, List.mem_append] at h
        simp only [interpret]
        refine bind_congr (ih c (fun f hf => h f (.inl hf)) st) fun a s => ?_
        rw [ih b (fun f hf => h f (.inr (.inl hf))) s, ih e (fun f hf => h f (.inr (.inr hf))) s]
    | block es =>
      simp only [interpret]
      exact bind_congr (evalAll_congr es h ih st) fun _ _ => rfl
    | assignment x e =>
      simp only [interpret]
      have he := ih e h st
      cases st.env.findBinding x with
      | none => exact bind_congr he fun _ _ => rfl
      | some _ => exact bind_congr he fun _ _ => rfl
    | functionCall f args =>
      simp only [Expr.calls, List.mem_cons] at h
      have hf := h f (.inl rfl)
      simp only [interpret, hR f hf]
      cases hfb : cfg.fns f with
      | none => rfl
      | some pb =>
        refine bind_congr (evalAll_congr args (fun g hg => h g (.inr hg)) ih st) fun vs s => ?_
        cases bindParams pb.1 0 vs Map.empty with
        | none => rfl
        | some m => exact bind_congr (ih pb.2 (hb f hf pb.1 pb.2 hfb) _) fun _ _ => rfl
    | labelledCall f args =>
      simp only [Expr.calls, List.mem_cons, callsArgs_eq] at h
      have hf := h f (.inl rfl)
      simp only [interpret, hR f hf]
      cases hfb : cfg.fns f with
      | none => rfl
      | some pb =>
        refine bind_congr (evalAll_congr _ (fun g hg => h g (.inr hg)) ih st) fun vs s => ?_
        exact bind_congr (ih pb.2 (hb f hf pb.1 pb.2 hfb) _) fun _ _ => rfl

/-- The configurations agree on all functions but `f`, and these do not call `f`. -/
structure AgreeOff (f : Name) (cfg cfg' : Cfg) : Prop where
  checks : cfg'.overflowChecks = cfg.overflowChecks
  fns : ∀ g, g ≠ f → cfg'.fns g = cfg.fns g
  calls : ∀ g, g ≠ f → ∀ ps b, cfg.fns g = some (ps, b) → f ∉ b.calls

theorem AgreeOff.interpret {f : Name} (h : AgreeOff f cfg cfg') {e : Expr} (he : f ∉ e.calls) (n : Nat) (st : St) :
    interpret cfg' n e st = interpret cfg n e st :=
  interpret_congr (R := (· ≠ f)) h.checks h.fns (fun g hg ps b hb _ hg' e => h.calls g hg ps b hb (e ▸ hg'))
    n e (fun _ hg' e' => he (e' ▸ hg')) st

theorem AgreeOff.insert {f g : Name} (h : AgreeOff f cfg cfg') (ps : List Name) {b : Expr} (hb : f ∉ b.calls) :
    AgreeOff f ⟨cfg.fns.insert g (ps, b), cfg.overflowChecks⟩ ⟨cfg'.fns.insert g (ps, b), cfg'.overflowChecks⟩ := by
  refine ⟨h.checks, fun k hk => ?_, fun k hk ps' b' e => ?_⟩
  · simp only [Map.insert]
    by_cases e : k = g
    · simp [e]
    · simp [e, h.fns k hk]
  · simp only [Map.insert] at e
    by_cases e' : k = g
    · simp only [e', if_true, Option.some.injEq, Prod.mk.injEq] at e
      rw [← e.2]
      exact hb
    · rw [if_neg e'] at e
      exact h.calls k hk ps' b' e

/-- The same outcome, with functions that agree off `f`. -/
def OffSame (f : Name) : Out Cfg → Out Cfg → Prop
  | .ok c s, .ok c' s' => s' = s ∧ AgreeOff f c c'
  | .panic, .panic => True
  | .diverge, .diverge => True
  | _, _ => False

theorem define_off {f : Name} (n : Nat) : ∀ (ds : List Expr) (cfg cfg' : Cfg) (st : St), AgreeOff f cfg cfg' →
    f ∉ callsAll ds → OffSame f (define n ds cfg st) (define n ds cfg' st)
  | [], cfg, cfg', st, h, _ => ⟨rfl, h⟩
  | d :: ds, cfg, cfg', st, h, hd => by
    simp only [callsAll, List.mem_append, not_or] at hd
    cases d with
    | globalVariableDefinition x e =>
      rw [define, define, h.interpret (e := e) hd.1]
      cases interpret cfg n e st with
      | ok v s => exact define_off n ds cfg cfg' s h hd.2
      | _ => trivial
    | functionDefinition g ps b =>
      rw [define, define]
      exact define_off n ds _ _ st (h.insert ps hd.1) hd.2
    | _ => trivial

theorem define_append (n : Nat) : ∀ (as bs : List Expr) (cfg : Cfg) (st : St),
    define n (as ++ bs) cfg st = (define n as cfg st).bind fun cfg st => define n bs cfg st
  | [], _, _, _ => rfl
  | d :: as, bs, cfg, st => by
    cases d with
    | globalVariableDefinition x e =>
      rw [List.cons_append, define, define]
      cases interpret cfg n e st with
      | ok v s => exact define_append n as bs cfg s
      | _ => rfl
    | functionDefinition g ps b => rw [List.cons_append, define, define]; exact define_append n as bs _ st
    | _ => rfl

/-- What `call_main` does after the definitions. -/
def runMain (n : Nat) (cfg : Cfg) (st : St) : Out Value :=
  match cfg.fns "main" with
  | none => .panic
  | some (_, body) => interpret cfg n body st

theorem callMain_eq (n : Nat) (cfg : Cfg) (st : St) (ds : List Expr) :
    callMain n cfg st (.program ds) = (define n ds cfg st).bind (runMain n) := by
  rfl

theorem runMain_off {f : Name} (hf : f ≠ "main") (h : AgreeOff f cfg cfg') (n : Nat) (st : St) :
    runMain n cfg' st = runMain n cfg st := by
  unfold runMain
  rw [h.fns _ hf.symm]
  cases hm : cfg.fns "main" with
  | none => rfl
  | some pb => exact h.interpret (h.calls _ hf.symm pb.1 pb.2 hm) n st

theorem define_functions (n : Nat) : ∀ (ds : List Expr), (∀ d ∈ ds, IsFun d) → ∀ (cfg : Cfg) (st : St), ∃ c,
    define n ds cfg st = .ok c st ∧ c.overflowChecks = cfg.overflowChecks ∧
      (∀ g, g ∉ ds.map defined → c.fns g = cfg.fns g) ∧
      ((ds.map defined).Nodup → ∀ g ps b, .functionDefinition g ps b ∈ ds → c.fns g = some (ps, b))
  | [], _, cfg, st => ⟨cfg, rfl, rfl, fun _ _ => rfl, fun _ _ _ _ h => by simp at h⟩
  | d :: ds, hd, cfg, st => by
    cases d with
    | functionDefinition f ps b =>
      rw [define]
      obtain ⟨c, h1, h2, h3, h4⟩ := define_functions n ds (fun x hx => hd x (List.mem_cons_of_mem _ hx))
        { cfg with fns := cfg.fns.insert f (ps, b) } st
      refine ⟨c, h1, h2, fun g hg => ?_, fun hn g ps' b' hm => ?_⟩
      · simp only [List.map_cons, defined, List.mem_cons, not_or] at hg
        rw [h3 g hg.2]
        simp [Map.insert, hg.1]
      · simp only [List.map_cons, defined, List.nodup_cons] at hn
        rcases List.mem_cons.1 hm with e | hm
        · cases e
          rw [h3 _ hn.1]
          simp [Map.insert]
        · exact h4 hn.2 g ps' b' hm
    | _ => exact (hd _ List.mem_cons_self).elim

end OniComb.Toys
