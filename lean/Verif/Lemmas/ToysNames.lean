import Verif.Spec.ToysNames

/-!
# Runs that differ in names only
-/

namespace OniComb.Toys

/-- The two states give the variables with `N` the same value, under different names, and have printed the
same after `o` and `o'`. -/
structure Sim (N : Name → Prop) (ρ : Name → Name) (o o' : List Value) (st st' : St) : Prop where
  own : ∀ x, N x → st'.env.bindings (ρ x) = st.env.bindings x
  look : ∀ x, N x → st'.env.lookup (ρ x) = st.env.lookup x
  out : ∃ w, st.out = o ++ w ∧ st'.out = o' ++ w

/-- The same outcome in related states. -/
def OutSim {A : Type} (R : St → St → Prop) : Out A → Out A → Prop
  | .ok a st, .ok a' st' => a' = a ∧ R st st'
  | .panic, .panic => True
  | .diverge, .diverge => True
  | _, _ => False

theorem OutSim.bind {A B : Type} {R R' : St → St → Prop} {o o' : Out A} {f f' : A → St → Out B}
    (h : OutSim R o o') (hf : ∀ a st st', R st st' → OutSim R' (f a st) (f' a st')) :
    OutSim R' (o.bind f) (o'.bind f') := by
  cases o <;> cases o' <;> simp only [OutSim] at h
  · obtain ⟨rfl, h⟩ := h
    exact hf _ _ _ h
  · trivial
  · trivial

variable {N : Name → Prop} {ρ φ : Name → Name} {cfg cfg' : Cfg} {o o' : List Value}

theorem applyOp_checks (h : cfg'.overflowChecks = cfg.overflowChecks) (op : Operator) (l r : Value) :
    applyOp cfg' op l r = applyOp cfg op l r := by
  cases op <;> simp [applyOp, checked, h]

theorem Sim.insert {st st' : St} (hi : ∀ x y, N x → N y → ρ x = ρ y → x = y)
    (h : Sim N ρ o o' st st') {x : Name} (hx : N x) (v : Value) :
    Sim N ρ o o' ⟨⟨st.env.bindings.insert x v, st.env.next⟩, st.out⟩
      ⟨⟨st'.env.bindings.insert (ρ x) v, st'.env.next⟩, st'.out⟩ := by
  have key : ∀ y, N y → (ρ y = ρ x ↔ y = x) := fun y hy => ⟨hi y x hy hx, fun e => by rw [e]⟩
  refine ⟨fun y hy => ?_, fun y hy => ?_, h.out⟩
  · by_cases e : y = x
    · simp [Map.insert, e]
    · simp [Map.insert, e, key y hy, h.own y hy]
  · have := h.look y hy
    by_cases e : y = x
    · simp [Map.insert, e, Env.lookup]
    · simp only [Env.lookup, Map.insert, e, key y hy, if_false]
      exact this

theorem Sim.inner {st st' : St} (h : Sim N ρ o o' st st') :
    Sim N ρ o o' ⟨⟨Map.empty, st.env.bindings :: st.env.next⟩, st.out⟩
      ⟨⟨Map.empty, st'.env.bindings :: st'.env.next⟩, st'.out⟩ := by
  refine ⟨fun y _ => rfl, fun y hy => ?_, h.out⟩
  have key : ∀ (env : Env) (x : Name), Env.lookup ⟨Map.empty, env.bindings :: env.next⟩ x = env.lookup x := by
    intro env x
    simp only [Env.lookup, Map.empty, List.findSome?_cons]
    cases env.bindings x <;> rfl
  rw [key, key]
  exact h.look y hy

theorem Sim.back {st st' s s' : St} (h : Sim N ρ o o' st st') (hs : Sim N ρ o o' s s') :
    Sim N ρ o o' ⟨st.env, s.out⟩ ⟨st'.env, s'.out⟩ := ⟨h.own, h.look, hs.out⟩

theorem evalAll_sim {ev ev' : Expr → St → Out Value} : ∀ (es : List Expr),
    (∀ x ∈ varsAll es, N x) →
    (∀ e, (∀ x ∈ e.vars, N x) → ∀ st st', Sim N ρ o o' st st' →
      OutSim (Sim N ρ o o') (ev e st) (ev' (e.rename ρ φ) st')) →
    ∀ st st', Sim N ρ o o' st st' →
      OutSim (Sim N ρ o o') (evalAll ev es st) (evalAll ev' (renameAll ρ φ es) st')
  | [], _, _, st, st', h => by simp only [evalAll, renameAll, OutSim]; exact ⟨trivial, h⟩
  | e :: es, hN, ih, st, st', h => by
    simp only [varsAll, List.mem_append] at hN
    rw [renameAll, evalAll, evalAll]
    refine OutSim.bind (ih e (fun x hx => hN x (.inl hx)) st st' h) fun v s s' hs => ?_
    refine OutSim.bind (evalAll_sim es (fun x hx => hN x (.inr hx)) ih s s' hs) fun vs s s' hs => ?_
    exact ⟨rfl, hs⟩

theorem renameArgs_snd (as : List (Name × Expr)) :
    (renameArgs ρ φ as).map (·.2) = renameAll ρ φ (as.map (·.2)) := by
  induction as with
  | nil => rfl
  | cons a as ih => obtain ⟨x, e⟩ := a; simp [renameArgs, renameAll, ih]

theorem varsArgs_eq (as : List (Name × Expr)) : varsArgs as = varsAll (as.map (·.2)) := by
  induction as with
  | nil => rfl
  | cons a as ih => obtain ⟨x, e⟩ := a; simp [varsArgs, varsAll, ih]

theorem interpret_sim (hi : ∀ x y, N x → N y → ρ x = ρ y → x = y) (hc : Renamed ρ φ cfg cfg')
    (hf : ∀ f ps b, cfg.fns f = some (ps, b) → ∀ x ∈ b.vars, N x) :
    ∀ (n : Nat) (e : Expr), (∀ x ∈ e.vars, N x) → ∀ st st', Sim N ρ o o' st st' →
      OutSim (Sim N ρ o o') (interpret cfg n e st) (interpret cfg' n (e.rename ρ φ) st')
  | 0, _, _, _, _, _ => by simp [interpret, OutSim]
  | n + 1, e, hN, st, st', h => by
    have ih := interpret_sim hi hc hf n
    cases e with
    | stringLiteral s => simp only [Expr.rename, interpret, OutSim]; exact ⟨trivial, h⟩
    | integerLiteral s => simp only [Expr.rename, interpret, OutSim]; exact ⟨trivial, h⟩
    | boolLiteral s => simp [Expr.rename, interpret, OutSim]
    | arrayLiteral s => simp [Expr.rename, interpret, OutSim]
    | identifier s => simp [Expr.rename, interpret, OutSim]
    | plus s => simp [Expr.rename, interpret, OutSim]
    | minus s => simp [Expr.rename, interpret, OutSim]
    | globalVariableDefinition => simp [Expr.rename, interpret, OutSim]
    | functionDefinition => simp [Expr.rename, interpret, OutSim]
    | program => simp [Expr.rename, interpret, OutSim]
    | binary op l r =>
      simp only [Expr.vars, List.mem_append] at hN
      simp only [Expr.rename, interpret]
      refine (ih l (fun x hx => hN x (.inl hx)) st st' h).bind fun a s s' hs => ?_
      refine (ih r (fun x hx => hN x (.inr hx)) s s' hs).bind fun b s s' hs => ?_
      rw [applyOp_checks hc.checks]
      cases applyOp cfg op a b with
      | none => simp [OutSim]
      | some v => exact ⟨rfl, hs⟩
    | symbol x =>
      rw [Expr.rename, interpret_symbol, interpret_symbol, h.look x (hN x (by simp [Expr.vars]))]
      cases st.env.lookup x with
      | none => simp [OutSim]
      | some v => exact ⟨rfl, h⟩
    | parenthesized e => simp only [Expr.rename, interpret]; exact ih e hN st st' h
    | println e =>
      simp only [Expr.rename, interpret]
      refine (ih e hN st st' h).bind fun a s s' hs => ⟨rfl, hs.own, hs.look, ?_⟩
      obtain ⟨w, h1, h2⟩ := hs.out
      exact ⟨w ++ [a], by simp [h1], by simp [h2]⟩
    | «while» c b =>
      have hW := hN
      simp only [Expr.vars, List.mem_append] at hN
      simp only [Expr.rename, interpret]
      refine (ih c (fun x hx => hN x (.inl hx)) st st' h).bind fun a s s' hs => ?_
      cases a.asBool with
      | none => simp [OutSim]
      | some t =>
        cases t with
        | false => exact ⟨rfl, hs⟩
        | true =>
          refine (ih b (fun x hx => hN x (.inr hx)) s s' hs).bind fun a s s' hs => ?_
          have := ih (.while c b) hW s s' hs
          simpa only [Expr.rename] using this
    | «if» c b eb =>
      cases eb with
      | none =>
        simp only [Expr.vars, List.mem_append] at hN
        simp only [Expr.rename, interpret]
        refine (ih c (fun x hx => hN x (.inl hx)) st st' h).bind fun a s s' hs => ?_
        cases a.asBool with
        | none => simp [OutSim]
        | some t =>
          cases t with
          | false => exact ⟨rfl, hs⟩
          | true => exact ih b (fun x hx => hN x (.inr hx)) s s' hs
      | some e =>
        simp only [Expr.vars, List.mem_append] at hN
        simp only [Expr.rename, interpret]
        refine (ih c (fun x hx => hN x (.inl hx)) st st' h).bind fun a s s' hs => ?_
        cases a.asBool with
        | none => simp [OutSim]
        | some t =>
          cases t with
          | false => exact ih e (fun x hx => hN x (.inr (.inr hx))) s s' hs
          | true => exact ih b (fun x hx => hN x (.inr (.inl hx))) s s' hs
    | block es =>
      simp only [Expr.rename, interpret]
      refine (evalAll_sim es hN ih st st' h).bind fun vs s s' hs => ?_
      cases vs.getLast? with
      | none => simp [OutSim]
      | some v => exact ⟨rfl, hs⟩
    | assignment x e =>
      simp only [Expr.vars, List.mem_cons] at hN
      have hx : N x := hN x (.inl rfl)
      simp only [Expr.rename, interpret]
      have hb : (st'.env.findBinding (ρ x)).isSome = (st.env.findBinding x).isSome := by
        rw [findBinding_isSome, findBinding_isSome, h.look x hx]
      have he := ih e (fun y hy => hN y (.inr hy)) st st' h
      cases h1 : st.env.findBinding x <;> cases h2 : st'.env.findBinding (ρ x) <;>
        simp only [h1, h2, Option.isSome_none, Option.isSome_some, reduceCtorEq] at hb
      · exact he.bind fun a s s' hs => ⟨rfl, hs.insert hi hx a⟩
      · refine he.bind fun a s s' hs => ?_
        rw [hs.own x hx]
        cases s.env.bindings x with
        | none => simp [OutSim]
        | some _ => exact ⟨rfl, hs.insert hi hx a⟩
    | functionCall f args =>
      simp only [Expr.rename, interpret, hc.fns]
      cases hfb : cfg.fns f with
      | none => simp [OutSim]
      | some pb =>
        obtain ⟨ps, b⟩ := pb
        simp only [Option.map_some]
        refine (evalAll_sim args hN ih st st' h).bind fun vs s s' hs => ?_
        rw [bindParams_eq, bindParams_eq, List.length_map]
        by_cases hl : ps.length + 0 ≤ max vs.length 0
        · rw [if_pos hl]
          exact (ih b (hf f ps b hfb) _ _ hs.inner).bind fun a t t' ht => ⟨rfl, hs.back ht⟩
        · rw [if_neg hl]; simp [OutSim]
    | labelledCall f args =>
      simp only [Expr.rename, interpret, hc.fns]
      cases hfb : cfg.fns f with
      | none => simp [OutSim]
      | some pb =>
        obtain ⟨ps, b⟩ := pb
        simp only [Option.map_some]
        rw [renameArgs_snd]
        refine (evalAll_sim _ (by rw [← varsArgs_eq]; exact hN) ih st st' h).bind fun vs s s' hs => ?_
        exact (ih b (hf f ps b hfb) _ _ hs.inner).bind fun a t t' ht => ⟨rfl, hs.back ht⟩

/-- Outcome of the definitions of a program, up to names. -/
def DefSim (N : Name → Prop) (ρ φ : Name → Name) (o o' : List Value) : Out Cfg → Out Cfg → Prop
  | .ok c st, .ok c' st' => Renamed ρ φ c c' ∧ Sim N ρ o o' st st'
  | .panic, .panic => True
  | .diverge, .diverge => True
  | _, _ => False

theorem define_sim (hi : Function.Injective ρ) (hφ : Function.Injective φ) (n : Nat) : ∀ (ds : List Expr)
    (cfg cfg' : Cfg), Renamed ρ φ cfg cfg' → ∀ st st', Sim (fun _ => True) ρ o o' st st' →
      DefSim (fun _ => True) ρ φ o o' (define n ds cfg st) (define n (renameAll ρ φ ds) cfg' st')
  | [], _, _, hc, st, st', h => by simp only [define, renameAll, DefSim]; exact ⟨hc, h⟩
  | d :: ds, cfg, cfg', hc, st, st', h => by
    have hT : ∀ x y, True → True → ρ x = ρ y → x = y := fun _ _ _ _ e => hi e
    cases d with
    | globalVariableDefinition x e =>
      simp only [renameAll, Expr.rename, define]
      have := interpret_sim (o := o) (o' := o') hT hc (fun _ _ _ _ _ _ => trivial) n e
        (fun _ _ => trivial) st st' h
      cases h1 : interpret cfg n e st <;> cases h2 : interpret cfg' n (e.rename ρ φ) st' <;>
        simp only [h1, h2, OutSim] at this
      · exact define_sim hi hφ n ds cfg cfg' hc _ _ this.2
      · trivial
      · trivial
    | functionDefinition f ps b =>
      simp only [renameAll, Expr.rename, define]
      refine define_sim hi hφ n ds _ _ (Renamed.mk (by exact hc.checks) fun g => ?_) st st' h
      by_cases e : g = f
      · simp [Map.insert, e]
      · simp [Map.insert, e, hφ.eq_iff, hc.fns]
    | «if» c b eb => cases eb <;> simp [renameAll, Expr.rename, define, DefSim]
    | _ => simp [renameAll, Expr.rename, define, DefSim]

mutual
theorem rename_id : ∀ e : Expr, e.rename id id = e
  | .stringLiteral _ => rfl
  | .integerLiteral _ => rfl
  | .boolLiteral _ => rfl
  | .arrayLiteral es => by rw [Expr.rename, renameAll_id es]
  | .binary _ l r => by rw [Expr.rename, rename_id l, rename_id r]
  | .symbol _ => rfl
  | .functionCall _ args => by rw [Expr.rename, renameAll_id args]; rfl
  | .labelledCall _ args => by rw [Expr.rename, renameArgs_id args]; rfl
  | .identifier _ => rfl
  | .plus e => by rw [Expr.rename, rename_id e]
  | .minus e => by rw [Expr.rename, rename_id e]
  | .println e => by rw [Expr.rename, rename_id e]
  | .while c b => by rw [Expr.rename, rename_id c, rename_id b]
  | .if c b none => by rw [Expr.rename, rename_id c, rename_id b]
  | .if c b (some e) => by rw [Expr.rename, rename_id c, rename_id b, rename_id e]
  | .block es => by rw [Expr.rename, renameAll_id es]
  | .assignment _ e => by rw [Expr.rename, rename_id e]; rfl
  | .parenthesized e => by rw [Expr.rename, rename_id e]
  | .globalVariableDefinition _ e => by rw [Expr.rename, rename_id e]; rfl
  | .functionDefinition _ ps b => by rw [Expr.rename, rename_id b, List.map_id]; rfl
  | .program ds => by rw [Expr.rename, renameAll_id ds]

theorem renameAll_id : ∀ es : List Expr, renameAll id id es = es
  | [] => rfl
  | e :: es => by rw [renameAll, rename_id e, renameAll_id es]

theorem renameArgs_id : ∀ es : List (Name × Expr), renameArgs id id es = es
  | [] => rfl
  | (x, e) :: es => by rw [renameArgs, rename_id e, renameArgs_id es]; rfl
end

theorem Renamed.id (cfg : Cfg) : Renamed id id cfg cfg := by
  refine ⟨rfl, fun f => ?_⟩
  show cfg.fns f = _
  cases cfg.fns f with
  | none => rfl
  | some pb => simp [rename_id]

end OniComb.Toys
