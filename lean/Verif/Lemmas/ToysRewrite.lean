import Verif.Spec.ToysRewrite

/-!
# Replaced parts: the simulation
-/

namespace OniComb.Toys

variable {A B : Type}

/-- With enough fuel the runs `g` end as `o` does, if `o` ends. -/
def Simulates (o : Out A) (g : Nat → Out A) : Prop := o = .diverge ∨ ∃ m, ∀ k, m ≤ k → g k = o

theorem Simulates.const (o : Out A) : Simulates o fun _ => o := .inr ⟨0, fun _ _ => rfl⟩

theorem Simulates.shift {o : Out A} {g : Nat → Out A} (h : Simulates o fun k => g (k + 1)) : Simulates o g := by
  rcases h with h | ⟨m, h⟩
  · exact .inl h
  · refine .inr ⟨m + 1, fun k hk => ?_⟩
    obtain ⟨k, rfl⟩ : ∃ l, k = l + 1 := ⟨k - 1, by omega⟩
    exact h k (by omega)

theorem Simulates.up {o : Out A} {g : Nat → Out A} (h : Simulates o g) : Simulates o fun k => g (k + 1) := by
  rcases h with h | ⟨m, h⟩
  · exact .inl h
  · exact .inr ⟨m, fun k hk => h _ (by omega)⟩

theorem Simulates.bind {o : Out A} {g : Nat → Out A} {f : A → St → Out B} {h : Nat → A → St → Out B} (ho : Simulates o g)
    (hf : ∀ a st, Simulates (f a st) fun k => h k a st) : Simulates (o.bind f) fun k => (g k).bind (h k) := by
  rcases ho with rfl | ⟨m, hm⟩
  · exact .inl rfl
  · cases o with
    | diverge => exact .inl rfl
    | panic => exact .inr ⟨m, fun k hk => by show (g k).bind _ = _; rw [hm k hk]; rfl⟩
    | ok a st =>
      rcases hf a st with h1 | ⟨l, hl⟩
      · exact .inl h1
      · refine .inr ⟨max m l, fun k hk => ?_⟩
        show (g k).bind _ = _
        rw [hm k (by omega)]
        exact hl k (by omega)

theorem Simulates.self (cfg : Cfg) (n : Nat) (e : Expr) (st : St) : Simulates (interpret cfg n e st) fun k => interpret cfg k e st := by
  cases h : interpret cfg n e st with
  | diverge => exact .inl rfl
  | panic => exact .inr ⟨n, fun k hk => interpret_panic_mono hk h⟩
  | ok v st' => exact .inr ⟨n, fun k hk => interpret_ok_mono hk h⟩

theorem Simulates.all {Q : Expr → Expr → Prop} {ev : Expr → St → Out Value} {ev' : Nat → Expr → St → Out Value}
    (h : ∀ e e' st, Q e e' → Simulates (ev e st) fun k => ev' k e' st) {es es' : List Expr} (hes : List.Forall₂ Q es es') :
    ∀ st, Simulates (evalAll ev es st) fun k => evalAll (ev' k) es' st := by
  induction hes with
  | nil => exact fun st => Simulates.const _
  | cons he _ ih =>
    intro st
    simp only [evalAll]
    exact (h _ _ st he).bind fun v st => (ih st).bind fun vs st => Simulates.const _

theorem forall₂_refl {Q : Expr → Expr → Prop} (hr : ∀ e, Q e e) : ∀ es : List Expr, List.Forall₂ Q es es
  | [] => .nil
  | e :: es => .cons (hr e) (forall₂_refl hr es)

theorem Same.refl (e : Expr) : Same e e := fun _ _ => ⟨fun _ _ => Iff.rfl, Iff.rfl⟩

theorem Same.symm {e e' : Expr} (h : Same e e') : Same e' e :=
  fun cfg st => ⟨fun v st' => ((h cfg st).1 v st').symm, (h cfg st).2.symm⟩

theorem Same.trans {a b c : Expr} (h : Same a b) (h' : Same b c) : Same a c :=
  fun cfg st => ⟨fun v st' => ((h cfg st).1 v st').trans ((h' cfg st).1 v st'), (h cfg st).2.trans (h' cfg st).2⟩

theorem Simulates.same {e e' : Expr} (hs : Same e e') {cfg : Cfg} {st : St} {o : Out Value} (h : Simulates o fun k => interpret cfg k e st) :
    Simulates o fun k => interpret cfg k e' st := by
  rcases h with h | ⟨m, h⟩
  · exact .inl h
  · have h := h m (Nat.le_refl _)
    cases o with
    | diverge => exact .inl rfl
    | panic =>
      obtain ⟨l, hl⟩ := (hs cfg st).2.1 ⟨m, h⟩
      exact .inr ⟨l, fun k hk => interpret_panic_mono hk hl⟩
    | ok v st' =>
      obtain ⟨l, hl⟩ := ((hs cfg st).1 v st').1 ⟨m, h⟩
      exact .inr ⟨l, fun k hk => interpret_ok_mono hk hl⟩

theorem same_of_sim {e e' : Expr} (h : ∀ cfg n st, Simulates (interpret cfg n e st) fun k => interpret cfg k e' st)
    (h' : ∀ cfg n st, Simulates (interpret cfg n e' st) fun k => interpret cfg k e st) : Same e e' := by
  have key : ∀ {e e' : Expr}, (∀ cfg n st, Simulates (interpret cfg n e st) fun k => interpret cfg k e' st) →
      ∀ cfg st, (∀ v st', Runs cfg e st v st' → Runs cfg e' st v st') ∧ (Panics cfg e st → Panics cfg e' st) := by
    intro e e' h cfg st
    constructor
    · rintro v st' ⟨n, hn⟩
      rcases h cfg n st with h1 | ⟨m, h1⟩
      · rw [hn] at h1; cases h1
      · exact ⟨m, (h1 m (Nat.le_refl _)).trans hn⟩
    · rintro ⟨n, hn⟩
      rcases h cfg n st with h1 | ⟨m, h1⟩
      · rw [hn] at h1; cases h1
      · exact ⟨m, (h1 m (Nat.le_refl _)).trans hn⟩
  intro cfg st
  exact ⟨fun v st' => ⟨(key h cfg st).1 v st', (key h' cfg st).1 v st'⟩, ⟨(key h cfg st).2, (key h' cfg st).2⟩⟩

theorem Layer.symm {Q : Expr → Expr → Prop} {e e' : Expr} (h : Layer Q e e') : Layer (fun a b => Q b a) e' e := by
  cases h with
  | binary h1 h2 => exact .binary h1 h2
  | functionCall h => exact .functionCall h.flip
  | labelledCall hn h => exact .labelledCall hn.symm h.flip
  | println h => exact .println h
  | «while» h1 h2 => exact .while h1 h2
  | «if» h1 h2 => exact .if h1 h2
  | ifElse h1 h2 h3 => exact .ifElse h1 h2 h3
  | block h => exact .block h.flip
  | assignment h => exact .assignment h
  | parenthesized h => exact .parenthesized h

theorem Layer.mono {Q Q' : Expr → Expr → Prop} (hQ : ∀ a b, Q a b → Q' a b) {e e' : Expr} (h : Layer Q e e') : Layer Q' e e' := by
  cases h with
  | binary h1 h2 => exact .binary (hQ _ _ h1) (hQ _ _ h2)
  | functionCall h => exact .functionCall (h.imp hQ)
  | labelledCall hn h => exact .labelledCall hn (h.imp hQ)
  | println h => exact .println (hQ _ _ h)
  | «while» h1 h2 => exact .while (hQ _ _ h1) (hQ _ _ h2)
  | «if» h1 h2 => exact .if (hQ _ _ h1) (hQ _ _ h2)
  | ifElse h1 h2 h3 => exact .ifElse (hQ _ _ h1) (hQ _ _ h2) (hQ _ _ h3)
  | block h => exact .block (h.imp hQ)
  | assignment h => exact .assignment (hQ _ _ h)
  | parenthesized h => exact .parenthesized (hQ _ _ h)

theorem layer_or_leaf {Q : Expr → Expr → Prop} (hr : ∀ e, Q e e) (e : Expr) :
    Layer Q e e ∨ ∀ cfg cfg' n k st, interpret cfg (n + 1) e st = interpret cfg' (k + 1) e st := by
  cases e with
  | binary op l r => exact .inl (.binary (hr l) (hr r))
  | functionCall f args => exact .inl (.functionCall (forall₂_refl hr args))
  | labelledCall f args => exact .inl (.labelledCall rfl (forall₂_refl hr _))
  | println e => exact .inl (.println (hr e))
  | «while» c b => exact .inl (.while (hr c) (hr b))
  | «if» c b eb =>
    cases eb with
    | none => exact .inl (.if (hr c) (hr b))
    | some e => exact .inl (.ifElse (hr c) (hr b) (hr e))
  | block es => exact .inl (.block (forall₂_refl hr es))
  | assignment x e => exact .inl (.assignment (hr e))
  | parenthesized e => exact .inl (.parenthesized (hr e))
  | _ => exact .inr fun _ _ _ _ _ => by simp only [interpret]

/-- Functions whose bodies are related. -/
structure Linked (Q : Expr → Expr → Prop) (cfg cfg' : Cfg) : Prop where
  checks : cfg'.overflowChecks = cfg.overflowChecks
  fns : ∀ f, (cfg.fns f = none ∧ cfg'.fns f = none) ∨
    ∃ ps b b', cfg.fns f = some (ps, b) ∧ cfg'.fns f = some (ps, b') ∧ Q b b'

/-- What a relation needs for a simulation. -/
structure Replacement (Q : Expr → Expr → Prop) : Prop where
  refl : ∀ e, Q e e
  layer : ∀ {e e'}, Layer Q e e' → Q e e'
  cases : ∀ {e e'}, Q e e' → Same e e' ∨ Layer Q e e'

theorem Replacement.symm {Q : Expr → Expr → Prop} (h : Replacement Q) : Replacement fun a b => Q b a where
  refl := h.refl
  layer := fun hl => h.layer hl.symm
  cases := fun hq => (h.cases hq).imp Same.symm Layer.symm

theorem Linked.symm {Q : Expr → Expr → Prop} {cfg cfg' : Cfg} (h : Linked Q cfg cfg') : Linked (fun a b => Q b a) cfg' cfg where
  checks := h.checks.symm
  fns := fun f => (h.fns f).imp And.symm fun ⟨ps, b, b', h1, h2, h3⟩ => ⟨ps, b', b, h2, h1, h3⟩

theorem applyOp_same {cfg cfg' : Cfg} (h : cfg'.overflowChecks = cfg.overflowChecks) (op : Operator) (l r : Value) :
    applyOp cfg' op l r = applyOp cfg op l r := by
  have hc : ∀ i, checked cfg' i = checked cfg i := fun i => by simp only [checked, h]
  cases op <;> simp only [applyOp, hc]

theorem sim {Q : Expr → Expr → Prop} (hQ : Replacement Q) {cfg cfg' : Cfg} (hl : Linked Q cfg cfg') :
    ∀ (n : Nat) (e e' : Expr) (st : St), Q e e' → Simulates (interpret cfg n e st) fun k => interpret cfg' k e' st
  | 0, _, _, _, _ => .inl rfl
  | n + 1, e, e', st, h => by
    have ih := sim hQ hl n
    have layer : ∀ e e', Layer Q e e' → ∀ st, Simulates (interpret cfg (n + 1) e st) fun k => interpret cfg' k e' st := by
      intro e e' h st
      have hself := hQ.layer h
      refine Simulates.shift ?_
      cases h with
      | binary h1 h2 =>
        simp only [interpret, applyOp_same hl.checks]
        exact (ih _ _ st h1).bind fun a st => (ih _ _ st h2).bind fun b st => Simulates.const _
      | parenthesized h => simp only [interpret]; exact ih _ _ st h
      | println h => simp only [interpret]; exact (ih _ _ st h).bind fun _ _ => Simulates.const _
      | «while» h1 h2 =>
        simp only [interpret]
        refine (ih _ _ st h1).bind fun v st => ?_
        cases v.asBool with
        | none => exact Simulates.const _
        | some x =>
          cases x
          · exact Simulates.const _
          · exact (ih _ _ st h2).bind fun _ st => ih _ _ st hself
      | «if» h1 h2 =>
        simp only [interpret]
        refine (ih _ _ st h1).bind fun v st => ?_
        cases v.asBool with
        | none => exact Simulates.const _
        | some x =>
          cases x
          · exact Simulates.const _
          · exact ih _ _ st h2
      | ifElse h1 h2 h3 =>
        simp only [interpret]
        refine (ih _ _ st h1).bind fun v st => ?_
        cases v.asBool with
        | none => exact Simulates.const _
        | some x =>
          cases x
          · exact ih _ _ st h3
          · exact ih _ _ st h2
      | block h => simp only [interpret]; exact (Simulates.all ih h st).bind fun _ _ => Simulates.const _
      | @assignment x e e' h =>
        simp only [interpret]
        cases st.env.findBinding x with
        | none => exact (ih _ _ st h).bind fun _ _ => Simulates.const _
        | some m => exact (ih _ _ st h).bind fun _ _ => Simulates.const _
      | @functionCall f args args' h =>
        simp only [interpret]
        rcases hl.fns f with ⟨h1, h2⟩ | ⟨ps, b, b', h1, h2, hb⟩
        · simp only [h1, h2]
          exact Simulates.const _
        · simp only [h1, h2]
          refine (Simulates.all ih h st).bind fun vs st => ?_
          cases bindParams ps 0 vs Map.empty with
          | none => exact Simulates.const _
          | some m => exact (ih _ _ _ hb).bind fun _ _ => Simulates.const _
      | @labelledCall f args args' hn h =>
        simp only [interpret]
        rcases hl.fns f with ⟨h1, h2⟩ | ⟨ps, b, b', h1, h2, hb⟩
        · simp only [h1, h2]
          exact Simulates.const _
        · simp only [h1, h2]
          exact (Simulates.all ih h st).bind fun vs st => (ih _ _ _ hb).bind fun _ _ => Simulates.const _
    rcases hQ.cases h with hs | hL
    · refine Simulates.same hs ?_
      rcases layer_or_leaf hQ.refl e with hL | hleaf
      · exact layer e e hL st
      · refine Simulates.shift ?_
        rw [hleaf cfg cfg' n 0 st]
        exact .inr ⟨0, fun k _ => hleaf cfg' cfg' k 0 st⟩
    · exact layer e e' hL st

theorem Replaced.refl (e : Expr) : Replaced e e := .here (Same.refl e)

theorem replaced : Replacement Replaced where
  refl := Replaced.refl
  layer := fun h => .inside (fun _ _ h => h) h
  cases := by
    intro e e' h
    cases h with
    | here h => exact .inl h
    | inside hQ h => exact .inr (h.mono hQ)

/-- Definitions whose parts are related, and the functions that they define. -/
theorem sim_define {Q : Expr → Expr → Prop} (hQ : Replacement Q) (n : Nat) {ds ds' : List Expr}
    (h : List.Forall₂ (fun d d' => (∃ f ps b b', d = .functionDefinition f ps b ∧ d' = .functionDefinition f ps b' ∧ Q b b') ∨
      ∃ x e e', d = .globalVariableDefinition x e ∧ d' = .globalVariableDefinition x e' ∧ Q e e') ds ds') :
    ∀ (cfg cfg' : Cfg) (st : St), Linked Q cfg cfg' →
      (define n ds cfg st = .diverge) ∨ (define n ds cfg st = .panic ∧ ∃ m, ∀ k, m ≤ k → define k ds' cfg' st = .panic) ∨
      ∃ c c' st', define n ds cfg st = .ok c st' ∧ Linked Q c c' ∧ ∃ m, ∀ k, m ≤ k → define k ds' cfg' st = .ok c' st' := by
  induction h with
  | nil => exact fun cfg cfg' st hl => .inr (.inr ⟨cfg, cfg', st, rfl, hl, 0, fun _ _ => rfl⟩)
  | cons hd _ ih =>
    intro cfg cfg' st hl
    rcases hd with ⟨f, ps, b, b', rfl, rfl, hb⟩ | ⟨x, e, e', rfl, rfl, he⟩
    · simp only [define]
      refine ih _ _ st ⟨hl.checks, fun g => ?_⟩
      simp only [Map.insert]
      by_cases hg : g = f
      · simp only [hg, if_true]
        exact .inr ⟨ps, b, b', rfl, rfl, hb⟩
      · simp only [hg, if_false]
        exact hl.fns g
    · simp only [define]
      rcases sim hQ hl n e e' st he with h1 | ⟨m, hm⟩
      · rw [h1]
        exact .inl rfl
      · simp only at hm
        cases h1 : interpret cfg n e st with
        | diverge => exact .inl rfl
        | panic => exact .inr (.inl ⟨rfl, m, fun k hk => by rw [hm k hk, h1]; rfl⟩)
        | ok v st1 =>
          rw [h1] at hm
          rcases ih cfg cfg' st1 hl with h2 | ⟨h2, l, h3⟩ | ⟨c, c', st', h2, h3, l, h4⟩
          · exact .inl h2
          · refine .inr (.inl ⟨h2, max m l, fun k hk => ?_⟩)
            rw [hm k (by omega)]
            exact h3 k (by omega)
          · refine .inr (.inr ⟨c, c', st', h2, h3, max m l, fun k hk => ?_⟩)
            rw [hm k (by omega)]
            exact h4 k (by omega)

theorem sim_main {Q : Expr → Expr → Prop} (hQ : Replacement Q) (n : Nat) {ds ds' : List Expr}
    (h : List.Forall₂ (fun d d' => (∃ f ps b b', d = .functionDefinition f ps b ∧ d' = .functionDefinition f ps b' ∧ Q b b') ∨
      ∃ x e e', d = .globalVariableDefinition x e ∧ d' = .globalVariableDefinition x e' ∧ Q e e') ds ds') (cfg : Cfg) (st : St) :
    Simulates (callMain n cfg st (.program ds)) fun k => callMain k cfg st (.program ds') := by
  have hself : Linked Q cfg cfg := ⟨rfl, fun f => by
    cases hf : cfg.fns f with
    | none => exact .inl ⟨rfl, rfl⟩
    | some pb => exact .inr ⟨pb.1, pb.2, pb.2, rfl, rfl, hQ.refl _⟩⟩
  simp only [callMain]
  rcases sim_define hQ n h cfg cfg st hself with h1 | ⟨h1, m, h2⟩ | ⟨c, c', st', h1, hl, m, h2⟩
  · rw [h1]
    exact .inl rfl
  · rw [h1]
    exact .inr ⟨m, fun k hk => by simp only [h2 k hk]; rfl⟩
  · rw [h1]
    have hmain : Simulates (match c.fns "main" with
        | none => .panic
        | some (_, body) => interpret c n body st') fun k => match c'.fns "main" with
        | none => .panic
        | some (_, body) => interpret c' k body st' := by
      rcases hl.fns "main" with ⟨h3, h4⟩ | ⟨ps, b, b', h3, h4, hb⟩
      · rw [h3, h4]
        exact Simulates.const _
      · rw [h3, h4]
        exact sim hQ hl n b b' st' hb
    rcases hmain with h3 | ⟨l, h3⟩
    · exact .inl h3
    · refine .inr ⟨max m l, fun k hk => ?_⟩
      simp only [h2 k (by omega)]
      exact h3 k (by omega)

end OniComb.Toys
