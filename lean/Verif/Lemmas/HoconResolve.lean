import Verif.Lemmas.HoconPath
import Verif.Lemmas.HoconValue
import Verif.Spec.HoconResolve

/-! # Helper lemmas: resolution of references -/

namespace OniComb.Hocon
open OniComb OniComb.Hocon.Spec
open OniComb.Uri (Bytes byte bytes)

variable {A B : Type} {env : Env} {src v w : Value} {n m : Nat}

theorem getValue_leads {path : Bytes} {x : Value} (h : Leads src path x) : getValue src path = .ok (some x) := by
  obtain ⟨ss, hne, hs, rfl, hd⟩ := h
  unfold getValue
  rw [getValueN_legal _ _ ss hne hs (Nat.lt_succ_self _), hd]

theorem getValue_missing {path : Bytes} (h : Missing src path) : getValue src path = .ok none := by
  obtain ⟨ss, hne, hs, rfl, hd⟩ := h
  unfold getValue
  rw [getValueN_legal _ _ ss hne hs (Nat.lt_succ_self _), hd]

theorem leads_or_missing {path : Bytes} (h : PathText path) : (∃ x, Leads src path x) ∨ Missing src path := by
  obtain ⟨ss, hne, hs, rfl⟩ := h
  cases hd : descend ss src with
  | none => exact .inr ⟨ss, hne, hs, rfl, hd⟩
  | some x => exact .inl ⟨x, ss, hne, hs, rfl, hd⟩

theorem leads_unique {path : Bytes} {x y : Value} (h : Leads src path x) (h' : Leads src path y) : x = y := by
  have := (getValue_leads h).symm.trans (getValue_leads h')
  cases this; rfl

theorem resolve_arr (vs : List Value) : resolve env src (n + 1) (.arr vs) =
    (mapOut (resolve env src n) vs).bind fun vs => .ok (.arr vs) := rfl

theorem resolve_obj (es : Entries) : resolve env src (n + 1) (.obj es) =
    (mapOut (fun e => (resolve env src n e.2).bind fun v => .ok (e.1, v)) es).bind fun es => .ok (.obj es) := rfl

theorem resolve_ref (prev : Option Value) (path : Bytes) (missing : Bool) :
    resolve env src (n + 1) (.ref prev path missing) =
      (getValue src path).bind fun found =>
        match found.or ((env.var path).map .str) with
        | some v => resolve env src n v
        | none =>
          if missing then
            match prev with
            | some p => .ok (prevLatest p)
            | none => .panic
          else .panic := rfl

theorem resolve_enum (prev : Option Value) (vs : List Value) : resolve env src (n + 1) (.enumeration prev vs) =
    (mapOut (resolve env src n) vs).bind fun vs =>
      let result := vs.flatMap fun v => match v with
        | .str s => s
        | _ => []
      if result.isEmpty then
        match prev with
        | some p => .ok (prevLatest p)
        | none => .panic
      else .ok (.str result) := rfl

theorem resolve_constant (h : Constant v) : resolve env src (n + 1) v = .ok v := by
  cases v <;> first | rfl | exact absurd h (fun h => h)

/-! ### More fuel -/

theorem mapOut_mono {f g : A → Out B} (h : ∀ a b, f a = .ok b → g a = .ok b) :
    ∀ {l : List A} {r : List B}, mapOut f l = .ok r → mapOut g l = .ok r
  | [], r, hr => hr
  | a :: l, r, hr => by
    simp only [mapOut] at hr ⊢
    obtain ⟨b, h1, hr⟩ := bind_eq_ok.1 hr
    obtain ⟨bs, h2, hr⟩ := bind_eq_ok.1 hr
    exact bind_eq_ok.2 ⟨b, h a b h1, bind_eq_ok.2 ⟨bs, mapOut_mono h h2, hr⟩⟩

theorem pushAll_mono {f g : Value → Out Value} (h : ∀ a b, f a = .ok b → g a = .ok b) :
    ∀ {l : List Value} {a r : Value}, pushAll f a l = .ok r → pushAll g a l = .ok r
  | [], a, r, hr => hr
  | e :: l, a, r, hr => by
    simp only [pushAll] at hr ⊢
    obtain ⟨b, h1, hr⟩ := bind_eq_ok.1 hr
    exact bind_eq_ok.2 ⟨b, h e b h1, pushAll_mono h hr⟩

theorem resolve_succ {env : Env} {src : Value} : ∀ (n : Nat) (v w : Value), resolve env src n v = .ok w → resolve env src (n + 1) v = .ok w
  | 0, _, _, h => by cases h
  | n + 1, v, w, h => by
    have ih := resolve_succ (env := env) (src := src) n
    cases v with
    | arr vs =>
      rw [resolve] at h ⊢
      obtain ⟨r, h1, h2⟩ := bind_eq_ok.1 h
      exact bind_eq_ok.2 ⟨r, mapOut_mono ih h1, h2⟩
    | obj es =>
      rw [resolve] at h ⊢
      obtain ⟨r, h1, h2⟩ := bind_eq_ok.1 h
      refine bind_eq_ok.2 ⟨r, mapOut_mono (fun a b hb => ?_) h1, h2⟩
      obtain ⟨x, h3, h4⟩ := bind_eq_ok.1 hb
      exact bind_eq_ok.2 ⟨x, ih _ _ h3, h4⟩
    | enumeration prev vs =>
      simp only [resolve] at h ⊢
      obtain ⟨r, h1, h2⟩ := bind_eq_ok.1 h
      exact bind_eq_ok.2 ⟨r, mapOut_mono ih h1, h2⟩
    | link p v =>
      rw [resolve] at h ⊢
      cases hc : toVec (.link p v) with
      | nil => rw [hc] at h; exact h
      | cons c cs =>
        rw [hc] at h
        obtain ⟨r, h1, h2⟩ := bind_eq_ok.1 h
        exact bind_eq_ok.2 ⟨r, ih _ _ h1, pushAll_mono ih h2⟩
    | ref prev path missing =>
      rw [resolve_ref] at h ⊢
      obtain ⟨f, h1, h2⟩ := bind_eq_ok.1 h
      refine bind_eq_ok.2 ⟨f, h1, ?_⟩
      cases ho : f.or ((env.var path).map .str) with
      | none => rw [ho] at h2; exact h2
      | some x => rw [ho] at h2; exact ih _ _ h2
    | null => exact h
    | bool b => exact h
    | str s => exact h
    | num d => exact h
    | dur d u => exact h
    | incl a b => exact h

theorem resolve_le (h : n ≤ m) (hr : resolve env src n v = .ok w) : resolve env src m v = .ok w := by
  induction h with
  | refl => exact hr
  | step _ ih => exact resolve_succ _ _ _ ih

/-! ### Chains of definitions -/

/-- A chain resolves like its older part, with the newest value pushed. -/
theorem resolve_link (p v : Value) : resolve env src (n + 1) (.link p v) =
    (match p with
      | .link _ _ => resolve env src (n + 1) p
      | p => resolve env src n p).bind fun head => (resolve env src n v).bind fun ee => .ok (push head ee) := by
  have key : ∀ (f : Value → Out Value) (l : List Value) (a : Value),
      pushAll f a (l ++ [v]) = (pushAll f a l).bind fun head => (f v).bind fun ee => .ok (push head ee) := by
    intro f l
    induction l with
    | nil => intro a; rfl
    | cons e l ih =>
      intro a
      simp only [List.cons_append, pushAll]
      cases f e with
      | ok b => exact ih _
      | panic => rfl
      | diverge => rfl
  rw [resolve]
  cases p with
  | link p' v' =>
    dsimp only
    rw [resolve]
    cases hc : toVec (.link p' v') with
    | nil => exact absurd hc (toVec_ne _)
    | cons c cs =>
      have : toVec (.link (.link p' v') v) = c :: (cs ++ [v]) := by rw [toVec, hc]; rfl
      rw [this]
      dsimp only
      cases resolve env src n c with
      | ok b => exact key _ _ _
      | panic => rfl
      | diverge => rfl
  | _ => rfl

theorem resolve_link_ok {p v w : Value} (h : resolve env src n (.link p v) = .ok w) :
    ∃ a b, resolve env src n p = .ok a ∧ resolve env src n v = .ok b ∧ w = push a b := by
  cases n with
  | zero => cases h
  | succ n =>
    rw [resolve_link] at h
    obtain ⟨a, h1, h⟩ := bind_eq_ok.1 h
    obtain ⟨b, h2, h⟩ := bind_eq_ok.1 h
    cases h
    refine ⟨a, b, ?_, resolve_succ _ _ _ h2, rfl⟩
    cases p with
    | link _ _ => exact h1
    | _ => exact resolve_succ _ _ _ h1

theorem resolve_link_intro {p v a b : Value} (h1 : resolve env src n p = .ok a) (h2 : resolve env src n v = .ok b) :
    resolve env src (n + 1) (.link p v) = .ok (push a b) := by
  rw [resolve_link]
  refine bind_eq_ok.2 ⟨a, ?_, bind_eq_ok.2 ⟨b, h2, rfl⟩⟩
  cases p with
  | link _ _ => exact resolve_succ _ _ _ h1
  | _ => exact h1

/-! ### Never returns -/

theorem mapOut_mem {f : A → Out B} : ∀ {l : List A} {r : List B}, mapOut f l = .ok r → ∀ a ∈ l, ∃ b, f a = .ok b
  | [], _, _, a, ha => by cases ha
  | x :: l, r, h, a, ha => by
    simp only [mapOut] at h
    obtain ⟨b, h1, h⟩ := bind_eq_ok.1 h
    obtain ⟨bs, h2, h⟩ := bind_eq_ok.1 h
    rcases List.mem_cons.1 ha with rfl | ha
    · exact ⟨b, h1⟩
    · exact mapOut_mem h2 a ha

/-- A reference into a set of paths whose values all hold a reference into the set is never resolved. -/
theorem resolve_cyclic {P : Bytes → Prop}
    (hP : ∀ p, P p → ∃ x, Leads src p x ∧ ∃ q, P q ∧ Mentions x q) :
    ∀ (n : Nat) (v : Value) (p : Bytes), P p → Mentions v p → ∀ w, resolve env src n v ≠ .ok w := by
  intro n
  induction n with
  | zero => intro v p _ _ w h; cases h
  | succ n ih =>
    intro v p hp hm
    induction hm with
    | ref =>
      intro w h
      obtain ⟨x, hx, q, hq, hm⟩ := hP _ hp
      rw [resolve_ref, getValue_leads hx] at h
      exact ih x q hq hm w h
    | elem hv hm _ =>
      intro w h
      rw [resolve] at h
      obtain ⟨r, h1, -⟩ := bind_eq_ok.1 h
      obtain ⟨b, hb⟩ := mapOut_mem h1 _ hv
      exact ih _ _ hp hm b hb
    | value he hm _ =>
      intro w h
      rw [resolve] at h
      obtain ⟨r, h1, -⟩ := bind_eq_ok.1 h
      obtain ⟨b, hb⟩ := mapOut_mem h1 _ he
      obtain ⟨x, hx, -⟩ := bind_eq_ok.1 hb
      exact ih _ _ hp hm x hx
    | older hm ihm =>
      intro w h
      obtain ⟨a, b, h1, -, -⟩ := resolve_link_ok h
      exact ihm hp a h1
    | newer hm ihm =>
      intro w h
      obtain ⟨a, b, -, h2, -⟩ := resolve_link_ok h
      exact ihm hp b h2
    | part hv hm _ =>
      intro w h
      rw [resolve_enum] at h
      obtain ⟨r, h1, -⟩ := bind_eq_ok.1 h
      obtain ⟨b, hb⟩ := mapOut_mem h1 _ hv
      exact ih _ _ hp hm b hb

/-! ### What is returned -/

theorem settled_noRef (h : Settled v) : ∀ a b c, v ≠ .ref a b c := by
  cases h with
  | constant h => rintro a b c rfl; exact h
  | arr => simp
  | obj => simp
  | link => simp

theorem settled_free {q : Bytes} (h : Settled v) : ¬ Mentions v q := by
  induction h with
  | constant h => intro hm; cases hm <;> exact h
  | arr _ ih => intro hm; cases hm with | elem hv hm => exact ih _ hv hm
  | obj _ ih => intro hm; cases hm with | value hv hm => exact ih _ hv hm
  | link _ _ ih1 ih2 =>
    intro hm
    cases hm with
    | older hm => exact ih1 hm
    | newer hm => exact ih2 hm

theorem prevLatest_notLink (h : ¬ IsLink v) : prevLatest v = v := by
  cases v with
  | link _ _ => exact absurd trivial h
  | _ => rfl

theorem demands_mentions {q : Bytes} (h : Demands v q) : Mentions v q := by
  induction h with
  | ref => exact .ref
  | elem hv _ ih => exact .elem hv ih
  | value hv _ ih => exact .value hv ih
  | older _ ih => exact .older ih
  | newer _ ih => exact .newer ih
  | part hv _ ih => exact .part hv ih

theorem resolved_noRef {var : Bytes → Option Bytes} (h : Resolved var src v w) : ∀ a b c, w ≠ .ref a b c := by
  induction h with
  | constant h => intro a b c e; subst e; exact h
  | nil => intro a b c e; cases e
  | cons => intro a b c e; cases e
  | empty => intro a b c e; cases e
  | entry => intro a b c e; cases e
  | link => intro a b c e; cases e
  | found _ _ ih => exact ih
  | «variable» => intro a b c e; cases e
  | fallback _ _ hp => exact settled_noRef hp
  | concat => intro a b c e; cases e

theorem push_noRef {a b : Value} (h : ∀ x y z, b ≠ .ref x y z) : push a b = .link a b := by
  cases b with
  | ref x y z => exact absurd rfl (h x y z)
  | _ => rfl

theorem plain_latest {var : Bytes → Option Bytes} (h : Plain var src v) : Plain var src (latest v) := by
  cases h with
  | constant h => cases v <;> first | exact .constant h | exact absurd h (fun h => h)
  | arr h => exact .arr h
  | obj h => exact .obj h
  | link _ hv => exact hv
  | ref hp ho => exact .ref hp ho
  | concat h hs hne => exact .concat h hs hne

theorem plain_descend {var : Bytes → Option Bytes} {doc : Value} {ss : List Bytes} : ∀ {v x : Value}, Plain var doc v →
    descend ss v = some x → Plain var doc x := by
  induction ss with
  | nil => intro v x h hd; cases hd; exact h
  | cons s ss ih =>
    intro v x h hd
    cases v with
    | obj es =>
      rw [descend] at hd
      obtain ⟨y, h1, h2⟩ := Option.bind_eq_some_iff.1 hd
      cases h with
      | constant h => exact absurd h (fun h => h)
      | obj h => exact ih (plain_latest (h _ (get_mem h1))) h2
    | _ => cases hd

theorem plain_leads {var : Bytes → Option Bytes} {doc : Value} {p : Bytes} {x : Value} (h : Plain var doc doc)
    (hx : Leads doc p x) : Plain var doc x := by
  obtain ⟨ss, -, -, -, hd⟩ := hx
  exact plain_descend h hd

theorem resolved_arr {var : Bytes → Option Bytes} {f : Value → Out Value} : ∀ {vs ws : List Value},
    (∀ v ∈ vs, ∀ w, f v = .ok w → Resolved var src v w) → mapOut f vs = .ok ws → Resolved var src (.arr vs) (.arr ws)
  | [], ws, _, h => by cases h; exact .nil
  | a :: vs, ws, hf, h => by
    simp only [mapOut] at h
    obtain ⟨b, h2, h⟩ := bind_eq_ok.1 h
    obtain ⟨bs, h3, h⟩ := bind_eq_ok.1 h
    cases h
    exact .cons (hf a (by simp) b h2) (resolved_arr (fun x hx => hf x (by simp [hx])) h3)

theorem resolved_obj {var : Bytes → Option Bytes} {f : Bytes × Value → Out (Bytes × Value)} : ∀ {vs ws : Entries},
    (∀ v ∈ vs, ∀ w, f v = .ok w → w.1 = v.1 ∧ Resolved var src v.2 w.2) → mapOut f vs = .ok ws →
      Resolved var src (.obj vs) (.obj ws)
  | [], ws, _, h => by cases h; exact .empty
  | (k, a) :: vs, ws, hf, h => by
    simp only [mapOut] at h
    obtain ⟨⟨k', b⟩, h2, h⟩ := bind_eq_ok.1 h
    obtain ⟨bs, h3, h⟩ := bind_eq_ok.1 h
    cases h
    obtain ⟨h4, h5⟩ := hf (k, a) (by simp) _ h2
    cases h4
    exact .entry h5 (resolved_obj (fun x hx => hf x (by simp [hx])) h3)

theorem mapOut_map {f : A → Out B} {g : A → B} : ∀ {l : List A}, (∀ a ∈ l, f a = .ok (g a)) → mapOut f l = .ok (l.map g)
  | [], _ => rfl
  | a :: l, h => by
    rw [mapOut, h a (by simp), Out.bind, mapOut_map fun x hx => h x (List.mem_cons_of_mem _ hx)]
    rfl

theorem mapOut_eq_map {f : A → Out B} {g : A → B} {l : List A} {r : List B} (h : mapOut f l = .ok r)
    (hg : ∀ a ∈ l, ∀ b, f a = .ok b → b = g a) : r = l.map g := by
  have : mapOut f l = .ok (l.map g) := mapOut_map fun a ha => by
    obtain ⟨b, hb⟩ := mapOut_mem h a ha
    rw [hb, hg a ha b hb]
  rw [h] at this
  cases this; rfl

theorem resolve_concat {prev : Option Value} {vs : List Value} {text : Value → Bytes}
    (h : ∀ v ∈ vs, resolve env src n v = .ok (.str (text v))) (hne : vs.flatMap text ≠ []) :
    resolve env src (n + 1) (.enumeration prev vs) = .ok (.str (vs.flatMap text)) := by
  rw [resolve_enum]
  refine bind_eq_ok.2 ⟨_, mapOut_map h, ?_⟩
  dsimp only
  rw [List.flatMap_map, if_neg (by simpa using hne)]

/-- What the resolution returns is specified. -/
theorem resolve_sound (hsrc : Plain env.var src src) : ∀ (n : Nat) (v w : Value), Plain env.var src v →
    resolve env src n v = .ok w → Resolved env.var src v w := by
  intro n
  induction n with
  | zero => intro v w _ h; cases h
  | succ n ih =>
    intro v w hv
    induction hv generalizing w with
    | constant hc =>
      intro h
      rw [resolve_constant hc] at h
      cases h
      exact .constant hc
    | @arr vs hvs _ =>
      intro h
      rw [resolve_arr] at h
      obtain ⟨r, h1, h2⟩ := bind_eq_ok.1 h
      cases h2
      exact resolved_arr (fun v hv w hw => ih _ _ (hvs v hv) hw) h1
    | @obj es hes _ =>
      intro h
      rw [resolve_obj] at h
      obtain ⟨r, h1, h2⟩ := bind_eq_ok.1 h
      cases h2
      refine resolved_obj (fun e he w hw => ?_) h1
      obtain ⟨x, hx, h3⟩ := bind_eq_ok.1 hw
      cases h3
      exact ⟨rfl, ih _ _ (hes e he) hx⟩
    | link hp hv ihp ihv =>
      intro h
      obtain ⟨a, b, h1, h2, rfl⟩ := resolve_link_ok h
      have h3 := ihv b h2
      rw [push_noRef (resolved_noRef h3)]
      exact .link (ihp a h1) h3
    | @ref prev path optional hp ho =>
      intro h
      rw [resolve_ref] at h
      rcases leads_or_missing (src := src) hp with ⟨x, hx⟩ | hm
      · rw [getValue_leads hx] at h
        exact .found hx (ih x w (plain_leads hsrc hx) h)
      · rw [getValue_missing hm] at h
        cases hvar : env.var path with
        | some s =>
          simp only [Out.bind, hvar, Option.or] at h
          cases n with
          | zero => cases h
          | succ n => cases h; exact .variable hm hvar
        | none =>
          simp only [Out.bind, hvar, Option.or, Option.map_none] at h
          cases optional with
          | true =>
            rcases ho rfl hm with ⟨s, hs⟩ | ⟨-, p, rfl, hp, hl⟩
            · rw [hvar] at hs; cases hs
            · simp only [prevLatest_notLink hl] at h
              cases h
              exact .fallback hm hvar hp hl
          | false => cases h
    | @concat prev vs hvs hs hne _ =>
      intro h
      have h0 := h
      rw [resolve_enum] at h
      obtain ⟨r, h1, -⟩ := bind_eq_ok.1 h
      have hall : ∀ v : Value, ∃ s : Bytes, v ∈ vs → resolve env src n v = .ok (.str s) := by
        intro v
        by_cases hv : v ∈ vs
        · obtain ⟨b, hb⟩ := mapOut_mem h1 v hv
          obtain ⟨s, rfl⟩ := hs v hv b (ih _ _ (hvs v hv) hb)
          exact ⟨s, fun _ => hb⟩
        · exact ⟨[], fun h => absurd h hv⟩
      obtain ⟨text, ht⟩ := Classical.axiomOfChoice hall
      have hne' : vs.flatMap text ≠ [] := by
        obtain ⟨s, hs, hm⟩ := hne
        have := ht _ hm
        cases n with
        | zero => cases this
        | succ n =>
          rw [resolve_constant (by exact trivial)] at this
          intro he
          have := List.flatMap_eq_nil_iff.1 he _ hm
          simp_all
      rw [resolve_concat ht hne'] at h0
      cases h0
      exact .concat (fun v hv => ih _ _ (hvs v hv) (ht v hv)) hne'

/-- What is specified is returned, given enough fuel. -/
theorem resolve_complete (h : Resolved env.var src v w) : ∃ n, resolve env src n v = .ok w := by
  induction h with
  | constant h => exact ⟨1, resolve_constant h⟩
  | nil => exact ⟨1, rfl⟩
  | cons _ _ ih1 ih2 =>
    obtain ⟨n, h1⟩ := ih1
    obtain ⟨m, h2⟩ := ih2
    cases m with
    | zero => cases h2
    | succ m =>
      rw [resolve_arr] at h2
      obtain ⟨bs, h3, h4⟩ := bind_eq_ok.1 h2
      cases h4
      refine ⟨max n m + 1, ?_⟩
      rw [resolve_arr]
      refine bind_eq_ok.2 ⟨_, bind_eq_ok.2 ⟨_, resolve_le (Nat.le_max_left n m) h1, bind_eq_ok.2 ⟨_, ?_, rfl⟩⟩, rfl⟩
      exact mapOut_mono (fun a b hb => resolve_le (Nat.le_max_right n m) hb) h3
  | empty => exact ⟨1, rfl⟩
  | entry _ _ ih1 ih2 =>
    obtain ⟨n, h1⟩ := ih1
    obtain ⟨m, h2⟩ := ih2
    cases m with
    | zero => cases h2
    | succ m =>
      rw [resolve_obj] at h2
      obtain ⟨bs, h3, h4⟩ := bind_eq_ok.1 h2
      cases h4
      refine ⟨max n m + 1, ?_⟩
      rw [resolve_obj]
      refine bind_eq_ok.2 ⟨_, bind_eq_ok.2 ⟨_, bind_eq_ok.2 ⟨_, resolve_le (Nat.le_max_left n m) h1, rfl⟩,
        bind_eq_ok.2 ⟨_, ?_, rfl⟩⟩, rfl⟩
      refine mapOut_mono (fun a b hb => ?_) h3
      obtain ⟨x, hx, h5⟩ := bind_eq_ok.1 hb
      exact bind_eq_ok.2 ⟨x, resolve_le (Nat.le_max_right n m) hx, h5⟩
  | link hp hv ih1 ih2 =>
    obtain ⟨n, h1⟩ := ih1
    obtain ⟨m, h2⟩ := ih2
    refine ⟨max n m + 1, ?_⟩
    rw [resolve_link_intro (resolve_le (Nat.le_max_left n m) h1) (resolve_le (Nat.le_max_right n m) h2),
      push_noRef (resolved_noRef hv)]
  | found hx _ ih =>
    obtain ⟨n, h1⟩ := ih
    refine ⟨n + 1, ?_⟩
    rw [resolve_ref, getValue_leads hx]
    exact h1
  | «variable» hx hs =>
    refine ⟨2, ?_⟩
    rw [resolve_ref, getValue_missing hx]
    simp only [Out.bind, hs, Option.or]
    rfl
  | fallback hx hs _ hl =>
    refine ⟨1, ?_⟩
    rw [resolve_ref, getValue_missing hx]
    simp only [Out.bind, hs, Option.or, Option.map_none, if_true, prevLatest_notLink hl]
  | @concat prev vs text _ hne ih =>
    have key : ∀ l : List Value, (∀ v ∈ l, ∃ n, resolve env src n v = .ok (.str (text v))) →
        ∃ n, ∀ v ∈ l, resolve env src n v = .ok (.str (text v)) := by
      intro l
      induction l with
      | nil => exact fun _ => ⟨0, by simp⟩
      | cons a l ihl =>
        intro h
        obtain ⟨n, hn⟩ := h a (by simp)
        obtain ⟨m, hm⟩ := ihl fun v hv => h v (List.mem_cons_of_mem _ hv)
        refine ⟨max n m, fun v hv => ?_⟩
        rcases List.mem_cons.1 hv with rfl | hv
        · exact resolve_le (Nat.le_max_left n m) hn
        · exact resolve_le (Nat.le_max_right n m) (hm v hv)
    obtain ⟨n, hn⟩ := key vs ih
    exact ⟨n + 1, resolve_concat hn hne⟩

theorem resolved_unique {var : Bytes → Option Bytes} {w' : Value} (h : Resolved var src v w) (h' : Resolved var src v w') :
    w = w' := by
  obtain ⟨n, h1⟩ := resolve_complete (env := ⟨var, fun _ => .panic⟩) h
  obtain ⟨m, h2⟩ := resolve_complete (env := ⟨var, fun _ => .panic⟩) h'
  have h3 := resolve_le (Nat.le_max_left n m) h1
  have h4 := resolve_le (Nat.le_max_right n m) h2
  rw [h3] at h4
  cases h4; rfl

/-! ### Documents without cycles -/

theorem exists_arr {var : Bytes → Option Bytes} : ∀ {vs : List Value}, (∀ v ∈ vs, ∃ w, Resolved var src v w) →
    ∃ w, Resolved var src (.arr vs) w
  | [], _ => ⟨_, .nil⟩
  | a :: vs, h => by
    obtain ⟨w, hw⟩ := h a (by simp)
    obtain ⟨ws, hws⟩ := exists_arr fun x hx => h x (List.mem_cons_of_mem _ hx)
    cases hws with
    | constant hc => exact absurd hc (fun h => h)
    | nil => exact ⟨_, .cons hw .nil⟩
    | cons h1 h2 => exact ⟨_, .cons hw (.cons h1 h2)⟩

theorem exists_obj {var : Bytes → Option Bytes} : ∀ {es : Entries}, (∀ e ∈ es, ∃ w, Resolved var src e.2 w) →
    ∃ w, Resolved var src (.obj es) w
  | [], _ => ⟨_, .empty⟩
  | (k, a) :: vs, h => by
    obtain ⟨w, hw⟩ := h (k, a) (by simp)
    obtain ⟨ws, hws⟩ := exists_obj fun x hx => h x (List.mem_cons_of_mem _ hx)
    cases hws with
    | constant hc => exact absurd hc (fun h => h)
    | empty => exact ⟨_, .entry hw .empty⟩
    | entry h1 h2 => exact ⟨_, .entry hw (.entry h1 h2)⟩

theorem exists_concat {var : Bytes → Option Bytes} {prev : Option Value} {vs : List Value}
    (h : ∀ v ∈ vs, ∃ w, Resolved var src v w) (hs : ∀ v ∈ vs, ∀ w, Resolved var src v w → ∃ s, w = .str s)
    (hne : ∃ s, s ≠ [] ∧ .str s ∈ vs) : ∃ w, Resolved var src (.enumeration prev vs) w := by
  have hall : ∀ v : Value, ∃ s : Bytes, v ∈ vs → Resolved var src v (.str s) := by
    intro v
    by_cases hv : v ∈ vs
    · obtain ⟨w, hw⟩ := h v hv
      obtain ⟨s, rfl⟩ := hs v hv w hw
      exact ⟨s, fun _ => hw⟩
    · exact ⟨[], fun h => absurd h hv⟩
  obtain ⟨text, ht⟩ := Classical.axiomOfChoice hall
  refine ⟨_, .concat ht ?_⟩
  obtain ⟨s, hs, hm⟩ := hne
  intro he
  have h1 := List.flatMap_eq_nil_iff.1 he _ hm
  have h2 := resolved_unique (ht _ hm) (.constant trivial)
  simp_all

theorem resolved_exists {var : Bytes → Option Bytes} (hsrc : Plain var src src)
    (hfound : ∀ v q, (v = src ∨ ∃ p, Leads src p v) → Demands v q → Missing src q → ∃ s, var q = some s)
    (rank : Bytes → Nat) (hrank : ∀ p x q, Leads src p x → Mentions x q → rank q < rank p) :
    ∀ (k : Nat) (v : Value), Plain var src v → (∀ q, Mentions v q → rank q < k) →
      (∀ q, Demands v q → Missing src q → ∃ s, var q = some s) → ∃ w, Resolved var src v w := by
  intro k
  induction k with
  | zero =>
    intro v hv hk hf
    induction hv with
    | constant hc => exact ⟨_, .constant hc⟩
    | arr _ ih => exact exists_arr fun v hv => ih v hv (fun q hq => hk q (.elem hv hq)) (fun q hq => hf q (.elem hv hq))
    | obj _ ih => exact exists_obj fun v hv => ih v hv (fun q hq => hk q (.value hv hq)) (fun q hq => hf q (.value hv hq))
    | link _ _ ih1 ih2 =>
      obtain ⟨a, ha⟩ := ih1 (fun q hq => hk q (.older hq)) (fun q hq => hf q (.older hq))
      obtain ⟨b, hb⟩ := ih2 (fun q hq => hk q (.newer hq)) (fun q hq => hf q (.newer hq))
      exact ⟨_, .link ha hb⟩
    | ref hp ho => exact absurd (hk _ .ref) (Nat.not_lt_zero _)
    | concat _ hs hne ih =>
      exact exists_concat (fun v hv => ih v hv (fun q hq => hk q (.part hv hq)) (fun q hq => hf q (.part hv hq))) hs hne
  | succ k ihk =>
    intro v hv hk hf
    induction hv with
    | constant hc => exact ⟨_, .constant hc⟩
    | arr _ ih => exact exists_arr fun v hv => ih v hv (fun q hq => hk q (.elem hv hq)) (fun q hq => hf q (.elem hv hq))
    | obj _ ih => exact exists_obj fun v hv => ih v hv (fun q hq => hk q (.value hv hq)) (fun q hq => hf q (.value hv hq))
    | link _ _ ih1 ih2 =>
      obtain ⟨a, ha⟩ := ih1 (fun q hq => hk q (.older hq)) (fun q hq => hf q (.older hq))
      obtain ⟨b, hb⟩ := ih2 (fun q hq => hk q (.newer hq)) (fun q hq => hf q (.newer hq))
      exact ⟨_, .link ha hb⟩
    | @ref prev path optional hp ho =>
      rcases leads_or_missing (src := src) hp with ⟨x, hx⟩ | hm
      · have h1 := hk _ (.ref (prev := prev) (optional := optional))
        obtain ⟨w, hw⟩ := ihk x (plain_leads hsrc hx)
          (fun q hq => by have := hrank _ _ _ hx hq; omega) (fun q hq => hfound x q (.inr ⟨_, hx⟩) hq)
        exact ⟨w, .found hx hw⟩
      · cases hv : var path with
        | some s => exact ⟨_, .variable hm hv⟩
        | none =>
          by_cases hd : HasDefault prev optional
          · obtain ⟨rfl, p, rfl, hp, hl⟩ := hd
            exact ⟨_, .fallback hm hv hp hl⟩
          · obtain ⟨s, hs⟩ := hf _ (.ref hd) hm
            rw [hv] at hs; cases hs
    | concat _ hs hne ih =>
      exact exists_concat (fun v hv => ih v hv (fun q hq => hk q (.part hv hq)) (fun q hq => hf q (.part hv hq))) hs hne

/-! ### Lookup in the resolved document -/

theorem resolved_notLink {var : Bytes → Option Bytes} (hflat : ∀ p x, Leads src p x → ¬ IsLink x)
    (h : Resolved var src v w) (hv : ¬ IsLink v) : ¬ IsLink w := by
  induction h with
  | constant h => exact hv
  | nil => exact hv
  | cons => exact fun h => h
  | empty => exact hv
  | entry => exact fun h => h
  | link => exact absurd trivial hv
  | found hx _ ih => exact ih (hflat _ _ hx)
  | «variable» => exact fun h => h
  | fallback _ _ _ hl => exact hl
  | concat => exact fun h => h

theorem latest_notLink (h : ¬ IsLink v) : latest v = v := by
  cases v with
  | link _ _ => exact absurd trivial h
  | _ => rfl

theorem resolved_latest {var : Bytes → Option Bytes} (hflat : ∀ p x, Leads src p x → ¬ IsLink x)
    (h : Resolved var src v w) : Resolved var src (latest v) (latest w) := by
  by_cases hv : IsLink v
  · cases h with
    | constant h => cases v <;> first | exact absurd hv (fun h => h) | exact absurd h (fun h => h)
    | link _ h => exact h
    | nil => exact absurd hv (fun h => h)
    | cons => exact absurd hv (fun h => h)
    | empty => exact absurd hv (fun h => h)
    | entry => exact absurd hv (fun h => h)
    | found => exact absurd hv (fun h => h)
    | «variable» => exact absurd hv (fun h => h)
    | fallback => exact absurd hv (fun h => h)
    | concat => exact absurd hv (fun h => h)
  · rw [latest_notLink hv, latest_notLink (resolved_notLink hflat h hv)]; exact h

theorem resolved_get {var : Bytes → Option Bytes} {k : Bytes} : ∀ {es : Entries} {w x : Value},
    Resolved var src (.obj es) w → get k es = some x →
    ∃ fs y, w = .obj fs ∧ get k fs = some y ∧ Resolved var src x y
  | [], _, _, _, h => by cases h
  | (k', v') :: es, w, x, hr, h => by
    cases hr with
    | constant hc => exact absurd hc (fun h => h)
    | entry h1 h2 =>
      rw [get] at h
      split at h
      · rename_i hk; cases h; exact ⟨_, _, rfl, by rw [get, if_pos hk], h1⟩
      · rename_i hk
        obtain ⟨fs, y, h3, h4, h5⟩ := resolved_get h2 h
        cases h3
        exact ⟨_, y, rfl, by rw [get, if_neg hk]; exact h4, h5⟩

theorem resolved_get_none {var : Bytes → Option Bytes} {k : Bytes} : ∀ {es fs : Entries},
    Resolved var src (.obj es) (.obj fs) → get k es = none → get k fs = none
  | [], _, hr, h => by
    cases hr with
    | constant hc => exact absurd hc (fun h => h)
    | empty => rfl
  | (k', v') :: es, fs, hr, h => by
    cases hr with
    | constant hc => exact absurd hc (fun h => h)
    | entry h1 h2 =>
      rw [get] at h ⊢
      split at h
      · cases h
      · rename_i hk; rw [if_neg hk]; exact resolved_get_none h2 h

theorem resolved_descend {var : Bytes → Option Bytes} (hflat : ∀ p x, Leads src p x → ¬ IsLink x) {ss : List Bytes} :
    ∀ {v w x : Value}, Resolved var src v w → descend ss v = some x → ∃ y, descend ss w = some y ∧ Resolved var src x y := by
  induction ss with
  | nil => intro v w x h hd; cases hd; exact ⟨w, rfl, h⟩
  | cons s ss ih =>
    intro v w x h hd
    cases v with
    | obj es =>
      rw [descend] at hd
      obtain ⟨y, h1, h2⟩ := Option.bind_eq_some_iff.1 hd
      obtain ⟨fs, z, rfl, h3, h4⟩ := resolved_get h h1
      obtain ⟨u, h5, h6⟩ := ih (resolved_latest hflat h4) h2
      exact ⟨u, by rw [descend, h3]; exact h5, h6⟩
    | _ => cases hd

/-- A reference and what it refers to have the same value afterwards. -/
theorem resolved_same {var : Bytes → Option Bytes} {p q : Bytes} {prev : Option Value} {o : Bool} {z : Value}
    (hflat : ∀ p x, Leads src p x → ¬ IsLink x) (h : Resolved var src src w)
    (hp : Leads src p (.ref prev q o)) (hq : Leads src q z) : ∃ y, Leads w p y ∧ Leads w q y := by
  obtain ⟨ss, a1, a2, a3, a4⟩ := hp
  obtain ⟨x1, a5, a6⟩ := resolved_descend hflat h a4
  have hq' := hq
  obtain ⟨ts, b1, b2, b3, b4⟩ := hq
  obtain ⟨x2, b5, b6⟩ := resolved_descend hflat h b4
  have : x1 = x2 := by
    cases a6 with
    | constant hc => exact absurd hc (fun h => h)
    | found hx h1 => cases leads_unique hx hq'; exact resolved_unique h1 b6
    | «variable» hm _ =>
      have h1 := getValue_leads hq'
      rw [getValue_missing hm] at h1
      cases h1
    | fallback hm =>
      have h1 := getValue_leads hq'
      rw [getValue_missing hm] at h1
      cases h1
  subst this
  exact ⟨x1, ⟨ss, a1, a2, a3, a5⟩, ⟨ts, b1, b2, b3, b5⟩⟩

/-- No reference is left. -/
theorem resolved_free {var : Bytes → Option Bytes} (h : Resolved var src v w) : ∀ q, ¬ Mentions w q := by
  induction h with
  | constant h => intro q hm; cases hm <;> exact h
  | nil => intro q hm; cases hm with | elem hv _ => cases hv
  | cons _ _ ih1 ih2 =>
    intro q hm
    cases hm with
    | elem hv h =>
      rcases List.mem_cons.1 hv with rfl | hv
      · exact ih1 q h
      · exact ih2 q (.elem hv h)
  | empty => intro q hm; cases hm with | value hv _ => cases hv
  | entry _ _ ih1 ih2 =>
    intro q hm
    cases hm with
    | value hv h =>
      rcases List.mem_cons.1 hv with rfl | hv
      · exact ih1 q h
      · exact ih2 q (.value hv h)
  | link _ _ ih1 ih2 =>
    intro q hm
    cases hm with
    | older h => exact ih1 q h
    | newer h => exact ih2 q h
  | found _ _ ih => exact ih
  | «variable» => intro q hm; cases hm
  | fallback _ _ hp => exact fun q => settled_free hp
  | concat => intro q hm; cases hm

end OniComb.Hocon
