import Verif.Props.HoconMeaning
import Verif.Lemmas.HoconOrder

/-!
# C126: the iteration order of the maps of a hocon document

The maps are `HashMap`s with a random hasher: their order is different in every run.  `Same` relates values that differ
in the order of the entries of maps only (at any depth), `Alike` the results of two runs.
-/

namespace OniComb.Hocon
open OniComb OniComb.Hocon.Spec
open OniComb.Uri (Bytes byte bytes)

/-- Another order of the entries of a map is `Same`. -/
theorem same_of_perm {es fs : Entries} (h : es.Perm fs) (hn : (keys es).Nodup) : Same (.obj es) (.obj fs) := by
  have hn' : (keys fs).Nodup := (h.map _).nodup_iff.1 hn
  have hg : ∀ k x, get k es = some x ↔ get k fs = some x := fun k x =>
    ⟨fun hx => get_of_mem hn' (h.mem_iff.1 (get_mem hx)), fun hx => get_of_mem hn (h.mem_iff.2 (get_mem hx))⟩
  refine .obj (fun k => ?_) fun k x y hx hy => ?_
  · simp only [Option.isSome_iff_exists, hg]
  · rw [(hg k x).1 hx] at hy
    cases hy
    exact Same.refl x

/-- `get_value` finds the same value, or nothing, or panics, whatever the order of the maps is. -/
theorem c126_get (s s' : Value) (h : Same s s') (p : Bytes) :
    (∀ v, getValue s p = .ok (some v) → ∃ v', getValue s' p = .ok (some v') ∧ Same v v') ∧
    (getValue s p = .ok none → getValue s' p = .ok none) ∧ (getValue s p = .panic → getValue s' p = .panic) := by
  have hf := getValueN_same (p.length + 1) s s' p h
  unfold getValue
  cases e1 : getValueN (p.length + 1) s p with
  | panic =>
    cases e2 : getValueN (p.length + 1) s' p with
    | panic => simp
    | diverge => rw [e1, e2] at hf; cases hf
    | ok o => rw [e1, e2] at hf; cases o <;> cases hf
  | diverge => simp
  | ok o =>
    cases e2 : getValueN (p.length + 1) s' p with
    | panic => rw [e1, e2] at hf; cases o <;> cases hf
    | diverge => rw [e1, e2] at hf; cases o <;> cases hf
    | ok o' =>
      rw [e1, e2] at hf
      cases o with
      | none =>
        cases o' with
        | none => simp
        | some _ => cases hf
      | some x =>
        cases o' with
        | none => cases hf
        | some y => exact ⟨fun v hv => by cases hv; exact ⟨y, rfl, hf⟩, by simp, by simp⟩

/-- Replacing the references of a document gives the same result whatever the order of its maps is. -/
theorem c126_resolve (env env' : Env) (he : AlikeEnv env env') (s s' v v' : Value) (hs : Same s s') (hv : Same v v')
    (ws : Wf s) (ws' : Wf s') (wv : Wf v) (wv' : Wf v') (n : Nat) : Alike (resolve env s n v) (resolve env' s' n v') :=
  alike_iff.2 ⟨resolve_within he.var (fun f => (alike_iff.1 (he.load f)).1) hs ws ws' n v v' wv wv' hv,
    resolve_within (fun p => (he.var p).symm) (fun f => (alike_iff.1 (he.load f)).2) hs.symm ws' ws n v' v wv' wv hv.symm⟩

/-- Dotted keys are written out in the same way whatever the order of the map is, unless one of them is the beginning of
another one. -/
theorem c126_expand_partial (env env' : Env) (he : AlikeEnv env env') (v v' : Value) (hs : Same v v') (wv : Wf v)
    (wv' : Wf v') (ha : Apart v) : Alike (expand env v) (expand env' v') :=
  alike_iff.2 ⟨expand_within (fun f => (alike_iff.1 (he.load f)).1) ha wv wv' hs,
    expand_within (fun f => (alike_iff.1 (he.load f)).2) (apart_same ha hs wv') wv' wv hs.symm⟩

/-- Loading a document gives the same result whatever the order of the maps is that the parser has made, unless one
dotted key is the beginning of another one: `vs` are the parsed values, `vs'` the same values with maps in another order. -/
theorem c126_load_partial (S : Std) (n : Nat) (t : Bytes) (vs vs' : List Value) (hp : parse (hocon S n) t = .ok vs)
    (hs : List.Forall₂ Same vs vs') (wv' : ∀ v ∈ vs', Wf v) (ha : ∀ v ∈ vs, Apart v) (env env' : Env)
    (he : AlikeEnv env env') (hl : ∀ f v, env.load f = .ok v → Wf v) (hl' : ∀ f v, env'.load f = .ok v → Wf v) (m : Nat) :
    Alike ((resolveStage0 env vs).bind (resolveStage1 env m)) ((resolveStage0 env' vs').bind (resolveStage1 env' m)) := by
  have hwf : ∀ v ∈ vs, Wf v := fun v hv => allSound_wf v (parse_ok_yields (yields_hocon S n) hp v hv)
  have hap : ∀ {l l' : List Value}, List.Forall₂ Same l l' → (∀ v ∈ l, Apart v) → (∀ v ∈ l', Wf v) → ∀ v ∈ l', Apart v := by
    intro l l' h
    induction h with
    | nil => simp
    | cons h _ ih =>
      intro h1 h2
      exact List.forall_mem_cons.2 ⟨apart_same (h1 _ (by simp)) h (h2 _ (by simp)),
        ih (fun v hv => h1 v (List.mem_cons_of_mem _ hv)) fun v hv => h2 v (List.mem_cons_of_mem _ hv)⟩
  refine alike_iff.2 ⟨stages_within he.var (fun f => (alike_iff.1 (he.load f)).1) hl hl' hs (fun v hv => ⟨hwf v hv, ha v hv⟩)
    wv' m, stages_within (fun p => (he.var p).symm) (fun f => (alike_iff.1 (he.load f)).2) hl' hl ?_
    (fun v hv => ⟨wv' v hv, hap hs ha wv' v hv⟩) hwf m⟩
  have : ∀ {l l' : List Value}, List.Forall₂ Same l l' → List.Forall₂ Same l' l := by
    intro l l' h
    induction h with
    | nil => exact .nil
    | cons h _ ih => exact .cons h.symm ih
  exact this hs

/-- With a dotted key that is the beginning of another one the loaded document is different from run to run: `a.b` is a
boolean or an object. -/
theorem c126_load_violated (env : Env) : ∃ (t : Bytes) (es fs : Entries) (v v' : Value),
    parse (hocon decDigits 3) t = .ok [.obj es] ∧ es.Perm fs ∧
    (resolveStage0 env [.obj es]).bind (resolveStage1 env 9) = .ok v ∧
    (resolveStage0 env [.obj fs]).bind (resolveStage1 env 9) = .ok v' ∧
    getValue v (bytes "a.b") = .ok (some (.bool true)) ∧
    getValue v' (bytes "a.b") = .ok (some (.obj [(bytes "c", .bool false)])) :=
  ⟨bytes "a.b=true\na.b.c=false", [(bytes "a.b", .bool true), (bytes "a.b.c", .bool false)],
    [(bytes "a.b.c", .bool false), (bytes "a.b", .bool true)], .obj [(bytes "a", .obj [(bytes "b", .bool true)])],
    .obj [(bytes "a", .obj [(bytes "b", .obj [(bytes "c", .bool false)])])], okIs_eq (by decide +kernel), .swap _ _ _,
    by rfl, by rfl, by rfl, by rfl⟩

/-- The dotted keys and the reference of `dottedReference` in the other order. -/
example (env env' : Env) (he : AlikeEnv env env') (hl : ∀ f v, env.load f = .ok v → Wf v)
    (hl' : ∀ f v, env'.load f = .ok v → Wf v) (m : Nat) :
    Alike ((resolveStage0 env dottedReference).bind (resolveStage1 env m))
      ((resolveStage0 env' [.obj [(bytes "c.d", .ref none (bytes "a.b") false), (bytes "a.b", int 1)]]).bind
        (resolveStage1 env' m)) := by
  refine c126_load_partial _ _ _ _ _ dottedReference_parse (.cons (same_of_perm (.swap _ _ _) (by decide)) .nil) ?_ ?_ env
    env' he hl hl' m
  · intro v hv
    cases List.mem_singleton.1 hv
    exact wf_obj.2 ⟨by decide, by simp [Wf, int]⟩
  · intro v hv
    cases List.mem_singleton.1 hv
    refine .obj (fun e he f hf _ r h => ?_) fun e he _ => .other ?_
    · have hlen := congrArg List.length h
      have : ∀ g ∈ [(bytes "a.b", int 1), (bytes "c.d", Value.ref none (bytes "a.b") false)], g.1.length = 3 := by
        intro g hg
        rcases List.mem_pair.1 hg with rfl | rfl <;> rfl
      rw [List.length_append, this e he, this f hf] at hlen
      simp at hlen
    · rcases List.mem_pair.1 he with rfl | rfl <;> exact fun h => h

example : Same (.obj [(bytes "a", int 1), (bytes "b", .null)]) (.obj [(bytes "b", .null), (bytes "a", int 1)]) :=
  same_of_perm (.swap _ _ _) (by decide)

end OniComb.Hocon
