import Verif.Lemmas.HoconLayout
import Verif.Spec.HoconExpand

/-! # Helper lemmas: documents with dotted keys -/

namespace OniComb.Hocon
open OniComb OniComb.Hocon.Spec OniComb.Hocon.Spec.Layout
open OniComb.Uri (Bytes byte bytes)

variable {S : Std} {t : Bytes}

theorem wf_nest {v : Value} (h : Wf v) : ∀ ks, Wf (nest ks v)
  | [] => h
  | k :: ks => wf_obj.2 ⟨by simp [keys], by simpa using wf_nest h ks⟩

theorem settled_nest {v : Value} (h : Settled v) : ∀ ks, Settled (nest ks v)
  | [] => h
  | k :: ks => .obj (by simpa using settled_nest h ks)

theorem settled_expand {v : Value} {env : Env} (h : Settled v) (hu : Undotted v) : expand env v = .ok v := by
  refine expand_plain ?_ hu
  rintro m f rfl
  cases h with
  | constant h => cases h

theorem expandEntries_settled : ∀ (es new : Entries), (∀ e ∈ es, Wf e.2 ∧ Settled e.2 ∧ Undotted e.2) → Wf (.obj new) →
    Settled (.obj new) → ∃ r, (∀ env, expandEntries env es new = .ok r) ∧ Wf (.obj r) ∧ Settled (.obj r)
  | [], new, _, hw, hs => ⟨new, fun _ => rfl, hw, hs⟩
  | (k, v) :: es, new, h, hw, hs => by
    obtain ⟨h1, h2, h3⟩ := h (k, v) (by simp)
    have hes := fun e he => h e (List.mem_cons_of_mem _ he)
    by_cases hd : byte '.' ∈ k
    · obtain ⟨s, ss, h4, h5⟩ := splitDot_dotted hd
      have he : ∀ env, expandEntry env (k, v) new = .ok (mergeEntry (s, nest ss v) new) := fun env => by
        rw [expandEntry_dotted hd h4 h5, settled_expand h2 h3]
        rfl
      have hm : Value.obj (mergeEntry (s, nest ss v) new) = merge (nest (s :: ss) v) (.obj new) := obj_mergeEntry
      have hw' := wf_merge (nest (s :: ss) v) (.obj new) hw (wf_nest h1 _)
      have hs' := settled_merge (nest (s :: ss) v) (.obj new) hw (wf_nest h1 _) hs (settled_nest h2 _)
      rw [← hm] at hw' hs'
      obtain ⟨r, h6, h7⟩ := expandEntries_settled es _ hes hw' hs'
      exact ⟨r, fun env => by rw [expandEntries, he]; exact h6 env, h7⟩
    · obtain ⟨r, h6, h7⟩ := expandEntries_settled es new hes hw hs
      exact ⟨r, fun env => by rw [expandEntries, expandEntry, if_neg hd]; exact h6 env, h7⟩

theorem expand_settled {es : Entries} (h : ∀ e ∈ es, Wf e.2 ∧ Settled e.2 ∧ Undotted e.2) :
    ∃ x, (∀ env, expand env (.obj es) = .ok x) ∧ Settled x := by
  obtain ⟨r, h1, -, h3⟩ := expandEntries_settled es [] h (wf_obj.2 ⟨by simp [keys], by simp⟩) (.obj (by simp))
  by_cases hr : r.isEmpty = true
  · exact ⟨.obj es, fun env => by rw [expand, h1 env]; simp [Out.bind, hr], .obj fun e he => (h e he).2.1⟩
  · exact ⟨.obj r, fun env => by rw [expand, h1 env]; simp [Out.bind, hr], h3⟩

theorem load_expanded {es : Entries} {x : Value} (h : ∃ M, ∀ n, M ≤ n → parse (hocon S n) t = .ok [.obj es])
    (hx : ∀ env, expand env (.obj es) = .ok x) (w : World) (v : Value) (hv : Resolved w.var x x v) :
    ∃ N, ∀ env n, env.var = w.var → N ≤ n → parseFromString S env n t = .ok (some v) := by
  obtain ⟨N, hN⟩ := resolve_complete (env := ⟨w.var, fun _ => .panic⟩) hv
  obtain ⟨M, hM⟩ := h
  refine ⟨max N M, fun env n he hn => ?_⟩
  have hN' : resolve env x n x = .ok v :=
    resolve_le (by omega) (resolve_sub (env := ⟨w.var, fun _ => .panic⟩) ⟨he, fun _ _ h => by cases h⟩ _ _ _ hN)
  unfold parseFromString
  rw [hM n (by omega)]
  have : resolveStage0 env [.obj es] = .ok x := by
    rw [resolveStage0, hx]
    rfl
  simp only [Out.bind, this, resolveStage1]
  rw [hN']

theorem descend_at : ∀ {p ss : List Bytes} {v x : Value}, p ≠ [] → at_ p v = some x → descend (p ++ ss) v = descend ss (latest x)
  | [k], ss, v, x, _, h => by
    cases v <;> simp only [at_, reduceCtorEq] at h
    rename_i es
    obtain ⟨y, h1, h2⟩ := Option.bind_eq_some_iff.1 h
    cases h2
    rw [List.singleton_append, descend, h1]
    rfl
  | k :: k' :: p, ss, v, x, _, h => by
    cases v <;> simp only [at_, reduceCtorEq] at h
    rename_i es
    obtain ⟨y, h1, h2⟩ := Option.bind_eq_some_iff.1 h
    have ho : ∃ fs, y = .obj fs := by
      cases y <;> simp [at_] at h2 ⊢
    obtain ⟨fs, rfl⟩ := ho
    rw [List.cons_append, descend, h1]
    exact descend_at (p := k' :: p) (v := .obj fs) (by simp) h2

end OniComb.Hocon
