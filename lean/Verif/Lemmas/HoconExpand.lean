import Verif.Model.HoconResolve
import Verif.Lemmas.HoconValue

/-! Lemmas about dotted keys and path lookup of the `hocon` values. -/

namespace OniComb.Hocon
open OniComb OniComb.Hocon.Spec
open OniComb.Uri (Bytes byte bytes)

/-! ### `splitDot` -/

theorem splitDot_ne (k : Bytes) : splitDot k ≠ [] := by
  induction k with
  | nil => simp [splitDot]
  | cons b k ih =>
    simp only [splitDot]
    split
    · simp
    · split <;> simp

theorem joinDot_cons {s : Bytes} {ss : List Bytes} (h : ss ≠ []) : joinDot (s :: ss) = s ++ byte '.' :: joinDot ss := by
  cases ss with
  | nil => exact absurd rfl h
  | cons => rfl

theorem joinDot_splitDot (k : Bytes) : joinDot (splitDot k) = k := by
  induction k with
  | nil => simp [splitDot, joinDot]
  | cons b k ih =>
    simp only [splitDot]
    split
    · rename_i h
      rw [joinDot_cons (splitDot_ne k), ih, h]
      rfl
    · cases hs : splitDot k with
      | nil => exact absurd hs (splitDot_ne k)
      | cons s ss =>
        rw [hs] at ih
        cases ss with
        | nil => simp [joinDot] at ih ⊢; exact ih
        | cons s' ss =>
          simp only [joinDot] at ih ⊢
          rw [← ih]
          rfl

theorem splitDot_noDot {k : Bytes} (h : byte '.' ∉ k) : splitDot k = [k] := by
  induction k with
  | nil => rfl
  | cons b k ih =>
    simp only [List.mem_cons, not_or] at h
    simp [splitDot, Ne.symm h.1, ih h.2]

theorem splitDot_append {s k : Bytes} (h : byte '.' ∉ s) : splitDot (s ++ byte '.' :: k) = s :: splitDot k := by
  induction s with
  | nil => simp [splitDot]
  | cons b s ih =>
    simp only [List.mem_cons, not_or] at h
    simp [splitDot, Ne.symm h.1, ih h.2]

theorem splitDot_joinDot {ss : List Bytes} (hne : ss ≠ []) (h : ∀ s ∈ ss, byte '.' ∉ s) :
    splitDot (joinDot ss) = ss := by
  induction ss with
  | nil => exact absurd rfl hne
  | cons s ss ih =>
    by_cases hs : ss = []
    · subst hs
      simp [joinDot, splitDot_noDot (h s (by simp))]
    · rw [joinDot_cons hs, splitDot_append (h s (by simp)), ih hs fun t ht => h t (List.mem_cons_of_mem _ ht)]

theorem splitDot_dotted {k : Bytes} (h : byte '.' ∈ k) : ∃ s ss, splitDot k = s :: ss ∧ ss ≠ [] := by
  cases hs : splitDot k with
  | nil => exact absurd hs (splitDot_ne k)
  | cons s ss =>
    refine ⟨s, ss, rfl, ?_⟩
    rintro rfl
    have hk := joinDot_splitDot k
    rw [hs] at hk
    simp only [joinDot] at hk
    subst hk
    obtain ⟨a, b, hab⟩ := List.append_of_mem h
    have : ∀ s : Bytes, byte '.' ∈ s → (splitDot s).length ≠ 1 := by
      intro s
      induction s with
      | nil => simp
      | cons b s ih =>
        intro hm
        simp only [splitDot]
        split
        · have := splitDot_ne s
          cases hh : splitDot s with
          | nil => exact absurd hh this
          | cons => simp
        · rename_i hb
          have hm' : byte '.' ∈ s := by
            rcases List.mem_cons.1 hm with h | h
            · exact absurd h.symm hb
            · exact h
          have := ih hm'
          cases hh : splitDot s with
          | nil => exact absurd hh (splitDot_ne s)
          | cons => rw [hh] at this; simpa using this
    exact this s h (by rw [hs]; rfl)

/-! ### Nested objects -/

theorem foldl_nest (ks : List Bytes) (o : Value) :
    ks.foldl (fun o k => Value.obj [(k, o)]) o = nest ks.reverse o := by
  induction ks generalizing o with
  | nil => rfl
  | cons k ks ih =>
    rw [List.foldl_cons, ih, List.reverse_cons]
    have : ∀ (l : List Bytes) (v : Value), nest l (.obj [(k, v)]) = nest (l ++ [k]) v := by
      intro l v
      induction l with
      | nil => rfl
      | cons a l ih => simp [nest, ih]
    exact this _ _

theorem nest_append (l m : List Bytes) (v : Value) : nest (l ++ m) v = nest l (nest m v) := by
  induction l with
  | nil => rfl
  | cons a l ih => simp [nest, ih]

theorem nestKey_eq {k s : Bytes} {ss : List Bytes} {v : Value} (h : splitDot k = s :: ss) (hs : ss ≠ []) :
    nestKey k v = (s, nest ss v) := by
  obtain ⟨ss', l, rfl⟩ : ∃ ss' l, ss = ss' ++ [l] := ⟨ss.dropLast, ss.getLast hs, (List.dropLast_append_getLast hs).symm⟩
  have hr : (s :: (ss' ++ [l])).reverse = l :: (ss'.reverse ++ [s]) := by simp
  simp only [nestKey, h, hr]
  rw [List.dropLast_concat, foldl_nest, List.reverse_reverse, nest_append]
  have : (l :: (ss'.reverse ++ [s])).getLastD [] = s :=
    List.getLastD_concat (l := l :: ss'.reverse)
  rw [this]
  rfl

theorem expandEntry_dotted {env : Env} {k s : Bytes} {ss : List Bytes} {v : Value} {new : Entries}
    (hk : byte '.' ∈ k) (h : splitDot k = s :: ss) (hs : ss ≠ []) :
    expandEntry env (k, v) new = (expand env v).bind fun w => .ok (mergeEntry (s, nest ss w) new) := by
  simp only [expandEntry, hk, if_true]
  cases expand env v with
  | ok w =>
    simp only [Out.bind, nestKey_eq h hs, mergeEntry]
    cases get s new <;> rfl
  | panic => rfl
  | diverge => rfl

theorem expandEntry_plain {env : Env} {k : Bytes} {v : Value} {new : Entries} (hk : byte '.' ∉ k) :
    expandEntry env (k, v) new = .ok new := by
  simp [expandEntry, hk]

theorem obj_mergeEntry {s : Bytes} {ss : List Bytes} {w : Value} {new : Entries} :
    Value.obj (mergeEntry (s, nest ss w) new) = merge (nest (s :: ss) w) (.obj new) := by
  rw [nest, merge_obj_obj]
  simp [mergeEntries]

/-! ### Lookup in merged nested objects -/

theorem comparable_cons {a b : Bytes} {p q : List Bytes} : Comparable (a :: p) (b :: q) ↔ a = b ∧ Comparable p q := by
  simp only [Comparable, List.cons_prefix_cons]
  constructor
  · rintro (⟨h1, h2⟩ | ⟨h1, h2⟩)
    · exact ⟨h1, .inl h2⟩
    · exact ⟨h1.symm, .inr h2⟩
  · rintro ⟨h1, h2 | h2⟩
    · exact .inl ⟨h1, h2⟩
    · exact .inr ⟨h1.symm, h2⟩

theorem comparable_nil_left {p : List Bytes} : Comparable [] p := .inl List.nil_prefix

theorem comparable_nil_right {p : List Bytes} : Comparable p [] := .inr List.nil_prefix

theorem at_nest_isSome {p q : List Bytes} {v : Value} (h : (at_ p (nest q v)).isSome) : Comparable p q := by
  induction q generalizing p with
  | nil => exact comparable_nil_right
  | cons k q ih =>
    cases p with
    | nil => exact comparable_nil_left
    | cons k' p =>
      simp only [nest, at_, get] at h
      by_cases hk : k = k'
      · simp only [hk, if_true, Option.bind_some] at h
        exact comparable_cons.2 ⟨hk.symm, ih h⟩
      · simp [hk] at h

theorem get_merge_nest {k k' : Bytes} {ks : List Bytes} {v : Value} {es : Entries} :
    get k' (mergeEntries [(k, nest ks v)] es) =
      if k = k' then some (match get k' es with
        | none => nest ks v
        | some x => merge (nest ks v) x) else get k' es := by
  simp only [mergeEntries]
  exact get_mergeEntry

/-- Nothing appears besides the merged path. -/
theorem at_merge_isSome {q : List Bytes} : ∀ {p : List Bytes} {v a : Value},
    (at_ p (merge (nest q v) a)).isSome → (at_ p a).isSome ∨ Comparable p q := by
  induction q with
  | nil => exact fun _ => .inr comparable_nil_right
  | cons k q ih =>
    intro p v a h
    cases p with
    | nil => exact .inr comparable_nil_left
    | cons k' p =>
      rcases merge_cases a (nest (k :: q) v) with ⟨x, y, rfl, hy⟩ | ⟨x, y, rfl, hy⟩ | ⟨hl, u, w, rfl⟩ | ⟨h1, h2, h3⟩
      · simp only [nest] at h
        rw [merge_obj_obj] at h
        simp only [at_, get_merge_nest] at h ⊢
        by_cases hk : k = k'
        · subst hk
          simp only [if_true, Option.bind_some] at h
          cases hx : get k x with
          | none =>
            simp only [hx] at h
            exact .inr (comparable_cons.2 ⟨rfl, at_nest_isSome h⟩)
          | some z =>
            simp only [hx] at h
            rcases ih h with h | h
            · exact .inl (by simpa using h)
            · exact .inr (comparable_cons.2 ⟨rfl, h⟩)
        · simp only [hk, if_false] at h
          exact .inl h
      · simp [nest] at hy
      · rw [merge_link_left hl, push_eq] at h
        simp [at_] at h
      · rw [merge_keep h1 h2 h3] at h
        exact .inl h

/-- What is elsewhere stays. -/
theorem at_merge_keep {q : List Bytes} : ∀ {p : List Bytes} {v a w : Value}, at_ p a = some w →
    ¬ Comparable p q → at_ p (merge (nest q v) a) = some w := by
  induction q with
  | nil => exact fun _ h => absurd comparable_nil_right h
  | cons k q ih =>
    intro p v a w h hc
    cases p with
    | nil => exact absurd comparable_nil_left hc
    | cons k' p =>
      cases a with
      | obj es =>
        simp only [nest]
        rw [merge_obj_obj]
        simp only [at_, get_merge_nest] at h ⊢
        by_cases hk : k = k'
        · subst hk
          simp only [if_true, Option.bind_some]
          cases hx : get k es with
          | none => simp [hx] at h
          | some z =>
            simp only [hx, Option.bind_some] at h
            exact ih h fun hh => hc (comparable_cons.2 ⟨rfl, hh⟩)
        · simpa only [hk, if_false] using h
      | _ => simp [at_] at h

/-- The path can be added: it leaves the existing objects at a key that is not there. -/
def Free : List Bytes → Value → Prop
  | k :: ks, .obj es => match get k es with
    | none => True
    | some x => Free ks x
  | _, _ => False

/-- A free path holds the merged value afterwards. -/
theorem at_merge_hit {q : List Bytes} : ∀ {v a : Value}, Free q a → at_ q (merge (nest q v) a) = some v := by
  induction q with
  | nil => simp [Free]
  | cons k q ih =>
    intro v a h
    cases a with
    | obj es =>
      simp only [nest]
      rw [merge_obj_obj]
      simp only [at_, get_merge_nest, if_true, Option.bind_some]
      simp only [Free] at h
      cases hx : get k es with
      | none =>
        have : ∀ (q : List Bytes), at_ q (nest q v) = some v := by
          intro q
          induction q with
          | nil => rfl
          | cons a q ih => simp [nest, at_, get, ih]
        exact this q
      | some z =>
        simp only [hx] at h
        exact ih h
    | _ => simp [Free] at h

/-- A free path stays free when something is merged elsewhere. -/
theorem free_merge {q : List Bytes} : ∀ {p : List Bytes} {v a : Value}, Free p a → ¬ Comparable p q →
    Free p (merge (nest q v) a) := by
  induction q with
  | nil => exact fun _ h => absurd comparable_nil_right h
  | cons k q ih =>
    intro p v a h hc
    cases p with
    | nil => exact absurd comparable_nil_left hc
    | cons k' p =>
      cases a with
      | obj es =>
        simp only [nest]
        rw [merge_obj_obj]
        simp only [Free, get_merge_nest] at h ⊢
        by_cases hk : k = k'
        · subst hk
          have hc' : ¬ Comparable p q := fun hh => hc (comparable_cons.2 ⟨rfl, hh⟩)
          simp only [if_true]
          cases hx : get k es with
          | none =>
            have : ∀ (q p : List Bytes), ¬ Comparable p q → Free p (nest q v) := by
              intro q
              induction q with
              | nil => exact fun _ h => absurd comparable_nil_right h
              | cons a q ih =>
                intro p hp
                cases p with
                | nil => exact absurd comparable_nil_left hp
                | cons b p =>
                  simp only [nest, Free, get]
                  by_cases hab : a = b
                  · simp only [hab, if_true]
                    exact ih p fun hh => hp (comparable_cons.2 ⟨hab.symm, hh⟩)
                  · simp [hab]
            exact this q p hc'
          | some z =>
            simp only [hx] at h
            exact ih h hc'
        · simpa only [hk, if_false] using h
      | _ => simp [Free] at h

/-! ### `expand` -/

theorem bind_eq_ok {A B : Type} {o : Out A} {f : A → Out B} {b : B} :
    o.bind f = .ok b ↔ ∃ a, o = .ok a ∧ f a = .ok b := by
  cases o <;> simp [Out.bind]

/-- A key of dotted form. -/
def Dotted (e : Bytes × Value) : Prop := byte '.' ∈ e.1

theorem expandEntries_keep {env : Env} {p : List Bytes} {w : Value} : ∀ (es : Entries) {new res : Entries},
    expandEntries env es new = .ok res → at_ p (.obj new) = some w →
    (∀ e ∈ es, Dotted e → ¬ Comparable p (splitDot e.1)) → at_ p (.obj res) = some w
  | [], new, res, h, hp, _ => by
    simp only [expandEntries, Out.ok.injEq] at h
    exact h ▸ hp
  | (k, v) :: es, new, res, h, hp, hc => by
    rw [expandEntries, bind_eq_ok] at h
    obtain ⟨new', h1, h2⟩ := h
    refine expandEntries_keep es h2 ?_ fun e he => hc e (List.mem_cons_of_mem _ he)
    by_cases hk : byte '.' ∈ k
    · obtain ⟨s, ss, hs, hss⟩ := splitDot_dotted hk
      rw [expandEntry_dotted hk hs hss, bind_eq_ok] at h1
      obtain ⟨x, _, hx⟩ := h1
      cases hx
      rw [obj_mergeEntry]
      refine at_merge_keep hp ?_
      have := hc _ (List.mem_cons_self) hk
      rwa [hs] at this
    · rw [expandEntry_plain hk] at h1
      cases h1
      exact hp

theorem expandEntries_hit {env : Env} : ∀ (es : Entries) {new res : Entries},
    expandEntries env es new = .ok res →
    (∀ e ∈ es, Dotted e → Free (splitDot e.1) (.obj new)) →
    es.Pairwise (fun e f => Dotted e → Dotted f → ¬ Comparable (splitDot e.1) (splitDot f.1)) →
    ∀ k v, (k, v) ∈ es → byte '.' ∈ k → ∃ w, expand env v = .ok w ∧ at_ (splitDot k) (.obj res) = some w
  | [], _, _, _, _, _, _, _, h, _ => by simp at h
  | (k', v') :: es, new, res, h, hf, hp, k, v, hm, hk => by
    rw [expandEntries, bind_eq_ok] at h
    obtain ⟨new', h1, h2⟩ := h
    rw [List.pairwise_cons] at hp
    by_cases hk' : byte '.' ∈ k'
    · obtain ⟨s, ss, hs, hss⟩ := splitDot_dotted hk'
      rw [expandEntry_dotted hk' hs hss, bind_eq_ok] at h1
      obtain ⟨x, hx, hx'⟩ := h1
      cases hx'
      rcases List.mem_cons.1 hm with hm | hm
      · cases hm
        refine ⟨x, hx, ?_⟩
        refine expandEntries_keep es h2 ?_ fun e he hd => hp.1 e he hk hd
        rw [obj_mergeEntry, hs]
        have := hf _ List.mem_cons_self hk'
        rw [hs] at this
        exact at_merge_hit this
      · refine expandEntries_hit es h2 ?_ hp.2 k v hm hk
        intro e he hd
        rw [obj_mergeEntry]
        refine free_merge (hf e (List.mem_cons_of_mem _ he) hd) ?_
        have := hp.1 e he hk' hd
        rw [hs] at this
        exact fun hh => this hh.symm
    · rw [expandEntry_plain hk'] at h1
      cases h1
      rcases List.mem_cons.1 hm with hm | hm
      · cases hm
        exact absurd hk hk'
      · exact expandEntries_hit es h2 (fun e he => hf e (List.mem_cons_of_mem _ he)) hp.2 k v hm hk

theorem expandEntries_only {env : Env} {p : List Bytes} : ∀ (es : Entries) {new res : Entries},
    expandEntries env es new = .ok res → (at_ p (.obj res)).isSome →
    (at_ p (.obj new)).isSome ∨ ∃ e ∈ es, Dotted e ∧ Comparable p (splitDot e.1)
  | [], new, res, h, hp => by
    simp only [expandEntries, Out.ok.injEq] at h
    exact .inl (h ▸ hp)
  | (k, v) :: es, new, res, h, hp => by
    rw [expandEntries, bind_eq_ok] at h
    obtain ⟨new', h1, h2⟩ := h
    rcases expandEntries_only es h2 hp with h | ⟨e, he, hd, hc⟩
    · by_cases hk : byte '.' ∈ k
      · obtain ⟨s, ss, hs, hss⟩ := splitDot_dotted hk
        rw [expandEntry_dotted hk hs hss, bind_eq_ok] at h1
        obtain ⟨x, _, hx⟩ := h1
        cases hx
        rw [obj_mergeEntry] at h
        rcases at_merge_isSome h with h | h
        · exact .inl h
        · exact .inr ⟨(k, v), List.mem_cons_self, hk, by rw [hs]; exact h⟩
      · rw [expandEntry_plain hk] at h1
        cases h1
        exact .inl h
    · exact .inr ⟨e, List.mem_cons_of_mem _ he, hd, hc⟩

theorem expandEntries_plain {env : Env} : ∀ (es : Entries) {new : Entries},
    (∀ e ∈ es, ¬ Dotted e) → expandEntries env es new = .ok new
  | [], _, _ => by simp [expandEntries]
  | (k, v) :: es, new, h => by
    rw [expandEntries, expandEntry_plain (h _ List.mem_cons_self)]
    exact expandEntries_plain es fun e he => h e (List.mem_cons_of_mem _ he)

end OniComb.Hocon
