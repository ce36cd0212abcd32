import Verif.Spec.Hocon
import Mathlib.Data.List.Nodup
import Mathlib.Data.List.Perm.Basic

/-! Lemmas about the `hocon` values. -/

namespace OniComb.Hocon
open OniComb OniComb.Hocon.Spec
open OniComb.Uri (Bytes byte bytes)

/-! ### Maps -/

theorem get_eq_none {k : Bytes} {es : Entries} : get k es = none ↔ k ∉ keys es := by
  induction es with
  | nil => simp [get, keys]
  | cons e es ih =>
    obtain ⟨k', v⟩ := e
    simp only [get, keys, List.map_cons, List.mem_cons] at ih ⊢
    by_cases h : k' = k
    · simp [h]
    · simp [h, ih, Ne.symm h]

theorem get_mem {k : Bytes} {es : Entries} {v : Value} (h : get k es = some v) : (k, v) ∈ es := by
  induction es with
  | nil => simp [get] at h
  | cons e es ih =>
    obtain ⟨k', v'⟩ := e
    simp only [get] at h
    by_cases hk : k' = k
    · simp only [hk, if_true, Option.some.injEq] at h
      simp [hk, h]
    · simp only [hk, if_false] at h
      exact List.mem_cons_of_mem _ (ih h)

theorem get_of_mem {k : Bytes} {es : Entries} {v : Value} (hn : (keys es).Nodup) (h : (k, v) ∈ es) :
    get k es = some v := by
  induction es with
  | nil => simp at h
  | cons e es ih =>
    obtain ⟨k', v'⟩ := e
    simp only [keys, List.map_cons, List.nodup_cons] at hn
    simp only [get]
    rcases List.mem_cons.1 h with h | h
    · simp only [Prod.mk.injEq] at h
      simp [h.1, h.2]
    · have : k' ≠ k := by
        rintro rfl
        exact hn.1 (List.mem_map.2 ⟨_, h, rfl⟩)
      simp only [this, if_false]
      exact ih hn.2 h

theorem get_append {k : Bytes} {es fs : Entries} : get k (es ++ fs) = (get k es).or (get k fs) := by
  induction es with
  | nil => simp [get]
  | cons e es ih =>
    obtain ⟨k', v⟩ := e
    simp only [List.cons_append, get]
    by_cases h : k' = k <;> simp [h, ih]

theorem get_set {k k' : Bytes} {v : Value} {es : Entries} :
    get k (set k' v es) = if k' = k then (get k es).map (fun _ => v) else get k es := by
  induction es with
  | nil => simp [get, set]
  | cons e es ih =>
    obtain ⟨k'', v'⟩ := e
    simp only [set]
    by_cases h : k'' = k'
    · subst h
      by_cases h2 : k'' = k
      · simp [get, h2]
      · simp [get, h2]
    · simp only [h, if_false, get]
      by_cases h2 : k'' = k
      · have : ¬ k' = k := fun h3 => h (h2.trans h3.symm)
        simp [h2, this]
      · simp [h2, ih]

theorem keys_set {k : Bytes} {v : Value} {es : Entries} : keys (set k v es) = keys es := by
  induction es with
  | nil => rfl
  | cons e es ih =>
    obtain ⟨k', v'⟩ := e
    simp only [set]
    by_cases h : k' = k
    · simp [h, keys]
    · simp only [h, if_false, keys, List.map_cons] at ih ⊢
      rw [ih]

theorem get_insertNew {k k' : Bytes} {v : Value} {es : Entries} (h : get k' es = none) :
    get k (insertNew k' v es) = if k' = k then some v else get k es := by
  rw [insertNew, get_append]
  by_cases hk : k' = k
  · subst hk
    simp [h, get]
  · simp [hk, get]

theorem nodup_insertNew {k : Bytes} {v : Value} {es : Entries} (h : get k es = none) (hn : (keys es).Nodup) :
    (keys (insertNew k v es)).Nodup := by
  have := get_eq_none.1 h
  simp only [insertNew, keys, List.map_append, List.map_cons, List.map_nil] at this ⊢
  rw [List.nodup_append]
  refine ⟨hn, by simp, ?_⟩
  rintro a ha b hb rfl
  simp only [List.mem_singleton] at hb
  exact this (hb ▸ ha)

/-- Permuted maps without repeated keys have the same entries. -/
theorem get_perm {es fs : Entries} (hp : es.Perm fs) (hn : (keys es).Nodup) (k : Bytes) :
    get k es = get k fs := by
  have hn' : (keys fs).Nodup := (hp.map _).nodup_iff.1 hn
  cases h : get k es with
  | none =>
    symm
    rw [get_eq_none] at h ⊢
    exact fun hm => h ((hp.map _).mem_iff.2 hm)
  | some v => exact (get_of_mem hn' (hp.mem_iff.1 (get_mem h))).symm

theorem wfEntries_iff {es : Entries} : WfEntries es ↔ ∀ e ∈ es, Wf e.2 := by
  induction es with
  | nil => simp [WfEntries]
  | cons e es ih =>
    obtain ⟨k, v⟩ := e
    simp [WfEntries, WfEntry, ih]

theorem wfList_iff {vs : List Value} : WfList vs ↔ ∀ v ∈ vs, Wf v := by
  induction vs with
  | nil => simp [WfList]
  | cons e es ih => simp [WfList, ih]

theorem wf_obj {es : Entries} : Wf (.obj es) ↔ (keys es).Nodup ∧ ∀ e ∈ es, Wf e.2 := by
  rw [Wf, wfEntries_iff]
  rfl

theorem wf_get {es : Entries} {k : Bytes} {v : Value} (h : Wf (.obj es)) (hg : get k es = some v) : Wf v :=
  (wf_obj.1 h).2 _ (get_mem hg)

theorem wf_obj_intro {es : Entries} (hn : (keys es).Nodup) (h : ∀ k v, get k es = some v → Wf v) :
    Wf (.obj es) :=
  wf_obj.2 ⟨hn, fun e he => h e.1 e.2 (get_of_mem hn he)⟩

theorem sizeOf_get {es : Entries} {k : Bytes} {v : Value} (h : get k es = some v) :
    sizeOf v < sizeOf (Value.obj es) := by
  have := List.sizeOf_lt_of_mem (get_mem h)
  simp only [Value.obj.sizeOf_spec]
  have h2 : sizeOf (k, v) = 1 + sizeOf k + sizeOf v := rfl
  omega

/-! ### `merge` -/

theorem push_eq {a b : Value} : push a b = .link a (remember a b) := by
  cases b <;> rfl

theorem merge_obj_obj {a b : Entries} : merge (.obj b) (.obj a) = .obj (mergeEntries b a) := by
  simp [merge, onLatest]

theorem merge_arr_arr {a b : List Value} : merge (.arr b) (.arr a) = .arr (a ++ b) := by
  simp [merge, onLatest]

theorem merge_link_right {a p v : Value} : merge (.link p v) a = a := by simp [merge]

theorem merge_link_left {p v b : Value} (hb : ¬ IsLink b) :
    merge b (.link p v) = push (.link p v) (merge b v) := by
  cases b <;> simp [merge, onLatest, IsLink] at hb ⊢

theorem merge_keep {a b : Value} (h : IsLink b ∨ ¬ IsLink a) (ho : ¬ (IsObj a ∧ IsObj b))
    (hr : ¬ (IsArr a ∧ IsArr b)) : merge b a = a := by
  cases b <;> cases a <;> simp_all [merge, onLatest, IsLink, IsObj, IsArr]

theorem get_mergeEntry {k k' : Bytes} {v : Value} {l : Entries} :
    get k (mergeEntry (k', v) l) =
      if k' = k then some (match get k l with
        | none => v
        | some x => merge v x) else get k l := by
  simp only [mergeEntry]
  cases h : get k' l with
  | none =>
    simp only [get_insertNew h]
    by_cases hk : k' = k
    · subst hk
      simp [h]
    · simp [hk]
  | some x =>
    simp only [get_set]
    by_cases hk : k' = k
    · subst hk
      simp [h]
    · simp [hk]

theorem get_mergeEntries {k : Bytes} {r l : Entries} (hn : (keys r).Nodup) :
    get k (mergeEntries r l) =
      match get k r with
      | none => get k l
      | some v => some (match get k l with
        | none => v
        | some x => merge v x) := by
  induction r generalizing l with
  | nil => simp [mergeEntries, get]
  | cons e r ih =>
    obtain ⟨k', v⟩ := e
    simp only [keys, List.map_cons, List.nodup_cons] at hn
    rw [mergeEntries, ih hn.2, get]
    by_cases hk : k' = k
    · subst hk
      have : get k' r = none := get_eq_none.2 hn.1
      simp [this, get_mergeEntry]
    · simp [hk, get_mergeEntry]

theorem nodup_mergeEntry {e : Bytes × Value} {l : Entries} (hl : (keys l).Nodup) :
    (keys (mergeEntry e l)).Nodup := by
  obtain ⟨k, v⟩ := e
  simp only [mergeEntry]
  cases h : get k l with
  | none => exact nodup_insertNew h hl
  | some x => simpa only [keys_set] using hl

theorem nodup_mergeEntries {r l : Entries} (hl : (keys l).Nodup) : (keys (mergeEntries r l)).Nodup := by
  induction r generalizing l with
  | nil => simpa [mergeEntries] using hl
  | cons e r ih =>
    rw [mergeEntries]
    exact ih (nodup_mergeEntry hl)

theorem wf_remember {p v : Value} (h : Wf v) : Wf (remember p v) := by
  cases v <;> simp_all [remember, Wf]

/-- Induction along the newest values of a chain of definitions. -/
theorem link_induction {P : Value → Prop} (h : ∀ v, ¬ IsLink v → P v) (hl : ∀ p v, P v → P (.link p v)) :
    ∀ v, P v
  | .link p v => hl p v (link_induction h hl v)
  | .null => h _ (by simp [IsLink])
  | .bool _ => h _ (by simp [IsLink])
  | .str _ => h _ (by simp [IsLink])
  | .num _ => h _ (by simp [IsLink])
  | .dur _ _ => h _ (by simp [IsLink])
  | .arr _ => h _ (by simp [IsLink])
  | .obj _ => h _ (by simp [IsLink])
  | .enumeration _ _ => h _ (by simp [IsLink])
  | .ref _ _ _ => h _ (by simp [IsLink])
  | .incl _ _ => h _ (by simp [IsLink])

theorem isObj_iff {v : Value} : IsObj v ↔ ∃ es, v = .obj es := by cases v <;> simp [IsObj]

theorem isArr_iff {v : Value} : IsArr v ↔ ∃ vs, v = .arr vs := by cases v <;> simp [IsArr]

theorem isLink_iff {v : Value} : IsLink v ↔ ∃ p w, v = .link p w := by cases v <;> simp [IsLink]

/-- The cases of `merge`. -/
theorem merge_cases (a b : Value) :
    (∃ x y, a = .obj x ∧ b = .obj y) ∨ (∃ x y, a = .arr x ∧ b = .arr y) ∨
    (¬ IsLink b ∧ ∃ p v, a = .link p v) ∨
    ((IsLink b ∨ ¬ IsLink a) ∧ ¬ (IsObj a ∧ IsObj b) ∧ ¬ (IsArr a ∧ IsArr b)) := by
  rw [isObj_iff, isObj_iff, isArr_iff, isArr_iff]
  by_cases h1 : (∃ es, a = .obj es) ∧ (∃ es, b = .obj es)
  · obtain ⟨⟨x, hx⟩, y, hy⟩ := h1
    exact .inl ⟨x, y, hx, hy⟩
  by_cases h2 : (∃ es, a = .arr es) ∧ (∃ es, b = .arr es)
  · obtain ⟨⟨x, hx⟩, y, hy⟩ := h2
    exact .inr (.inl ⟨x, y, hx, hy⟩)
  by_cases h3 : IsLink a
  · by_cases h4 : IsLink b
    · exact .inr (.inr (.inr ⟨.inl h4, h1, h2⟩))
    · exact .inr (.inr (.inl ⟨h4, isLink_iff.1 h3⟩))
  · exact .inr (.inr (.inr ⟨.inr h3, h1, h2⟩))

theorem wf_merge (b : Value) : ∀ a, Wf a → Wf b → Wf (merge b a) := by
  intro a ha hb
  rcases merge_cases a b with ⟨a, b, rfl, rfl⟩ | ⟨a, b, rfl, rfl⟩ | ⟨hl, p, v, rfl⟩ | ⟨h1, h2, h3⟩
  · rw [merge_obj_obj]
    refine wf_obj_intro (nodup_mergeEntries (wf_obj.1 ha).1) fun k v hv => ?_
    rw [get_mergeEntries (wf_obj.1 hb).1] at hv
    cases hkb : get k b with
    | none =>
      simp only [hkb] at hv
      exact wf_get ha hv
    | some y =>
      simp only [hkb, Option.some.injEq] at hv
      cases hka : get k a with
      | none =>
        simp only [hka] at hv
        exact hv ▸ wf_get hb hkb
      | some x =>
        simp only [hka] at hv
        have := sizeOf_get hkb
        exact hv ▸ wf_merge y x (wf_get ha hka) (wf_get hb hkb)
  · rw [merge_arr_arr]
    simp only [Wf, wfList_iff, List.mem_append] at ha hb ⊢
    rintro v (h | h)
    · exact ha v h
    · exact hb v h
  · rw [merge_link_left hl, push_eq]
    simp only [Wf] at ha ⊢
    exact ⟨ha, wf_remember (wf_merge b v ha.2 hb)⟩
  · rw [merge_keep h1 h2 h3]
    exact ha
termination_by a => (sizeOf b, sizeOf a)

theorem merged (b : Value) : ∀ a, Wf b → Merged a b (merge b a) := by
  intro a hb
  rcases merge_cases a b with ⟨a, b, rfl, rfl⟩ | ⟨a, b, rfl, rfl⟩ | ⟨hl, p, v, rfl⟩ | ⟨h1, h2, h3⟩
  · rw [merge_obj_obj]
    have hg := fun k => get_mergeEntries (k := k) (l := a) (wf_obj.1 hb).1
    refine .objects ?_ ?_ ?_ ?_ ?_
    · intro k x h1 h2
      simp [hg, h1, h2]
    · intro k y h1 h2
      simp [hg, h1, h2]
    · intro k h1 h2
      simp [hg, h1, h2]
    · intro k x y h1 h2
      simp [hg, h1, h2]
    · intro k x y z h1 h2 h3
      simp only [hg, h1, h2, Option.some.injEq] at h3
      have := sizeOf_get h2
      exact h3 ▸ merged y x (wf_get hb h2)
  · rw [merge_arr_arr]
    exact .arrays
  · rw [merge_link_left hl, push_eq]
    exact .chain hl (merged b v hb)
  · rw [merge_keep h1 h2 h3]
    exact .keep h1 h2 h3
termination_by a => (sizeOf b, sizeOf a)

/-! ### `Same` -/

theorem same_arr_iff {vs ws : List Value} : Same (.arr vs) (.arr ws) ↔ List.Forall₂ Same vs ws := by
  constructor
  · intro h
    induction vs generalizing ws with
    | nil => cases h; exact .nil
    | cons v vs ih => cases h with
      | cons h hs => exact .cons h (ih hs)
  · intro h
    induction h with
    | nil => exact .nil
    | cons h _ ih => exact .cons h ih

theorem same_obj_iff {a b : Entries} : Same (.obj a) (.obj b) ↔
    ∀ k, (get k a = none ∧ get k b = none) ∨ ∃ x y, get k a = some x ∧ get k b = some y ∧ Same x y := by
  constructor
  · intro h k
    cases h with
    | obj dom deep =>
      cases h1 : get k a with
      | none =>
        have := dom k
        simp only [h1, Option.isSome_none, Bool.false_eq_true, false_iff, Option.not_isSome_iff_eq_none] at this
        exact .inl ⟨rfl, this⟩
      | some x =>
        have := dom k
        simp only [h1, Option.isSome_some, true_iff] at this
        obtain ⟨y, hy⟩ := Option.isSome_iff_exists.1 this
        exact .inr ⟨x, y, rfl, hy, deep k x y h1 hy⟩
  · intro h
    refine .obj (fun k => ?_) (fun k x y h1 h2 => ?_)
    · rcases h k with ⟨h1, h2⟩ | ⟨x, y, h1, h2, _⟩ <;> simp [h1, h2]
    · rcases h k with ⟨h3, _⟩ | ⟨x', y', h3, h4, h5⟩
      · simp [h3] at h1
      · rw [h1] at h3
        rw [h2] at h4
        cases h3
        cases h4
        exact h5

theorem _root_.OniComb.Hocon.Spec.Same.refl : ∀ v, Same v v
  | .null => .null
  | .bool _ => .bool
  | .str _ => .str
  | .num _ => .num
  | .dur _ _ => .dur
  | .arr vs => same_arr_iff.2 (List.forall₂_same.2 fun v hv => by
      have := List.sizeOf_lt_of_mem hv
      exact Same.refl v)
  | .obj es => .obj (fun _ => Iff.rfl) fun k x y h1 h2 => by
      have : sizeOf x < 1 + sizeOf es := by simpa using sizeOf_get h1
      have h : x = y := Option.some.inj (h1.symm.trans h2)
      exact h ▸ Same.refl x
  | .enumeration none vs => .enumNone (same_arr_iff.2 (List.forall₂_same.2 fun v hv => by
      have := List.sizeOf_lt_of_mem hv
      exact Same.refl v))
  | .enumeration (some p) vs => .enumSome (Same.refl p) (same_arr_iff.2 (List.forall₂_same.2 fun v hv => by
      have := List.sizeOf_lt_of_mem hv
      exact Same.refl v))
  | .ref none _ _ => .refNone
  | .ref (some p) _ _ => .refSome (Same.refl p)
  | .incl _ _ => .incl
  | .link p v => .link (Same.refl p) (Same.refl v)

theorem _root_.OniComb.Hocon.Spec.Same.remember {p q v w : Value} (hp : Same p q) (hv : Same v w) :
    Same (remember p v) (remember q w) := by
  cases hv <;> simp only [Spec.remember] <;> first | exact .refSome hp | (constructor <;> assumption)

theorem _root_.OniComb.Hocon.Spec.Same.kind {v w : Value} (h : Same v w) :
    (IsLink v ↔ IsLink w) ∧ (IsObj v ↔ IsObj w) ∧ (IsArr v ↔ IsArr w) := by
  cases h <;> simp [IsLink, IsObj, IsArr]

/-- Merging does not depend on the iteration order of the maps. -/
theorem same_merge (b b' : Value) : ∀ a a', Wf b → Wf b' → Same a a' → Same b b' →
    Same (merge b a) (merge b' a') := by
  intro a a' hb hb' ha hs
  rcases merge_cases a b with ⟨x, y, rfl, rfl⟩ | ⟨x, y, rfl, rfl⟩ | ⟨hl, p, v, rfl⟩ | ⟨h1, h2, h3⟩
  · obtain ⟨x', rfl⟩ := isObj_iff.1 (ha.kind.2.1.1 trivial)
    obtain ⟨y', rfl⟩ := isObj_iff.1 (hs.kind.2.1.1 trivial)
    rw [merge_obj_obj, merge_obj_obj]
    rw [same_obj_iff] at ha hs ⊢
    intro k
    rw [get_mergeEntries (wf_obj.1 hb).1, get_mergeEntries (wf_obj.1 hb').1]
    rcases hs k with ⟨e1, e2⟩ | ⟨u, u', e1, e2, e3⟩
    · simp only [e1, e2]
      exact ha k
    · simp only [e1, e2]
      refine .inr ⟨_, _, rfl, rfl, ?_⟩
      rcases ha k with ⟨f1, f2⟩ | ⟨w, w', f1, f2, f3⟩
      · simp only [f1, f2]
        exact e3
      · simp only [f1, f2]
        have := sizeOf_get e1
        exact same_merge u u' w w' (wf_get hb e1) (wf_get hb' e2) f3 e3
  · obtain ⟨x', rfl⟩ := isArr_iff.1 (ha.kind.2.2.1 trivial)
    obtain ⟨y', rfl⟩ := isArr_iff.1 (hs.kind.2.2.1 trivial)
    rw [merge_arr_arr, merge_arr_arr]
    rw [same_arr_iff] at ha hs ⊢
    exact List.rel_append ha hs
  · have hl' : ¬ IsLink b' := fun h => hl (hs.kind.1.2 h)
    cases ha with
    | link hp hv =>
      rw [merge_link_left hl, merge_link_left hl', push_eq, push_eq]
      exact .link (.link hp hv) (.remember (.link hp hv) (same_merge b b' v _ hb hb' hv hs))
  · obtain ⟨k1, k2, k3⟩ := ha.kind
    obtain ⟨j1, j2, j3⟩ := hs.kind
    rw [merge_keep h1 h2 h3, merge_keep (by rwa [← j1, ← k1]) (by rwa [← j2, ← k2]) (by rwa [← j3, ← k3])]
    exact ha
termination_by a => (sizeOf b, sizeOf a)

/-- The specification determines the merge up to the order of maps. -/
theorem merged_unique {a b c c' : Value} (h : Merged a b c) (h' : Merged a b c') : Same c c' := by
  induction h generalizing c' with
  | objects left right neither both deep ih =>
    cases h' with
    | objects left' right' neither' both' deep' =>
      refine same_obj_iff.2 fun k => ?_
      rename_i a b c d
      cases h1 : get k a with
      | none =>
        cases h2 : get k b with
        | none => exact .inl ⟨neither k h1 h2, neither' k h1 h2⟩
        | some y => exact .inr ⟨y, y, right k y h1 h2, right' k y h1 h2, .refl y⟩
      | some x =>
        cases h2 : get k b with
        | none => exact .inr ⟨x, x, left k x h1 h2, left' k x h1 h2, .refl x⟩
        | some y =>
          obtain ⟨z, hz⟩ := Option.isSome_iff_exists.1 (both k x y h1 h2)
          obtain ⟨z', hz'⟩ := Option.isSome_iff_exists.1 (both' k x y h1 h2)
          exact .inr ⟨z, z', hz, hz', ih k x y z h1 h2 hz (deep' k x y z' h1 h2 hz')⟩
    | keep _ ho _ => exact absurd ⟨trivial, trivial⟩ ho
  | arrays =>
    cases h' with
    | arrays => exact .refl _
    | keep _ _ hr => exact absurd ⟨trivial, trivial⟩ hr
  | chain hb _ ih =>
    cases h' with
    | chain _ h => exact .link (.refl _) (.remember (.refl _) (ih h))
    | keep hb' _ _ =>
      rcases hb' with h | h
      · exact absurd h hb
      · exact absurd trivial h
  | keep hb ho hr =>
    cases h' with
    | objects => exact absurd ⟨trivial, trivial⟩ ho
    | arrays => exact absurd ⟨trivial, trivial⟩ hr
    | chain hb' _ =>
      rcases hb with h | h
      · exact absurd h hb'
      · exact absurd trivial h
    | keep => exact .refl _

/-! ### Repeated keys -/

/-- The folds of `object` and `config` over the properties, with the combination `f` of two definitions. -/
theorem get_fold (f : Value → Value → Value) (k : Bytes) (ps : List (Bytes × Value)) : ∀ es : Entries,
    get k (ps.foldl (fun es e => match get e.1 es with
      | none => insertNew e.1 e.2 es
      | some v => set e.1 (f v e.2) es) es) =
    match get k es with
    | some x => some ((definitions k ps).foldl f x)
    | none => match definitions k ps with
      | [] => none
      | v :: vs => some (vs.foldl f v) := by
  induction ps with
  | nil =>
    intro es
    simp only [List.foldl_nil, definitions, List.filter_nil, List.map_nil]
    cases get k es <;> rfl
  | cons e ps ih =>
    intro es
    obtain ⟨k', w⟩ := e
    rw [List.foldl_cons, ih]
    by_cases hk : k' = k
    · subst hk
      have hd : definitions k' ((k', w) :: ps) = w :: definitions k' ps := by simp [definitions]
      rw [hd]
      cases h : get k' es with
      | none => simp [get_insertNew h]
      | some v => simp [get_set, h]
    · have hd : definitions k ((k', w) :: ps) = definitions k ps := by simp [definitions, hk]
      rw [hd]
      cases h : get k' es with
      | none => simp [get_insertNew h, hk]
      | some v => simp [get_set, hk]

theorem get_objectFold (k : Bytes) (ps : List (Bytes × Value)) : get k (objectFold ps) =
    match definitions k ps with
    | [] => none
    | v :: vs => some (vs.foldl push v) := by
  exact get_fold push k ps []

theorem get_configFold (k : Bytes) (ps : List (Bytes × Value)) : get k (configFold ps) =
    match definitions k ps with
    | [] => none
    | v :: vs => some (vs.foldl (fun a b => merge b a) v) := by
  exact get_fold (fun a b => merge b a) k ps []

theorem nodup_fold (f : Value → Value → Value) (ps : List (Bytes × Value)) : ∀ es : Entries,
    (keys es).Nodup → (keys (ps.foldl (fun es e => match get e.1 es with
      | none => insertNew e.1 e.2 es
      | some v => set e.1 (f v e.2) es) es)).Nodup := by
  induction ps with
  | nil => exact fun _ h => h
  | cons e ps ih =>
    intro es h
    rw [List.foldl_cons]
    refine ih _ ?_
    cases hg : get e.1 es with
    | none => exact nodup_insertNew hg h
    | some v => simpa only [keys_set] using h

theorem latest_push {a v : Value} : latest (push a v) = remember a v := by rw [push_eq]; rfl

theorem merge_scalar {a b : Value} (h : Scalar a) : merge b a = a :=
  merge_keep (.inr h.1) (fun hh => h.2.1 hh.1) (fun hh => h.2.2 hh.1)

theorem toVec_ne (v : Value) : toVec v ≠ [] := by
  cases v <;> simp [toVec]

end OniComb.Hocon
