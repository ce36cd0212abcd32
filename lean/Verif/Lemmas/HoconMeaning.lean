import Verif.Lemmas.HoconDotted
import Verif.Lemmas.HoconShape
import Verif.Lemmas.HoconPath
import Verif.Spec.HoconAnswers

/-! # Helper lemmas: what the first pass over a document makes of it -/

namespace OniComb.Hocon
open OniComb OniComb.Hocon.Spec
open OniComb.Uri (Bytes byte bytes)

variable {env : Env} {S : Std} {t : Bytes}

theorem configFold_eq (ps : Entries) : configFold ps = ps.foldl (fun es e => mergeEntry e es) [] := by
  unfold configFold
  congr
  funext es e
  obtain ⟨k, v⟩ := e
  rw [mergeEntry]

/-! ### Includes that can be loaded -/

/-- Every include in the value can be loaded. -/
def Loads (env : Env) (v : Value) : Prop := ∀ m f, Part (.incl m f) v → ∃ x, env.load f = .ok x

mutual
theorem expand_loads (v : Value) (h : Loads env v) : ∃ w, expand env v = .ok w := by
  match v with
  | .incl m f => rw [expand]; exact h m f .refl
  | .obj es =>
    obtain ⟨r, hr⟩ := expandEntries_loads es [] fun e he m f hp => h m f (.value he hp)
    rw [expand, hr]
    exact ⟨_, rfl⟩
  | .null | .bool _ | .str _ | .num _ | .dur _ _ | .arr _ | .enumeration _ _ | .ref _ _ _ | .link _ _ =>
    simp only [expand]
    exact ⟨_, rfl⟩
theorem expandEntries_loads (es new : Entries) (h : ∀ e ∈ es, Loads env e.2) : ∃ r, expandEntries env es new = .ok r := by
  match es with
  | [] => exact ⟨new, rfl⟩
  | e :: es =>
    obtain ⟨r, hr⟩ := expandEntry_loads e new (h e (by simp))
    obtain ⟨r', hr'⟩ := expandEntries_loads es r fun x hx => h x (List.mem_cons_of_mem _ hx)
    exact ⟨r', by rw [expandEntries, hr]; exact hr'⟩
theorem expandEntry_loads (e : Bytes × Value) (new : Entries) (h : Loads env e.2) :
    ∃ r, expandEntry env e new = .ok r := by
  match e with
  | (k, v) =>
    rw [expandEntry]
    by_cases hd : byte '.' ∈ k
    · obtain ⟨w, hw⟩ := expand_loads v h
      rw [if_pos hd, hw]
      dsimp only [Out.bind]
      split <;> exact ⟨_, rfl⟩
    · exact ⟨_, by rw [if_neg hd]⟩
end

/-! ### The values one by one -/

/-- What the environment loads has each key once. -/
def LoadsWf (env : Env) : Prop := ∀ f v, env.load f = .ok v → Wf v

theorem nested_nil {load : Bytes → Value → Prop} {es ps : Entries} (h : Nested load es ps) (hp : ps = []) :
    ∀ e ∈ es, byte '.' ∉ e.1 := by
  induction es generalizing ps with
  | nil => simp
  | cons e es ih =>
    cases h with
    | skip hk h => exact List.forall_mem_cons.2 ⟨hk, ih h hp⟩
    | dotted => cases hp

theorem wf_configFold {ps : Entries} (h : ∀ e ∈ ps, Wf e.2) : Wf (.obj (configFold ps)) := by
  have key : ∀ (ps es : Entries), (∀ e ∈ ps, Wf e.2) → Wf (.obj es) →
      Wf (.obj (ps.foldl (fun es e => mergeEntry e es) es)) := by
    intro ps
    induction ps with
    | nil => exact fun _ _ h => h
    | cons e ps ih =>
      intro es hp he
      refine ih _ (fun x hx => hp x (List.mem_cons_of_mem _ hx)) ?_
      have := wf_merge (nest [e.1] e.2) (.obj es) he (wf_nest (hp e (by simp)) _)
      rw [← obj_mergeEntry] at this
      exact this
  rw [configFold_eq]
  exact key ps [] h (wf_obj.2 ⟨by simp [keys], by simp⟩)

mutual
theorem expand_expanded (hl : LoadsWf env) (v w : Value) (hv : Wf v) (h : expand env v = .ok w) :
    Wf w ∧ Expanded (fun f x => env.load f = .ok x) v w := by
  match v with
  | .incl m f => rw [expand] at h; exact ⟨hl _ _ h, .file h⟩
  | .obj es =>
    rw [expand] at h
    obtain ⟨new, h1, h2⟩ := bind_eq_ok.1 h
    cases h2
    by_cases hd : ∃ e ∈ es, byte '.' ∈ e.1
    · obtain ⟨ps, h3, h4, h5⟩ := expandEntries_nested hl es [] new (fun e he => (wf_obj.1 hv).2 e he) h1
      have hne : ps ≠ [] := by
        rintro rfl
        obtain ⟨e, he, hk⟩ := hd
        exact nested_nil h3 rfl e he hk
      have hf : new = configFold ps := by rw [h5, configFold_eq]
      have hnew : new.isEmpty = false := by
        rw [hf, List.isEmpty_eq_false_iff]
        exact configFold_ne hne
      rw [hnew, if_neg (by simp)]
      have hc := configFold_combined h4
      rw [hf]
      exact ⟨wf_configFold h4, .dotted hd h3 hc⟩
    · have hu : ∀ e ∈ es, byte '.' ∉ e.1 := fun e he hk => hd ⟨e, he, hk⟩
      rw [expandEntries_plain es hu] at h1
      cases h1
      exact ⟨hv, .same (by simp) (by rintro es' ⟨⟩; exact hu)⟩
  | .null | .bool _ | .str _ | .num _ | .dur _ _ | .arr _ | .enumeration _ _ | .ref _ _ _ | .link _ _ =>
    simp only [expand, Out.ok.injEq] at h
    subst h
    exact ⟨hv, .same (by simp) (by intro es he; cases he)⟩
theorem expandEntries_nested (hl : LoadsWf env) (es new new' : Entries) (he : ∀ e ∈ es, Wf e.2)
    (h : expandEntries env es new = .ok new') :
    ∃ ps, Nested (fun f x => env.load f = .ok x) es ps ∧ (∀ e ∈ ps, Wf e.2) ∧
      new' = ps.foldl (fun es e => mergeEntry e es) new := by
  match es with
  | [] => rw [expandEntries] at h; cases h; exact ⟨[], .nil, by simp, rfl⟩
  | (k, v) :: es =>
    rw [expandEntries] at h
    obtain ⟨mid, h1, h2⟩ := bind_eq_ok.1 h
    obtain ⟨ps, h3, h4, h5⟩ := expandEntries_nested hl es mid new' (fun x hx => he x (List.mem_cons_of_mem _ hx)) h2
    by_cases hd : byte '.' ∈ k
    · obtain ⟨s, ss, h6, h7⟩ := splitDot_dotted hd
      rw [expandEntry_dotted hd h6 h7] at h1
      obtain ⟨w, h8, h9⟩ := bind_eq_ok.1 h1
      cases h9
      obtain ⟨h10, h11⟩ := expand_expanded hl v w (he (k, v) (by simp)) h8
      refine ⟨(s, nest ss w) :: ps, .dotted ?_ h7 (fun x hx => ?_) h11 h3, ?_, by rw [h5]; rfl⟩
      · rw [← h6, joinDot_splitDot]
      · exact splitDot_mem (k := k) (by rw [h6]; exact hx)
      · exact List.forall_mem_cons.2 ⟨wf_nest h10 ss, h4⟩
    · rw [expandEntry, if_neg hd] at h1
      cases h1
      exact ⟨ps, .skip hd h3, h4, h5⟩
end

theorem mergeAll_meaning (hl : LoadsWf env) : ∀ (vs : List Value) (a w : Value), (∀ v ∈ vs, Wf v) → mergeAll env a vs = .ok w →
    ∃ ws, ExpandedAll (fun f x => env.load f = .ok x) vs ws ∧ MergedAll a ws w := by
  intro vs
  induction vs with
  | nil => intro a w _ h; cases h; exact ⟨[], .nil, .one⟩
  | cons v vs ih =>
    intro a w hv h
    obtain ⟨x, h1, h2⟩ := bind_eq_ok.1 h
    obtain ⟨h3, h4⟩ := expand_expanded hl v x (hv v (by simp)) h1
    obtain ⟨ws, h5, h6⟩ := ih _ w (fun y hy => hv y (List.mem_cons_of_mem _ hy)) h2
    exact ⟨x :: ws, .cons h4 h5, .more (merged x a h3) h6⟩

theorem stage0_meaning (hl : LoadsWf env) {vs : List Value} {doc : Value} (hv : ∀ v ∈ vs, Wf v)
    (h : resolveStage0 env vs = .ok doc) : Meaning (fun f x => env.load f = .ok x) vs doc := by
  cases vs with
  | nil => cases h
  | cons v vs =>
    obtain ⟨x, h1, h2⟩ := bind_eq_ok.1 h
    obtain ⟨-, h3⟩ := expand_expanded hl v x (hv v (by simp)) h1
    obtain ⟨ws, h4, h5⟩ := mergeAll_meaning hl vs x doc (fun y hy => hv y (List.mem_cons_of_mem _ hy)) h2
    exact ⟨x, ws, .cons h3 h4, h5⟩

theorem mergeAll_loads : ∀ (vs : List Value) (a : Value), (∀ v ∈ vs, Loads env v) → ∃ w, mergeAll env a vs = .ok w := by
  intro vs
  induction vs with
  | nil => intro a _; exact ⟨a, rfl⟩
  | cons v vs ih =>
    intro a h
    obtain ⟨x, hx⟩ := expand_loads v (h v (by simp))
    obtain ⟨w, hw⟩ := ih (merge x a) fun y hy => h y (List.mem_cons_of_mem _ hy)
    exact ⟨w, by rw [mergeAll, hx]; exact hw⟩

theorem stage0_loads {vs : List Value} (hne : vs ≠ []) (h : ∀ v ∈ vs, Loads env v) : ∃ doc, resolveStage0 env vs = .ok doc := by
  cases vs with
  | nil => exact absurd rfl hne
  | cons v vs =>
    obtain ⟨x, hx⟩ := expand_loads v (h v (by simp))
    obtain ⟨w, hw⟩ := mergeAll_loads vs x fun y hy => h y (List.mem_cons_of_mem _ hy)
    exact ⟨w, by rw [resolveStage0, hx]; exact hw⟩

/-! ### The newest definition of a key is one value -/

/-- The newest of several definitions is not itself several definitions. -/
def Flat (v : Value) : Prop := ∀ p u, Part (.link p u) v → ¬ IsLink u

theorem flat_obj {es : Entries} : Flat (.obj es) ↔ ∀ e ∈ es, Flat e.2 :=
  ⟨fun h _ he p u hp => h p u (.value he hp), fun h p u hp => by cases hp with | value he hp => exact h _ he p u hp⟩

theorem flat_arr {vs : List Value} : Flat (.arr vs) ↔ ∀ v ∈ vs, Flat v :=
  ⟨fun h _ he p u hp => h p u (.elem he hp), fun h p u hp => by cases hp with | elem he hp => exact h _ he p u hp⟩

theorem flat_link {p v : Value} : Flat (.link p v) ↔ Flat p ∧ Flat v ∧ ¬ IsLink v :=
  ⟨fun h => ⟨fun q u hq => h q u (.older hq), fun q u hq => h q u (.newer hq), h p v .refl⟩, fun h q u hq => by
    cases hq with
    | refl => exact h.2.2
    | older hq => exact h.1 q u hq
    | newer hq => exact h.2.1 q u hq⟩

theorem flat_remember {c v : Value} (hc : Flat c) (hv : Flat v ∧ ¬ IsLink v) :
    Flat (remember c v) ∧ ¬ IsLink (remember c v) := by
  cases v with
  | ref prev p o =>
    refine ⟨fun q u h => ?_, fun h => h⟩
    cases h with
    | refBefore h => exact hc q u h
  | _ => exact hv

theorem flat_push {a b : Value} (ha : Flat a) (hb : Flat b ∧ ¬ IsLink b) : Flat (push a b) := by
  rw [push_eq]
  exact flat_link.2 ⟨ha, flat_remember ha hb⟩

theorem flat_get {es : Entries} {k : Bytes} {v : Value} (h : Flat (.obj es)) (hg : get k es = some v) : Flat v :=
  flat_obj.1 h _ (get_mem hg)

theorem flat_insertNew {k : Bytes} {v : Value} {es : Entries} (h : Flat (.obj es)) (hv : Flat v) :
    Flat (.obj (insertNew k v es)) := by
  refine flat_obj.2 fun e he => ?_
  rcases List.mem_append.1 he with he | he
  · exact flat_obj.1 h e he
  · cases List.mem_singleton.1 he; exact hv

theorem mem_set {k : Bytes} {v : Value} {e : Bytes × Value} : ∀ {es : Entries}, e ∈ set k v es → e ∈ es ∨ e.2 = v
  | [], h => by cases h
  | (k', v') :: es, h => by
    rw [set] at h
    split at h
    · rcases List.mem_cons.1 h with rfl | h
      · exact .inr rfl
      · exact .inl (List.mem_cons_of_mem _ h)
    · rcases List.mem_cons.1 h with rfl | h
      · exact .inl (by simp)
      · rcases mem_set h with h | h
        · exact .inl (List.mem_cons_of_mem _ h)
        · exact .inr h

theorem flat_set {k : Bytes} {v : Value} {es : Entries} (h : Flat (.obj es)) (hv : Flat v) : Flat (.obj (set k v es)) := by
  refine flat_obj.2 fun e he => ?_
  rcases mem_set he with he | he
  · exact flat_obj.1 h e he
  · rw [he]; exact hv

theorem notLink_merge {a b : Value} (ha : ¬ IsLink a) : ¬ IsLink (merge b a) := by
  rcases merge_cases a b with ⟨a, b, rfl, rfl⟩ | ⟨a, b, rfl, rfl⟩ | ⟨hl, p, v, rfl⟩ | ⟨h1, h2, h3⟩
  · rw [merge_obj_obj]; exact fun h => h
  · rw [merge_arr_arr]; exact fun h => h
  · exact absurd trivial ha
  · rw [merge_keep h1 h2 h3]; exact ha

mutual
theorem flat_merge (b : Value) (a : Value) (ha : Flat a) (hb : Flat b) : Flat (merge b a) := by
  rcases merge_cases a b with ⟨x, y, hx, hy⟩ | ⟨x, y, hx, hy⟩ | ⟨hl, p, v, hx⟩ | ⟨h1, h2, h3⟩
  · subst hx hy
    rw [merge_obj_obj]
    exact flat_mergeEntries y x ha (flat_obj.1 hb)
  · subst hx hy
    rw [merge_arr_arr]
    rw [flat_arr] at ha hb ⊢
    intro v hv
    rcases List.mem_append.1 hv with h | h
    · exact ha v h
    · exact hb v h
  · subst hx
    rw [merge_link_left hl]
    exact flat_push ha ⟨flat_merge b v (flat_link.1 ha).2.1 hb, notLink_merge (flat_link.1 ha).2.2⟩
  · rw [merge_keep h1 h2 h3]
    exact ha
termination_by (sizeOf b, sizeOf a)
theorem flat_mergeEntries (r : List (Bytes × Value)) (l : Entries) (hl : Flat (.obj l)) (hr : ∀ e ∈ r, Flat e.2) :
    Flat (.obj (mergeEntries r l)) := by
  match r with
  | [] => rw [mergeEntries]; exact hl
  | e :: r =>
    rw [mergeEntries]
    exact flat_mergeEntries r _ (flat_mergeEntry e l hl (hr e (by simp))) fun x hx => hr x (List.mem_cons_of_mem _ hx)
termination_by (sizeOf r, 0)
theorem flat_mergeEntry (e : Bytes × Value) (l : Entries) (hl : Flat (.obj l)) (he : Flat e.2) :
    Flat (.obj (mergeEntry e l)) := by
  match e with
  | (k, v) =>
    rw [mergeEntry]
    cases hg : get k l with
    | none => exact flat_insertNew hl he
    | some x => exact flat_set hl (flat_merge v x (flat_get hl hg) he)
termination_by (sizeOf e, 0)
end

theorem flat_configFold {ps : Entries} (h : ∀ e ∈ ps, Flat e.2) : Flat (.obj (configFold ps)) := by
  rw [configFold_eq]
  have key : ∀ (ps es : Entries), (∀ e ∈ ps, Flat e.2) → Flat (.obj es) →
      Flat (.obj (ps.foldl (fun es e => mergeEntry e es) es)) := by
    intro ps
    induction ps with
    | nil => exact fun _ _ h => h
    | cons e ps ih =>
      intro es hp he
      exact ih _ (fun x hx => hp x (List.mem_cons_of_mem _ hx)) (flat_mergeEntry e es he (hp e (by simp)))
  exact key ps [] h (flat_obj.2 (by simp))

theorem flat_objectFold {ps : Entries} (h : ∀ e ∈ ps, Flat e.2 ∧ ¬ IsLink e.2) : Flat (.obj (objectFold ps)) := by
  have key : ∀ (ps es : Entries), (∀ e ∈ ps, Flat e.2 ∧ ¬ IsLink e.2) → Flat (.obj es) →
      Flat (.obj (ps.foldl (fun es e => match get e.1 es with
        | none => insertNew e.1 e.2 es
        | some v => set e.1 (push v e.2) es) es)) := by
    intro ps
    induction ps with
    | nil => exact fun _ _ h => h
    | cons e ps ih =>
      intro es hp he
      rw [List.foldl_cons]
      refine ih _ (fun x hx => hp x (List.mem_cons_of_mem _ hx)) ?_
      have h1 := hp e (by simp)
      cases hg : get e.1 es with
      | none => exact flat_insertNew he h1.1
      | some v => exact flat_set he (flat_push (flat_get he hg) h1)
  exact key ps [] h (flat_obj.2 (by simp))

theorem flat_nest {v : Value} (h : Flat v) : ∀ ks, Flat (nest ks v)
  | [] => h
  | k :: ks => flat_obj.2 (by simpa using flat_nest h ks)

mutual
theorem flat_expand (hl : ∀ f v, env.load f = .ok v → Flat v) (v w : Value) (hv : Flat v) (h : expand env v = .ok w) :
    Flat w := by
  match v with
  | .incl m f => rw [expand] at h; exact hl _ _ h
  | .obj es =>
    rw [expand] at h
    obtain ⟨new, h1, h2⟩ := bind_eq_ok.1 h
    cases h2
    have := flat_expandEntries hl es [] new (flat_obj.1 hv) (flat_obj.2 (by simp)) h1
    split
    · exact hv
    · exact this
  | .null | .bool _ | .str _ | .num _ | .dur _ _ | .arr _ | .enumeration _ _ | .ref _ _ _ | .link _ _ =>
    simp only [expand, Out.ok.injEq] at h
    exact h ▸ hv
theorem flat_expandEntries (hl : ∀ f v, env.load f = .ok v → Flat v) (es new new' : Entries) (he : ∀ e ∈ es, Flat e.2)
    (hn : Flat (.obj new)) (h : expandEntries env es new = .ok new') : Flat (.obj new') := by
  match es with
  | [] => rw [expandEntries] at h; cases h; exact hn
  | (k, v) :: es =>
    rw [expandEntries] at h
    obtain ⟨mid, h1, h2⟩ := bind_eq_ok.1 h
    refine flat_expandEntries hl es mid new' (fun x hx => he x (List.mem_cons_of_mem _ hx)) ?_ h2
    by_cases hd : byte '.' ∈ k
    · obtain ⟨s, ss, h6, h7⟩ := splitDot_dotted hd
      rw [expandEntry_dotted hd h6 h7] at h1
      obtain ⟨w, h8, h9⟩ := bind_eq_ok.1 h1
      cases h9
      exact flat_mergeEntry _ _ hn (flat_nest (flat_expand hl v w (he (k, v) (by simp)) h8) ss)
    · rw [expandEntry, if_neg hd] at h1
      cases h1
      exact hn
end

theorem flat_mergeAll (hl : ∀ f v, env.load f = .ok v → Flat v) : ∀ (vs : List Value) (a w : Value), Flat a →
    (∀ v ∈ vs, Flat v) → mergeAll env a vs = .ok w → Flat w := by
  intro vs
  induction vs with
  | nil => intro a w ha _ h; cases h; exact ha
  | cons v vs ih =>
    intro a w ha hv h
    obtain ⟨t, h1, h2⟩ := bind_eq_ok.1 h
    exact ih _ w (flat_merge _ _ ha (flat_expand hl v t (hv v (by simp)) h1)) (fun x hx => hv x (List.mem_cons_of_mem _ hx)) h2

theorem flat_stage0 (hl : ∀ f v, env.load f = .ok v → Flat v) {vs : List Value} {w : Value} (hv : ∀ v ∈ vs, Flat v)
    (h : resolveStage0 env vs = .ok w) : Flat w := by
  cases vs with
  | nil => cases h
  | cons v vs =>
    obtain ⟨t, h1, h2⟩ := bind_eq_ok.1 h
    exact flat_mergeAll hl vs t w (flat_expand hl v t (hv v (by simp)) h1) (fun x hx => hv x (List.mem_cons_of_mem _ hx)) h2

theorem flat_latest {v : Value} (h : Flat v) : Flat (latest v) ∧ ¬ IsLink (latest v) := by
  cases v with
  | link p u => exact ⟨fun q w hq => h q w (.newer hq), h p u .refl⟩
  | _ => exact ⟨h, fun h => h⟩

theorem flat_descend {ss : List Bytes} (hne : ss ≠ []) : ∀ {v x : Value}, Flat v → descend ss v = some x → ¬ IsLink x := by
  have key : ∀ (ss : List Bytes) (v x : Value), Flat v → ¬ IsLink v → descend ss v = some x → ¬ IsLink x := by
    intro ss
    induction ss with
    | nil => intro v x _ hl h; cases h; exact hl
    | cons s ss ih =>
      intro v x hv _ h
      cases v with
      | obj es =>
        rw [descend] at h
        obtain ⟨y, h1, h2⟩ := Option.bind_eq_some_iff.1 h
        have hy := flat_latest (flat_get hv h1)
        exact ih _ _ hy.1 hy.2 h2
      | _ => cases h
  intro v x hv h
  by_cases hl : IsLink v
  · cases v with
    | link p u =>
      obtain ⟨s, ss, rfl⟩ := List.exists_cons_of_ne_nil hne
      cases h
    | _ => cases hl
  · exact key ss v x hv hl h

/-! ### What the grammar yields -/

theorem flat_atom {v : Value} (h : ∀ p u, ¬ Part (.link p u) v) : Flat v ∧ ¬ IsLink v := by
  refine ⟨fun p u hp => absurd hp (h p u), fun hl => ?_⟩
  cases v with
  | link p u => exact h p u .refl
  | _ => cases hl

theorem flat_simple (S : Std) : Yields (simpleConfigValue S) fun v => Flat v ∧ ¬ IsLink v := by
  refine Yields.surround (Yields.or (Yields.or (Yields.or (Yields.or (Yields.or (Yields.attempt ?_) (Yields.attempt ?_))
    (Yields.attempt ?_)) (Yields.attempt ?_)) (Yields.attempt ?_)) ?_) <;>
  exact Yields.map (Yields.any.imp fun _ _ => flat_atom fun p u hp => by cases hp)

theorem flat_reference : Yields referenceConfigValue fun v => Flat v ∧ ¬ IsLink v :=
  Yields.map (Yields.any.imp fun _ _ => flat_atom fun p u hp => by cases hp)

theorem flat_string : Yields stringConfigValue fun v => Flat v ∧ ¬ IsLink v :=
  Yields.map (Yields.any.imp fun _ _ => flat_atom fun p u hp => by cases hp)

theorem flat_enumeration : Yields enumerationConfigValue fun v => Flat v ∧ ¬ IsLink v :=
  Yields.map ((Yields.many1 (Yields.or (Yields.attempt flat_string) flat_reference)).imp fun vs h =>
    ⟨fun p u hp => by cases hp with | piece hv hp => exact (h _ hv).1 p u hp, fun h => h⟩)

theorem flat_array {cv : Parser UInt8 Value} (h : Yields cv fun v => Flat v ∧ ¬ IsLink v) :
    Yields (arrayConfigValue cv) fun v => Flat v ∧ ¬ IsLink v :=
  Yields.map ((Yields.surround (Yields.many0Sep h)).imp fun _ h => ⟨flat_arr.2 fun v hv => (h v hv).1, fun h => h⟩)

theorem flat_object {prop : Parser UInt8 (Bytes × Value)} (h : Yields prop fun e => Flat e.2 ∧ ¬ IsLink e.2) :
    Yields (objectConfigValue prop) fun v => Flat v ∧ ¬ IsLink v :=
  Yields.map (Yields.map ((Yields.surround (Yields.many0Sep h)).imp fun _ h => ⟨flat_objectFold h, fun h => h⟩))

theorem flat_configValue (S : Std) {cv : Parser UInt8 Value} {prop : Parser UInt8 (Bytes × Value)}
    (h : Yields cv fun v => Flat v ∧ ¬ IsLink v) (h' : Yields prop fun e => Flat e.2 ∧ ¬ IsLink e.2) :
    Yields (configValue S cv prop) fun v => Flat v ∧ ¬ IsLink v :=
  Yields.surround (Yields.or (Yields.or (Yields.or (Yields.or (Yields.attempt (flat_array h)) (Yields.attempt (flat_object h')))
    (Yields.attempt flat_reference)) (Yields.attempt (flat_simple S))) flat_enumeration)

theorem flat_property {cv : Parser UInt8 Value} {prop : Parser UInt8 (Bytes × Value)}
    (h : Yields cv fun v => Flat v ∧ ¬ IsLink v) (h' : Yields prop fun e => Flat e.2 ∧ ¬ IsLink e.2) :
    Yields (property cv prop) fun e => Flat e.2 ∧ ¬ IsLink e.2 :=
  (Yields.andThen (P := fun _ => True) Yields.any (Yields.or (Yields.or (Yields.attempt (Yields.skipLeft h))
    (Yields.attempt (flat_object h'))) (flat_array h))).imp fun _ h => h.2

theorem flat_grammar (S : Std) (n : Nat) : (Yields (grammar S n).1 fun v => Flat v ∧ ¬ IsLink v) ∧
    Yields (grammar S n).2 fun e => Flat e.2 ∧ ¬ IsLink e.2 := by
  induction n with
  | zero => exact ⟨Yields.diverging, Yields.diverging⟩
  | succ n ih => exact ⟨flat_configValue S (Yields.lazy ih.1) (Yields.lazy ih.2),
      flat_property (Yields.lazy ih.1) (Yields.lazy ih.2)⟩

theorem flat_hocon (S : Std) (n : Nat) : Yields (hocon S n) fun vs => ∀ v ∈ vs, Flat v := by
  obtain ⟨h, h'⟩ := flat_grammar S n
  refine Yields.skipRight (Yields.skipLeft (Yields.or (Yields.or (Yields.attempt (Yields.map
    ((Yields.many1 h').imp fun ps hp => ?_))) (Yields.attempt (Yields.many1 (Yields.map (Yields.any.imp fun _ _ => ?_)))))
    ((Yields.many0 (Yields.or (Yields.attempt (flat_object h')) (flat_array h))).imp fun vs hv v hm => (hv v hm).1)))
  · intro v hv
    cases List.mem_singleton.1 hv
    exact flat_configFold fun e he => (hp e he).1
  · exact (flat_atom fun p u hp => by cases hp).1

/-! ### Answers -/

theorem descend_append {ps ss : List Bytes} : ∀ {v : Value}, descend (ps ++ ss) v = (descend ps v).bind (descend ss) := by
  induction ps with
  | nil => intro v; rfl
  | cons p ps ih =>
    intro v
    cases v with
    | obj es =>
      rw [List.cons_append, descend, descend]
      cases get p es with
      | none => rfl
      | some x => exact ih
    | _ => rfl

variable {var : Bytes → Option Bytes} {src : Value}

theorem resolved_missing (hflat : ∀ p x, Leads src p x → ¬ IsLink x) {ss : List Bytes} : ∀ {v w : Value},
    Resolved var src v w → descend ss v = none →
    (∀ ps qs, ss = ps ++ qs → qs ≠ [] → ∀ prev q o, descend ps v ≠ some (.ref prev q o)) → descend ss w = none := by
  induction ss with
  | nil => intro v w _ h _; cases h
  | cons s ss ih =>
    intro v w h hd hn
    have hr : ∀ prev q o, v ≠ .ref prev q o := fun prev q o hv => hn [] (s :: ss) rfl (by simp) prev q o (by rw [hv]; rfl)
    cases v with
    | ref prev q o => exact absurd rfl (hr prev q o)
    | obj es =>
      cases hg : get s es with
      | none =>
        have hw : ∃ fs, w = .obj fs := by
          cases h with
          | constant h => exact ⟨es, rfl⟩
          | empty => exact ⟨_, rfl⟩
          | entry => exact ⟨_, rfl⟩
        obtain ⟨fs, rfl⟩ := hw
        rw [descend, resolved_get_none h hg]
        rfl
      | some y =>
        obtain ⟨fs, z, rfl, h3, h4⟩ := resolved_get h hg
        rw [descend, hg] at hd
        rw [descend, h3]
        refine ih (resolved_latest hflat h4) hd fun ps qs he hne prev q o hp => ?_
        refine hn (s :: ps) qs (by rw [he]; rfl) hne prev q o ?_
        rw [descend, hg]
        exact hp
    | enumeration prev us =>
      cases h with
      | constant h => cases h
      | concat => rfl
    | link p u =>
      cases h with
      | constant h => cases h
      | link => rfl
    | arr vs =>
      cases h with
      | constant h => cases h
      | nil => rfl
      | cons => rfl
    | _ =>
      cases h with
      | constant h => rfl

theorem joined_of {text : Value → Bytes} : ∀ {us : List Value}, (∀ u ∈ us, Resolved var src u (.str (text u))) →
    Joined var src us (us.flatMap text)
  | [], _ => .nil
  | u :: us, h => by
    rw [List.flatMap_cons]
    exact .cons (h u (by simp)) (joined_of fun x hx => h x (List.mem_cons_of_mem _ hx))

theorem getValue_path {v : Value} {ss : List Bytes} (hne : ss ≠ []) (hs : ∀ s ∈ ss, Segment s) :
    getValue v (joinDot ss) = .ok (descend ss v) := getValueN_legal _ v ss hne hs (by omega)

theorem answers_of {v : Value} (hflat : ∀ p x, Leads src p x → ¬ IsLink x) (hr : Resolved var src src v) :
    Answers var src v := by
  have found : ∀ {p x w}, Leads src p x → Resolved var src x w → getValue v p = .ok (some w) := by
    intro p x w hx hw
    obtain ⟨ss, a1, a2, rfl, a4⟩ := hx
    obtain ⟨y, a5, a6⟩ := resolved_descend hflat hr a4
    cases resolved_unique a6 hw
    exact getValue_leads ⟨ss, a1, a2, rfl, a5⟩
  refine ⟨resolved_free hr, fun p x hx hc => found hx (.constant hc), ?_, fun p q prev o s h1 h2 h3 => found h1 (.variable h2 h3),
    fun p q z h1 h2 h3 h4 h5 => found h1 (.fallback h2 h3 h4 h5), fun p prev us hx => ?_, fun ss h1 h2 h3 => ?_⟩
  · intro ps qs ss prev o z hp hq hs h1 h2
    obtain ⟨x, a1, a2⟩ := resolved_descend hflat hr h1
    obtain ⟨y, b1, b2⟩ := resolved_descend hflat hr h2
    have hxy : x = y := resolved_unique a2 (.found ⟨qs, hq.1, hq.2, rfl, h2⟩ b2)
    subst hxy
    refine ⟨⟨x, getValue_leads ⟨ps, hp.1, hp.2, rfl, a1⟩⟩, ?_⟩
    rw [getValue_path (by simp [hp.1]) (List.forall_mem_append.2 ⟨hp.2, hs⟩),
      getValue_path (by simp [hq.1]) (List.forall_mem_append.2 ⟨hq.2, hs⟩), descend_append, descend_append, a1, b1]
  · have hx' := hx
    obtain ⟨ss, a1, a2, rfl, a4⟩ := hx
    obtain ⟨y, a5, a6⟩ := resolved_descend hflat hr a4
    cases a6 with
    | constant h => cases h
    | concat h hne => exact ⟨_, getValue_leads ⟨ss, a1, a2, rfl, a5⟩, joined_of h⟩
  · rw [getValue_path h1.1 h1.2, resolved_missing hflat hr h2 h3]

theorem load_meaning {w : World} {n : Nat} {vs : List Value} {doc v : Value} (hp : parse (hocon S n) t = .ok vs)
    (hd : resolveStage0 (w.env S n) vs = .ok doc) (hv : Resolved w.var doc doc v) :
    ∃ N, ∀ m, N ≤ m → parseDocument S w m t = .ok (some v) := by
  obtain ⟨M, hM⟩ := resolve_complete (env := ⟨w.var, fun _ => .panic⟩) hv
  refine ⟨max n M, fun m hm => ?_⟩
  have h1 : resolve (w.env S m) doc m doc = .ok v :=
    resolve_le (n := M) (by omega) (resolve_sub (env := ⟨w.var, fun _ => .panic⟩) (env' := w.env S m)
      ⟨rfl, fun _ _ h => by cases h⟩ _ _ _ hM)
  have h2 : resolveStage0 (w.env S m) vs = .ok doc := stage0_sub (sub_world w (by omega)).2 hd
  unfold parseDocument parseFromString
  rw [parse_le (n := n) (by omega) (by rw [hp]; simp), hp]
  simp only [Out.bind, h2, resolveStage1]
  rw [h1]

end OniComb.Hocon
