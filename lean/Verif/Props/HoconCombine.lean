import Verif.Spec.HoconCombine
import Verif.Props.Hocon
import Mathlib.Data.List.Induction

/-!
# C110: combining configuration values

`combine` of the trait `Monoid` of the `hocon` crate.  `combine a b` is `a.combine(&b)`, `combineEntries` the same for
objects.
-/

namespace OniComb.Hocon
open OniComb OniComb.Hocon.Spec
open OniComb.Uri (Bytes byte bytes)

/-! ### Lemmas -/

private theorem toVec_defs : ∀ v : Value, Defs v (toVec v)
  | .link p v => by rw [toVec]; exact .link (toVec_defs p)
  | .null => .one id
  | .bool _ => .one id
  | .str _ => .one id
  | .num _ => .one id
  | .dur _ _ => .one id
  | .arr _ => .one id
  | .obj _ => .one id
  | .enumeration _ _ => .one id
  | .ref _ _ _ => .one id
  | .incl _ _ => .one id

private theorem defs_toVec {v : Value} {ds : List Value} (h : Defs v ds) : ds = toVec v := by
  induction h with
  | one h => rename_i v; cases v <;> first | rfl | exact absurd trivial h
  | link h ih => rw [toVec, ih]

private theorem combine_link {a b : Value} (h : IsLink b) : combine a b = (toVec b).foldl push a := by
  obtain ⟨p, v, rfl⟩ := isLink_iff.1 h
  rfl

private theorem combine_plain {a b : Value} (h : ¬ IsLink b) : combine a b = a := by
  cases b <;> first | rfl | exact absurd trivial h

private theorem added_fold (a : Value) (ds : List Value) : Added a ds (ds.foldl push a) := by
  induction ds using List.reverseRecOn with
  | nil => exact .nil
  | append_singleton ds d ih => rw [List.foldl_append]; simp only [List.foldl_cons, List.foldl_nil, push_eq]; exact .snoc ih

private theorem added_unique {a c c' : Value} {ds : List Value} (h : Added a ds c) (h' : Added a ds c') : c = c' := by
  induction h generalizing c' with
  | nil =>
    generalize he : ([] : List Value) = es at h'
    cases h' with
    | nil => rfl
    | snoc => simp at he
  | snoc h ih =>
    rename_i ds c d
    generalize he : ds ++ [d] = es at h'
    cases h' with
    | nil => simp at he
    | snoc h1 =>
      obtain ⟨rfl, h2⟩ := List.append_inj' he rfl
      cases h2
      rw [ih h1]

private theorem remember_twice (a b v : Value) : remember a (remember b v) = remember a v := by
  cases v <;> rfl

private theorem fold_toVec (a : Value) (ds : List Value) : ∀ b : Value,
    (toVec (ds.foldl push b)).foldl push a = ds.foldl push ((toVec b).foldl push a) := by
  induction ds using List.reverseRecOn with
  | nil => intro b; rfl
  | append_singleton ds d ih =>
    intro b
    rw [List.foldl_append, List.foldl_append]
    simp only [List.foldl_cons, List.foldl_nil, push_eq, toVec, List.foldl_append, ih]
    rw [remember_twice]

private theorem fold_isLink {a : Value} {ds : List Value} (h : ds ≠ [] ∨ IsLink a) : IsLink (ds.foldl push a) := by
  induction ds generalizing a with
  | nil => simpa using h
  | cons d ds ih => exact ih (.inr trivial)

/-- The number of links in front. -/
private def depth : Value → Nat
  | .link p _ => depth p + 1
  | _ => 0

private theorem depth_fold (a : Value) (ds : List Value) : depth (ds.foldl push a) = depth a + ds.length := by
  induction ds generalizing a with
  | nil => rfl
  | cons d ds ih => rw [List.foldl_cons, ih, push_eq, depth, List.length_cons]; omega

private def combineStep (es : Entries) (e : Bytes × Value) : Entries :=
  match get e.1 es with
  | none => insertNew e.1 e.2 es
  | some entry => set e.1 (combine entry e.2) es

private theorem combineEntries_eq (a b : Entries) : combineEntries a b = b.foldl combineStep a := rfl

private theorem get_combine_step (k : Bytes) (e : Bytes × Value) (es : Entries) :
    get k (combineStep es e) =
    if e.1 = k then some (match get k es with | none => e.2 | some x => combine x e.2) else get k es := by
  obtain ⟨k', v⟩ := e
  unfold combineStep
  cases h : get k' es with
  | none =>
    simp only [get_insertNew h]
    by_cases hk : k' = k
    · subst hk; simp [h]
    · simp [hk]
  | some x =>
    simp only [get_set]
    by_cases hk : k' = k
    · subst hk; simp [h]
    · simp [hk]

private theorem nodup_combine {a b : Entries} (ha : (keys a).Nodup) : (keys (combineEntries a b)).Nodup := by
  unfold combineEntries
  induction b generalizing a with
  | nil => exact ha
  | cons e b ih =>
    rw [List.foldl_cons]
    refine ih ?_
    split
    · rename_i h; exact nodup_insertNew h ha
    · simpa only [keys_set] using ha

/-! ### Values -/

/-- What combining does: a value that consists of several definitions is added to the chain definition by
definition, … -/
theorem c110_adds (a b : Value) (ds : List Value) (h : IsLink b) (hd : Defs b ds) :
    Added a ds (combine a b) ∧ ∀ c, Added a ds c → c = combine a b := by
  rw [combine_link h, defs_toVec hd]
  exact ⟨added_fold a _, fun c hc => added_unique hc (added_fold a _)⟩

/-- … but a value with a single definition is dropped. -/
theorem c110_single_violated (a b : Value) (h : ¬ IsLink b) : combine a b = a := combine_plain h

/-- Every value consists of definitions, in one way. -/
theorem c110_definitions (v : Value) : ∃ ds, Defs v ds ∧ ds ≠ [] ∧ ∀ es, Defs v es → es = ds :=
  ⟨toVec v, toVec_defs v, toVec_ne v, fun _ h => defs_toVec h⟩

/-- Combining is associative exactly if a chain on the right does not meet a single definition in the middle.  (The full
property, associativity for all values, does not hold: `c110_associative_violated`.) -/
theorem c110_associative_partial (a b c : Value) :
    combine (combine a b) c = combine a (combine b c) ↔ (IsLink c → IsLink b) := by
  by_cases hc : IsLink c
  · have hl : IsLink ((toVec c).foldl push b) := fold_isLink (.inl (toVec_ne c))
    rw [combine_link hc (a := b), combine_link hl, combine_link hc, fold_toVec]
    by_cases hb : IsLink b
    · rw [combine_link hb]
      exact ⟨fun _ _ => hb, fun _ => rfl⟩
    · rw [combine_plain hb]
      refine ⟨fun h => ?_, fun h => absurd (h hc) hb⟩
      have := congrArg depth h
      rw [depth_fold, depth_fold, depth_fold] at this
      have hne := List.length_pos_iff.2 (toVec_ne b)
      omega
  · rw [combine_plain hc, combine_plain hc]
    exact ⟨fun _ h => absurd h hc, fun _ => rfl⟩

/-- Otherwise the order of combining matters: the definition in the middle is dropped in one order and kept in the
other. -/
theorem c110_associative_violated (a b c : Value) (hb : ¬ IsLink b) (hc : IsLink c) :
    combine (combine a b) c ≠ combine a (combine b c) :=
  fun h => hb ((c110_associative_partial a b c).1 h hc)

/-- There is no neutral value: none can be combined with every other value to give that value. -/
theorem c110_neutral_violated (e : Value) : ∃ a, combine e a ≠ a := by
  by_cases he : e = .null
  · exact ⟨.bool true, by subst he; intro h; cases h⟩
  · exact ⟨.null, fun h => he h⟩

example : ¬ IsLink (int 2) ∧ IsLink (.link (int 3) (int 4)) ∧
    combine (combine (int 1) (int 2)) (.link (int 3) (int 4)) = .link (.link (int 1) (int 3)) (int 4) ∧
    combine (int 1) (combine (int 2) (.link (int 3) (int 4))) =
      .link (.link (.link (int 1) (int 2)) (int 3)) (int 4) :=
  ⟨id, trivial, rfl, rfl⟩

/-- A reference remembers the chain that it is added to, not the one that it was taken from. -/
example : Added (int 1) [int 2, .ref none (bytes "x") false]
    (.link (.link (int 1) (int 2)) (.ref (some (.link (int 1) (int 2))) (bytes "x") false)) :=
  .snoc (ds := [int 2]) (.snoc (ds := []) .nil)

/-! ### Objects -/

/-- Combining objects keeps the keys of both; a key of both has the combination of its values. -/
theorem c110_objects (a b : Entries) (hb : (keys b).Nodup) (k : Bytes) :
    get k (combineEntries a b) = match get k a, get k b with
      | x, none => x
      | none, some y => some y
      | some x, some y => some (combine x y) := by
  rw [combineEntries_eq]
  induction b generalizing a with
  | nil => simp [get]
  | cons e b ih =>
    simp only [keys, List.map_cons, List.nodup_cons] at hb
    rw [List.foldl_cons, ih _ hb.2, get_combine_step, get]
    by_cases hk : e.1 = k
    · have hn : get k b = none := get_eq_none.2 (hk ▸ hb.1)
      rw [if_pos hk, if_pos hk, hn]
      cases get k a <;> rfl
    · rw [if_neg hk, if_neg hk]

/-- The result is an object without repeated keys. -/
theorem c110_objects_wf (a b : Entries) (ha : (keys a).Nodup) : (keys (combineEntries a b)).Nodup := nodup_combine ha

/-- Combining objects is associative exactly if for each key that all three have the values are combined
associatively. (The full property does not hold.) -/
theorem c110_objects_associative_partial (a b c : Entries) (hb : (keys b).Nodup) (hc : (keys c).Nodup) :
    (∀ k, get k (combineEntries (combineEntries a b) c) = get k (combineEntries a (combineEntries b c))) ↔
      ∀ k x y z, get k a = some x → get k b = some y → get k c = some z → IsLink z → IsLink y := by
  refine forall_congr' fun k => ?_
  rw [c110_objects _ _ hc, c110_objects _ _ hb, c110_objects _ _ (nodup_combine hb), c110_objects _ _ hc]
  cases get k a <;> cases get k b <;> cases get k c <;> simp [c110_associative_partial]

/-- The empty object is neutral. -/
theorem c110_objects_neutral (a : Entries) (ha : (keys a).Nodup) (k : Bytes) :
    get k (combineEntries a []) = get k a ∧ get k (combineEntries [] a) = get k a := by
  rw [c110_objects _ _ (by simp [keys]), c110_objects _ _ ha]
  constructor
  · rfl
  · simp only [get]; cases get k a <;> rfl

example : combineEntries [(bytes "a", int 1), (bytes "b", int 2)] [(bytes "c", int 3), (bytes "a", .link (int 4) (int 5))] =
    [(bytes "a", .link (.link (int 1) (int 4)) (int 5)), (bytes "b", int 2), (bytes "c", int 3)] := rfl

end OniComb.Hocon
