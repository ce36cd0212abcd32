import Verif.Lemmas.HoconValue
import Verif.Lemmas.HoconExpand
import Verif.Lemmas.HoconPath
import Verif.Lemmas.HoconResolve
import Verif.Lemmas.HoconBad
import Verif.Spec.HoconResolve

/-!
# Properties of the `hocon` crate: values, lookup and resolution

The specifications are `Verif/Spec/Hocon.lean`, `Verif/Spec/HoconText.lean` and
`Verif/Spec/HoconResolve.lean`.  A map is the list of its entries in iteration order; the theorems are about
every such list, that is about every order a `HashMap` may have.
-/

namespace OniComb.Hocon
open OniComb OniComb.Hocon.Spec
open OniComb.Uri (Bytes byte bytes)

/-- A number for the examples. -/
abbrev int (n : Int) : Value := .num ⟨n, 0⟩

/-- Decimal parser for the examples: digits only. -/
def decDigits : Std := ⟨fun t =>
  if t ≠ [] ∧ t.all (fun b => 48 ≤ b.toNat && b.toNat ≤ 57) then
    some ⟨t.foldl (fun n b => 10 * n + (b.toNat - 48 : Nat)) 0, 0⟩ else none⟩

/-! ## C55 The last definition of a key wins -/

/-- Inside braces the newest value of a key is its last definition: for constants, arrays and objects that
value itself, for references the reference together with the value it may fall back to. -/
theorem c55_object_last_definition (ps : List (Bytes × Value)) (k : Bytes) (ds : List Value) (d : Value)
    (h : definitions k ps = ds ++ [d]) (hd : ¬ IsLink d) :
    ∃ x, get k (objectFold ps) = some x ∧
      (ds = [] ∧ latest x = d ∨ ds ≠ [] ∧ ∃ before, latest x = remember before d) := by
  rw [get_objectFold, h]
  cases ds with
  | nil => exact ⟨d, rfl, .inl ⟨rfl, latest_notLink hd⟩⟩
  | cons a ds =>
    refine ⟨(ds ++ [d]).foldl push a, rfl, .inr ⟨by simp, ds.foldl push a, ?_⟩⟩
    rw [List.foldl_append]
    exact latest_push

example : ∃ ps ds d, definitions (bytes "a") ps = ds ++ [d] ∧ ¬ IsLink d ∧ ds ≠ [] :=
  ⟨[(bytes "a", int 1), (bytes "b", int 5), (bytes "a", int 2)], [int 1], int 2, rfl, id, by simp⟩

/-- The same through the lookup function: `get_value(k)` of an object returns the last definition. -/
theorem c55_object_lookup (ps : List (Bytes × Value)) (k : Bytes) (ds : List Value) (d : Value)
    (hk : Segment k) (h : definitions k ps = ds ++ [d]) (hd : ¬ IsLink d) (hr : ∀ a b c, d ≠ .ref a b c) :
    getValue (.obj (objectFold ps)) k = .ok (some d) := by
  obtain ⟨x, hx, hl⟩ := c55_object_last_definition ps k ds d h hd
  refine getValue_leads ⟨[k], by simp, by simpa using hk, rfl, ?_⟩
  have : latest x = d := by
    rcases hl with ⟨-, hl⟩ | ⟨-, b, hl⟩
    · exact hl
    · rw [hl]
      cases d <;> first | rfl | exact absurd rfl (hr _ _ _)
  simp [descend, hx, this]

example : getValue (.obj (objectFold [(bytes "a", int 1), (bytes "b", int 5), (bytes "a", int 2)])) (bytes "a") =
    .ok (some (int 2)) :=
  c55_object_lookup _ _ [int 1] (int 2) ⟨by decide, by decide⟩ rfl id (by intro a b c h; cases h)

/-- At top level the last definition does not win: the first one is kept whenever it is neither an object
nor an array, whatever the later definitions are. -/
theorem c55_top_level_first_definition_violated (S : Std) (n : Nat) (ds : List (Bytes × Lit)) (k : Bytes)
    (d : Value) (later : List Value) (hn : depthEntries ds ≤ n) (h : DocOk S.parseDecimal ds)
    (hk : definitions k (valueEntries S.parseDecimal ds) = d :: later) (hd : Scalar d) :
    ∃ es, parse (hocon S (n + 1)) (docText ds) = .ok [.obj es] ∧ get k es = some d := by
  refine ⟨_, hocon_doc S n ds ?_ hn h, ?_⟩
  · rintro rfl; simp [valueEntries, definitions] at hk
  · rw [get_configFold, hk]
    have : ∀ l : List Value, l.foldl (fun a b => merge b a) d = d := by
      intro l
      induction l with
      | nil => rfl
      | cons b l ih => rw [List.foldl_cons, merge_scalar hd, ih]
    simp only [this]

/-- The documents in question: `a=1`, `a=2` gives 1. -/
theorem c55_witness_violated : ∃ es, parse (hocon decDigits 2) (bytes "a=1\na=2\n") = .ok [.obj es] ∧
    get (bytes "a") es = some (int 1) := by
  refine c55_top_level_first_definition_violated decDigits 1
    [(bytes "a", .num (bytes "1")), (bytes "a", .num (bytes "2"))] (bytes "a") (int 1) [int 2] ?_ ?_ rfl ?_
  · decide
  · have hnum : ∀ t : Bytes, t = bytes "1" ∨ t = bytes "2" → Lit.Ok decDigits.parseDecimal (.num t) := by
      rintro t (rfl | rfl) <;> rw [Lit.Ok] <;>
        exact ⟨.inl (.inr ⟨_, [], rfl, by decide, by decide, by simp⟩), by decide⟩
    have ha : PathText (bytes "a") := ⟨[bytes "a"], by simp, by simp [Segment]; decide, rfl⟩
    refine ⟨ha, hnum _ (.inl rfl), ?_, ha, hnum _ (.inr rfl), ?_, trivial⟩
    · rintro - e ⟨⟩ b ⟨⟩; unfold UnitStart; decide
    · rintro - e ⟨⟩
  · exact ⟨id, id, id⟩

/-- What top level definitions do: the first definition with all later ones merged into it, in order. -/
theorem c55_top_level_definitions_partial (S : Std) (n : Nat) (ds : List (Bytes × Lit)) (hne : ds ≠ [])
    (hn : depthEntries ds ≤ n) (h : DocOk S.parseDecimal ds) :
    ∃ es, parse (hocon S (n + 1)) (docText ds) = .ok [.obj es] ∧ ∀ k,
      (definitions k (valueEntries S.parseDecimal ds) = [] → get k es = none) ∧
      (∀ d, definitions k (valueEntries S.parseDecimal ds) = [d] → get k es = some d) ∧
      (∀ d e, definitions k (valueEntries S.parseDecimal ds) = [d, e] → Wf e →
        ∃ x, get k es = some x ∧ Merged d e x) := by
  refine ⟨_, hocon_doc S n ds hne hn h, fun k => ⟨fun hk => ?_, fun d hk => ?_, fun d e hk he => ?_⟩⟩
  · rw [get_configFold, hk]
  · rw [get_configFold, hk]; rfl
  · rw [get_configFold, hk]; exact ⟨_, rfl, merged e d he⟩

/-! ## C56 Merging objects keeps all keys -/

/-- `a.merge_with(b)` is `a` with `b` merged into it, for every `b` whose maps hold each key once. -/
theorem c56_merge (a b : Value) (hb : Wf b) : Merged a b (merge b a) := merged b a hb

/-- Being the merge determines a value up to the iteration order of maps. -/
theorem c56_merge_unique {a b c c' : Value} (h : Merged a b c) (h' : Merged a b c') : Same c c' :=
  merged_unique h h'

/-- Merging gives each key once. -/
theorem c56_merge_wf (a b : Value) (ha : Wf a) (hb : Wf b) : Wf (merge b a) := wf_merge b a ha hb

/-- The result does not depend on the iteration order of the maps of either side. -/
theorem c56_merge_order (a a' b b' : Value) (hb : Wf b) (hb' : Wf b') (h : Same a a') (h' : Same b b') :
    Same (merge b a) (merge b' a') := same_merge b b' a a' hb hb' h h'

/-- For objects: every key of `a` and of `b`, and no other, is in the result. -/
theorem c56_keys (a b : Entries) (hb : Wf (.obj b)) : ∃ c, merge (.obj b) (.obj a) = .obj c ∧
    ∀ k, (get k c).isSome ↔ (get k a).isSome ∨ (get k b).isSome := by
  refine ⟨_, merge_obj_obj, fun k => ?_⟩
  rw [get_mergeEntries (wf_obj.1 hb).1]
  cases get k a <;> cases get k b <;> simp

/-- Values at any depth: what only one side defines is kept at its path, whatever the other side holds
elsewhere. -/
theorem c56_keep_left (b : Value) (hb : Wf b) : ∀ (p : List Bytes) (a x : Value), at_ p a = some x →
    (∀ q r, p = q ++ r → r ≠ [] → ∀ y, at_ q b = some y → ¬ IsLink y) → at_ p b = none → ¬ IsLink a →
    (∀ q r, p = q ++ r → r ≠ [] → ∀ y, at_ q a = some y → ¬ IsLink y) → at_ p (merge b a) = some x := by
  intro p
  induction p generalizing b with
  | nil => intro a x _ _ h; simp [at_] at h
  | cons k p ih =>
    intro a x ha hlb hnb hla hla'
    cases a with
    | obj a =>
      by_cases hob : IsObj b
      · obtain ⟨b, rfl⟩ := isObj_iff.1 hob
        rw [merge_obj_obj, at_, get_mergeEntries (wf_obj.1 hb).1]
        rw [at_] at ha hnb
        obtain ⟨y, hy, hy'⟩ := Option.bind_eq_some_iff.1 ha
        rw [hy]
        cases hz : get k b with
        | none => simpa using hy'
        | some z =>
          rw [hz] at hnb
          simp only [Option.bind_some] at hnb ⊢
          have hne : p ≠ [] := by rintro rfl; simp [at_] at hnb
          refine ih z (wf_get hb hz) y x hy' ?_ hnb ?_ ?_
          · intro q r hp hr w hw
            exact hlb (k :: q) r (by rw [hp]; rfl) hr w (by rw [at_, hz]; exact hw)
          · exact hla' [k] p rfl hne y (by rw [at_, hy]; rfl)
          · intro q r hp hr w hw
            exact hla' (k :: q) r (by rw [hp]; rfl) hr w (by rw [at_, hy]; exact hw)
      · rw [merge_keep (a := .obj a) (.inr (fun h => h)) (fun h => hob h.2) (fun h => h.1)]
        exact ha
    | _ => simp [at_] at ha

example : at_ [bytes "a", bytes "b"] (merge (.obj [(bytes "a", .obj [(bytes "c", int 2)]), (bytes "d", int 3)])
    (.obj [(bytes "a", .obj [(bytes "b", int 1)])])) = some (int 1) := by rfl

example : merge (.obj [(bytes "a", .arr [int 2]), (bytes "d", int 3)]) (.obj [(bytes "a", .arr [int 1])]) =
    .obj [(bytes "a", .arr [int 1, int 2]), (bytes "d", int 3)] := by rfl

/-! ## C57 Dotted keys do not disturb other keys -/

/-- The property fails: as soon as one dotted key exists, every undotted key that is not the first segment
of a dotted one disappears. -/
theorem c57_undotted_keys_lost_violated (env : Env) (es : Entries) (w : Value) (k : Bytes)
    (h : expand env (.obj es) = .ok w) (hd : ∃ e ∈ es, byte '.' ∈ e.1)
    (hn : ∀ e ∈ es, ∀ r, e.1 ≠ k ++ byte '.' :: r) : at_ [k] w = none := by
  rw [expand] at h
  obtain ⟨new, h1, h2⟩ := bind_eq_ok.1 h
  have hne : new.isEmpty = false := by
    cases new with
    | cons _ _ => rfl
    | nil =>
      exfalso
      obtain ⟨⟨k', v⟩, he, hd⟩ := hd
      have : ∀ (es : Entries) (new res : Entries), expandEntries env es new = .ok res → res = [] →
          new = [] ∧ ∀ e ∈ es, byte '.' ∉ e.1 := by
        intro es
        induction es with
        | nil => intro new res h hr; rw [expandEntries] at h; cases h; exact ⟨hr, by simp⟩
        | cons e es ih =>
          obtain ⟨k, v⟩ := e
          intro new res h hr
          rw [expandEntries] at h
          obtain ⟨new', h1, h2⟩ := bind_eq_ok.1 h
          obtain ⟨h3, h4⟩ := ih _ _ h2 hr
          by_cases hk : byte '.' ∈ k
          · obtain ⟨s, ss, hs, hss⟩ := splitDot_dotted hk
            rw [expandEntry_dotted hk hs hss] at h1
            obtain ⟨x, -, h5⟩ := bind_eq_ok.1 h1
            cases h5
            exfalso
            have := get_mergeEntry (k := s) (k' := s) (v := nest ss x) (l := new)
            rw [h3] at this
            simp [get] at this
          · rw [expandEntry_plain hk] at h1
            cases h1
            refine ⟨h3, fun e he => ?_⟩
            rcases List.mem_cons.1 he with rfl | he
            · exact hk
            · exact h4 e he
      exact (this _ _ _ h1 rfl).2 _ he hd
  rw [hne] at h2
  cases h2
  cases hx : at_ [k] (.obj new) with
  | none => simp [hx]
  | some x =>
    exfalso
    rcases expandEntries_only (p := [k]) es h1 (by rw [hx]; rfl) with h3 | ⟨e, he, h3, h4⟩
    · simp [at_, get] at h3
    · obtain ⟨s, ss, hs, hss⟩ := splitDot_dotted (k := e.1) h3
      rw [hs] at h4
      obtain ⟨h4, -⟩ := comparable_cons.1 h4
      refine hn e he (joinDot ss) ?_
      rw [← joinDot_splitDot e.1, hs, joinDot_cons hss, h4]

example : expand ⟨fun _ => none, fun _ => .panic⟩ (.obj [(bytes "a.b", int 1), (bytes "c", int 2)]) =
    .ok (.obj [(bytes "a", .obj [(bytes "b", int 1)])]) := by rfl

/-- A further failure: when one dotted key is the beginning of another one the result depends on the order
in which the map is iterated, which is arbitrary. -/
theorem c57_iteration_order_violated (env : Env) : ∃ es fs : Entries, es.Perm fs ∧ (keys es).Nodup ∧
    ∃ v w, expand env (.obj es) = .ok v ∧ expand env (.obj fs) = .ok w ∧ ¬ Same v w := by
  refine ⟨[(bytes "a.b", int 1), (bytes "a.b.c", int 2)], [(bytes "a.b.c", int 2), (bytes "a.b", int 1)],
    .swap _ _ _, by decide, _, _, rfl, rfl, ?_⟩
  intro h
  obtain ⟨h1, -⟩ | ⟨x, y, h1, h2, h3⟩ := same_obj_iff.1 h (bytes "a")
  · exact absurd h1 (by simp; decide)
  · have h4 : x = .obj [(bytes "b", int 1)] := by
      have : some x = some (Value.obj [(bytes "b", int 1)]) := h1.symm.trans rfl
      exact Option.some.inj this
    have h5 : y = .obj [(bytes "b", .obj [(bytes "c", int 2)])] := by
      have : some y = some (Value.obj [(bytes "b", .obj [(bytes "c", int 2)])]) := h2.symm.trans rfl
      exact Option.some.inj this
    rw [h4, h5] at h3
    obtain ⟨h1, -⟩ | ⟨x, y, h1, h2, h3⟩ := same_obj_iff.1 h3 (bytes "b")
    · cases h1
    · cases h1; cases h2; cases h3

/-- Without dotted keys nothing changes. -/
theorem c57_no_dots_partial (env : Env) (es : Entries) (h : ∀ e ∈ es, byte '.' ∉ e.1) :
    expand env (.obj es) = .ok (.obj es) := by
  rw [expand, expandEntries_plain es h]
  rfl

/-- If no dotted key is the beginning of another one, each dotted key is found at its path with its value
expanded in turn.  Nothing else is found (`c57_only_partial`). -/
theorem c57_dotted_keys_partial (env : Env) (es : Entries) (w : Value) (h : expand env (.obj es) = .ok w)
    (hi : es.Pairwise fun e f => ∀ p q, 1 < p.length → 1 < q.length → (∀ s ∈ p ++ q, byte '.' ∉ s) →
      e.1 = joinDot p → f.1 = joinDot q → ¬ Comparable p q)
    (p : List Bytes) (v : Value) (hp : 1 < p.length) (hs : ∀ s ∈ p, byte '.' ∉ s) (hm : (joinDot p, v) ∈ es) :
    ∃ x, expand env v = .ok x ∧ at_ p w = some x := by
  rw [expand] at h
  obtain ⟨new, h1, h2⟩ := bind_eq_ok.1 h
  have hpne : p ≠ [] := by rintro rfl; simp at hp
  have hdot : byte '.' ∈ joinDot p := by
    match p, hp with
    | a :: b :: p, _ => rw [joinDot_cons (by simp)]; simp
  have hlen : ∀ k, byte '.' ∈ k → 1 < (splitDot k).length := by
    intro k hk
    obtain ⟨s, ss, h3, h4⟩ := splitDot_dotted hk
    rw [h3]
    have := List.length_pos_of_ne_nil h4
    simp; omega
  have hfree : ∀ e ∈ es, Dotted e → Free (splitDot e.1) (.obj []) := by
    intro e _ hd
    obtain ⟨s, ss, h3, h4⟩ := splitDot_dotted (k := e.1) hd
    rw [h3]
    simp [Free, get]
  have hpair : es.Pairwise fun e f => Dotted e → Dotted f → ¬ Comparable (splitDot e.1) (splitDot f.1) := by
    refine hi.imp fun {e f} hef he hf => ?_
    refine hef _ _ (hlen _ he) (hlen _ hf) ?_ (joinDot_splitDot _).symm (joinDot_splitDot _).symm
    intro s hs
    rcases List.mem_append.1 hs with hs | hs <;> exact splitDot_mem hs
  obtain ⟨x, h3, h4⟩ := expandEntries_hit es h1 hfree hpair (joinDot p) v hm hdot
  rw [splitDot_joinDot hpne hs] at h4
  refine ⟨x, h3, ?_⟩
  cases new with
  | nil =>
    match p, hpne with
    | a :: p, _ => simp [at_, get] at h4
  | cons e new => cases h2; exact h4

example : expand ⟨fun _ => none, fun _ => .panic⟩ (.obj [(bytes "a.b", int 1), (bytes "a.c", int 2), (bytes "d.e.f", int 3)]) =
    .ok (.obj [(bytes "a", .obj [(bytes "b", int 1), (bytes "c", int 2)]), (bytes "d", .obj [(bytes "e", .obj [(bytes "f", int 3)])])]) := by
  rfl

/-! ## C58 Path lookup descends through objects -/

/-- `get_value` of a path of legal segments returns what is reached by looking up one segment after the
other, with the newest definition at each step; nothing if a step fails. It always returns. -/
theorem c58_get_value (v : Value) (ss : List Bytes) (hne : ss ≠ []) (hs : ∀ s ∈ ss, Segment s) :
    getValue v (joinDot ss) = .ok (descend ss v) :=
  getValueN_legal _ v ss hne hs (by omega)

/-- For arbitrary text as a path: whatever `get_value` returns is what is reached by its dot separated parts. -/
theorem c58_get_value_any (v : Value) (ss : List Bytes) (hne : ss ≠ []) (hs : ∀ s ∈ ss, byte '.' ∉ s)
    (r : Option Value) (h : getValue v (joinDot ss) = .ok r) : r = descend ss v := by
  have := getValueN_ok _ _ _ _ h
  rwa [splitDot_joinDot hne hs] at this

/-- `get_value` always comes to an end. -/
theorem c58_get_value_returns (v : Value) (p : Bytes) : getValue v p ≠ .diverge := getValueN_ne _ v p (by omega)

/-- `has_path` is true exactly when `get_value` finds something, and panics exactly when `get_value` does. -/
theorem c58_has_path (v : Value) (p : Bytes) :
    (∀ b, hasPath v p = .ok b ↔ ∃ r, getValue v p = .ok r ∧ b = r.isSome) ∧
    (hasPath v p = .panic ↔ getValue v p = .panic) ∧ hasPath v p ≠ .diverge := by
  have h1 := hasPathN_eq (p.length + 1) v p
  have h2 := c58_get_value_returns v p
  unfold hasPath getValue at *
  rw [h1]
  cases h : getValueN (p.length + 1) v p with
  | ok r => simp [Out.bind, eq_comm]
  | panic => simp [Out.bind]
  | diverge => exact absurd h h2

example : getValue (.obj [(bytes "a", .link (int 0) (.obj [(bytes "b", int 1)]))]) (bytes "a.b") = .ok (some (int 1)) :=
  c58_get_value _ [bytes "a", bytes "b"] (by simp) (by simp [Segment]; decide)

/-! ## C59 Reference resolution terminates and substitutes -/

/-- The property fails for cyclic references: if every path of a set leads to a value that mentions a path
of the set again, then resolving a value that mentions one of them never returns. -/
theorem c59_cycle_violated (env : Env) (doc : Value) (P : Bytes → Prop)
    (hP : ∀ p, P p → ∃ x, Leads doc p x ∧ ∃ q, P q ∧ Mentions x q) (v : Value) (p : Bytes) (hp : P p)
    (hv : Mentions v p) : ∀ n w, resolve env doc n v ≠ .ok w :=
  fun n => resolve_cyclic hP n v p hp hv

/-- The smallest case: a key that refers to itself. -/
theorem c59_self_reference_violated (env : Env) (k : Bytes) (hk : Segment k) (n : Nat) (w : Value) :
    resolve env (.obj [(k, .ref none k false)]) n (.obj [(k, .ref none k false)]) ≠ .ok w := by
  refine c59_cycle_violated env _ (fun p => p = k) ?_ _ k rfl (.value (e := (k, .ref none k false)) (by simp) .ref) n w
  rintro p rfl
  exact ⟨.ref none p false, ⟨[p], by simp, by simpa using hk, rfl, by simp [descend, get, latest]⟩, p, rfl, .ref⟩

/-- It does not panic either: the run does not end. -/
theorem c59_self_reference_diverges_violated (env : Env) (k : Bytes) (hk : Segment k) (n : Nat) :
    resolve env (.obj [(k, .ref none k false)]) n (.obj [(k, .ref none k false)]) = .diverge := by
  have hl : getValue (.obj [(k, .ref none k false)]) k = .ok (some (.ref none k false)) :=
    getValue_leads ⟨[k], by simp, by simpa using hk, rfl, by simp [descend, get, latest]⟩
  have key : ∀ n, resolve env (.obj [(k, .ref none k false)]) n (.ref none k false) = .diverge := by
    intro n
    induction n with
    | zero => rfl
    | succ n ih => rw [resolve_ref, hl]; simpa [Out.bind] using ih
  cases n with
  | zero => rfl
  | succ n => rw [resolve_obj]; simp [mapOut, key, Out.bind]

/-- Another failure: an optional reference to nothing, without an earlier value, panics. -/
theorem c59_optional_missing_violated (env : Env) (doc : Value) (path : Bytes) (n : Nat) (h : Missing doc path)
    (hv : env.var path = none) : resolve env doc (n + 1) (.ref none path true) = .panic := by
  rw [resolve_ref, getValue_missing h]
  simp [Out.bind, hv]

/-- An optional reference to nothing, with an earlier value that is no chain, is that value. -/
theorem c59_optional_fallback_partial (env : Env) (doc prev : Value) (path : Bytes) (n : Nat) (h : Missing doc path)
    (hv : env.var path = none) (hp : ¬ IsLink prev) : resolve env doc (n + 1) (.ref (some prev) path true) = .ok prev := by
  rw [resolve_ref, getValue_missing h]
  simp only [Out.bind, hv]
  cases prev <;> first | rfl | exact absurd trivial hp

/-- A mandatory reference to nothing panics. -/
theorem c59_mandatory_missing (env : Env) (doc : Value) (prev : Option Value) (path : Bytes) (n : Nat)
    (h : Missing doc path) (hv : env.var path = none) : resolve env doc (n + 1) (.ref prev path false) = .panic := by
  rw [resolve_ref, getValue_missing h]
  simp [Out.bind, hv]

/-- Whatever resolution returns is the value with its references replaced. -/
theorem c59_sound_partial (env : Env) (doc v w : Value) (n : Nat) (hd : Plain env.var doc doc) (hv : Plain env.var doc v)
    (h : resolve env doc n v = .ok w) : Resolved env.var doc v w := resolve_sound hd n v w hv h

/-- Resolution returns whenever there is a value with the references replaced, for every large enough
recursion depth. -/
theorem c59_complete (env : Env) (doc v w : Value) (h : Resolved env.var doc v w) :
    ∃ n, ∀ m, n ≤ m → resolve env doc m v = .ok w := by
  obtain ⟨n, hn⟩ := resolve_complete h
  exact ⟨n, fun m hm => resolve_le hm hn⟩

/-- That value is unique. -/
theorem c59_unique (var : Bytes → Option Bytes) (doc v w w' : Value) (h : Resolved var doc v w)
    (h' : Resolved var doc v w') : w = w' := resolved_unique h h'

/-- Resolution of a document terminates and replaces every reference if the references do not go round in
circles (`rank` falls along them) and every reference leads to something, has a variable, or is optional with an earlier
value. -/
theorem c59_terminates_partial (env : Env) (doc : Value) (hd : Plain env.var doc doc)
    (hfound : ∀ v q, (v = doc ∨ ∃ p, Leads doc p v) → Demands v q → Missing doc q → ∃ s, env.var q = some s)
    (rank : Bytes → Nat) (bound : Nat) (hb : ∀ q, Mentions doc q → rank q < bound)
    (hrank : ∀ p x q, Leads doc p x → Mentions x q → rank q < rank p) :
    ∃ w n, (∀ m, n ≤ m → resolveStage1 env m doc = .ok w) ∧ Resolved env.var doc doc w ∧ ∀ q, ¬ Mentions w q := by
  obtain ⟨w, hw⟩ := resolved_exists hd hfound rank hrank bound doc hd hb (fun q => hfound doc q (.inl rfl))
  obtain ⟨n, hn⟩ := c59_complete env doc doc w hw
  exact ⟨w, n, hn, hw, resolved_free hw⟩

/-- A document that meets these conditions: `a=${b}`, `b=${c}`, `c=1`. -/
example : ∃ w n, (∀ m, n ≤ m → resolveStage1 ⟨fun _ => none, fun _ => .panic⟩ m
      (.obj [(bytes "a", .ref none (bytes "b") false), (bytes "b", .ref none (bytes "c") false), (bytes "c", int 1)]) = .ok w) ∧
    descend [bytes "a"] w = some (int 1) :=
  ⟨.obj [(bytes "a", int 1), (bytes "b", int 1), (bytes "c", int 1)], 5, fun m hm => resolve_le hm (by rfl), by rfl⟩

/-- A resolved document holds no reference any more. -/
theorem c59_no_reference_left (var : Bytes → Option Bytes) (doc v w : Value) (h : Resolved var doc v w) :
    ∀ q, ¬ Mentions w q := resolved_free h

/-- After resolution a reference and its target have the same value, if the newest definition at each path
is a single value. -/
theorem c59_same_value (var : Bytes → Option Bytes) (doc w z : Value) (p q : Bytes) (prev : Option Value) (o : Bool)
    (hflat : ∀ p x, Leads doc p x → ¬ IsLink x) (h : Resolved var doc doc w)
    (hp : Leads doc p (.ref prev q o)) (hq : Leads doc q z) : ∃ y, Leads w p y ∧ Leads w q y :=
  resolved_same hflat h hp hq

/-! ## C60 Numbers keep their value -/

/-- The property fails for negative numbers: the sign is dropped, whatever the number is. -/
theorem c60_sign_dropped_violated (S : Std) (n : Nat) (k t : Bytes) (d : Decimal) (ds : List (Bytes × Lit))
    (hk : PathText k) (ht : DecimalText t) (hd : S.parseDecimal t = some d) (hn : depthEntries ds ≤ n)
    (hds : DocOk S.parseDecimal ds) (hu : ∀ e, ds.head? = some e → ∀ b, e.1.head? = some b → ¬ UnitStart b) :
    ∃ es, parse (hocon S (n + 1)) (k ++ bytes "=-" ++ t ++ byte '\n' :: docText ds) = .ok [.obj es] ∧
      ((∀ e ∈ ds, e.1 ≠ k) → get k es = some (.num d)) := by
  refine ⟨_, by simpa [show bytes "=-" = [byte '=', byte '-'] from rfl] using neg_doc hk ht hd hn hds hu, fun h => ?_⟩
  rw [get_configFold]
  have : definitions k (valueEntries S.parseDecimal ds) = [] := by
    unfold definitions
    rw [List.map_eq_nil_iff, List.filter_eq_nil_iff]
    intro e he
    have := valueEntries_keys S.parseDecimal ds
    have h2 : e.1 ∈ ds.map (·.1) := by rw [← this]; exact List.mem_map_of_mem he
    obtain ⟨e', h3, h4⟩ := List.mem_map.1 h2
    simpa [h4] using h e' h3
  have h2 : definitions k ((k, Value.num d) :: valueEntries S.parseDecimal ds) = [Value.num d] := by
    have h3 : definitions k ((k, Value.num d) :: valueEntries S.parseDecimal ds) =
        Value.num d :: definitions k (valueEntries S.parseDecimal ds) := by simp [definitions]
    rw [h3, this]
  rw [h2]
  rfl

/-- `a=-1` gives 1. -/
theorem c60_minus_one_violated : ∃ es, parse (hocon decDigits 2) (bytes "a=-1\n") = .ok [.obj es] ∧
    get (bytes "a") es = some (int 1) := by
  obtain ⟨es, h1, h2⟩ := c60_sign_dropped_violated decDigits 1 (bytes "a") (bytes "1") ⟨1, 0⟩ []
    ⟨[bytes "a"], by simp, by simp [Segment]; decide, rfl⟩ (.inl (.inr ⟨_, [], rfl, by decide, by decide, by simp⟩))
    (by decide) (by decide) (by simp [DocOk]) (by simp)
  exact ⟨es, h1, h2 (by simp)⟩

/-- Another failure: a number with an exponent but no fraction panics, with or without a sign. -/
theorem c60_exponent_panics_violated (S : Std) (n : Nat) (k i e x : Bytes) (neg : Bool) (hk : PathText k) (hi : IntText i)
    (he : ExpText e) (hx : ∀ b, x.head? = some b → b ∉ bytes " \t\r\n#/") :
    parse (hocon S (n + 2)) (k ++ byte '=' :: ((if neg then [byte '-'] else []) ++ i ++ e ++ (byte '\n' :: x))) = .panic := by
  have hq : Quiet x := by
    cases x with
    | nil => exact noHead_nil
    | cons b x => exact noHead_cons.2 (hx b rfl)
  obtain ⟨b, is, rfl, hb⟩ := intText_head hi
  have hn : numberOf S (if neg then some (byte '-') else none, b :: is, none, some e) = none := by
    cases neg <;> rfl
  have := panics_number (b2 := bytes "\n") (rest := x) (f := none) (e := some e) (s := if neg then some (byte '-') else none)
    hi (by cases neg <;> simp) (by simp) (by rintro _ ⟨⟩; exact he) gap_line (noHead_cons.2 (by decide)) hq hn
  have hp := panic_doc (n := n) (k := k) hk ?_ ?_ this
  · rw [← hp]
    cases neg <;> simp [optText, show bytes "\n" = [byte '\n'] from rfl]
  · cases neg
    · exact noHead_cons.2 (digit_quiet hb)
    · exact noHead_cons.2 (by decide)
  · cases neg
    · exact noHead_cons.2 (digit_noConst hb)
    · exact noHead_cons.2 (by decide)

example : parse (hocon decDigits 2) (bytes "a=1e5\n") = .panic :=
  c60_exponent_panics_violated decDigits 0 (bytes "a") (bytes "1") (bytes "e5") [] false
    ⟨[bytes "a"], by simp, by simp [Segment]; decide, rfl⟩ (.inr ⟨_, [], rfl, by decide, by decide, by simp⟩)
    ⟨_, [], bytes "5", rfl, .inl rfl, .inl rfl, by decide, by unfold Digit; decide⟩ (by simp)

/-- Unsigned numbers without exponent denote the number that `Decimal` reads from their text. -/
theorem c60_unsigned_partial (S : Std) (n : Nat) (k t : Bytes) (d : Decimal) (hk : PathText k) (ht : DecimalText t)
    (hd : S.parseDecimal t = some d) :
    parse (hocon S (n + 2)) (k ++ byte '=' :: t ++ bytes "\n") = .ok [.obj [(k, .num d)]] := by
  have := hocon_doc S (n + 1) [(k, .num t)] (by simp) (by simp [depthEntries, depthEntry, litDepth])
    ⟨hk, by rw [Lit.Ok]; exact ⟨ht, by rw [hd]; rfl⟩, by simp, trivial⟩
  simpa [docText, Lit.text, valueEntries, valueEntry, Lit.value, hd, configFold, get, insertNew,
    show bytes "\n" = [byte '\n'] from rfl] using this

example : parse (hocon decDigits 2) (bytes "a=120\n") = .ok [.obj [(bytes "a", int 120)]] :=
  c60_unsigned_partial decDigits 0 (bytes "a") (bytes "120") ⟨120, 0⟩
    ⟨[bytes "a"], by simp, by simp [Segment]; decide, rfl⟩
    (.inl (.inr ⟨byte '1', bytes "20", rfl, by decide, by decide, by unfold Digit; decide⟩)) (by decide)

/-! ## C61 Durations use their unit -/

/-- The property fails for the longer spellings: a document with one of them is rejected. -/
theorem c61_long_units_violated (S : Std) (n : Nat) (k t sp : Bytes) (u : TimeUnit) (d : Decimal) (ds : List (Bytes × Lit))
    (hk : PathText k) (ht : DecimalText t) (hd : S.parseDecimal t = some d) (hs : (sp, u) ∈ longUnits)
    (hds : DocOk S.parseDecimal ds) :
    ∃ e, parse (hocon S (n + 2)) (k ++ byte '=' :: (t ++ sp) ++ byte '\n' :: docText ds) = .err e :=
  long_doc hk ht hd hs hds

example : ∃ e, parse (hocon decDigits 2) (bytes "a=10seconds\n") = .err e :=
  c61_long_units_violated decDigits 0 (bytes "a") (bytes "10") (bytes "seconds") .seconds ⟨10, 0⟩ []
    ⟨[bytes "a"], by simp, by simp [Segment]; decide, rfl⟩
    (.inl (.inr ⟨byte '1', bytes "0", rfl, by decide, by decide, by unfold Digit; decide⟩)) (by decide) (by decide)
    (by simp [DocOk])

/-- The short spellings are read with their unit. -/
theorem c61_short_units_partial (S : Std) (n : Nat) (k t sp : Bytes) (u : TimeUnit) (d : Decimal) (hk : PathText k)
    (ht : DecimalText t) (hd : S.parseDecimal t = some d) (hs : (sp, u) ∈ shortUnits) :
    parse (hocon S (n + 2)) (k ++ byte '=' :: (t ++ sp) ++ bytes "\n") = .ok [.obj [(k, .dur d u)]] := by
  have := hocon_doc S (n + 1) [(k, .dur t sp u)] (by simp) (by simp [depthEntries, depthEntry, litDepth])
    ⟨hk, by rw [Lit.Ok]; exact ⟨⟨ht, by rw [hd]; rfl⟩, hs⟩, by simp, trivial⟩
  simpa [docText, Lit.text, valueEntries, valueEntry, Lit.value, hd, configFold, get, insertNew,
    show bytes "\n" = [byte '\n'] from rfl] using this

example : parse (hocon decDigits 2) (bytes "a=10ms\n") = .ok [.obj [(bytes "a", .dur ⟨10, 0⟩ .milliseconds)]] :=
  c61_short_units_partial decDigits 0 (bytes "a") (bytes "10") (bytes "ms") .milliseconds ⟨10, 0⟩
    ⟨[bytes "a"], by simp, by simp [Segment]; decide, rfl⟩
    (.inl (.inr ⟨byte '1', bytes "0", rfl, by decide, by decide, by unfold Digit; decide⟩)) (by decide) (by decide)

/-- `v` is the whole part of the amount. -/
def Whole (d : Decimal) (v : Nat) : Prop := (v : Int) * 10 ^ d.scale ≤ d.mantissa ∧ d.mantissa < (v + 1) * 10 ^ d.scale

theorem whole_trunc {d : Decimal} {v : Nat} (h : Whole d v) : d.trunc = v ∧ 0 ≤ d.mantissa := by
  obtain ⟨h1, h2⟩ := h
  have hp : (0 : Int) < 10 ^ d.scale := Int.pow_pos (by decide)
  have h0 : 0 ≤ d.mantissa := Int.le_trans (Int.mul_nonneg (Int.natCast_nonneg v) (Int.le_of_lt hp)) h1
  refine ⟨?_, h0⟩
  unfold Decimal.trunc
  rw [Int.tdiv_eq_ediv_of_nonneg h0]
  refine Int.le_antisymm ?_ ?_
  · have := (Int.ediv_lt_iff_lt_mul hp).2 h2
    omega
  · exact (Int.le_ediv_iff_mul_le hp).2 h1

/-- `to_std_duration` gives the whole part of the amount times the unit, if that number of units fits
`u64`, and if that number of seconds does for the units that are longer than a second. -/
theorem c61_std_duration_partial (oc : Bool) (d : Decimal) (u : TimeUnit) (v : Nat) (h : Whole d v) (hv : v < 2 ^ 64)
    (hs : (v : Int) * unitNanos u < 2 ^ 64 * 1000000000) :
    toStdDuration oc d u = .ok (v * unitNanos u) := by
  obtain ⟨h1, h0⟩ := whole_trunc h
  have h2 : d.toU64 = some v := by
    unfold Decimal.toU64
    rw [if_pos ⟨h0, by omega⟩, h1]
    simp
  unfold toStdDuration
  rw [h2]
  cases u with
  | days =>
    simp only [unitNanos] at hs
    have a : v * 60 < 2 ^ 64 := by omega
    have b : v * 60 * 60 < 2 ^ 64 := by omega
    have c : v * 60 * 60 * 24 < 2 ^ 64 := by omega
    simp only [unitNanos, mulU64, if_pos a, Option.bind_some, if_pos b, if_pos c, fromSecs, Conv.ok.injEq]
    omega
  | hours =>
    simp only [unitNanos] at hs
    have a : v * 60 < 2 ^ 64 := by omega
    have b : v * 60 * 60 < 2 ^ 64 := by omega
    simp only [unitNanos, mulU64, if_pos a, Option.bind_some, if_pos b, fromSecs, Conv.ok.injEq]
    omega
  | minutes =>
    simp only [unitNanos] at hs
    have a : v * 60 < 2 ^ 64 := by omega
    simp only [unitNanos, mulU64, if_pos a, fromSecs, Conv.ok.injEq]
    omega
  | seconds => simp only [unitNanos, fromSecs, Conv.ok.injEq]; omega
  | milliseconds => simp only [unitNanos, Conv.ok.injEq]; omega
  | microseconds => simp only [unitNanos]
  | nanoseconds => simp only [unitNanos, Conv.ok.injEq]; omega

example : toStdDuration true ⟨15, 1⟩ .hours = .ok 3600000000000 :=
  c61_std_duration_partial true ⟨15, 1⟩ .hours 1 ⟨by decide, by decide⟩ (by decide) (by decide)

/-- The property fails for fractions: an amount that is no whole number never converts to its duration. -/
theorem c61_fraction_violated (d : Decimal) (u : TimeUnit) (v : Nat) (h : Whole d v) (hv : v < 2 ^ 64)
    (hs : (v : Int) * unitNanos u < 2 ^ 64 * 1000000000) (hf : (v : Int) * 10 ^ d.scale ≠ d.mantissa) (oc : Bool) (ns : Int)
    (hr : toStdDuration oc d u = .ok ns) : ns * 10 ^ d.scale ≠ d.mantissa * unitNanos u := by
  rw [c61_std_duration_partial oc d u v h hv hs] at hr
  cases hr
  intro he
  apply hf
  have hu : unitNanos u ≠ 0 := by cases u <;> decide
  refine Int.eq_of_mul_eq_mul_right hu ?_
  rw [← he, Int.mul_assoc, Int.mul_assoc, Int.mul_comm (10 ^ d.scale)]

example : toStdDuration true ⟨15, 1⟩ .seconds = .ok 1000000000 ∧ (1000000000 : Int) * 10 ≠ 15 * 1000000000 := by
  decide

/-- Amounts of minutes, hours and days that do not fit `u64` seconds panic or wrap around. -/
theorem c61_overflow_violated (d : Decimal) (v : Nat) (h : Whole d v) (hv : v < 2 ^ 64) (hs : 2 ^ 64 ≤ v * 60) :
    toStdDuration true d .minutes = .panic ∧
    ∃ ns, toStdDuration false d .minutes = .ok ns ∧ ns ≠ v * unitNanos .minutes := by
  obtain ⟨h1, h0⟩ := whole_trunc h
  have h2 : d.toU64 = some v := by
    unfold Decimal.toU64
    rw [if_pos ⟨h0, by omega⟩, h1]
    simp
  have h3 : ∀ b, mulU64 b v 60 = if b then none else some (v * 60 % 2 ^ 64) := fun b => if_neg (Nat.not_lt.2 hs)
  unfold toStdDuration
  rw [h2]
  refine ⟨by simp only [h3]; rfl, _, by simp only [h3]; rfl, ?_⟩
  have : v * 60 % 2 ^ 64 < 2 ^ 64 := Nat.mod_lt _ (by decide)
  generalize v * 60 % 2 ^ 64 = z at this
  simp only [unitNanos]
  omega

/-- `to_duration` gives the whole part of the amount times the unit whenever `chrono` can represent it. -/
theorem c61_chrono_duration_partial (d : Decimal) (u : TimeUnit) (v : Nat) (h : Whole d v) (hv : v < 2 ^ 63)
    (hs : (v : Int) * unitNanos u ≤ (2 ^ 63 - 1) * 1000000) : toDuration d u = .ok (v * unitNanos u) := by
  obtain ⟨h1, h0⟩ := whole_trunc h
  have h2 : d.toI64 = some (v : Int) := by
    unfold Decimal.toI64
    rw [if_pos (by omega), h1]
  unfold toDuration
  rw [h2]
  cases u <;> simp only [unitNanos, chronoDuration] at hs ⊢ <;> rw [if_pos (by omega), Conv.ok.injEq] <;> omega

example : toDuration ⟨90, 0⟩ .minutes = .ok 5400000000000 :=
  c61_chrono_duration_partial ⟨90, 0⟩ .minutes 90 ⟨by decide, by decide⟩ (by decide) (by decide)

end OniComb.Hocon
