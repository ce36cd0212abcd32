import Verif.Lemmas.HoconYields
import Verif.Lemmas.HoconCalm
import Verif.Lemmas.HoconBad
import Verif.Spec.HoconLoad

/-! Lemmas about loading whole documents. -/

set_option linter.unusedSectionVars false

namespace OniComb.Hocon
open OniComb OniComb.Hocon.Spec
open OniComb.Uri (Bytes byte bytes fromUtf8 text)

variable {S : Std} {env : Env} {t r : Bytes}

/-! ### Merging of several values -/

theorem mergeAll_ok : ∀ (vs : List Value) (a : Value), (∀ v ∈ vs, Wf v) →
    (∀ v ∈ vs, expand env v = .ok v) → ∃ w, mergeAll env a vs = .ok w ∧ MergedAll a vs w := by
  intro vs
  induction vs with
  | nil => intro a _ _; exact ⟨a, rfl, .one⟩
  | cons v vs ih =>
    intro a hw he
    obtain ⟨w, h1, h2⟩ := ih (merge v a) (fun x hx => hw x (List.mem_cons_of_mem _ hx))
      (fun x hx => he x (List.mem_cons_of_mem _ hx))
    refine ⟨w, ?_, .more (merged v a (hw v (List.mem_cons_self ..))) h2⟩
    rw [mergeAll, he v (List.mem_cons_self ..)]
    exact h1

theorem merged_scalar {x y z : Value} (hx : Scalar x) (h : Merged x y z) : z = x := by
  cases h with
  | objects => exact absurd trivial hx.2.1
  | arrays => exact absurd trivial hx.2.2
  | chain => exact absurd trivial hx.1
  | keep => rfl

theorem merged_first {a : Entries} {b c x : Value} {k : Bytes} (h : Merged (.obj a) b c) (hx : Scalar x)
    (hg : get k a = some x) : ∃ c', c = .obj c' ∧ get k c' = some x := by
  cases h with
  | keep => exact ⟨a, rfl, hg⟩
  | @objects _ b c left right neither both deep =>
    refine ⟨c, rfl, ?_⟩
    cases hb : get k b with
    | none => exact left k x hg hb
    | some y =>
      obtain ⟨z, hz⟩ := Option.isSome_iff_exists.1 (both k x y hg hb)
      rw [hz, merged_scalar hx (deep k x y z hg hb hz)]

theorem mergedAll_first {vs : List Value} {x w : Value} {k : Bytes} (hx : Scalar x) : ∀ {a : Entries},
    MergedAll (.obj a) vs w → get k a = some x → ∃ c', w = .obj c' ∧ get k c' = some x := by
  induction vs with
  | nil => intro a h hg; cases h; exact ⟨a, rfl, hg⟩
  | cons v vs ih =>
    intro a h hg
    cases h with
    | more h1 h2 =>
      obtain ⟨c', rfl, hc⟩ := merged_first h1 hx hg
      exact ih h2 hc

/-- Values that stage 0 leaves alone. -/
theorem expand_plain {v : Value} (h1 : ∀ m f, v ≠ .incl m f) (h2 : ∀ es, v = .obj es → ∀ e ∈ es, byte '.' ∉ e.1) :
    expand env v = .ok v := by
  cases v with
  | incl m f => exact absurd rfl (h1 m f)
  | obj es =>
    rw [expand, expandEntries_plain es (h2 es rfl)]
    rfl
  | _ => simp [expand]

/-! ### Literals -/

theorem find_get (dec : Bytes → Option Decimal) (k : Bytes) (es : List (Bytes × Lit)) :
    get k (valueEntries dec es) = (find k es).map (Lit.value dec) := by
  induction es with
  | nil => simp [valueEntries, get, find]
  | cons e es ih =>
    obtain ⟨k', v⟩ := e
    rw [valueEntries, valueEntry, get, find]
    by_cases h : k' = k <;> simp [h, ih]

theorem lit_notLink (dec : Bytes → Option Decimal) (v : Lit) : latest (v.value dec) = v.value dec := by
  cases v <;> rw [Lit.value] <;> rfl

theorem written_descend (dec : Bytes → Option Decimal) : ∀ (ks : List Bytes) (es : List (Bytes × Lit)), ks ≠ [] →
    descend ks (.obj (valueEntries dec es)) = (written ks es).map (Lit.value dec) := by
  intro ks
  induction ks with
  | nil => intro es h; exact absurd rfl h
  | cons k ks ih =>
    intro es _
    cases ks with
    | nil =>
      rw [descend, find_get, written]
      cases find k es with
      | none => rfl
      | some v => simp [descend, lit_notLink]
    | cons k' ks =>
      rw [descend, find_get, written]
      · cases hf : find k es with
        | none => rfl
        | some v =>
          simp only [Option.map_some, Option.bind_some, lit_notLink]
          cases v with
          | obj fs => rw [Lit.value]; exact ih fs (by simp)
          | _ => simp [Lit.value, descend]
      · simp

mutual
theorem closed_resolved (var : Bytes → Option Bytes) (doc : Value) (dec : Bytes → Option Decimal) (v : Lit)
    (h : v.Closed) : Resolved var doc (v.value dec) (v.value dec) := by
  match v with
  | .ref _ _ => rw [Lit.Closed] at h; exact h.elim
  | .arr vs => rw [Lit.Closed] at h; rw [Lit.value]; exact closed_resolvedList var doc dec vs h
  | .obj es => rw [Lit.Closed] at h; rw [Lit.value]; exact closed_resolvedEntries var doc dec es h
  | .null | .bool _ | .num _ | .dur _ _ _ | .str _ | .quoted _ _ => rw [Lit.value]; exact .constant trivial
theorem closed_resolvedList (var : Bytes → Option Bytes) (doc : Value) (dec : Bytes → Option Decimal) (vs : List Lit)
    (h : ClosedList vs) : Resolved var doc (.arr (valueList dec vs)) (.arr (valueList dec vs)) := by
  match vs with
  | [] => rw [valueList]; exact .nil
  | v :: vs =>
    rw [ClosedList] at h
    rw [valueList]
    exact .cons (closed_resolved var doc dec v h.1) (closed_resolvedList var doc dec vs h.2)
theorem closed_resolvedEntries (var : Bytes → Option Bytes) (doc : Value) (dec : Bytes → Option Decimal)
    (es : List (Bytes × Lit)) (h : ClosedEntries es) :
    Resolved var doc (.obj (valueEntries dec es)) (.obj (valueEntries dec es)) := by
  match es with
  | [] => rw [valueEntries]; exact .empty
  | (k, v) :: es =>
    rw [ClosedEntries, ClosedEntry] at h
    rw [valueEntries, valueEntry]
    exact .entry (closed_resolved var doc dec v h.1) (closed_resolvedEntries var doc dec es h.2)
end

/-! ### More files can be read -/

/-- What one environment can load, the other one can, too. -/
def SubLoad (env env' : Env) : Prop := ∀ f v, env.load f = .ok v → env'.load f = .ok v

def Sub (env env' : Env) : Prop := env'.var = env.var ∧ SubLoad env env'

theorem resolve_sub {env env' : Env} (hs : Sub env env') {src : Value} : ∀ (n : Nat) (v w : Value),
    resolve env src n v = .ok w → resolve env' src n v = .ok w
  | 0, _, _, h => by cases h
  | n + 1, v, w, h => by
    have ih := resolve_sub hs (src := src) n
    cases v with
    | arr vs =>
      rw [resolve] at h ⊢
      obtain ⟨r, h1, h2⟩ := bind_eq_ok.1 h
      exact bind_eq_ok.2 ⟨r, mapOut_mono ih h1, h2⟩
    | obj es =>
      rw [resolve] at h ⊢
      obtain ⟨r, h1, h2⟩ := bind_eq_ok.1 h
      refine bind_eq_ok.2 ⟨r, mapOut_mono (fun a b hb => ?_) h1, h2⟩
      obtain ⟨x, h3, h4⟩ := bind_eq_ok.1 hb
      exact bind_eq_ok.2 ⟨x, ih _ _ h3, h4⟩
    | enumeration prev vs =>
      simp only [resolve] at h ⊢
      obtain ⟨r, h1, h2⟩ := bind_eq_ok.1 h
      exact bind_eq_ok.2 ⟨r, mapOut_mono ih h1, h2⟩
    | link p v =>
      rw [resolve] at h ⊢
      cases hc : toVec (.link p v) with
      | nil => rw [hc] at h; exact h
      | cons c cs =>
        rw [hc] at h
        obtain ⟨r, h1, h2⟩ := bind_eq_ok.1 h
        exact bind_eq_ok.2 ⟨r, ih _ _ h1, pushAll_mono ih h2⟩
    | ref prev path missing =>
      rw [resolve_ref] at h ⊢
      obtain ⟨f, h1, h2⟩ := bind_eq_ok.1 h
      refine bind_eq_ok.2 ⟨f, h1, ?_⟩
      rw [hs.1]
      cases ho : f.or ((env.var path).map .str) with
      | none => rw [ho] at h2; exact h2
      | some x => rw [ho] at h2; exact ih _ _ h2
    | incl a b => exact hs.2 _ _ h
    | null => exact h
    | bool b => exact h
    | str s => exact h
    | num d => exact h
    | dur d u => exact h

mutual
theorem expand_sub {env env' : Env} (hs : SubLoad env env') (v w : Value) (h : expand env v = .ok w) :
    expand env' v = .ok w := by
  match v with
  | .incl m f => rw [expand] at h ⊢; exact hs _ _ h
  | .obj es =>
    rw [expand] at h ⊢
    obtain ⟨new, h1, h2⟩ := bind_eq_ok.1 h
    exact bind_eq_ok.2 ⟨new, expandEntries_sub hs es [] new h1, h2⟩
  | .null | .bool _ | .str _ | .num _ | .dur _ _ | .arr _ | .enumeration _ _ | .ref _ _ _ | .link _ _ =>
    simpa [expand] using h
theorem expandEntries_sub {env env' : Env} (hs : SubLoad env env') (es new new' : Entries)
    (h : expandEntries env es new = .ok new') : expandEntries env' es new = .ok new' := by
  match es with
  | [] => rw [expandEntries] at h ⊢; exact h
  | e :: es =>
    rw [expandEntries] at h ⊢
    obtain ⟨mid, h1, h2⟩ := bind_eq_ok.1 h
    exact bind_eq_ok.2 ⟨mid, expandEntry_sub hs e new mid h1, expandEntries_sub hs es mid new' h2⟩
theorem expandEntry_sub {env env' : Env} (hs : SubLoad env env') (e : Bytes × Value) (new new' : Entries)
    (h : expandEntry env e new = .ok new') : expandEntry env' e new = .ok new' := by
  match e with
  | (k, v) =>
    rw [expandEntry] at h ⊢
    by_cases hd : byte '.' ∈ k
    · rw [if_pos hd] at h ⊢
      obtain ⟨mcv, h1, h2⟩ := bind_eq_ok.1 h
      exact bind_eq_ok.2 ⟨mcv, expand_sub hs v mcv h1, h2⟩
    · rw [if_neg hd] at h ⊢; exact h
end

theorem mergeAll_sub {env env' : Env} (hs : SubLoad env env') : ∀ (vs : List Value) (a w : Value),
    mergeAll env a vs = .ok w → mergeAll env' a vs = .ok w := by
  intro vs
  induction vs with
  | nil => exact fun _ _ h => h
  | cons v vs ih =>
    intro a w h
    obtain ⟨x, h1, h2⟩ := bind_eq_ok.1 h
    exact bind_eq_ok.2 ⟨x, expand_sub hs v x h1, ih _ _ h2⟩

theorem stage0_sub {env env' : Env} (hs : SubLoad env env') {vs : List Value} {w : Value}
    (h : resolveStage0 env vs = .ok w) : resolveStage0 env' vs = .ok w := by
  cases vs with
  | nil => cases h
  | cons v vs =>
    obtain ⟨x, h1, h2⟩ := bind_eq_ok.1 h
    exact bind_eq_ok.2 ⟨x, expand_sub hs v x h1, mergeAll_sub hs _ _ _ h2⟩

theorem parse_le {n m : Nat} (h : n ≤ m) (hp : parse (hocon S n) t ≠ .diverge) : parse (hocon S m) t = parse (hocon S n) t := by
  have := below_hocon S h
  unfold parse at hp ⊢
  rw [this.eq]
  intro hd
  rw [hd] at hp
  exact hp rfl

theorem parseFromString_sub {env env' : Env} (hs : Sub env env') {n m : Nat} (h : n ≤ m) {o : Option Value}
    (hp : parseFromString S env n t = .ok o) : parseFromString S env' m t = .ok o := by
  unfold parseFromString at hp ⊢
  have hd : parse (hocon S n) t ≠ .diverge := by
    intro hd; rw [hd] at hp; cases hp
  rw [parse_le h hd]
  cases hr : parse (hocon S n) t with
  | ok vs =>
    rw [hr] at hp
    obtain ⟨v, h1, h2⟩ := bind_eq_ok.1 hp
    obtain ⟨doc, h3, h4⟩ := bind_eq_ok.1 h1
    exact bind_eq_ok.2 ⟨v, bind_eq_ok.2 ⟨doc, stage0_sub hs.2 h3, resolve_le h (resolve_sub hs _ _ _ h4)⟩, h2⟩
  | err e => rw [hr] at hp; exact hp
  | panic => rw [hr] at hp; exact hp
  | diverge => exact absurd hr hd

theorem load_le (w : World) : ∀ {n m : Nat} {f : Bytes} {o : Option Value}, n ≤ m → loadFromFile S w n f = .ok o →
    loadFromFile S w m f = .ok o := by
  intro n
  induction n with
  | zero => intro m f o _ h; cases h
  | succ n ih =>
    intro m f o hm h
    obtain ⟨m, rfl⟩ : ∃ k, m = k + 1 := ⟨m - 1, by omega⟩
    refine parseFromString_sub (env := w.env S n) (env' := w.env S m) ⟨rfl, fun g x hx => ?_⟩ hm h
    obtain ⟨r, h1, h2⟩ := bind_eq_ok.1 hx
    exact bind_eq_ok.2 ⟨r, ih (by omega) h1, h2⟩

theorem sub_world (w : World) {n m : Nat} (h : n ≤ m) : Sub (w.env S n) (w.env S m) :=
  ⟨rfl, fun g x hx => by
    obtain ⟨r, h1, h2⟩ := bind_eq_ok.1 hx
    exact bind_eq_ok.2 ⟨r, load_le w h h1, h2⟩⟩

theorem document_le (w : World) {n m : Nat} (h : n ≤ m) {o : Option Value} (hp : parseDocument S w n t = .ok o) :
    parseDocument S w m t = .ok o := parseFromString_sub (sub_world w h) h hp

/-! ### Documents -/

theorem valueEntries_dots {ds : List (Bytes × Lit)} {dec : Bytes → Option Decimal} (h : ∀ e ∈ ds, byte '.' ∉ e.1) :
    ∀ e ∈ valueEntries dec ds, byte '.' ∉ e.1 := by
  intro e he
  have : e.1 ∈ (valueEntries dec ds).map (·.1) := List.mem_map.2 ⟨e, he, rfl⟩
  rw [valueEntries_keys] at this
  obtain ⟨e', he', h2⟩ := List.mem_map.1 this
  exact h2 ▸ h e' he'

theorem stage0_doc {ds : List (Bytes × Lit)} (hk : (ds.map (·.1)).Nodup) (hd : ∀ e ∈ ds, byte '.' ∉ e.1) :
    resolveStage0 env [.obj (configFold (valueEntries S.parseDecimal ds))] =
      .ok (.obj (valueEntries S.parseDecimal ds)) := by
  rw [configFold_distinct (by rw [valueEntries_keys]; exact hk), resolveStage0,
    expand_plain (by simp) (by rintro es ⟨⟩; exact valueEntries_dots hd)]
  rfl

theorem load_text {ds : List (Bytes × Lit)}
    (ht : ∀ m, depthEntries ds ≤ m → parse (hocon S (m + 1)) t = .ok [.obj (configFold (valueEntries S.parseDecimal ds))])
    (hk : (ds.map (·.1)).Nodup) (hd : ∀ e ∈ ds, byte '.' ∉ e.1) (w : World) (v : Value)
    (hv : Resolved w.var (.obj (valueEntries S.parseDecimal ds)) (.obj (valueEntries S.parseDecimal ds)) v) :
    ∃ N, ∀ env n, env.var = w.var → N ≤ n → parseFromString S env n t = .ok (some v) := by
  obtain ⟨N, hN⟩ := resolve_complete (env := ⟨w.var, fun _ => .panic⟩) hv
  refine ⟨max N (depthEntries ds + 1), fun env n he hn => ?_⟩
  have hN' : resolve env (.obj (valueEntries S.parseDecimal ds)) n (.obj (valueEntries S.parseDecimal ds)) = .ok v :=
    resolve_le (by omega) (resolve_sub (env := ⟨w.var, fun _ => .panic⟩) ⟨he, fun _ _ h => by cases h⟩ _ _ _ hN)
  obtain ⟨m, rfl⟩ : ∃ m, n = m + 1 := ⟨n - 1, by have := one_le_depthEntries ds; omega⟩
  unfold parseFromString
  rw [ht m (by omega)]
  simp only [Out.bind, stage0_doc hk hd, resolveStage1]
  rw [hN']

theorem load_doc {ds : List (Bytes × Lit)} {ns : List Notes} (hne : ds ≠ []) (h : DocOk S.parseDecimal ds) (hns : NotesOk ns ds)
    (hk : (ds.map (·.1)).Nodup) (hd : ∀ e ∈ ds, byte '.' ∉ e.1) (w : World) (v : Value)
    (hv : Resolved w.var (.obj (valueEntries S.parseDecimal ds)) (.obj (valueEntries S.parseDecimal ds)) v) :
    ∃ N, ∀ n, N ≤ n → parseDocument S w n (noted ns ds) = .ok (some v) := by
  obtain ⟨N, hN⟩ := load_text (fun m hm => hocon_noted S m ds ns hne hm h hns) hk hd w v hv
  exact ⟨N, fun n hn => hN _ n rfl hn⟩

theorem load_file {ds : List (Bytes × Lit)} {ns : List Notes} (hne : ds ≠ []) (h : DocOk S.parseDecimal ds) (hns : NotesOk ns ds)
    (hk : (ds.map (·.1)).Nodup) (hd : ∀ e ∈ ds, byte '.' ∉ e.1) (w : World) (v : Value) (name : Bytes)
    (hf : w.file name = some (noted ns ds))
    (hv : Resolved w.var (.obj (valueEntries S.parseDecimal ds)) (.obj (valueEntries S.parseDecimal ds)) v) :
    ∃ N, ∀ n, N ≤ n → loadFromFile S w n name = .ok (some v) := by
  obtain ⟨N, hN⟩ := load_text (fun m hm => hocon_noted S m ds ns hne hm h hns) hk hd w v hv
  refine ⟨N + 1, fun n hn => ?_⟩
  obtain ⟨m, rfl⟩ : ∃ m, n = m + 1 := ⟨n - 1, by omega⟩
  unfold loadFromFile
  simp only [hf, Option.getD_some]
  exact hN _ _ rfl (by omega)

theorem get_resolved {src : Value} {n : Nat} {es : Entries} {w : Value} {k : Bytes}
    (h : resolve env src n (.obj es) = .ok w) (hk : get k es = none) : ∃ fs, w = .obj fs ∧ get k fs = none := by
  cases n with
  | zero => cases h
  | succ n =>
    rw [resolve] at h
    obtain ⟨fs, h1, h2⟩ := bind_eq_ok.1 h
    cases h2
    refine ⟨fs, rfl, ?_⟩
    rw [get_eq_none] at hk ⊢
    rwa [mapOut_keys h1]

/-! ### Blank documents, comments and includes -/

theorem quiet_nil : Quiet [] := noHead_nil

theorem fail_include {r : Bytes} (h : NoHead (fun b => b = byte 'i') r) : ∃ c, Fail (many1 includeConfigValue) r c := by
  refine ⟨.uncommitted, fail_many1.2 ⟨rfl, ?_⟩⟩
  obtain ⟨c, hc⟩ := (fail_seq (lit := bytes "include") (r := r)).2 (by
    rintro ⟨x, hx⟩
    exact h (byte 'i') _ hx.symm rfl)
  exact ⟨c, .map _ (.andThen (.skipLeft (.skipLeft hc)))⟩

theorem soft_ok {n : Nat} {vs : List Value} (h : parse (softHocon S n) t = .ok vs) : parse (hocon S n) t = .ok vs :=
  parse_soft h (by simp)

theorem hocon_blank (n : Nat) (ht : Gap t) : parse (hocon S (n + 1)) t = .ok [] := by
  refine soft_ok ?_
  unfold softHocon
  refine parse_end_ok.2 ?_
  have h := Eats.skipLeft (p := spaceOrComment) (t1 := t) (t2 := []) (rest := [])
    (q := config (softGrammar S (n + 1)).1 (softGrammar S (n + 1)).2) (w := []) (eats_gap ht (by simpa using quiet_nil)) ?_
  · simpa using h
  · unfold config
    refine .or_right (.or (c := .uncommitted) (fail_attempt_of (c := .uncommitted) (.map _ (fail_many1.2 ⟨rfl, .uncommitted, fail_property_end⟩)))
      (fail_attempt_of (fail_include noHead_nil).choose_spec)) ?_
    refine eats_many0.2 ⟨.nil _, .uncommitted, .or (c := .uncommitted) (fail_attempt_of (c := .uncommitted) (fail_object quiet_nil noHead_nil))
      (fail_array quiet_nil noHead_nil)⟩

end OniComb.Hocon
