import Verif.Props.HoconReferences
import Verif.Props.HoconRepeat

/-!
# C120: an optional reference behind another definition of the key
-/

namespace OniComb.Hocon
open OniComb OniComb.Hocon.Spec OniComb.Hocon.Spec.Layout
open OniComb.Uri (Bytes byte bytes)

private theorem descend_mentions {q : Bytes} {ss : List Bytes} : ∀ {v x : Value}, descend ss v = some x → Mentions x q → Mentions v q := by
  induction ss with
  | nil => intro v x h; cases h; exact id
  | cons k ss ih =>
    intro v x h hx
    cases v with
    | obj es =>
      obtain ⟨y, h1, h2⟩ := Option.bind_eq_some_iff.1 h
      refine .value (get_mem h1) ?_
      have := ih h2 hx
      cases y with
      | link p v => exact .newer this
      | _ => exact this
    | _ => cases h

private theorem descend_demands {q : Bytes} {ss : List Bytes} : ∀ {v x : Value}, descend ss v = some x → Demands x q → Demands v q := by
  induction ss with
  | nil => intro v x h; cases h; exact id
  | cons k ss ih =>
    intro v x h hx
    cases v with
    | obj es =>
      obtain ⟨y, h1, h2⟩ := Option.bind_eq_some_iff.1 h
      refine .value (get_mem h1) ?_
      have := ih h2 hx
      cases y with
      | link p v => exact .newer this
      | _ => exact this
    | _ => cases h

private theorem push_quiet {c v : Value} (hc : ∀ p, ¬ Mentions c p) (hv : ∀ p, ¬ Mentions v p) : ∀ p, ¬ Mentions (push c v) p := by
  intro p h
  cases v with
  | ref a b o => exact hv b .ref
  | _ =>
    cases h with
    | older h => exact hc p h
    | newer h => exact hv p h

private theorem fold_quiet : ∀ {vs : List Value} {c : Value}, (∀ p, ¬ Mentions c p) → (∀ v ∈ vs, ∀ p, ¬ Mentions v p) →
    ∀ p, ¬ Mentions (vs.foldl push c) p
  | [], _, hc, _ => hc
  | v :: vs, _, hc, hv => fold_quiet (vs := vs) (push_quiet hc (hv v (by simp))) fun u hu => hv u (by simp [hu])

private theorem get_self {es : Entries} (h : (keys es).Nodup) {e : Bytes × Value} (he : e ∈ es) : get e.1 es = some e.2 :=
  get_of_mem h he

private theorem gathered_more : ∀ {qs ps es : Entries}, Gathered ps es → ∃ fs, Gathered (ps ++ qs) fs
  | [], _, es, h => ⟨es, by simpa using h⟩
  | (k, v) :: qs, ps, es, h => by
    by_cases hk : k ∈ keys es
    · obtain ⟨⟨k', c⟩, he, hk⟩ := List.mem_map.1 hk
      cases hk
      obtain ⟨l, r, rfl⟩ := List.append_of_mem he
      obtain ⟨fs, hf⟩ := gathered_more (qs := qs) (.again (v := v) h)
      exact ⟨fs, by simpa using hf⟩
    · obtain ⟨fs, hf⟩ := gathered_more (qs := qs) (.first (v := v) h hk)
      exact ⟨fs, by simpa using hf⟩

private theorem block_doc {S : Std} {k body : Bytes} {ps es : Entries} (hk : Segment k)
    (h : Members S.parseDecimal true ps body [byte '}']) (hg : Gathered ps es) :
    Doc S.parseDecimal [.obj [(k, .obj es)]] (k ++ (byte '{' :: body ++ [byte '}'])) := by
  have h1 : Val S.parseDecimal (.obj es) (byte '{' :: ([] ++ (body ++ [byte '}']))) [] [] := .obj gap_nil h hg guarded_nil
  have h2 := Members.block (dec := S.parseDecimal) (c := false) (x := []) (g1 := []) (g := []) (s := []) (t' := [])
    (.inl ⟨pathText_one hk, rfl⟩) gap_nil (.inl (by exact trivial)) gap_nil (.inl rfl) h1 .nil
  have h3 := Doc.settings (g := []) gap_nil (by simp) (by simp [keys]) h2
  simpa using h3

private theorem override_facts {S : Std} {k x q body : Bytes} {ps es : Entries} {d : Value}
    (h : Members S.parseDecimal true ps body [byte '}']) (hg : Gathered ps es) (hdef : definitions x ps = [d, .ref none q true])
    (hd : ∀ p, ¬ Mentions d p) (ho : ∀ e ∈ ps, e.1 ≠ x → ∀ p, ¬ Mentions e.2 p) :
    get x es = some (.link d (.ref (some d) q true)) ∧ (∀ e ∈ es, e.1 ≠ x → ∀ p, ¬ Mentions e.2 p) ∧
      (∀ p, Mentions (.obj [(k, .obj es)]) p → p = q) ∧ ∀ p, ¬ Demands (.obj [(k, .obj es)]) p := by
  have hnd := (gathered_keys hg).1
  have hget : get x es = some (.link d (.ref (some d) q true)) := by
    rw [← gathered_fold hg, get_objectFold, hdef]
    rfl
  obtain ⟨dt, dg, dr, hval⟩ := members_val h _ (mem_definitions (k := x) (v := d) (by rw [hdef]; simp))
  have hset : Settled d := val_settled hval hd
  have hdl : ¬ IsLink d := by cases hval <;> exact id
  have hquiet : ∀ e ∈ es, e.1 ≠ x → ∀ p, ¬ Mentions e.2 p := by
    intro e he hne
    have h1 := get_self hnd he
    rw [← gathered_fold hg, get_objectFold] at h1
    have h2 : ∀ v ∈ definitions e.1 ps, ∀ p, ¬ Mentions v p := by
      intro v hv
      obtain ⟨e', he', rfl⟩ := List.mem_map.1 hv
      obtain ⟨h3, h4⟩ := List.mem_filter.1 he'
      exact ho e' h3 (by simp at h4; rw [h4]; exact hne)
    cases hdv : definitions e.1 ps with
    | nil => rw [hdv] at h1; cases h1
    | cons v vs =>
      rw [hdv] at h1 h2
      rw [← Option.some.inj h1]
      exact fold_quiet (h2 v (by simp)) fun u hu => h2 u (by simp [hu])
  have hment : ∀ p, Mentions (.obj [(k, .obj es)]) p → p = q := by
    intro p hp
    cases hp with
    | value he hp =>
      cases List.mem_singleton.1 he
      cases hp with
      | @value e _ _ he hp =>
        by_cases hex : e.1 = x
        · have h1 := get_self hnd he
          rw [hex, hget] at h1
          obtain ⟨e1, e2⟩ := e
          cases h1
          cases hp with
          | older hp => exact absurd hp (hd p)
          | newer hp => cases hp; rfl
        · exact absurd hp (hquiet e he hex p)
  have hdem : ∀ p, ¬ Demands (.obj [(k, .obj es)]) p := by
    intro p hp
    cases hp with
    | value he hp =>
      cases List.mem_singleton.1 he
      cases hp with
      | @value e _ _ he hp =>
        by_cases hex : e.1 = x
        · have h1 := get_self hnd he
          rw [hex, hget] at h1
          obtain ⟨e1, e2⟩ := e
          cases h1
          cases hp with
          | older hp => exact absurd (demands_mentions hp) (hd p)
          | newer hp =>
            cases hp with
            | ref h => exact h ⟨rfl, d, rfl, hset, hdl⟩
        · exact absurd (demands_mentions hp) (hquiet e he hex p)
  exact ⟨hget, hquiet, hment, hdem⟩

/-- In braces: a key with a value and then an optional reference to a variable has the value of the variable if it is
set, and the first value otherwise.  That value and the other entries of the object are any without references.  (Full claim: also with
several definitions in front of the reference, and outside of braces; both are false, see below.) -/
theorem c120_override_partial (S : Std) (w : World) (k x q1 body : Bytes) (qs : List Bytes) (ps : Entries) (d : Value) (hk : Segment k)
    (hx : Segment x) (hq : Segment q1) (hqs : ∀ s ∈ qs, Segment s) (hne : q1 ≠ k) (h : Members S.parseDecimal true ps body [byte '}'])
    (hdef : definitions x ps = [d, .ref none (joinDot (q1 :: qs)) true]) (hd : ∀ p, ¬ Mentions d p)
    (ho : ∀ e ∈ ps, e.1 ≠ x → ∀ p, ¬ Mentions e.2 p) :
    ∃ v N, (∀ n, N ≤ n → parseDocument S w n (k ++ (byte '{' :: body ++ [byte '}'])) = .ok (some v)) ∧
      (∀ s, w.var (joinDot (q1 :: qs)) = some s → getValue v (k ++ byte '.' :: x) = .ok (some (.str s))) ∧
      (w.var (joinDot (q1 :: qs)) = none → getValue v (k ++ byte '.' :: x) = .ok (some d)) := by
  obtain ⟨es, hg⟩ : ∃ es, Gathered ps es := gathered_more (ps := []) .nil
  have hdoc := block_doc hk h hg
  obtain ⟨hget, hquiet, hment, hdem⟩ := override_facts (k := k) h hg hdef hd ho
  obtain ⟨dt, dg, dr, hval⟩ := members_val h _ (mem_definitions (k := x) (v := d) (by rw [hdef]; simp))
  have hset : Settled d := val_settled hval hd
  have hdl : ¬ IsLink d := by cases hval <;> exact id
  have hmiss : Missing (.obj [(k, .obj es)]) (joinDot (q1 :: qs)) :=
    ⟨q1 :: qs, by simp, List.forall_mem_cons.2 ⟨hq, hqs⟩, rfl, by
      rw [descend, get_none_of_not_mem (by simpa [keys] using hne)]
      rfl⟩
  obtain ⟨v, N, h1, -, -, -, h2, h3⟩ := c97_references_partial S w _ _ hdoc
    (by intro e he; cases List.mem_singleton.1 he; exact segment_noDot hk)
    (by
      rintro v p (rfl | ⟨p', ss, -, -, -, hl⟩) hp
      · exact absurd hp (hdem p)
      · exact absurd (descend_demands hl hp) (hdem p))
    (fun p => if p = joinDot (q1 :: qs) then 0 else 1) 1
    (by intro p hp; simp [hment p hp])
    (by
      intro p z p' hl hp
      have h1 : p' = joinDot (q1 :: qs) := by
        obtain ⟨ss, -, -, -, hl⟩ := hl
        exact hment p' (descend_mentions hl hp)
      have h2 : p ≠ joinDot (q1 :: qs) := by
        rintro rfl
        have h3 := getValue_leads hl
        rw [getValue_missing hmiss] at h3
        cases h3
      simp [h1, h2])
  have hl : Leads (.obj [(k, .obj es)]) (k ++ byte '.' :: x) (.ref (some d) (joinDot (q1 :: qs)) true) :=
    ⟨[k, x], by simp, by simp [hk, hx], rfl, by simp [descend, get, latest, hget]⟩
  exact ⟨v, N, h1, fun s hs => h2 _ _ _ _ s hl hmiss hs, fun hn => h3 _ _ _ hl hmiss hn hset hdl⟩

/-- In braces: a key with a value and then an optional reference to another entry of the object, a constant, has the
value of that entry.  (Full claim: also with references to entries that are not constants, and in nested objects.) -/
theorem c120_entry_partial (S : Std) (w : World) (k x y body : Bytes) (ps : Entries) (d d' : Value) (hk : Segment k)
    (hx : Segment x) (hy : Segment y) (hne : y ≠ x) (h : Members S.parseDecimal true ps body [byte '}'])
    (hdef : definitions x ps = [d, .ref none (joinDot [k, y]) true]) (hdef' : definitions y ps = [d']) (hd : ∀ p, ¬ Mentions d p)
    (hd' : Constant d') (ho : ∀ e ∈ ps, e.1 ≠ x → ∀ p, ¬ Mentions e.2 p) :
    ∃ v N, (∀ n, N ≤ n → parseDocument S w n (k ++ (byte '{' :: body ++ [byte '}'])) = .ok (some v)) ∧
      getValue v (k ++ byte '.' :: x) = .ok (some d') := by
  obtain ⟨es, hg⟩ : ∃ es, Gathered ps es := gathered_more (ps := []) .nil
  obtain ⟨hget, hquiet, hment, hdem⟩ := override_facts (k := k) h hg hdef hd ho
  have hget' : get y es = some d' := by
    rw [← gathered_fold hg, get_objectFold, hdef']
    rfl
  have hlat : latest d' = d' := by cases d' <;> first | rfl | cases hd'
  have hl : Leads (.obj [(k, .obj es)]) (k ++ byte '.' :: x) (.ref (some d) (joinDot [k, y]) true) :=
    ⟨[k, x], by simp, by simp [hk, hx], rfl, by simp [descend, get, latest, hget]⟩
  have hl' : Leads (.obj [(k, .obj es)]) (joinDot [k, y]) d' :=
    ⟨[k, y], by simp, by simp [hk, hy], rfl, by
      have h1 : descend [y] (.obj es) = some d' := by simp only [descend, hget', Option.bind_some, hlat]
      simpa [descend, get, latest] using h1⟩
  have hrk : (if joinDot [k, y] = joinDot [k] ∨ joinDot [k, y] = joinDot [k, x] then 1 else 0) = 0 := by
    have h1 : joinDot [k, y] ≠ joinDot [k] := by
      intro h
      have := congrArg List.length h
      simp [joinDot] at this
    have h2 : joinDot [k, y] ≠ joinDot [k, x] := by
      intro h
      simp [joinDot] at h
      exact hne h
    simp [h1, h2]
  obtain ⟨v, N, h1, -, h3, h4, -⟩ := c97_references_partial S w _ _ (block_doc hk h hg)
    (by intro e he; cases List.mem_singleton.1 he; exact segment_noDot hk)
    (by
      rintro v p (rfl | ⟨p', ss, -, -, -, hl⟩) hp
      · exact absurd hp (hdem p)
      · exact absurd (descend_demands hl hp) (hdem p))
    (fun p => if p = joinDot [k] ∨ p = joinDot [k, x] then 1 else 0) 1
    (by intro p hp; rw [hment p hp, hrk]; omega)
    (by
      intro p z p' hl hp
      obtain ⟨ss, h1, h2, rfl, hl⟩ := hl
      rw [hment p' (descend_mentions hl hp), hrk]
      have : joinDot ss = joinDot [k] ∨ joinDot ss = joinDot [k, x] := by
        match ss, h1, hl with
        | s :: ss, _, hl =>
          by_cases hs : s = k
          · subst hs
            have hl : descend ss (.obj es) = some z := by simpa [descend, get, latest] using hl
            match ss, hl with
            | [], _ => exact .inl rfl
            | s' :: ss, hl =>
              obtain ⟨u, hu, hl⟩ := Option.bind_eq_some_iff.1 hl
              by_cases hs' : s' = x
              · subst hs'
                rw [hget] at hu
                cases hu
                match ss, hl with
                | [], _ => exact .inr rfl
                | _ :: _, hl => cases hl
              · refine absurd ?_ (hquiet _ (get_mem hu) hs' p')
                have := descend_mentions hl hp
                cases u with
                | link p v => exact .newer this
                | _ => exact this
          · have : get s [(k, Value.obj es)] = none := get_none_of_not_mem (by simpa [keys] using hs)
            rw [descend, this] at hl
            cases hl
      simp only [this, if_true]
      omega)
  refine ⟨v, N, h1, ?_⟩
  obtain ⟨z, h5, h6⟩ := h4 _ _ _ _ _ hl hl'
  rw [h3 _ _ hl' hd'] at h6
  rw [h5, ← Option.some.inj (Out.ok.inj h6)]

/-- With two constants in front of the reference, and without the variable, the key has the first of them and not the
last. -/
theorem c120_second_default_violated (S : Std) (w : World) (k x q1 body : Bytes) (qs : List Bytes) (d d' : Value) (hk : Segment k)
    (hx : Segment x) (hq : Segment q1) (hqs : ∀ s ∈ qs, Segment s) (hne : q1 ≠ k)
    (h : Members S.parseDecimal true [(x, d), (x, d'), (x, .ref none (joinDot (q1 :: qs)) true)] body [byte '}'])
    (hd : Constant d) (hd' : Constant d') (hv : w.var (joinDot (q1 :: qs)) = none) :
    ∃ v N, (∀ n, N ≤ n → parseDocument S w n (k ++ (byte '{' :: body ++ [byte '}'])) = .ok (some v)) ∧
      getValue v (k ++ byte '.' :: x) = .ok (some d) := by
  have hg : Gathered [(x, d), (x, d'), (x, .ref none (joinDot (q1 :: qs)) true)]
      [(x, .link (.link d d') (.ref (some (.link d d')) (joinDot (q1 :: qs)) true))] := by
    have h1 : Gathered [(x, d)] [(x, d)] := .first .nil (by simp [keys])
    have h2 : Gathered [(x, d), (x, d')] [(x, .link d (remember d d'))] := .again (l := []) (r := []) h1
    rw [show remember d d' = d' by cases d' <;> first | rfl | cases hd'] at h2
    exact .again (l := []) (r := []) h2
  have hl : latest d = d := by cases d <;> first | rfl | cases hd
  have hp : ∀ c, push c d = .link c d := by intro c; cases d <;> first | rfl | cases hd
  have hp' : push d d' = .link d d' := by cases d' <;> first | rfl | cases hd'
  obtain ⟨N, hN⟩ := load_resolved (S := S) (doc_reads (block_doc hk h hg)) (by intro e he; cases List.mem_singleton.1 he; exact segment_noDot hk) w
    (.obj [(k, .obj [(x, .link (.link d d') d)])]) (N := 5) (by
      have hm : Missing (.obj [(k, .obj [(x, .link (.link d d') (.ref (some (.link d d')) (joinDot (q1 :: qs)) true))])])
          (joinDot (q1 :: qs)) := ⟨q1 :: qs, by simp, List.forall_mem_cons.2 ⟨hq, hqs⟩, rfl, by
        rw [descend, get_none_of_not_mem (by simpa [keys] using hne)]
        rfl⟩
      rw [resolve_obj]
      simp only [mapOut]
      rw [resolve_obj]
      simp only [mapOut]
      have h1 := resolve_link_intro (n := 1) (resolve_constant (env := ⟨w.var, fun _ => .panic⟩) (n := 0)
        (src := .obj [(k, .obj [(x, .link (.link d d') (.ref (some (.link d d')) (joinDot (q1 :: qs)) true))])]) hd) (resolve_constant hd')
      have h2 : resolve ⟨w.var, fun _ => .panic⟩
          (.obj [(k, .obj [(x, .link (.link d d') (.ref (some (.link d d')) (joinDot (q1 :: qs)) true))])]) 2
          (.ref (some (.link d d')) (joinDot (q1 :: qs)) true) = .ok d := by
        rw [resolve_ref, getValue_missing hm]
        simp only [Out.bind, hv]
        cases d <;> first | rfl | cases hd
      rw [resolve_link_intro h1 h2, hp', hp]
      rfl)
  refine ⟨_, N, fun n hn => hN (w.env S n) n rfl hn, getValue_leads ⟨[k, x], by simp, by simp [hk, hx], rfl, ?_⟩⟩
  simp [descend, get, latest]

/-- Outside of braces the reference is ignored, whether the variable is set or not: the key has the constant. -/
theorem c120_settings_violated (S : Std) (w : World) (g t x q : Bytes) (d : Value) (hg : Gap g) (hx : Segment x)
    (h : Members S.parseDecimal false [(x, d), (x, .ref none q true)] t []) (hd : Constant d) :
    ∃ v N, (∀ n, N ≤ n → parseDocument S w n (g ++ t) = .ok (some v)) ∧ getValue v x = .ok (some d) := by
  have hfold : configFold [(x, d), (x, .ref none q true)] = [(x, d)] := by
    have hs : Scalar d := by cases d <;> first | exact ⟨id, id, id⟩ | cases hd
    simp [configFold, get, insertNew, set, merge_scalar hs]
  have h1 := settings_reads hg (by simp) h
  rw [hfold] at h1
  obtain ⟨N, hN⟩ := load_parsed h1 (by intro e he; cases List.mem_singleton.1 he; exact segment_noDot hx) w _
    (settled_resolved (.obj (by intro e he; cases List.mem_singleton.1 he; exact .constant hd)))
  refine ⟨_, N, fun n hn => hN (w.env S n) n rfl hn, getValue_leads ⟨[x], by simp, by simpa using hx, rfl, ?_⟩⟩
  have : latest d = d := by cases d <;> first | rfl | cases hd
  simp [descend, get, this]

private theorem override_members (c : Bool) (x : Bytes) : Members decDigits.parseDecimal c
    [(bytes "x", .null), (bytes "x", .ref none (joinDot [bytes "H"]) true)] (bytes "x=null\nx=${?H}") x := by
  have hk : KeyText (bytes "x") (bytes "x") := .inl ⟨pathText_one ⟨by decide, by decide⟩, rfl⟩
  have h1 := Members.assign (dec := decDigits.parseDecimal) (c := c) (x := x) (s := []) (b := byte '=') (g1 := []) (t' := [])
    (g2 := []) (g := []) hk gap_nil (.inl rfl) gap_nil gap_nil (.inl rfl) (.ref (p := [bytes "H"]) (o := true) (g1 := []) (g2 := [])
      (pathText_one ⟨by decide, by decide⟩) gap_nil gap_nil) .nil
  exact Members.assign (s := []) (b := byte '=') (g1 := []) (g2 := []) hk gap_nil (.inl rfl) gap_nil gap_line (.inl rfl) .null h1

/-- `k{x=null`, `x=${?H}}`. -/
example (w : World) : ∃ v N, (∀ n, N ≤ n → parseDocument decDigits w n (bytes "k{x=null\nx=${?H}}") = .ok (some v)) ∧
    (∀ s, w.var (bytes "H") = some s → getValue v (bytes "k.x") = .ok (some (.str s))) ∧
    (w.var (bytes "H") = none → getValue v (bytes "k.x") = .ok (some .null)) :=
  c120_override_partial decDigits w (bytes "k") (bytes "x") (bytes "H") (bytes "x=null\nx=${?H}") [] _ .null ⟨by decide, by decide⟩
    ⟨by decide, by decide⟩ ⟨by decide, by decide⟩ (by simp) (by decide) (override_members true _) rfl (by rintro p ⟨⟩)
    (by intro e he hne; simp at he; rcases he with rfl | rfl <;> exact absurd rfl hne)

/-- `k{x=[true]`, `x=${?k.y}`, `y=null}`: the reference is to a later entry. -/
example (w : World) : ∃ v N, (∀ n, N ≤ n → parseDocument decDigits w n (bytes "k{x=[true]\nx=${?k.y}\ny=null}") = .ok (some v)) ∧
    getValue v (bytes "k.x") = .ok (some .null) := by
  have hk : ∀ c, c = 'x' ∨ c = 'y' → KeyText [byte c] [byte c] := by
    rintro c (rfl | rfl) <;> exact .inl ⟨pathText_one ⟨by decide, by decide⟩, rfl⟩
  have h1 := Members.assign (dec := decDigits.parseDecimal) (c := true) (x := [byte '}']) (s := []) (b := byte '=') (g1 := []) (t' := [])
    (g2 := []) (g := []) (hk 'y' (.inr rfl)) gap_nil (.inl rfl) gap_nil gap_nil (.inl rfl) .null .nil
  have h2 := Members.assign (s := []) (b := byte '=') (g1 := []) (g2 := []) (g := bytes "\n") (hk 'x' (.inl rfl)) gap_nil (.inl rfl)
    gap_nil gap_line (.inl rfl) (.ref (p := [bytes "k", bytes "y"]) (o := true) (g1 := []) (g2 := [])
      ⟨[bytes "k", bytes "y"], by simp, by simp [Segment]; decide, rfl⟩ gap_nil gap_nil) h1
  have h3 := Members.assign (s := []) (b := byte '=') (g1 := []) (g2 := []) (g := bytes "\n") (hk 'x' (.inl rfl)) gap_nil (.inl rfl)
    gap_nil gap_line (.inl rfl) (.arr (vs := [.bool true]) (g1 := []) gap_nil (.one (g := []) gap_nil .true_)) h2
  exact c120_entry_partial decDigits w (bytes "k") (bytes "x") (bytes "y") (bytes "x=[true]\nx=${?k.y}\ny=null") _ _ .null
    ⟨by decide, by decide⟩ ⟨by decide, by decide⟩ ⟨by decide, by decide⟩ (by decide) h3 rfl rfl
    (by intro p hp; cases hp with | elem hv hp => cases List.mem_singleton.1 hv; cases hp) trivial
    (by
      intro e he hne p hp
      simp only [List.mem_cons, List.not_mem_nil, or_false] at he
      rcases he with rfl | rfl | rfl
      · exact absurd rfl hne
      · exact absurd rfl hne
      · cases hp)

/-- With `x=true` in front of them, and without `H`: `k.x` is `true` and not `null`. -/
example (w : World) (hw : w.var (bytes "H") = none) : ∃ v N,
    (∀ n, N ≤ n → parseDocument decDigits w n (bytes "k{x=true\nx=null\nx=${?H}}") = .ok (some v)) ∧
      getValue v (bytes "k.x") = .ok (some (.bool true)) :=
  c120_second_default_violated decDigits w (bytes "k") (bytes "x") (bytes "H") (bytes "x=true\nx=null\nx=${?H}") [] (.bool true) .null
    ⟨by decide, by decide⟩ ⟨by decide, by decide⟩ ⟨by decide, by decide⟩ (by simp) (by decide)
    (Members.assign (kt := bytes "x") (s := []) (b := byte '=') (g1 := []) (g2 := []) (g := bytes "\n")
      (.inl ⟨pathText_one ⟨by decide, by decide⟩, rfl⟩) gap_nil (.inl rfl) gap_nil gap_line (.inl rfl) .true_ (override_members true _))
    trivial trivial hw

/-- `x=null`, `x=${?H}` without braces: `x` is `null` although `H` is set. -/
example : ∃ w : World, w.var (bytes "H") = some (bytes "h") ∧ ∃ v N,
    (∀ n, N ≤ n → parseDocument decDigits w n (bytes "x=null\nx=${?H}") = .ok (some v)) ∧ getValue v (bytes "x") = .ok (some .null) :=
  ⟨⟨fun _ => none, fun _ => some (bytes "h")⟩, rfl, c120_settings_violated decDigits _ [] (bytes "x=null\nx=${?H}") (bytes "x") (bytes "H") .null
    gap_nil ⟨by decide, by decide⟩ (override_members false []) trivial⟩

end OniComb.Hocon
