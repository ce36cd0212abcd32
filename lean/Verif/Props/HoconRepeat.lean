import Verif.Props.HoconError

/-!
# C97: repeated settings, and commas between settings
-/

namespace OniComb.Hocon
open OniComb OniComb.Hocon.Spec OniComb.Hocon.Spec.Layout
open OniComb.Uri (Bytes byte bytes)

/-- Settings in any layout, keys perhaps repeated: the document has each key once, with its first definition and the
later ones merged into it.  (The entries of objects in braces: `Gathered` in the grammar.) -/
theorem c97_repeated_partial (S : Std) (n : Nat) (g t : Bytes) (ps : Entries) (hg : Gap g) (hne : ps ≠ [])
    (h : Members S.parseDecimal false ps t []) (hn : (g ++ t).length < n) :
    ∃ es, parse (hocon S n) (g ++ t) = .ok [.obj es] ∧ Combined ps es :=
  ⟨_, lift_ok (settings_reads hg hne h) n hn, configFold_combined fun e he => by
    obtain ⟨t, g, r, hv⟩ := members_val h e he
    exact val_wf hv⟩

/-- Without references, and without dots in the keys: `get_value` of a path finds the merged definitions of its first
key, and below it what they have at the rest of the path. -/
theorem c97_repeated_value_partial (S : Std) (w : World) (g t : Bytes) (ps : Entries) (hg : Gap g) (hne : ps ≠ [])
    (h : Members S.parseDecimal false ps t []) (hd : ∀ e ∈ ps, byte '.' ∉ e.1) (hm : ∀ p, ¬ Mentions (.obj ps) p) :
    ∃ v N, (∀ n, N ≤ n → parseDocument S w n (g ++ t) = .ok (some v)) ∧
      ∀ k ss, Segment k → (∀ s ∈ ss, Segment s) →
        (definitions k ps = [] → getValue v (joinDot (k :: ss)) = .ok none) ∧
        ∀ d ds, definitions k ps = d :: ds → ∃ x, MergedAll d ds x ∧
          getValue v (joinDot (k :: ss)) = .ok (descend ss (latest x)) := by
  have hv : ∀ e ∈ ps, Wf e.2 ∧ Settled e.2 := fun e he => by
    obtain ⟨t, g, r, hv⟩ := members_val h e he
    exact ⟨val_wf hv, val_settled hv fun p hp => hm p (.value he hp)⟩
  have hc := configFold_combined fun e he => (hv e he).1
  obtain ⟨N, hN⟩ := load_parsed (settings_reads hg hne h) (fun e he => by
    obtain ⟨e', he', hk⟩ := List.mem_map.1 (configFold_key he)
    exact hk ▸ hd e' he') w _ (settled_resolved (.obj (configFold_settled hv)))
  refine ⟨_, N, fun n hn => hN (w.env S n) n rfl hn, fun k ss hk hs => ?_⟩
  have hg := c58_get_value (.obj (configFold ps)) (k :: ss) (by simp) (List.forall_mem_cons.2 ⟨hk, hs⟩)
  refine ⟨fun hd => ?_, fun d ds hd => ?_⟩
  · rw [hg, descend, hc.none k hd]; rfl
  · obtain ⟨x, hx, hx'⟩ := hc.some k d ds hd
    exact ⟨x, hx', by rw [hg, descend, hx]; rfl⟩

/-- `a{b=1}`, and then `a{c{},c=null}`: `a` has both `b` and `c`, and `c` is `null`. -/
example (w : World) : ∃ v N, (∀ n, N ≤ n → parseDocument decDigits w n (bytes "a{b=1\n}\na{c{},c=null}") = .ok (some v)) ∧
    getValue v (bytes "a.b") = .ok (some (int 1)) ∧ getValue v (bytes "a.c") = .ok (some .null) := by
  have key : ∀ k : Bytes, Segment k → KeyText k k := fun k h => .inl ⟨pathText_one h, rfl⟩
  have ha : Segment (bytes "a") := ⟨by decide, by decide⟩
  have hb : Segment (bytes "b") := ⟨by decide, by decide⟩
  have hc : Segment (bytes "c") := ⟨by decide, by decide⟩
  have h1 := Members.assign (dec := decDigits.parseDecimal) (c := true) (x := bytes "}") (s := []) (b := byte '=') (v := .null)
    (g2 := []) (g := []) (key _ hc) gap_nil (.inl rfl) gap_nil gap_nil (.inl rfl) .null .nil
  have h2 := Members.block (g1 := []) (g := []) (s := bytes ",") (key _ hc) gap_nil (.inl (by exact trivial)) gap_nil
    (.inr ⟨rfl, [], gap_nil, rfl⟩) (.obj (g1 := []) (t := []) gap_nil .nil .nil
      (by exact ⟨bytes ",c=null}", [], [], rfl, by decide, noHead_nil, gap_nil, noHead_nil, noHead_nil⟩)) h1
  have h3 : Val decDigits.parseDecimal (.obj [(bytes "c", .link (.obj []) .null)]) (byte '{' :: ([] ++ (bytes "c{},c=null" ++ [byte '}'])))
      [] [] := .obj gap_nil h2 (.again (ps := [(bytes "c", .obj [])]) (l := []) (r := []) (.first .nil (by simp [keys]))) guarded_nil
  have h4 := Members.block (dec := decDigits.parseDecimal) (c := false) (x := []) (g1 := []) (g := []) (s := []) (t' := []) (key _ ha) gap_nil
    (.inl (by exact trivial)) gap_nil (.inl rfl) h3 .nil
  have h5 := Members.assign (dec := decDigits.parseDecimal) (c := true) (t := bytes "1") (x := bytes "}\na{c{},c=null}") (s := []) (b := byte '=')
    (g2 := []) (g := bytes "\n") (key _ hb) gap_nil (.inl rfl) gap_nil gap_line (.inl rfl) (.num (.inl (.inr ⟨byte '1', [], rfl, by decide, by decide, by simp⟩)) dec_one
        ⟨noHead_cons.2 (by unfold NumByte Digit; decide), noHead_cons.2 (by unfold UnitStart; decide)⟩) .nil
  have h6 := Members.block (g1 := []) (g := bytes "\n") (s := []) (key _ ha) gap_nil
    (.inl (by exact trivial)) gap_line (.inl rfl) (.obj (g1 := []) gap_nil h5 (gathered_self (by simp [keys]))
      (by exact ⟨[], bytes "\n", _, rfl, by simp, noHead_cons.2 (by decide), gap_line, noHead_cons.2 (by decide), noHead_cons.2 (by decide)⟩)) h4
  obtain ⟨v, N, h7, h8⟩ := c97_repeated_value_partial decDigits w [] _ _ gap_nil (by simp) h6 (by
    intro e he
    simp only [List.mem_cons, List.not_mem_nil, or_false] at he
    rcases he with rfl | rfl <;> exact fun h => absurd h (by decide)) (by
    intro p hp
    have none : ∀ v : Value, Mentions v p → Settled v → False := by
      intro v hp hv
      induction hv with
      | constant h => cases hp <;> cases h
      | arr _ ih => cases hp with | elem hv h => exact ih _ hv h
      | obj _ ih => cases hp with | value hv h => exact ih _ hv h
      | link _ _ h1 h2 => cases hp with | older h => exact h1 h | newer h => exact h2 h
    refine none _ hp (.obj fun e he => ?_)
    simp only [List.mem_cons, List.not_mem_nil, or_false] at he
    rcases he with rfl | rfl
    · exact .obj fun e he => by cases List.mem_singleton.1 he; exact .constant trivial
    · exact .obj fun e he => by
        cases List.mem_singleton.1 he
        exact .link (.obj (by simp)) (.constant trivial))
  have merge : ∀ x, MergedAll (.obj [(bytes "b", .num ⟨1, 0⟩)]) [.obj [(bytes "c", .link (.obj []) .null)]] x →
      ∃ es, x = .obj es ∧ get (bytes "b") es = some (.num ⟨1, 0⟩) ∧ get (bytes "c") es = some (.link (.obj []) .null) := by
    intro x hx
    cases hx with
    | more h hs =>
      cases hs
      cases h with
      | objects left right neither both deep => exact ⟨_, rfl, left _ _ rfl rfl, right _ _ rfl rfl⟩
      | keep _ ho => exact absurd ⟨trivial, trivial⟩ ho
  refine ⟨v, N, h7, ?_, ?_⟩
  · obtain ⟨x, hx, h9⟩ := (h8 (bytes "a") [bytes "b"] ha (by simpa using hb)).2 _ _ rfl
    obtain ⟨es, rfl, h10, -⟩ := merge x hx
    rw [show latest (.obj es) = .obj es from rfl, descend, h10] at h9
    exact h9
  · obtain ⟨x, hx, h9⟩ := (h8 (bytes "a") [bytes "c"] ha (by simpa using hc)).2 _ _ rfl
    obtain ⟨es, rfl, -, h10⟩ := merge x hx
    rw [show latest (.obj es) = .obj es from rfl, descend, h10] at h9
    exact h9

/-- A comma between two settings outside of braces is a syntax error. -/
theorem c97_comma_violated (S : Std) (n : Nat) (g t y : Bytes) (ps : Entries) (hg : Gap g) (hne : ps ≠ [])
    (hm : Members S.parseDecimal false ps t (byte ',' :: y)) (hy : Guarded y) (hn : (g ++ t ++ byte ',' :: y).length < n) :
    parse (hocon S n) (g ++ t ++ byte ',' :: y) = .err (.mismatch (byte ',' :: y) ((g ++ t).length + 1) 1) := by
  obtain ⟨N, hN⟩ := settings_stop hg hne hm (noHead_cons.2 (by decide))
    (fun n => ⟨.uncommitted, fail_run (by decide) (by decide) (by decide) hy⟩) (by simp)
  have h := hN (max N ((g ++ t ++ byte ',' :: y).length + 1)) (by omega)
  rwa [← c89_depth S n _ _ hn (by omega)] at h

/-- `a=1,b=2`. -/
example : parse (hocon decDigits 10) (bytes "a=1,b=2") = .err (.mismatch (bytes ",b=2") 4 1) := by
  have hm : Members decDigits.parseDecimal false [(bytes "a", .num ⟨1, 0⟩)] (bytes "a=1") (byte ',' :: bytes "b=2") :=
    Members.assign (g1 := []) (g2 := []) (t := bytes "1") (g := []) (s := []) (t' := []) (b := byte '=')
      (.inl ⟨pathText_one ⟨by decide, by decide⟩, rfl⟩) gap_nil (.inl rfl) gap_nil gap_nil (.inl rfl)
      (.num (.inl (.inr ⟨byte '1', [], rfl, by decide, by decide, by simp⟩)) dec_one
        ⟨noHead_cons.2 (by unfold NumByte Digit; decide), noHead_cons.2 (by unfold UnitStart; decide)⟩) .nil
  exact c97_comma_violated decDigits 10 [] (bytes "a=1") (bytes "b=2") _ gap_nil (by simp) hm
    ⟨bytes "b=2", [], [], rfl, by decide, noHead_nil, gap_nil, noHead_nil, noHead_nil⟩ (by decide)

theorem bare_comma {u y : Bytes} (hu : BareText u) (hv : Uri.validUtf8 y = true) (hy : ∀ b ∈ y, ¬ Special b) :
    BareText (u ++ byte ',' :: y) := by
  obtain ⟨h1, h2, h3, h4, h5⟩ := hu
  refine ⟨by simp, ?_, ?_, (noHead_append h1).2 h4, ?_⟩
  · obtain ⟨cs, rfl⟩ := Uri.validUtf8_iff.1 h2
    obtain ⟨ds, rfl⟩ := Uri.validUtf8_iff.1 hv
    refine Uri.validUtf8_iff.2 ⟨cs ++ ',' :: ds, ?_⟩
    have : Uri.utf8 (cs ++ ',' :: ds) = Uri.utf8 cs ++ (Uri.utf8 [','] ++ Uri.utf8 ds) := by simp [Uri.utf8]
    rw [this]
    rfl
  · intro b hb
    rcases List.mem_append.1 hb with hb | hb
    · exact h3 b hb
    · rcases List.mem_cons.1 hb with rfl | hb
      · decide
      · exact hy b hb
  · intro w hw hpre
    refine h5 w hw (prefix_word ?_ (noHead_cons.2 (by decide)) hpre)
    revert hw; simp only [List.mem_cons, List.not_mem_nil, or_false]
    rintro (rfl | rfl | rfl) <;> decide

/-- Behind an unquoted string a comma does not separate settings either: `k=u,m=y` is one setting, and there is no
`m`. -/
theorem c97_comma_string_violated (S : Std) (w : World) (k m u y x : Bytes) (es : Entries) (hk : Segment k) (hm : Segment m)
    (hu : BareText u) (hy : Uri.validUtf8 y = true) (hs : ∀ b ∈ y, ¬ Special b) (he : Members S.parseDecimal false es x [])
    (hn : (k :: keys es).Nodup) (hkm : m ∉ k :: keys es) (hd : ∀ e ∈ es, byte '.' ∉ e.1) (hr : ∀ q, ¬ Mentions (.obj es) q) :
    ∃ v N, (∀ n, N ≤ n → parseDocument S w n (k ++ byte '=' :: (u ++ byte ',' :: (m ++ byte '=' :: y) ++ bytes "\n" ++ x)) = .ok (some v)) ∧
      getValue v k = .ok (some (.str (u ++ byte ',' :: (m ++ byte '=' :: y)))) ∧ getValue v m = .ok none := by
  have hb : BareText (u ++ byte ',' :: (m ++ byte '=' :: y)) := by
    refine bare_comma hu ?_ ?_
    · obtain ⟨cs, hcs⟩ := Uri.validUtf8_iff.1 (Uri.validUtf8_ascii (m ++ [byte '=']) fun b hb => by
        rcases List.mem_append.1 hb with hb | hb
        · exact segByte_ascii (hm.2 b hb)
        · rw [List.mem_singleton.1 hb]; decide)
      obtain ⟨ds, rfl⟩ := Uri.validUtf8_iff.1 hy
      refine Uri.validUtf8_iff.2 ⟨cs ++ ds, ?_⟩
      have : Uri.utf8 (cs ++ ds) = Uri.utf8 cs ++ Uri.utf8 ds := by simp [Uri.utf8]
      rw [this, ← hcs]
      simp
    · intro b hb
      rcases List.mem_append.1 hb with hb | hb
      · exact path_noSpecial (.inl (hm.2 b hb))
      · rcases List.mem_cons.1 hb with rfl | hb
        · decide
        · exact hs b hb
  have hall := Members.assign (dec := S.parseDecimal) (c := false) (s := []) (b := byte '=') (g2 := []) (.inl ⟨pathText_one hk, rfl⟩)
    gap_nil (.inl rfl) gap_nil gap_line (.inl rfl) (.bare hb (noHead_cons.2 (by decide))) he
  have hdoc := Doc.settings (g := []) gap_nil (by simp) (by exact hn) hall
  obtain ⟨v, N, h1, h2⟩ := c97_get_value_partial S w _ _ hdoc (by
    intro e he
    rcases List.mem_cons.1 he with rfl | he
    · exact fun h => absurd (hk.2 _ h) (by decide)
    · exact hd e he) (by
    intro q hq
    cases hq with
    | value he h =>
      rcases List.mem_cons.1 he with rfl | he
      · cases h
      · exact hr q (.value he h))
  refine ⟨v, N, by simpa using h1, ?_, ?_⟩
  · have := h2 [k] (by simp) (by simpa using hk)
    simpa [joinDot, descend, get, latest] using this
  · have := h2 [m] (by simp) (by simpa using hm)
    rw [descend, get_none_of_not_mem (by exact hkm)] at this
    simpa [joinDot] using this

/-- `k=u,m=3` gives `k` the value `u,m=3`. -/
example (w : World) : ∃ v N, (∀ n, N ≤ n → parseDocument decDigits w n (bytes "k=u,m=3\n") = .ok (some v)) ∧
    getValue v (bytes "k") = .ok (some (.str (bytes "u,m=3"))) ∧ getValue v (bytes "m") = .ok none :=
  c97_comma_string_violated decDigits w (bytes "k") (bytes "m") (bytes "u") (bytes "3") [] [] ⟨by decide, by decide⟩
    ⟨by decide, by decide⟩ ⟨by decide, by decide, by decide, noHead_cons.2 (by decide), by decide⟩ (by decide) (by decide) .nil
    (by simp [keys]) (by simp [keys]; decide) (by simp) (by intro q hq; cases hq with | value he _ => cases he)

end OniComb.Hocon
