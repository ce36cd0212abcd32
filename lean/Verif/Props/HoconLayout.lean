import Verif.Props.HoconLoad
import Verif.Lemmas.HoconMisread

/-!
# Properties of the `hocon` crate: documents with free layout

The grammar of documents is `Verif/Spec/HoconLayout.lean`.
-/

namespace OniComb.Hocon
open OniComb OniComb.Hocon.Spec OniComb.Hocon.Spec.Layout
open OniComb.Uri (Bytes byte bytes fromUtf8)

/-! ## C96 Concatenation -/

theorem joined_map {env : Env} {doc : Value} {vs : List Value} {s : Bytes} (h : Joined env.var doc vs s) :
    ∃ N, ∃ ss : List Bytes, (∀ n, N ≤ n → mapOut (resolve env doc n) vs = .ok (ss.map .str)) ∧ s = ss.flatten := by
  induction h with
  | nil => exact ⟨0, [], fun _ _ => rfl, rfl⟩
  | @cons v vs s r h hs ih =>
    obtain ⟨N, ss, h1, rfl⟩ := ih
    obtain ⟨M, h2⟩ := resolve_complete (env := env) h
    refine ⟨max N M, s :: ss, fun n hn => ?_, rfl⟩
    simp only [mapOut, resolve_le (show M ≤ n by omega) h2, h1 n (by omega), Out.bind, List.map_cons]

/-- A concatenation of strings and references to strings is replaced by the strings in order, if there is
anything in them. -/
theorem c96_concat_partial (env : Env) (doc : Value) (prev : Option Value) (vs : List Value) (s : Bytes)
    (h : Joined env.var doc vs s) (hs : s ≠ []) :
    ∃ N, ∀ n, N ≤ n → resolve env doc n (.enumeration prev vs) = .ok (.str s) := by
  obtain ⟨N, ss, h1, rfl⟩ := joined_map h
  refine ⟨N + 1, fun n hn => ?_⟩
  obtain ⟨m, rfl⟩ : ∃ m, n = m + 1 := ⟨n - 1, by omega⟩
  have hf : ∀ f : Value → Bytes, (∀ s, f (.str s) = s) → (ss.map Value.str).flatMap f = ss.flatten := by
    intro f hf
    rw [List.flatMap_map, List.flatMap_def]
    simp [hf]
  simp only [resolve, h1 m (by omega), Out.bind]
  rw [hf _ fun _ => rfl, if_neg (by simpa using hs)]

/-- `"a"` and `${b}` together, where `b` is `"c"`. -/
example (env : Env) : ∃ N, ∀ n, N ≤ n →
    resolve env (.obj [(bytes "b", .str (bytes "c"))]) n (.enumeration none [.str (bytes "a"), .ref none (bytes "b") false]) =
      .ok (.str (bytes "ac")) :=
  c96_concat_partial env _ _ _ _ (.cons (s := bytes "a") (r := bytes "c") (.constant trivial)
    (.cons (s := bytes "c") (r := []) (.found (x := .str (bytes "c")) ⟨[bytes "b"], by simp, by simp [Segment]; decide, rfl, rfl⟩ (.constant trivial)) .nil))
    (by decide)

theorem lift_err {S : Std} {t : Bytes} (h : ∃ N, ∀ n, N ≤ n → ∃ e, parse (hocon S n) t = .err e) (n : Nat) (hn : t.length < n) :
    ∃ e, parse (hocon S n) t = .err e := by
  obtain ⟨N, hN⟩ := h
  rw [c89_depth S n (max N (t.length + 1)) t hn (by omega)]
  exact hN _ (by omega)

/-- No document denotes a concatenation with a reference: `${p}` directly behind any value is a syntax error. -/
theorem c96_reference_violated (S : Std) (n : Nat) (k p t g x : Bytes) (v : Value) (es : Entries) (hk : PathText k)
    (hp : PathText p) (hg : Gap g) (h : Val S.parseDecimal v t g (bytes "${" ++ (p ++ (bytes "}\n" ++ x))))
    (hm : Members S.parseDecimal false es x [])
    (hn : (k ++ byte '=' :: (t ++ g) ++ (bytes "${" ++ (p ++ (bytes "}\n" ++ x)))).length < n) :
    ∃ e, parse (hocon S n) (k ++ byte '=' :: (t ++ g) ++ (bytes "${" ++ (p ++ (bytes "}\n" ++ x)))) = .err e :=
  lift_err (ref_behind hk hg hp h hm) n hn

/-- Nor does one denote a concatenation with a quoted string: such a string directly behind any value is a syntax
error. -/
theorem c96_string_violated (S : Std) (n : Nat) (k s u t g x : Bytes) (v : Value) (es : Entries) (hk : PathText k)
    (hu : QuotedText s u) (hg : Gap g) (h : Val S.parseDecimal v t g (u ++ (bytes "\n" ++ x)))
    (hm : Members S.parseDecimal false es x [])
    (hn : (k ++ byte '=' :: (t ++ g) ++ (u ++ (bytes "\n" ++ x))).length < n) :
    ∃ e, parse (hocon S n) (k ++ byte '=' :: (t ++ g) ++ (u ++ (bytes "\n" ++ x))) = .err e :=
  lift_err (quoted_behind hk hg hu h hm) n hn

theorem pathText_one {k : Bytes} (h : Segment k) : PathText k := ⟨[k], by simp, by simpa using h, rfl⟩

/-- `k="s"${p}`: a syntax error, although `p` is defined. -/
example : ∃ e, parse (hocon decDigits 30) (bytes "k=\"s\"${p}\np=\"t\"\n") = .err e := by
  have h1 : ∀ b : Char, b = 's' ∨ b = 't' → QuotedText [byte b] (byte '"' :: [byte b] ++ [byte '"']) := by
    rintro b (rfl | rfl) <;> exact quoted_plain (.inl rfl) ⟨by decide, by decide, by decide, by rintro x ⟨⟩; decide⟩
  have h2 := c96_reference_violated decDigits 30 (bytes "k") (bytes "p") (bytes "\"s\"") [] (bytes "p=\"t\"\n")
    (.str (bytes "s")) [(bytes "p", .str (bytes "t"))] (pathText_one ⟨by decide, by decide⟩) (pathText_one ⟨by decide, by decide⟩)
    gap_nil (.quoted (h1 's' (.inl rfl)))
    (.assign (kt := bytes "p") (g1 := []) (b := byte '=') (g2 := []) (t := bytes "\"t\"") (g := bytes "\n") (s := []) (t' := [])
      (.inl ⟨pathText_one ⟨by decide, by decide⟩, rfl⟩) gap_nil (.inl rfl) gap_nil gap_line (.inl rfl)
      (.quoted (h1 't' (.inr rfl))) .nil) (by decide)
  exact h2

/-- `k=${p}"s"`: the same. -/
example : ∃ e, parse (hocon decDigits 30) (bytes "k=${p}\"s\"\n") = .err e := by
  have h1 : QuotedText [byte 's'] (byte '"' :: [byte 's'] ++ [byte '"']) :=
    quoted_plain (.inl rfl) ⟨by decide, by decide, by decide, by rintro x ⟨⟩; decide⟩
  exact c96_string_violated decDigits 30 (bytes "k") (bytes "s") (bytes "\"s\"") (bytes "${p}") [] []
    (.ref none (bytes "p") false) [] (pathText_one ⟨by decide, by decide⟩) h1 gap_nil
    (.ref (p := [bytes "p"]) (o := false) (g1 := []) (g2 := []) (pathText_one ⟨by decide, by decide⟩) gap_nil gap_nil) .nil (by decide)

/-! ## C97 Layout -/

theorem lift_ok {S : Std} {t : Bytes} {vs : List Value} (h : ∃ N, ∀ n, N ≤ n → parse (hocon S n) t = .ok vs) (n : Nat)
    (hn : t.length < n) : parse (hocon S n) t = .ok vs := by
  obtain ⟨N, hN⟩ := h
  rw [c89_depth S n (max N (t.length + 1)) t hn (by omega)]
  exact hN _ (by omega)

/-- A document with any layout the grammar allows, with blanks, empty lines and lines of comments between its
parts, blocks without `=`, `:` for `=`, commas or line ends between settings and a comma behind the last one, is
parsed as the values it denotes. -/
theorem c97_layout_partial (S : Std) (n : Nat) (t : Bytes) (vs : List Value) (h : Doc S.parseDecimal vs t)
    (hn : t.length < n) : parse (hocon S n) t = .ok vs := lift_ok (doc_reads h) n hn

/-- A text denotes one list of values only. -/
theorem c97_unambiguous (S : Std) (t : Bytes) (vs ws : List Value) (h : Doc S.parseDecimal vs t)
    (h' : Doc S.parseDecimal ws t) : vs = ws := by
  have h1 := c97_layout_partial S (t.length + 1) t vs h (by omega)
  have h2 := c97_layout_partial S (t.length + 1) t ws h' (by omega)
  rw [h1] at h2
  cases h2
  rfl

/-- Such a document of settings without dotted keys is loaded as what it denotes, with the references replaced. -/
theorem c97_load_partial (S : Std) (w : World) (t : Bytes) (es : Entries) (v : Value) (h : Doc S.parseDecimal [.obj es] t)
    (hd : ∀ e ∈ es, byte '.' ∉ e.1) (hv : Resolved w.var (.obj es) (.obj es) v) :
    ∃ N, ∀ n, N ≤ n → parseDocument S w n t = .ok (some v) := by
  obtain ⟨N, hN⟩ := load_layout h hd w v hv
  exact ⟨N, fun n hn => hN (w.env S n) n rfl hn⟩

/-- Without references: `get_value` of a path gives what the document denotes at that path. -/
theorem c97_get_value_partial (S : Std) (w : World) (t : Bytes) (es : Entries) (h : Doc S.parseDecimal [.obj es] t)
    (hd : ∀ e ∈ es, byte '.' ∉ e.1) (hm : ∀ p, ¬ Mentions (.obj es) p) :
    ∃ v N, (∀ n, N ≤ n → parseDocument S w n t = .ok (some v)) ∧
      ∀ ss, ss ≠ [] → (∀ s ∈ ss, Segment s) → getValue v (joinDot ss) = .ok (descend ss (.obj es)) := by
  obtain ⟨N, hN⟩ := c97_load_partial S w t es _ h hd (doc_resolved h hm)
  exact ⟨_, N, hN, fun ss h1 h2 => c58_get_value _ ss h1 h2⟩

/-- The document of the example. -/
def layoutText : Bytes := bytes "# c\nsrv {\n host = my host\n port : 80, \"t\" = 5 s\n}\ntags = [1, ${k}, ]\nk=null"

/-- What it denotes. -/
def layoutEntries : Entries :=
  [(bytes "srv", .obj [(bytes "host", .str (bytes "my host")), (bytes "port", int 80), (bytes "t", .dur ⟨5, 0⟩ .seconds)]),
    (bytes "tags", .arr [int 1, .ref none (bytes "k") false]), (bytes "k", .null)]

theorem gap_space : Gap (bytes " ") := Blanks.gap (by decide)

theorem dec_one : decDigits.parseDecimal (bytes "1") = some ⟨1, 0⟩ := by decide
theorem dec_five : decDigits.parseDecimal (bytes "5") = some ⟨5, 0⟩ := by decide
theorem dec_eighty : decDigits.parseDecimal (bytes "80") = some ⟨80, 0⟩ := by decide

theorem noUnit_comma {x : Bytes} : NoHead UnitStart (byte ',' :: x) := noHead_cons.2 (by unfold UnitStart; decide)
theorem noNum_comma {x : Bytes} : NoHead NumByte ([] ++ byte ',' :: x) := noHead_cons.2 (by decide)

theorem bare_host : BareText (bytes "my host") :=
  ⟨by decide, Uri.validUtf8_ascii _ (by decide), by decide, noHead_cons.2 (by decide), by decide⟩

theorem layout_doc : Doc decDigits.parseDecimal [.obj layoutEntries] layoutText := by
  have key : ∀ k : Bytes, Segment k → KeyText k k := fun k h => .inl ⟨pathText_one h, rfl⟩
  have num : ∀ t : Bytes, t = bytes "80" ∨ t = bytes "5" ∨ t = bytes "1" → DecimalText t := by
    rintro t (rfl | rfl | rfl) <;> exact .inl (.inr ⟨_, _, rfl, by decide, by decide, by unfold Digit; decide⟩)
  have hq : QuotedText (bytes "t") (byte '"' :: bytes "t" ++ [byte '"']) :=
    quoted_plain (.inl rfl) ⟨by decide, by decide, by decide, by rintro x ⟨⟩; decide⟩
  have last := Members.assign (dec := decDigits.parseDecimal) (c := false) (x := []) (s := []) (b := byte '=') (v := .null)
    (g2 := []) (g := []) (key (bytes "k") ⟨by decide, by decide⟩) gap_nil (.inl rfl) gap_nil gap_nil (.inl rfl) .null .nil
  have elems := fun x => Elems.cons (dec := decDigits.parseDecimal) (x := byte ']' :: x) (t := bytes "1") (v := .num ⟨1, 0⟩) (g := []) gap_nil gap_space
      (.num (num _ (.inr (.inr rfl))) dec_one ⟨noNum_comma, noUnit_comma⟩)
    (.cons (g := []) gap_nil gap_space (.ref (p := [bytes "k"]) (o := false) (g1 := []) (g2 := [])
      (pathText_one ⟨by decide, by decide⟩) gap_nil gap_nil) .nil)
  have rest := Members.assign (s := []) (b := byte '=') (key (bytes "tags") ⟨by decide, by decide⟩) gap_space (.inl rfl) gap_space
      gap_line (.inl rfl) (.arr (g1 := []) gap_nil (elems _)) last
  have srv := fun x => Members.assign (dec := decDigits.parseDecimal) (c := true) (x := byte '}' :: x) (b := byte '=') (s := [])
      (key (bytes "host") ⟨by decide, by decide⟩) gap_space (.inl rfl) gap_space
      (Blanks.gap (t := bytes "\n ") (by decide)) (.inl rfl)
      (.bare bare_host (noHead_cons.2 (by decide)))
    (.assign (g := []) (s := byte ',' :: bytes " ") (b := byte ':') (v := .num ⟨80, 0⟩) (key (bytes "port") ⟨by decide, by decide⟩) gap_space (.inr rfl) gap_space
      gap_nil (.inr ⟨rfl, bytes " ", gap_space, rfl⟩)
      (.num (num (bytes "80") (.inl rfl)) dec_eighty ⟨noNum_comma, noUnit_comma⟩)
    (.assign (s := []) (b := byte '=') (v := .dur ⟨5, 0⟩ .seconds) (.inr hq)
      gap_space (.inl rfl) gap_space gap_line (.inl rfl)
      (.dur (t := bytes "5") (sp := bytes "s") (num _ (.inr (.inl rfl))) dec_five gap_space (by decide)
        (noHead_cons.2 (by decide))) .nil))
  have all := Members.block (c := false) (s := []) (key (bytes "srv") ⟨by decide, by decide⟩)
    gap_space (.inl (by exact trivial)) gap_line (.inl rfl)
    (.obj (Blanks.gap (t := bytes "\n ") (by decide)) (srv _) (gathered_self (by decide))
      (by exact ⟨[], bytes "\n", _, rfl, by simp, noHead_cons.2 (by decide), gap_line, noHead_cons.2 (by decide),
        noHead_cons.2 (by decide)⟩)) rest
  have doc := Doc.settings (g := bytes "# c\n") ⟨[], [bytes "# c"], blanks_nil, by
    simp only [List.mem_singleton, forall_eq]; exact ⟨⟨_, .inl rfl⟩, by decide⟩, rfl⟩ (by simp) (by decide) all
  have e : ∀ t, t = layoutText → Doc decDigits.parseDecimal [.obj layoutEntries] t →
    Doc decDigits.parseDecimal [.obj layoutEntries] layoutText := by rintro t rfl h; exact h
  exact e _ (by decide +kernel) doc

example : parse (hocon decDigits 100) layoutText = .ok [.obj layoutEntries] :=
  c97_layout_partial decDigits 100 _ _ layout_doc (by decide)

/-- The reference is replaced by `null`. -/
example (w : World) : ∃ N, ∀ n, N ≤ n → parseDocument decDigits w n layoutText = .ok (some (.obj
    [(bytes "srv", .obj [(bytes "host", .str (bytes "my host")), (bytes "port", int 80), (bytes "t", .dur ⟨5, 0⟩ .seconds)]),
      (bytes "tags", .arr [int 1, .null]), (bytes "k", .null)])) :=
  c97_load_partial decDigits w _ _ _ layout_doc (by decide)
    (.entry (.entry (.constant trivial) (.entry (.constant trivial) (.entry (.constant trivial) .empty)))
      (.entry (.cons (.constant trivial) (.cons (.found (x := .null) ⟨[bytes "k"], by simp, by simp [Segment]; decide, rfl, rfl⟩
        (.constant trivial)) .nil)) (.entry (.constant trivial) .empty)))

theorem path_ascii : ∀ b, PathByte b → b.toNat < 128 := by
  rintro b (h | rfl)
  · exact segByte_ascii h
  · decide

/-- A reference in an unquoted string is part of the string instead of being replaced. -/
theorem c96_unquoted_violated (S : Std) (w : World) (k u p x : Bytes) (es : Entries) (hk : Segment k) (hu : BareText u)
    (hp : PathText p) (hm : Members S.parseDecimal false es x []) (hn : (k :: keys es).Nodup)
    (hd : ∀ e ∈ es, byte '.' ∉ e.1) (hr : ∀ q, ¬ Mentions (.obj es) q) :
    ∃ v N, (∀ n, N ≤ n → parseDocument S w n (k ++ byte '=' :: (u ++ bytes "${" ++ p ++ bytes "}\n" ++ x)) = .ok (some v)) ∧
      getValue v k = .ok (some (.str (u ++ bytes "${" ++ p ++ bytes "}"))) := by
  have hb : BareText (u ++ bytes "${" ++ p ++ bytes "}") := by
    obtain ⟨h1, h2, h3, h4, h5⟩ := hu
    have hp' : ∀ b ∈ bytes "${" ++ p ++ bytes "}", ¬ Special b ∧ b.toNat < 128 := by
      intro b hb
      rcases List.mem_append.1 hb with hb | hb
      · rcases List.mem_append.1 hb with hb | hb
        · exact (by decide : ∀ b ∈ bytes "${", ¬ Special b ∧ b.toNat < 128) b hb
        · exact ⟨path_noSpecial (pathText_bytes hp b hb), path_ascii b (pathText_bytes hp b hb)⟩
      · exact (by decide : ∀ b ∈ bytes "}", ¬ Special b ∧ b.toNat < 128) b hb
    refine ⟨by simp [h1], ?_, ?_, ?_, ?_⟩
    · obtain ⟨cs, rfl⟩ := Uri.validUtf8_iff.1 h2
      obtain ⟨ds, hds⟩ := Uri.validUtf8_iff.1 (Uri.validUtf8_ascii _ fun b hb => (hp' b hb).2)
      refine Uri.validUtf8_iff.2 ⟨cs ++ ds, ?_⟩
      rw [List.append_assoc, List.append_assoc, ← List.append_assoc (bytes "${"), hds]
      simp [Uri.utf8]
    · intro b hb
      rw [List.append_assoc, List.append_assoc, ← List.append_assoc (bytes "${")] at hb
      rcases List.mem_append.1 hb with hb | hb
      · exact h3 b hb
      · exact (hp' b hb).1
    · rw [List.append_assoc, List.append_assoc]
      exact (noHead_append h1).2 h4
    · intro w hw hpre
      refine h5 w hw (prefix_word ?_ (rest := bytes "${" ++ (p ++ bytes "}")) (noHead_cons.2 (by decide)) (by
        rw [List.append_assoc, List.append_assoc] at hpre; exact hpre))
      revert hw; simp only [List.mem_cons, List.not_mem_nil, or_false]
      rintro (rfl | rfl | rfl) <;> decide
  have hq := members_quiet hm noHead_nil
  have hall := Members.assign (dec := S.parseDecimal) (c := false) (s := []) (b := byte '=') (g2 := []) (.inl ⟨pathText_one hk, rfl⟩)
    gap_nil (.inl rfl) gap_nil gap_line (.inl rfl) (.bare hb (noHead_cons.2 (by decide))) hm
  have hdoc := Doc.settings (g := []) gap_nil (by simp) (by exact hn) hall
  obtain ⟨v, N, h1, h2⟩ := c97_get_value_partial S w _ _ hdoc (by
    intro e he
    rcases List.mem_cons.1 he with rfl | he
    · exact fun h => absurd (hk.2 _ h) (by decide)
    · exact hd e he) (by
    intro q hq
    cases hq with
    | value he h =>
      rcases List.mem_cons.1 he with rfl | he
      · cases h
      · exact hr q (.value he h))
  refine ⟨v, N, ?_, ?_⟩
  · simpa [show bytes "}\n" = bytes "}" ++ bytes "\n" from rfl] using h1
  · have := h2 [k] (by simp) (by simpa using hk)
    simpa [joinDot, descend, get, latest] using this

/-- `k=u${p}` gives `u${p}`, although `p` is defined. -/
example (w : World) : ∃ v N, (∀ n, N ≤ n → parseDocument decDigits w n (bytes "k=u${p}\np=null") = .ok (some v)) ∧
    getValue v (bytes "k") = .ok (some (.str (bytes "u${p}"))) := by
  have h := c96_unquoted_violated decDigits w (bytes "k") (bytes "u") (bytes "p") (bytes "p=null") [(bytes "p", .null)]
    ⟨by decide, by decide⟩ ⟨by decide, by decide, by decide, noHead_cons.2 (by decide), by decide⟩
    (pathText_one ⟨by decide, by decide⟩)
    (.assign (kt := bytes "p") (g1 := []) (b := byte '=') (g2 := []) (t := bytes "null") (g := []) (s := []) (t' := [])
      (.inl ⟨pathText_one ⟨by decide, by decide⟩, rfl⟩) gap_nil (.inl rfl) gap_nil gap_nil (.inl rfl) .null .nil)
    (by decide) (by decide) (by
      intro q hq
      cases hq with
      | value he h => rw [List.mem_singleton.1 he] at h; cases h)
  exact h

/-! ## C98 JSON -/

/-- Every JSON text should be a HOCON document.  An array of an object and, on the next line, another object is a
syntax error, and so is an array in which an array comes behind an object. -/
theorem c98_json_violated (S : Std) (n : Nat) (b g0 g1 m sp g2 t2 g3 x : Bytes) (es : Entries) (v : Value) (hb : Gap b)
    (h0 : Gap g0) (h1 : Blanks g1) (hsp : ∀ b ∈ sp, b ∈ bytes " \t") (h2 : Gap g2) (h3 : Gap g3)
    (hm : Members S.parseDecimal true es (byte '"' :: m) (byte '}' :: byte ',' :: (sp ++ (g2 ++ (t2 ++ (g3 ++ byte ']' :: x))))))
    (hv : (IsObj v ∧ ∃ y, g2 = byte '\n' :: y) ∨ (IsArr v ∧ g2 = []))
    (h : Val S.parseDecimal v t2 g3 (byte ']' :: x))
    (hn : (b ++ byte '[' :: (g0 ++ byte '{' :: (g1 ++ byte '"' :: (m ++
      byte '}' :: byte ',' :: (sp ++ (g2 ++ (t2 ++ (g3 ++ byte ']' :: x)))))))).length < n) :
    ∃ e, parse (hocon S n) (b ++ byte '[' :: (g0 ++ byte '{' :: (g1 ++ byte '"' :: (m ++
      byte '}' :: byte ',' :: (sp ++ (g2 ++ (t2 ++ (g3 ++ byte ']' :: x)))))))) = .err e := by
  refine lift_err (json_array_err hb h0 h1 hsp h2 h3 hm (v := v) ?_ ?_ h) n hn
  · exact hv.imp And.left And.left
  · rcases hv with ⟨-, y, rfl⟩ | ⟨hv, rfl⟩
    · exact noHead_cons.2 (by decide)
    · obtain ⟨y, rfl⟩ := val_arr h hv
      exact noHead_cons.2 (by decide)

/-- `[{"a":null},` and `{}]` on the next line. -/
example : ∃ e, parse (hocon decDigits 30) (bytes "[{\"a\":null},\n{}]") = .err e := by
  have hq : QuotedText (bytes "a") (byte '"' :: bytes "a" ++ [byte '"']) :=
    quoted_plain (.inl rfl) ⟨by decide, by decide, by decide, by rintro x ⟨⟩; decide⟩
  have := c98_json_violated decDigits 30 [] [] [] (bytes "a\":null") [] (bytes "\n") (bytes "{}") [] []
    [(bytes "a", .null)] (.obj []) gap_nil gap_nil blanks_nil (by simp) gap_line gap_nil
    (.assign (g1 := []) (b := byte ':') (g2 := []) (t := bytes "null") (g := []) (s := []) (t' := [])
      (.inr hq) gap_nil (.inr rfl) gap_nil gap_nil (.inl rfl) .null .nil) (.inl ⟨trivial, [], rfl⟩)
    (.obj (g1 := []) (t := []) gap_nil .nil .nil ⟨[], [], [byte ']'], rfl, by simp, noHead_cons.2 (by decide), gap_nil,
      noHead_cons.2 (by decide), noHead_cons.2 (by decide)⟩) (by decide)
  exact this

/-! ## C94 Comments, continued -/

/-- Three lines of comments in front of a document are a syntax error, if the second and the third are indented. -/
theorem c94_indented_violated (S : Std) (n : Nat) (b1 c1 b2 c2 b3 c3 : Bytes) (ds : List (Bytes × Lit)) (hb1 : Blanks b1)
    (h1 : CommentLine c1) (hb2 : Blanks b2) (hne2 : b2 ≠ []) (h2 : CommentLine c2) (hb3 : ∀ b ∈ b3, b ∈ bytes " \t")
    (hne3 : b3 ≠ []) (h3 : CommentLine c3) (hs : ∀ b ∈ c3, ¬ Special b) (h : DocOk S.parseDecimal ds) :
    ∃ e, parse (hocon S (n + 1)) (b1 ++ c1 ++ bytes "\n" ++ (b2 ++ c2 ++ bytes "\n") ++ (b3 ++ c3 ++ bytes "\n") ++ docText ds) =
      .err e := by
  have ho : NoHead (fun b => b ∈ bytes "=:{[\"'") (docText ds) := by
    rcases docText_head ds h with h' | ⟨k, r, hk, h', -⟩
    · rw [h']; exact noHead_nil
    · rw [h']
      obtain ⟨b, x, rfl, hb⟩ := pathText_head hk
      exact noHead_cons.2 fun hm => (by decide : ∀ b ∈ bytes "=:{[\"'", ¬ SegByte b) b hm hb
  have := indented_err (S := S) (n := n) hb1 h1 hb2 hne2 h2 hb3 hne3 h3 hs (docText_quiet ds h).1 ho
  simpa using this

example : ∃ e, parse (hocon decDigits 2) (bytes "# a\n # b\n # c\na=1\n") = .err e := by
  have hd : DocOk decDigits.parseDecimal [(bytes "a", .num (bytes "1"))] := by
    refine ⟨pathText_one ⟨by decide, by decide⟩, ?_, ?_, trivial⟩
    · rw [Lit.Ok]; exact ⟨.inl (.inr ⟨_, [], rfl, by decide, by decide, by simp⟩), by decide⟩
    · rintro - e ⟨⟩
  have := c94_indented_violated decDigits 1 [] (bytes "# a") (bytes " ") (bytes "# b") (bytes " ") (bytes "# c")
    [(bytes "a", .num (bytes "1"))] blanks_nil ⟨⟨_, .inl rfl⟩, by decide⟩ (by decide) (by decide) ⟨⟨_, .inl rfl⟩, by decide⟩
    (by decide) (by decide) ⟨⟨_, .inl rfl⟩, by decide⟩ (by decide) hd
  exact this

end OniComb.Hocon
