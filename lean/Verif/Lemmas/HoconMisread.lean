import Verif.Lemmas.HoconLayout

/-! # Helper lemmas: documents with concatenations, JSON arrays and comments that are misread -/

namespace OniComb.Hocon
open OniComb OniComb.Hocon.Spec OniComb.Hocon.Spec.Layout
open OniComb.Uri (Bytes byte bytes fromUtf8 parseUInt mapUnwrap text)

variable {A B : Type} {t rest r : Bytes} {c : Committed} {S : Std} {v : Value}

/-! ### Settings behind which something else follows -/

/-- Settings are read, and what follows is not empty. -/
theorem props_stop {n : Nat} {t x : Bytes} {ps : Entries} (hne : ps ≠ []) (hq : Quiet (t ++ x))
    (hm : Many (softGrammar S n).2 t ps x) (hf : ∃ c, Fail (softGrammar S n).2 x c) (hx : x ≠ []) :
    ∃ e, parse (hocon S n) (t ++ x) = .err e := by
  obtain ⟨e, he⟩ := parse_end_err (soft_props hne hq hm hf) hx
  exact ⟨e, parse_soft (by unfold softHocon; exact he) (by simp)⟩

/-- One setting is read, and what follows is neither empty nor a setting. -/
theorem prop_stop {n : Nat} {k t x : Bytes} (hk : PathText k) (h : Eats (softGrammar S n).1 t v x)
    (hf : ∃ c, Fail (softGrammar S (n + 1)).2 x c) (hx : x ≠ []) :
    ∃ e, parse (hocon S (n + 1)) (k ++ byte '=' :: t ++ x) = .err e := by
  have h1 : Eats (softGrammar S (n + 1)).2 (k ++ (byte '=' :: t)) (k, v) x := eats_property hk h
  refine props_stop (ps := [(k, v)]) (by simp) ?_ ?_ hf hx
  · rw [List.append_assoc]; exact pathText_quiet hk
  · have := Many.cons (t' := []) (rest := x) (by simpa using h1) (.nil _)
    simpa using this

/-- One value is read, and what follows is neither empty nor a setting. -/
theorem value_stop {k t g x : Bytes} (hk : PathText k) (hg : Gap g) (h : Val S.parseDecimal v t g x) (hq : Quiet x)
    (hf : ∀ n, ∃ c, Fail (softGrammar S (n + 1)).2 x c) (hx : x ≠ []) :
    ∃ N, ∀ n, N ≤ n → ∃ e, parse (hocon S n) (k ++ byte '=' :: (t ++ g) ++ x) = .err e := by
  obtain ⟨N, hN⟩ := val_reads h hg hq
  refine ⟨N + 1, fun n hn => ?_⟩
  obtain ⟨m, rfl⟩ : ∃ m, n = m + 1 := ⟨n - 1, by omega⟩
  exact prop_stop hk (hN m (by omega)).cv (hf m) hx

theorem pathText_bytes {p : Bytes} (hp : PathText p) : ∀ b ∈ p, PathByte b := by
  obtain ⟨ss, -, hs, rfl⟩ := hp
  induction ss with
  | nil => simp [joinDot]
  | cons s ss ih =>
    rw [joinDot_tail]
    intro b hb
    rcases List.mem_append.1 hb with hb | hb
    · exact .inl ((hs s (by simp)).2 b hb)
    · obtain ⟨l, hl, hb⟩ := List.mem_flatten.1 hb
      obtain ⟨z, hz, rfl⟩ := List.mem_map.1 hl
      rcases List.mem_cons.1 hb with rfl | hb
      · exact .inr rfl
      · exact .inl ((hs z (by simp [hz])).2 b hb)

theorem path_noSpecial {b : UInt8} (h : PathByte b) : ¬ Special b := fun hs =>
  (by unfold PathByte; decide : ∀ b ∈ bytes "[]\r\n\\\"'", ¬ PathByte b) b hs h

theorem members_open {dec : Bytes → Option Decimal} {c : Bool} {es : Entries} {x : Bytes} (h : Members dec c es t x)
    (hx : NoHead (fun b => b ∈ bytes "=:{[") x) : NoHead (fun b => b ∈ bytes "=:{[") (t ++ x) :=
  members_head h hx (by decide) (by decide) (by decide)

/-- A reference directly behind a value. -/
theorem ref_behind {k t g p x : Bytes} {es : Entries} (hk : PathText k) (hg : Gap g) (hp : PathText p)
    (h : Val S.parseDecimal v t g (bytes "${" ++ (p ++ (bytes "}\n" ++ x)))) (hm : Members S.parseDecimal false es x []) :
    ∃ N, ∀ n, N ≤ n → ∃ e,
      parse (hocon S n) (k ++ byte '=' :: (t ++ g) ++ (bytes "${" ++ (p ++ (bytes "}\n" ++ x)))) = .err e := by
  refine value_stop hk hg h (noHead_cons.2 (by decide)) (fun n => ⟨.uncommitted, ?_⟩)
    (by simp [show bytes "${" = [byte '$', byte '{'] from rfl])
  show Fail (property _ _) (byte '$' :: (byte '{' :: (p ++ (bytes "}\n" ++ x)))) _
  have hq := members_quiet hm noHead_nil
  have hn := members_open hm noHead_nil
  rw [List.append_nil] at hq hn
  refine fail_run (by decide) (by decide) (by decide) ⟨byte '{' :: (p ++ bytes "}"), bytes "\n", x, ?_, ?_, ?_,
    gap_line, hq, hn⟩
  · simp [show bytes "}\n" = [byte '}', byte '\n'] from rfl, show bytes "}" = [byte '}'] from rfl,
      show bytes "\n" = [byte '\n'] from rfl]
  · intro b hb
    rcases List.mem_cons.1 hb with rfl | hb
    · decide
    · rcases List.mem_append.1 hb with hb | hb
      · exact path_noSpecial (pathText_bytes hp b hb)
      · rw [List.mem_singleton.1 hb]; decide
  · exact noHead_cons.2 (by decide)

/-- A quoted string directly behind a value. -/
theorem quoted_behind {k t g s u x : Bytes} {es : Entries} (hk : PathText k) (hg : Gap g) (hu : QuotedText s u)
    (h : Val S.parseDecimal v t g (u ++ (bytes "\n" ++ x))) (hm : Members S.parseDecimal false es x []) :
    ∃ N, ∀ n, N ≤ n → ∃ e, parse (hocon S n) (k ++ byte '=' :: (t ++ g) ++ (u ++ (bytes "\n" ++ x))) = .err e := by
  have hq := members_quiet hm noHead_nil
  have hn := members_open hm noHead_nil
  rw [List.append_nil] at hq hn
  refine value_stop hk hg h (keyText_quiet (.inr hu)) (fun n => ⟨.uncommitted, ?_⟩)
    (by simp [show bytes "\n" = [byte '\n'] from rfl])
  show Fail (property _ _) _ _
  unfold property
  have hkey := eats_quotedKey (g := bytes "\n") (rest := x) hu gap_line hq
  have := hkey.andThen_fail (fail_afterKey (cv := lazy fun _ => (softGrammar S n).1)
    (prop := lazy fun _ => (softGrammar S n).2) hq hn)
  simpa using this

/-! ### Objects in arrays -/

section
variable {cv : Parser UInt8 Value} {prop : Parser UInt8 (Bytes × Value)} [Good cv] [Good prop]

omit [Good prop] in
theorem EntriesRead.append {commas : Bool} {es fs : Entries} {t u x y : Bytes} (h : EntriesRead prop commas es t y) (hy : y = u ++ x)
    (h' : EntriesRead prop commas fs u x) : EntriesRead prop commas (es ++ fs) (t ++ u) x := by
  induction h with
  | nil => simpa using h'
  | @cons e es t s t' y h hs hq hn hm ih =>
    subst hy
    have := EntriesRead.cons (e := e) (es := es ++ fs) (t := t) (s := s) (t' := t' ++ u) (x := x) (by simpa using h) hs
      (by simpa using hq) (by simpa using hn) (ih rfl)
    simpa using this

theorem fail_property_square : Fail (property cv prop) (byte ']' :: r) .uncommitted := by
  unfold property key
  exact .andThen (fail_spaced' (noHead_cons.2 (by decide)) (.or (fail_path (noHead_cons.2 (by decide)))
    (fail_string (noHead_cons.2 (by decide)) (noHead_cons.2 (by decide)))))

/-- Entries behind which `]` follows. -/
theorem fail_objectClose {es : Entries} {g1 t x : Bytes} (h1 : Gap g1) (h : EntriesRead prop true es t (byte ']' :: x))
    (hq : Quiet (t ++ byte ']' :: x)) (h0 : ∃ c, Fail prop (byte ']' :: x) c) :
    Fail (objectConfigValue prop) (byte '{' :: (g1 ++ (t ++ byte ']' :: x))) .uncommitted := by
  have h4 : Eats (spaced (elm (byte '{'))) (byte '{' :: g1) (byte '{') (t ++ byte ']' :: x) :=
    eats_spaced' (t := [byte '{']) h1 (noHead_cons.2 (by decide)) hq (eats_elm.2 ⟨rfl, rfl⟩)
  have h5 : Eats (many0Sep prop (opt (spaced (elm (byte ','))))) t es (byte ']' :: x) := by
    refine eats_many0Sep.2 ?_
    rcases h.sep (noHead_cons.2 (by decide)) (noHead_cons.2 (by decide)) with ⟨rfl, rfl⟩ | ⟨w, ws, u1, u2, u3, rfl, rfl, h1, h2, h3⟩
    · exact .inl ⟨rfl, rfl, h0⟩
    · exact .inr (eats_many1Sep.2 ⟨u1, u2, u3, w, ws, rfl, rfl, by simpa using h1, by simpa using h2,
        .inr ⟨by simpa using h3, by simpa using h0⟩⟩)
  have h6 : Fail (spaced (elm (byte '}'))) (byte ']' :: x) .uncommitted :=
    fail_spaced' (noHead_cons.2 (by decide)) (fail_elm.2 ⟨rfl, by rintro r' ⟨⟩⟩)
  unfold objectConfigValue object surround
  refine .map _ (.map _ ?_)
  have := h4.skipLeft_fail (h5.skipRight_fail h6)
  simpa using this

/-- The brace and the comma behind an object are read as a key. -/
theorem eats_braceKey {sp g : Bytes} (hsp : ∀ b ∈ sp, b ∈ bytes " \t") (hg : Gap g) (hs : StrStop (g ++ rest)) (hr : Quiet rest) :
    Eats key (byte '}' :: byte ',' :: sp ++ g) (byte '}' :: byte ',' :: sp) rest := by
  unfold key
  refine eats_spaced' hg (noHead_cons.2 (by decide)) hr (.or_right (fail_path (noHead_cons.2 (by decide)))
    (eats_unquoted (noHead_cons.2 (by decide)) (by simp) ?_ ?_ hs))
  · refine Uri.validUtf8_ascii _ fun b hb => ?_
    simp only [List.mem_cons] at hb
    rcases hb with rfl | rfl | hb
    · decide
    · decide
    · exact (by decide : ∀ b ∈ bytes " \t", b.toNat < 128) b (hsp b hb)
  · intro b hb
    simp only [List.mem_cons] at hb
    rcases hb with rfl | rfl | hb
    · decide
    · decide
    · exact (by decide : ∀ b ∈ bytes " \t", ¬ Special b) b (hsp b hb)

end

/-- An object, a comma, and a second object on a new line or an array: the first object is not read. -/
theorem fail_objectNext {es : Entries} {g1 m sp g2 t2 g3 x : Bytes} (h1 : Gap g1) (hsp : ∀ b ∈ sp, b ∈ bytes " \t")
    (h2 : Gap g2) (h3 : Gap g3)
    (hm : Members S.parseDecimal true es m (byte '}' :: byte ',' :: (sp ++ (g2 ++ (t2 ++ (g3 ++ byte ']' :: x))))))
    (hv : IsObj v ∨ IsArr v) (hs : StrStop (g2 ++ (t2 ++ (g3 ++ byte ']' :: x))))
    (h : Val S.parseDecimal v t2 g3 (byte ']' :: x)) :
    ∃ N, ∀ n, N ≤ n → Fail (objectConfigValue (softGrammar S n).2)
      (byte '{' :: (g1 ++ (m ++ byte '}' :: byte ',' :: (sp ++ (g2 ++ (t2 ++ (g3 ++ byte ']' :: x))))))) .uncommitted := by
  obtain ⟨N, hN⟩ := members_reads hm (noHead_cons.2 (by decide)) fun _ => noHead_cons.2 (by decide)
  obtain ⟨M, hM⟩ := val_reads h h3 (noHead_cons.2 (by decide))
  refine ⟨max N (M + 1), fun n hn => ?_⟩
  obtain ⟨k, rfl⟩ : ∃ k, n = k + 1 := ⟨n - 1, by omega⟩
  have hr := hM k (by omega)
  have hkey : Eats key (byte '}' :: byte ',' :: sp ++ g2) (byte '}' :: byte ',' :: sp) ((t2 ++ g3) ++ byte ']' :: x) :=
    eats_braceKey hsp h2 (by simpa using hs) (by rw [List.append_assoc]; exact val_quiet h)
  have he : Eats (softGrammar S (k + 1)).2 (byte '}' :: byte ',' :: sp ++ g2 ++ (t2 ++ g3)) (byte '}' :: byte ',' :: sp, v)
      (byte ']' :: x) := by
    show Eats (property (lazy fun _ => (softGrammar S k).1) (lazy fun _ => (softGrammar S k).2)) _ _ _
    unfold property
    refine Eats.andThen hkey ?_
    rcases hv with hv | hv
    · obtain ⟨y, rfl⟩ := val_obj h hv
      exact .or_left (.or_right (fail_kv (noHead_cons.2 (by decide))) (Eats.attempt (hr.obj hv)))
    · obtain ⟨y, rfl⟩ := val_arr h hv
      exact .or_right (.or (fail_kv (noHead_cons.2 (by decide)))
        (fail_attempt_of (fail_object (noHead_cons.2 (by decide)) (noHead_cons.2 (by decide))))) (hr.arr hv)
  have hall := (hN (k + 1) (by omega)).append (u := byte '}' :: byte ',' :: sp ++ g2 ++ (t2 ++ g3)) (x := byte ']' :: x)
    (by simp) (by
      have := EntriesRead.cons (prop := (softGrammar S (k + 1)).2) (commas := true) (es := []) (s := []) (t' := [])
        (x := byte ']' :: x) (by simpa using he) (.inl rfl) (noHead_cons.2 (by decide)) (fun _ => noHead_cons.2 (by decide)) .nil
      simpa using this)
  have := fail_objectClose h1 hall (by
      have := members_quiet hm (noHead_cons.2 (by decide))
      simpa using this) ⟨.uncommitted, fail_property_square⟩
  simpa using this

/-- Blanks up to the end of the line. -/
theorem blanks_line {g : Bytes} (h : Blanks g) : ∃ sp nl, g = sp ++ nl ∧ (∀ b ∈ sp, b ∈ bytes " \t") ∧ Blanks nl ∧
    NoHead (fun b => b ∉ bytes "\r\n") nl := by
  induction g with
  | nil => exact ⟨[], [], rfl, by simp, h, noHead_nil⟩
  | cons b g ih =>
    by_cases hb : b ∈ bytes "\r\n"
    · exact ⟨[], b :: g, rfl, by simp, h, noHead_cons.2 (by simpa using hb)⟩
    · obtain ⟨sp, nl, rfl, h1, h2, h3⟩ := ih fun x hx => h x (List.mem_cons_of_mem _ hx)
      refine ⟨b :: sp, nl, rfl, fun x hx => ?_, h2, h3⟩
      rcases List.mem_cons.1 hx with rfl | hx
      · exact (by decide : ∀ b ∈ bytes " \t\r\n", b ∉ bytes "\r\n" → b ∈ bytes " \t") x (h x (by simp)) hb
      · exact h1 x hx

/-- A brace that is read as an unquoted string. -/
theorem eats_braceString {n : Nat} {g y : Bytes} (hg : Blanks g)
    (hf : Fail (objectConfigValue (softGrammar S n).2) (byte '{' :: (g ++ byte '"' :: y)) .uncommitted) :
    ∃ w, Eats (softGrammar S (n + 1)).1 (byte '{' :: g) w (byte '"' :: y) := by
  obtain ⟨sp, nl, rfl, h1, h2, h3⟩ := blanks_line hg
  have hst : StrStop (nl ++ byte '"' :: y) := by
    cases nl with
    | nil => exact noHead_cons.2 (by decide)
    | cons b nl =>
      have hb := noHead_cons.1 h3
      refine noHead_cons.2 ?_
      have : ∀ b ∈ bytes "\r\n", ¬ (¬ Special b ∨ b = byte '\\') := by decide
      exact this b (by simpa using hb)
  have hq : ∀ z, Quiet (byte '{' :: z) := fun z => noHead_cons.2 (by decide)
  have hd : ∀ z, NoHead (fun b => Digit b ∨ b = byte '-') (byte '{' :: z) := fun z => noHead_cons.2 (by decide)
  have hs : Eats string (byte '{' :: sp) (byte '{' :: sp) (nl ++ byte '"' :: y) := by
    refine eats_unquoted (hq _) (by simp) (Uri.validUtf8_ascii _ fun b hb => ?_) (fun b hb => ?_) hst
    · rcases List.mem_cons.1 hb with rfl | hb
      · decide
      · exact (by decide : ∀ b ∈ bytes " \t", b.toNat < 128) b (h1 b hb)
    · rcases List.mem_cons.1 hb with rfl | hb
      · decide
      · exact (by decide : ∀ b ∈ bytes " \t", ¬ Special b) b (h1 b hb)
  have hsimple : Eats (softSimple S) (byte '{' :: sp ++ nl) (.str (byte '{' :: sp)) (byte '"' :: y) := by
    unfold softSimple
    refine eats_spaced' h2.gap (hq _) (noHead_cons.2 (by decide)) (.or_right (.or (.or (fail_consts (noHead_cons.2 (by decide)))
      (fail_attempt_of ((fail_softDuration (hq _) (hd _)).map _))) (fail_attempt_of ((fail_softNumber (hq _) (hd _)).map _))) ?_)
    unfold stringConfigValue
    exact hs.map _
  refine ⟨.str (byte '{' :: sp), ?_⟩
  show Eats (softConfigValue S (lazy fun _ => (softGrammar S n).1) (lazy fun _ => (softGrammar S n).2)) _ _ _
  unfold softConfigValue
  have := eats_spaced' (t := byte '{' :: sp ++ nl) (b2 := []) (rest := byte '"' :: y) (v := Value.str (byte '{' :: sp))
    (p := or (or (or (or (attempt (arrayConfigValue (lazy fun _ => (softGrammar S n).1)))
    (attempt (objectConfigValue (lazy fun _ => (softGrammar S n).2))))
    (attempt referenceConfigValue)) (attempt (softSimple S))) enumerationConfigValue) gap_nil (hq _) (noHead_cons.2 (by decide))
    (.or_left (.or_right (.or (.or (fail_attempt_of (fail_array (hq _) (noHead_cons.2 (by decide))))
      (fail_attempt_of (c := .uncommitted) ?_)) (fail_refValue (hq _) (noHead_cons.2 (by decide)))) hsimple.attempt))
  · simpa using this
  · show Fail (objectConfigValue (softGrammar S n).2) _ _
    simpa using hf

/-- An array of objects on separate lines, or of an object and an array, is a syntax error. -/
theorem json_array_err {es : Entries} {b g0 g1 m sp g2 t2 g3 x : Bytes} (hb : Gap b) (h0 : Gap g0) (h1 : Blanks g1)
    (hsp : ∀ b ∈ sp, b ∈ bytes " \t") (h2 : Gap g2) (h3 : Gap g3)
    (hm : Members S.parseDecimal true es (byte '"' :: m) (byte '}' :: byte ',' :: (sp ++ (g2 ++ (t2 ++ (g3 ++ byte ']' :: x))))))
    (hv : IsObj v ∨ IsArr v) (hs : StrStop (g2 ++ (t2 ++ (g3 ++ byte ']' :: x))))
    (h : Val S.parseDecimal v t2 g3 (byte ']' :: x)) :
    ∃ N, ∀ n, N ≤ n → ∃ e, parse (hocon S n) (b ++ byte '[' :: (g0 ++ byte '{' :: (g1 ++ byte '"' :: (m ++
      byte '}' :: byte ',' :: (sp ++ (g2 ++ (t2 ++ (g3 ++ byte ']' :: x)))))))) = .err e := by
  obtain ⟨N, hN⟩ := fail_objectNext h1.gap hsp h2 h3 hm hv hs h
  refine ⟨N + 1, fun n hn => ?_⟩
  obtain ⟨k, rfl⟩ : ∃ k, n = k + 1 := ⟨n - 1, by omega⟩
  obtain ⟨w, hw⟩ := eats_braceString h1 (hN k (by omega))
  refine hocon_stuck (eats_gap hb (noHead_cons.2 (by decide))) (by simp) ⟨_, fail_property_bracket⟩
    (fail_include (noHead_cons.2 (by decide))) ⟨_, fail_object (noHead_cons.2 (by decide)) (noHead_cons.2 (by decide))⟩
    ⟨.uncommitted, ?_⟩
  unfold arrayConfigValue array surround
  refine .map _ ?_
  have h4 : Eats (spaced (elm (byte '['))) (byte '[' :: g0) (byte '[') (byte '{' :: g1 ++ (byte '"' :: (m ++
      byte '}' :: byte ',' :: (sp ++ (g2 ++ (t2 ++ (g3 ++ byte ']' :: x))))))) :=
    eats_spaced' (t := [byte '[']) h0 (noHead_cons.2 (by decide)) (noHead_cons.2 (by decide)) (eats_elm.2 ⟨rfl, rfl⟩)
  have h5 : Eats (many0Sep (softGrammar S (k + 1)).1 (spaced (elm (byte ',')))) (byte '{' :: g1) [w] (byte '"' :: (m ++
      byte '}' :: byte ',' :: (sp ++ (g2 ++ (t2 ++ (g3 ++ byte ']' :: x)))))) :=
    eats_many0Sep.2 (.inr (eats_many1Sep.2 ⟨byte '{' :: g1, [], [], w, [], by simp, rfl, by simpa using hw, .nil _,
      .inl ⟨rfl, .uncommitted, fail_comma (noHead_cons.2 (by decide)) (noHead_cons.2 (by decide))⟩⟩))
  have h6 : ∀ z, Fail (spaced (elm (byte ']'))) (byte '"' :: z) .uncommitted := fun z =>
    fail_spaced' (noHead_cons.2 (by decide)) (fail_elm.2 ⟨rfl, by rintro r' ⟨⟩⟩)
  have := h4.skipLeft_fail (h5.skipRight_fail (h6 _))
  simpa using this

/-! ### Comments -/

/-- Three lines of comments, the last two of them indented, in front of settings. -/
theorem indented_err {n : Nat} {b1 c1 b2 c2 b3 c3 x : Bytes} (hb1 : Blanks b1) (h1 : CommentLine c1) (hb2 : Blanks b2)
    (hne2 : b2 ≠ []) (h2 : CommentLine c2) (hb3 : ∀ b ∈ b3, b ∈ bytes " \t") (hne3 : b3 ≠ []) (h3 : CommentLine c3)
    (hs : ∀ b ∈ c3, ¬ Special b) (hx : Quiet x) (ho : NoHead (fun b => b ∈ bytes "=:{[\"'") x) :
    ∃ e, parse (hocon S (n + 1)) ((b1 ++ (c1 ++ bytes "\n")) ++ ((b2 ++ (c2 ++ bytes "\n")) ++
      (b3 ++ (c3 ++ bytes "\n")) ++ x)) = .err e := by
  have hc : ∀ c, CommentLine c → ∀ r, NoHead Blank (c ++ r) := by
    intro c hc r
    obtain ⟨b, y, rfl, hb⟩ := commentLine_head hc
    exact noHead_cons.2 hb
  have one : ∀ b c r, Blanks b → CommentLine c → NoHead (fun b => b = byte '#' ∨ b = byte '/') r →
      Eats spaceOrComment (b ++ (c ++ bytes "\n")) () r := by
    intro b c r hb hcl hr
    obtain ⟨v, hv⟩ := eats_commentOne (rest := r) hcl (.inr rfl)
    have hm := Many.cons (t' := []) (rest := r) (by simpa using hv) (.nil _)
    rw [List.append_nil] at hm
    exact eats_comment hb (by simp) hm (by rw [List.append_assoc]; exact hc c hcl _) hr
  have hbl : ∀ b, Blanks b → b ≠ [] → ∀ r (P : UInt8 → Prop), (∀ x, Blank x → ¬ P x) → NoHead P (b ++ r) := by
    intro b hb hne r P hP
    cases b with
    | nil => exact absurd rfl hne
    | cons y b => exact noHead_cons.2 (hP y (hb y (by simp)))
  have hB3 : Blanks b3 := fun b hb => (by decide : ∀ b ∈ bytes " \t", b ∈ bytes " \t\r\n") b (hb3 b hb)
  have hcom : ∀ x, Blank x → ¬ (x = byte '#' ∨ x = byte '/') := by unfold Blank; decide
  have two : ∀ {A : Type} {p : Parser UInt8 A} [Good p] {c : Committed}, Fail p ((b3 ++ (c3 ++ bytes "\n")) ++ x) c →
      Fail (spaced p) ((b2 ++ (c2 ++ bytes "\n")) ++ ((b3 ++ (c3 ++ bytes "\n")) ++ x)) c := by
    intro A p _ c h
    unfold spaced surround
    exact Eats.skipLeft_fail (one b2 c2 _ hb2 h2 (by rw [List.append_assoc]; exact hbl b3 hB3 hne3 _ _ hcom)) h.skipRight
  have hquote : ∀ ch, ch = '"' ∨ ch = '\'' → Fail (quote ch) ((b3 ++ (c3 ++ bytes "\n")) ++ x) .uncommitted := by
    intro ch hch
    unfold quote spaced surround
    refine Eats.skipLeft_fail (one b3 c3 _ hB3 h3 (hx.mono fun b hb => ?_)) (Fail.skipRight ?_)
    · rcases hb with rfl | rfl <;> decide
    · refine fail_elm.2 ⟨rfl, fun r' h => ho _ _ h ?_⟩
      rcases hch with rfl | rfl <;> decide
  have hall : ∀ b ∈ b3 ++ c3, ¬ Special b := by
    intro b hb
    rcases List.mem_append.1 hb with hb | hb
    · exact (by decide : ∀ b ∈ bytes " \t", ¬ Special b) b (hb3 b hb)
    · exact hs b hb
  have hst : StrStop (bytes "\n" ++ x) := noHead_cons.2 (by decide)
  have hnil : b3 ++ c3 ≠ [] := by simp [hne3]
  have hq2 : Fail (or (attempt (surround (quote '"') stringSurround (quote '"')))
      (attempt (surround (quote '\'') stringSurround (quote '\'')))) ((b3 ++ (c3 ++ bytes "\n")) ++ x) .uncommitted :=
    .or (fail_attempt_of (.surround (hquote _ (.inl rfl)))) (fail_attempt_of (.surround (hquote _ (.inr rfl))))
  have hpath : Fail (attempt path) ((b3 ++ (c3 ++ bytes "\n")) ++ x) .uncommitted := by
    refine fail_path ?_
    rw [List.append_assoc]
    exact hbl b3 hB3 hne3 _ _ (by unfold Blank; decide)
  have hprop : Fail (softGrammar S (n + 1)).2 ((b2 ++ (c2 ++ bytes "\n")) ++ ((b3 ++ (c3 ++ bytes "\n")) ++ x)) .uncommitted := by
    show Fail (property (lazy fun _ => (softGrammar S n).1) (lazy fun _ => (softGrammar S n).2)) _ _
    unfold property
    by_cases hu : Uri.validUtf8 (b3 ++ c3) = true
    · have hstr : Eats string (b3 ++ c3) (b3 ++ c3) (bytes "\n" ++ x) := by
        unfold string
        exact eats_map.2 ⟨[b3 ++ c3], .or_right (by simpa using hq2) (eats_stringSurround hnil hu hall hst), by simp⟩
      have hkey : Eats key ((b2 ++ (c2 ++ bytes "\n")) ++ ((b3 ++ c3) ++ bytes "\n")) (b3 ++ c3) x := by
        unfold key spaced
        refine Eats.surround (one b2 c2 _ hb2 h2 ?_) (.or_right ?_ hstr) (eats_gap gap_line hx)
        · rw [List.append_assoc]; exact hbl b3 hB3 hne3 _ _ hcom
        · simpa using hpath
      have := hkey.andThen_fail (fail_afterKey (cv := lazy fun _ => (softGrammar S n).1)
        (prop := lazy fun _ => (softGrammar S n).2) hx (ho.mono (by decide)))
      simpa using this
    · refine .andThen ?_
      unfold key
      refine two (.or hpath ?_)
      unfold string
      refine .map _ (.or hq2 ?_)
      unfold stringSurround
      refine fail_many1.2 ⟨rfl, .uncommitted, .or (fail_attempt_of (c := .uncommitted) ?_) (fail_utf16String ?_)⟩
      · unfold charString
        refine fail_mapRes.2 (.inr ⟨rfl, b3 ++ c3, b3 ++ c3, bytes "\n" ++ x, by simp,
          eats_many1.2 ⟨hnil, many_strByte hall, _, fail_strByte hst⟩, ?_⟩)
        unfold fromUtf8
        simp [hu]
      · rw [List.append_assoc]
        exact hbl b3 hB3 hne3 _ _ (by unfold Blank; decide)
  have hel : ∀ ch : Char, byte ch ∉ bytes " \t\r\n" → Fail (spaced (elm (byte ch)))
      ((b2 ++ (c2 ++ bytes "\n")) ++ ((b3 ++ (c3 ++ bytes "\n")) ++ x)) .uncommitted := by
    intro ch hch
    refine two (fail_elm.2 ⟨rfl, fun r' h => ?_⟩)
    rw [List.append_assoc] at h
    exact hbl b3 hB3 hne3 _ (fun b => b = byte ch) (by rintro x hx rfl; exact hch hx) _ _ h rfl
  have hall := hocon_stuck (S := S) (n := n + 1) (b1 := b1 ++ (c1 ++ bytes "\n"))
    (r := (b2 ++ (c2 ++ bytes "\n")) ++ ((b3 ++ (c3 ++ bytes "\n")) ++ x)) (one b1 c1 _ hb1 h1 (by
      rw [List.append_assoc]; exact hbl b2 hb2 hne2 _ _ hcom)) (by simp [hne2])
    ⟨_, hprop⟩ (fail_include (by rw [List.append_assoc]; exact hbl b2 hb2 hne2 _ _ (by unfold Blank; decide))) ?_ ?_
  · simpa using hall
  · refine ⟨.uncommitted, ?_⟩
    unfold objectConfigValue object
    exact .map _ (.map _ (.surround (hel '{' (by decide))))
  · refine ⟨.uncommitted, ?_⟩
    unfold arrayConfigValue array
    exact .map _ (.surround (hel '[' (by decide)))

end OniComb.Hocon
