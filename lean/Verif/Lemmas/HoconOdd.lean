import Verif.Lemmas.HoconLoad
import Verif.Lemmas.HoconBad

/-! # Helper lemmas: `hocon` documents with includes, comments and unusual strings -/

namespace OniComb.Hocon
open OniComb OniComb.Hocon.Spec
open OniComb.Uri (Bytes byte bytes fromUtf8 parseUInt mapUnwrap text)

variable {A B C : Type} {t rest r : Bytes} {c : Committed} {S : Std}

/-! ### A document none of whose alternatives begins -/

/-- Nothing is read, and the text is not empty. -/
theorem hocon_stuck {n : Nat} {b1 : Bytes} (h1 : Eats spaceOrComment b1 () r) (hne : r ≠ [])
    (hp : ∃ c, Fail (softGrammar S n).2 r c) (hi : ∃ c, Fail (many1 includeConfigValue) r c)
    (ho : ∃ c, Fail (objectConfigValue (softGrammar S n).2) r c) (ha : ∃ c, Fail (arrayConfigValue (softGrammar S n).1) r c) :
    ∃ e, parse (hocon S n) (b1 ++ r) = .err e := by
  obtain ⟨c1, hp⟩ := hp
  obtain ⟨c2, hi⟩ := hi
  obtain ⟨c3, ho⟩ := ho
  obtain ⟨c4, ha⟩ := ha
  have h : Eats (config (softGrammar S n).1 (softGrammar S n).2) [] [] r := by
    unfold config
    refine .or_right (.or (fail_attempt_of (c := .uncommitted) (.map _ (fail_many1.2 ⟨rfl, _, hp⟩))) (fail_attempt_of hi)) ?_
    exact eats_many0.2 ⟨.nil _, _, .or (fail_attempt_of ho) ha⟩
  have h2 := Eats.skipLeft (p := spaceOrComment) (t1 := b1) (t2 := []) (rest := r)
    (q := config (softGrammar S n).1 (softGrammar S n).2) h1 h
  rw [List.append_nil] at h2
  obtain ⟨e, he⟩ := parse_end_err h2 hne
  exact ⟨e, parse_soft (by unfold softHocon; exact he) (by simp)⟩

theorem fail_include_key {k x : Bytes} (hk : PathText k) : ∃ c, Fail (many1 includeConfigValue) (k ++ byte '=' :: x) c := by
  refine ⟨.uncommitted, fail_many1.2 ⟨rfl, ?_⟩⟩
  by_cases h : bytes "include" <+: k ++ byte '=' :: x
  · obtain ⟨y, hy⟩ := h
    have h1 : Fail (elm (byte ' ')) y .uncommitted := by
      refine fail_elm.2 ⟨rfl, ?_⟩
      rintro r' rfl
      have hm : byte ' ' ∉ k := by
        intro hm
        obtain ⟨ss, -, hs, rfl⟩ := hk
        have : ∀ b ∈ joinDot ss, PathByte b := by
          clear hy hm
          induction ss with
          | nil => simp [joinDot]
          | cons s ss ih =>
            rw [joinDot_tail]
            intro b hb
            rcases List.mem_append.1 hb with hb | hb
            · exact .inl ((hs s (by simp)).2 b hb)
            · obtain ⟨l, hl, hb⟩ := List.mem_flatten.1 hb
              obtain ⟨z, hz, rfl⟩ := List.mem_map.1 hl
              rcases List.mem_cons.1 hb with rfl | hb
              · exact .inr rfl
              · exact .inl ((hs z (by simp [hz])).2 b hb)
        exact absurd (this _ hm) (by unfold PathByte; decide)
      have heq : byte '=' ∉ bytes "include" ++ [byte ' '] := by decide
      have hy' : (bytes "include" ++ [byte ' ']) ++ r' = k ++ byte '=' :: x := by simpa using hy
      rcases List.append_eq_append_iff.1 hy' with ⟨a, h2, h3⟩ | ⟨a, h2, h3⟩
      · exact hm (h2 ▸ by simp)
      · cases a with
        | nil => rw [List.append_nil] at h2; exact hm (h2 ▸ by simp)
        | cons b a =>
          rw [List.cons_append] at h3
          injection h3 with h4 h5
          exact heq (h2 ▸ h4 ▸ by simp)
    refine ⟨.uncommitted, ?_⟩
    rw [← hy]
    exact .map _ (.andThen (.skipLeft (Eats.skipLeft_fail (eats_seq.2 ⟨rfl, rfl⟩) h1)))
  · obtain ⟨c, hc⟩ := (fail_seq (lit := bytes "include")).2 h
    exact ⟨c, .map _ (.andThen (.skipLeft (.skipLeft hc)))⟩

/-- A definition whose value cannot be read is an error. -/
theorem bad_doc {n : Nat} {k x : Bytes} (hk : PathText k) (h : ∃ c, Fail (softGrammar S n).1 x c) :
    ∃ e, parse (hocon S (n + 1)) (k ++ byte '=' :: x) = .err e := by
  have hq : Quiet (k ++ byte '=' :: x) := pathText_quiet hk
  have hb := pathText_noOpen (r := byte '=' :: x) hk
  have h2 := hocon_stuck (S := S) (n := n + 1) (b1 := []) (r := k ++ byte '=' :: x)
    (eats_blanks blanks_nil (by simpa using hq)) (by simp) ?_ (fail_include_key hk)
    ⟨_, fail_object hq (hb.mono fun b hb => by rw [hb]; decide)⟩
    ⟨_, fail_array hq (hb.mono fun b hb => by rw [hb]; decide)⟩
  · simpa using h2
  · obtain ⟨c, h⟩ := h
    refine ⟨.uncommitted, ?_⟩
    show Fail (property (lazy fun _ => (softGrammar S n).1) (lazy fun _ => (softGrammar S n).2)) _ _
    unfold property
    have hkey := eats_key (b1 := []) (b2 := []) (rest := byte '=' :: x) hk gap_nil blanks_nil
      (noHead_cons.2 (by decide)) (noHead_cons.2 (by unfold PathByte; decide))
    rw [List.nil_append, List.append_nil] at hkey
    refine hkey.andThen_fail (.or (.or (fail_attempt_of (c := c) ?_) (fail_attempt_of (c := .uncommitted) ?_)) ?_)
    · have := Eats.skipLeft_fail (p := kv) (t1 := [byte '=']) (v := ()) (q := lazy fun _ => (softGrammar S n).1) ?_ h
      · simpa using this
      · unfold kv
        exact eats_discard.2 ⟨byte '=', (one_of _).eats.2 ⟨rfl, by decide⟩⟩
    · exact fail_object (noHead_cons.2 (by decide)) (noHead_cons.2 (by decide))
    · exact fail_array (noHead_cons.2 (by decide)) (noHead_cons.2 (by decide))

/-! ### Strings -/

/-- A double quote behind which neither a string and its quote, nor an unquoted string begins. -/
theorem fail_quoted {x : Bytes} (h : ∃ c, Fail (surround (quote '"') stringSurround (quote '"')) (byte '"' :: x) c) :
    Fail string (byte '"' :: x) .uncommitted := by
  obtain ⟨c, h⟩ := h
  unfold string
  exact .map _ (.or (.or (fail_attempt_of h) (fail_attempt_of (.surround (fail_quote (noHead_cons.2 (by decide))
    (noHead_cons.2 (by decide)))))) (fail_stringSurround (noHead_cons.2 (by decide))))

theorem fail_cv_quoted {n : Nat} {x : Bytes} (h : Fail string (byte '"' :: x) .uncommitted) :
    Fail (softGrammar S (n + 1)).1 (byte '"' :: x) .uncommitted := by
  show Fail (softConfigValue S (lazy fun _ => (softGrammar S n).1) (lazy fun _ => (softGrammar S n).2)) _ _
  unfold softConfigValue
  have hq : Quiet (byte '"' :: x) := noHead_cons.2 (by decide)
  refine fail_spaced' hq (.or (.or (.or (.or (fail_attempt_of (fail_array hq (noHead_cons.2 (by decide))))
    (fail_attempt_of (fail_object hq (noHead_cons.2 (by decide))))) (fail_refValue hq (noHead_cons.2 (by decide))))
    (fail_attempt_of (c := .uncommitted) ?_)) ?_)
  · unfold softSimple
    refine fail_spaced' hq (.or (.or (.or (fail_consts (noHead_cons.2 (by decide)))
      (fail_attempt_of ((fail_softDuration hq (noHead_cons.2 (by decide))).map _)))
      (fail_attempt_of ((fail_softNumber hq (noHead_cons.2 (by decide))).map _))) ?_)
    unfold stringConfigValue
    exact h.map _
  · unfold enumerationConfigValue
    obtain ⟨c, hc⟩ := fail_reference hq (noHead_cons.2 (by decide))
    refine .map _ (fail_many1.2 ⟨rfl, c, .or (fail_attempt_of (c := .uncommitted) ?_) ?_⟩)
    · unfold stringConfigValue; exact h.map _
    · unfold referenceConfigValue; exact hc.map _

theorem fail_emptyString {x : Bytes} : Fail string (byte '"' :: byte '"' :: x) .uncommitted := by
  refine fail_quoted ⟨.uncommitted, ?_⟩
  have h1 : Eats (quote '"') [byte '"'] (byte '"') (byte '"' :: x) :=
    eats_quote (by decide) gap_nil (noHead_cons.2 (by decide))
  unfold surround
  exact Eats.skipLeft_fail (t1 := [byte '"']) h1 (.skipRight (fail_stringSurround (noHead_cons.2 (by decide))))

theorem fail_bracketString {s x : Bytes} {b : UInt8} (h : StringText s) (hb : b ∈ bytes "[]'") :
    Fail string (byte '"' :: (s ++ b :: x)) .uncommitted := by
  refine fail_quoted ⟨.uncommitted, ?_⟩
  have h1 : Eats (quote '"') [byte '"'] (byte '"') (s ++ b :: x) :=
    eats_quote (by decide) gap_nil (stringText_quiet h)
  have hb' : ¬ (¬ Special b ∨ b = byte '\\') ∧ b ∉ bytes " \t\r\n#/" ∧ b ≠ byte '"' :=
    (by decide : ∀ b ∈ bytes "[]'", ¬ (¬ Special b ∨ b = byte '\\') ∧ b ∉ bytes " \t\r\n#/" ∧ b ≠ byte '"') b hb
  have h2 := eats_stringSurround (rest := b :: x) h.1 h.2.1 h.2.2.1 (noHead_cons.2 hb'.1)
  unfold surround
  exact Eats.skipLeft_fail (t1 := [byte '"']) h1 (h2.skipRight_fail (fail_quote (noHead_cons.2 hb'.2.1) (noHead_cons.2 hb'.2.2)))

theorem eats_blankString {b1 s b2 : Bytes} (h1 : Gap b1) (h : StringText s) (h2 : Gap b2) (hr : Quiet rest) :
    Eats string (byte '"' :: (b1 ++ s) ++ (byte '"' :: b2)) s rest := by
  unfold string
  refine eats_map.2 ⟨[s], .or_left (.or_left (Eats.attempt ?_)), by simp⟩
  have h3 : Eats (quote '"') (byte '"' :: b1) (byte '"') (s ++ (byte '"' :: b2 ++ rest)) :=
    eats_quote (by decide) h1 (stringText_quiet h)
  have := Eats.surround h3 (eats_stringSurround h.1 h.2.1 h.2.2.1 (noHead_cons.2 (by decide)))
    (eats_quote (by decide) h2 hr)
  simpa using this

theorem eats_blankStrValue {b1 s b2 : Bytes} (h1 : Gap b1) (h : StringText s) (h2 : Gap b2) (hr : Quiet rest) :
    Eats (softSimple S) (byte '"' :: (b1 ++ s) ++ (byte '"' :: b2)) (.str s) rest := by
  have hn := eats_blankString h1 h h2 hr
  have hq : Quiet (byte '"' :: (b1 ++ s) ++ (byte '"' :: b2) ++ rest) := noHead_cons.2 (by decide)
  have hd : NoHead (fun b => Digit b ∨ b = byte '-') (byte '"' :: (b1 ++ s) ++ (byte '"' :: b2) ++ rest) :=
    noHead_cons.2 (by decide)
  unfold softSimple
  have := eats_spaced' (t := byte '"' :: (b1 ++ s) ++ (byte '"' :: b2)) (b2 := []) (rest := rest) (v := Value.str s) gap_nil
    (p := or (or (or (or (or (attempt (map (seq (bytes "null")) fun _ => .null))
    (attempt (map (seq (bytes "true")) fun _ => .bool true)))
    (attempt (map (seq (bytes "false")) fun _ => .bool false)))
    (attempt (map (softDuration S) fun (d, u) => .dur d u))) (attempt (map (softNumber S) .num)))
    stringConfigValue) hq hr
    (.or_right (.or (.or (fail_consts (noHead_cons.2 (by decide))) (fail_attempt_of ((fail_softDuration hq hd).map _)))
      (fail_attempt_of ((fail_softNumber hq hd).map _))) (by unfold stringConfigValue; exact hn.map _))
  simpa using this

/-- A double quoted string in which a backslash is followed by something that is no escape. -/
theorem fail_badEscape {items : List StrItem} {x : Bytes} (h : ItemsOk items) (hf : FirstOk items) (hx : BadEscape x) :
    Fail string (byte '"' :: (itemsText items ++ byte '\\' :: x)) .uncommitted := by
  have hs := stopsAt_bad hx
  have hqf : Fail (quote '"') (byte '\\' :: x) .uncommitted :=
    fail_quote (noHead_cons.2 (by decide)) (noHead_cons.2 (by decide))
  refine fail_quoted ?_
  unfold surround
  by_cases hne : items = []
  · subst hne
    have h1 : Eats (quote '"') [byte '"'] (byte '"') (byte '\\' :: x) :=
      eats_quote (by decide) gap_nil (noHead_cons.2 (by decide))
    refine ⟨.uncommitted, Eats.skipLeft_fail (t1 := [byte '"']) h1 (.skipRight ?_)⟩
    unfold stringSurround
    exact fail_many1.2 ⟨rfl, fail_piece hs⟩
  · have h1 : Eats (quote '"') [byte '"'] (byte '"') (itemsText items ++ byte '\\' :: x) :=
      eats_quote (by decide) gap_nil (items_quiet hne h hf)
    obtain ⟨ss, h3, -⟩ := eats_items hne h hs
    exact ⟨_, Eats.skipLeft_fail (t1 := [byte '"']) h1 (h3.skipRight_fail hqf)⟩

/-- A string with escapes in which a byte comes that does not stand for itself. -/
theorem fail_bracketItems {items : List StrItem} {x : Bytes} {b : UInt8} (h : ItemsOk items) (hf : FirstOk items)
    (hb : b ∈ bytes "[]'") : Fail string (byte '"' :: (itemsText items ++ b :: x)) .uncommitted := by
  have hb' : ¬ (¬ Special b ∨ b = byte '\\') ∧ b ∉ bytes " \t\r\n#/" ∧ b ≠ byte '"' :=
    (by decide : ∀ b ∈ bytes "[]'", ¬ (¬ Special b ∨ b = byte '\\') ∧ b ∉ bytes " \t\r\n#/" ∧ b ≠ byte '"') b hb
  have hs : StopsAt (b :: x) := stopsAt_stop (noHead_cons.2 hb'.1)
  have hqf : Fail (quote '"') (b :: x) .uncommitted := fail_quote (noHead_cons.2 hb'.2.1) (noHead_cons.2 hb'.2.2)
  refine fail_quoted ?_
  unfold surround
  by_cases hne : items = []
  · subst hne
    have h1 : Eats (quote '"') [byte '"'] (byte '"') (b :: x) := eats_quote (by decide) gap_nil (noHead_cons.2 hb'.2.1)
    refine ⟨.uncommitted, Eats.skipLeft_fail (t1 := [byte '"']) h1 (.skipRight ?_)⟩
    unfold stringSurround
    exact fail_many1.2 ⟨rfl, fail_piece hs⟩
  · have h1 : Eats (quote '"') [byte '"'] (byte '"') (itemsText items ++ b :: x) :=
      eats_quote (by decide) gap_nil (items_quiet hne h hf)
    obtain ⟨ss, h3, -⟩ := eats_items hne h hs
    exact ⟨_, Eats.skipLeft_fail (t1 := [byte '"']) h1 (h3.skipRight_fail hqf)⟩

/-! ### Comments -/

/-- Two lines of comments with the line ends of Windows in front of a document. -/
theorem crlf_doc {n : Nat} {c1 c2 x : Bytes} (h1 : CommentLine c1) (h2 : CommentLine c2) (hx : Quiet x)
    (hq : NoHead (fun b => b = byte '"' ∨ b = byte '\'') x) :
    ∃ e, parse (hocon S (n + 1)) (c1 ++ bytes "\r\n" ++ (c2 ++ bytes "\r\n" ++ x)) = .err e := by
  have hnl : ∀ r, NoHead (fun b => b = byte '#' ∨ b = byte '/') (byte '\n' :: r) := fun r => noHead_cons.2 (by decide)
  have hc : ∀ c, CommentLine c → ∀ r, NoHead Blank (c ++ r) := by
    intro c hc r
    obtain ⟨b, y, rfl, hb⟩ := commentLine_head hc
    exact noHead_cons.2 hb
  have one : ∀ b1 c r, Blanks b1 → CommentLine c → Eats spaceOrComment (b1 ++ (c ++ [byte '\r'])) () (byte '\n' :: r) := by
    intro b1 c r hb hcl
    obtain ⟨v, hv⟩ := eats_commentOne (rest := byte '\n' :: r) hcl (.inl rfl)
    have hm := Many.cons (t' := []) (rest := byte '\n' :: r) (by simpa using hv) (.nil _)
    rw [List.append_nil] at hm
    exact eats_comment hb (by simp) hm (by rw [List.append_assoc]; exact hc c hcl _) (hnl _)
  have two : Eats spaceOrComment (bytes "\n" ++ (c2 ++ [byte '\r'])) () (byte '\n' :: x) :=
    one (bytes "\n") c2 x (by decide) h2
  have hsp : ∀ {A : Type} {p : Parser UInt8 A} [Good p] {c : Committed}, Fail p (byte '\n' :: x) c →
      Fail (spaced p) ((bytes "\n" ++ (c2 ++ [byte '\r'])) ++ byte '\n' :: x) c := by
    intro A p _ c h
    unfold spaced surround
    exact Eats.skipLeft_fail two h.skipRight
  have hstr : Fail string (byte '\n' :: x) .uncommitted := by
    have hqu : ∀ ch, (ch = '"' ∨ ch = '\'') → Fail (quote ch) (byte '\n' :: x) .uncommitted := by
      intro ch hch
      unfold quote
      refine fail_spaced (b1 := [byte '\n']) (by decide) hx (fail_elm.2 ⟨rfl, fun r' h => hq _ _ h ?_⟩)
      rcases hch with rfl | rfl
      · exact .inl rfl
      · exact .inr rfl
    unfold string
    exact .map _ (.or (.or (fail_attempt_of (.surround (hqu _ (.inl rfl)))) (fail_attempt_of (.surround (hqu _ (.inr rfl)))))
      (fail_stringSurround (noHead_cons.2 (by decide))))
  have hprop : Fail (softGrammar S (n + 1)).2 ((bytes "\n" ++ (c2 ++ [byte '\r'])) ++ byte '\n' :: x) .uncommitted := by
    show Fail (property _ _) _ _
    unfold property key
    exact .andThen (hsp (.or (fail_path (noHead_cons.2 (by decide))) hstr))
  have hall := hocon_stuck (S := S) (n := n + 1) (b1 := c1 ++ [byte '\r'])
    (r := (bytes "\n" ++ (c2 ++ [byte '\r'])) ++ byte '\n' :: x) (one [] c1 _ blanks_nil h1) (by simp)
    ⟨_, hprop⟩ (fail_include (noHead_cons.2 (by decide))) ?_ ?_
  · simpa [show bytes "\r\n" = [byte '\r', byte '\n'] from rfl, show bytes "\n" = [byte '\n'] from rfl] using hall
  · refine ⟨.uncommitted, ?_⟩
    unfold objectConfigValue object
    exact .map _ (.map _ (.surround (hsp (fail_elm.2 ⟨rfl, by rintro r' ⟨⟩⟩))))
  · refine ⟨.uncommitted, ?_⟩
    unfold arrayConfigValue array
    exact .map _ (.surround (hsp (fail_elm.2 ⟨rfl, by rintro r' ⟨⟩⟩)))

/-! ### Includes -/

theorem hocon_include {n : Nat} {m p : Bytes} (hm : m = bytes "file" ∨ m = bytes "url") (hp : PathText p) :
    parse (hocon S (n + 1)) (bytes "include " ++ m ++ bytes "(\"" ++ p ++ bytes "\")") =
      .ok [.incl m (byte '"' :: p ++ [byte '"'])] := by
  refine soft_ok ?_
  unfold softHocon
  refine parse_end_ok.2 ?_
  have hb : bytes "include " = bytes "include" ++ [byte ' '] := by decide
  have hinc : Eats includeConfigValue (bytes "include " ++ m ++ bytes "(\"" ++ p ++ bytes "\")")
      (.incl m (byte '"' :: p ++ [byte '"'])) [] := by
    unfold includeConfigValue
    have h1 : Eats (skipLeft (seq (bytes "include")) (elm (byte ' '))) (bytes "include" ++ [byte ' ']) (byte ' ')
        (m ++ (bytes "(\"" ++ (p ++ (bytes "\")" ++ [])))) :=
      Eats.skipLeft (eats_seq.2 ⟨rfl, rfl⟩) (eats_elm.2 ⟨rfl, rfl⟩)
    have h2 : Eats includeMethod m m (bytes "(\"" ++ (p ++ (bytes "\")" ++ []))) := by
      unfold includeMethod
      rcases hm with rfl | rfl
      · exact Uri.eats_text.2 ⟨by decide, _, .or_left (eats_seq.2 ⟨rfl, rfl⟩)⟩
      · exact Uri.eats_text.2 ⟨by decide, _, .or_right (fail_seq_soft (by intro r h; exact absurd (List.cons.inj h).1 (by decide))) (eats_seq.2 ⟨rfl, rfl⟩)⟩
    have h3 : Eats (surround (seq (bytes "(\"")) path (seq (bytes "\")"))) (bytes "(\"" ++ (p ++ bytes "\")")) p [] :=
      Eats.surround (eats_seq.2 ⟨rfl, rfl⟩) (eats_path hp (noHead_cons.2 (by unfold PathByte; decide))) (eats_seq.2 ⟨rfl, rfl⟩)
    have h4 := Eats.andThen (rest := []) (Eats.skipLeft (by simpa using h1) (by simpa using h2)) h3
    refine eats_map.2 ⟨(m, p), ?_, rfl⟩
    rw [hb]
    simpa using h4
  have hprop : Fail (softGrammar S (n + 1)).2 (bytes "include " ++ m ++ bytes "(\"" ++ p ++ bytes "\")") .uncommitted := by
    show Fail (property _ _) _ _
    unfold property
    have hq : ∀ P : UInt8 → Prop, (¬ P (byte 'f')) → (¬ P (byte 'u')) → NoHead P (m ++ (bytes "(\"" ++ (p ++ bytes "\")"))) := by
      intro P h1 h2
      rcases hm with rfl | rfl
      · exact noHead_cons.2 h1
      · exact noHead_cons.2 h2
    have hkey := eats_key' (k := bytes "include") (b2 := [byte ' '])
      (rest := m ++ (bytes "(\"" ++ (p ++ bytes "\")"))) ⟨[bytes "include"], by simp, by
        intro s hs
        rw [List.mem_singleton.1 hs]
        exact ⟨by decide, by decide⟩, rfl⟩ (by decide) (hq _ (by decide) (by decide)) (noHead_cons.2 (by unfold PathByte; decide))
    have := hkey.andThen_fail (fail_afterKey (cv := lazy fun _ => (softGrammar S n).1)
      (prop := lazy fun _ => (softGrammar S n).2) (hq _ (by decide) (by decide)) (hq _ (by decide) (by decide)))
    rw [hb]
    simpa using this
  have h5 := Eats.skipLeft (p := spaceOrComment) (t1 := []) (t2 := bytes "include " ++ m ++ bytes "(\"" ++ p ++ bytes "\")") (rest := [])
    (q := config (softGrammar S (n + 1)).1 (softGrammar S (n + 1)).2)
    (w := [.incl m (byte '"' :: p ++ [byte '"'])])
    (eats_blanks blanks_nil (noHead_cons.2 (by decide))) ?_
  · simpa using h5
  · unfold config
    refine .or_left (.or_right ?_ (Eats.attempt (eats_many1.2 ⟨by simp, ?_, ?_⟩)))
    · rw [List.append_nil]
      exact fail_attempt_of (c := .uncommitted) (.map _ (fail_many1.2 ⟨rfl, _, hprop⟩))
    · have := Many.cons (t' := []) (rest := []) (by simpa using hinc) (.nil _)
      simpa using this
    · obtain ⟨c, hc⟩ := (fail_seq (lit := bytes "include") (r := [])).2 (by rintro ⟨y, hy⟩; cases hy)
      exact ⟨c, .map _ (.andThen (.skipLeft (.skipLeft hc)))⟩

end OniComb.Hocon
