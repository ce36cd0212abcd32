import Verif.Lemmas.HoconText
import Verif.Spec.HoconText

/-! # Helper lemmas: texts of units, strings, references and simple values of `hocon` -/

namespace OniComb.Hocon
open OniComb OniComb.Hocon.Spec
open OniComb.Uri (Bytes byte bytes fromUtf8 parseUInt mapUnwrap text)

variable {A B : Type} {t rest r : Bytes} {c : Committed} {S : Std}

/-! ### Units -/

instance (b : UInt8) : Decidable (Letter b) := by unfold Letter; infer_instance

/-- A word of letters in front of a text that does not go on with a letter. -/
theorem prefix_word {l t rest : Bytes} (hl : ∀ b ∈ l, Letter b) (hr : NoHead Letter rest) (h : l <+: t ++ rest) :
    l <+: t := by
  induction l generalizing t with
  | nil => exact List.nil_prefix
  | cons a l ih =>
    cases t with
    | nil =>
      obtain ⟨y, hy⟩ := h
      exact absurd (hl a (by simp)) (hr a (l ++ y) hy.symm)
    | cons b t =>
      rw [List.cons_append, List.cons_prefix_cons] at h
      exact List.cons_prefix_cons.2 ⟨h.1, ih (fun x hx => hl x (by simp [hx])) h.2⟩

theorem eats_spelling (s : String) : Eats (spelling s) (bytes s) (bytes s) rest := by
  unfold spelling; exact Eats.attempt (eats_seq.2 ⟨rfl, rfl⟩)

theorem fail_spelling {s : String} (h : ¬ bytes s <+: r) : Fail (spelling s) r .uncommitted := by
  unfold spelling
  obtain ⟨c, hc⟩ := fail_seq.2 h
  exact fail_attempt_of hc

/-- The alternatives of a unit with five spellings. -/
def five (a b c d e : String) (u : TimeUnit) : Parser UInt8 TimeUnit :=
  map (or (or (or (or (spelling a) (spelling b)) (spelling c)) (spelling d)) (seq (bytes e))) fun _ => u

/-- The alternatives of a unit with three spellings. -/
def three (a b c : String) (u : TimeUnit) : Parser UInt8 TimeUnit :=
  map (or (or (spelling a) (spelling b)) (seq (bytes c))) fun _ => u

theorem eats_five {a b c d e : String} {u : TimeUnit} : Eats (five a b c d e u) (bytes a) u rest :=
  eats_map.2 ⟨_, Eats.or_left (Eats.or_left (Eats.or_left (Eats.or_left (eats_spelling a)))), rfl⟩

theorem eats_five' {a b c d e : String} {u : TimeUnit} (h : ¬ bytes a <+: bytes b ++ rest) :
    Eats (five a b c d e u) (bytes b) u rest :=
  eats_map.2 ⟨_, Eats.or_left (Eats.or_left (Eats.or_left (Eats.or_right (fail_spelling h) (eats_spelling b)))), rfl⟩

theorem eats_three {a b c : String} {u : TimeUnit} : Eats (three a b c u) (bytes a) u rest :=
  eats_map.2 ⟨_, Eats.or_left (Eats.or_left (eats_spelling a)), rfl⟩

theorem fail_five {a b c d e : String} {u : TimeUnit} (ha : ¬ bytes a <+: r) (hb : ¬ bytes b <+: r)
    (hc : ¬ bytes c <+: r) (hd : ¬ bytes d <+: r) (he : ¬ bytes e <+: r) :
    ∃ x, Fail (five a b c d e u) r x := by
  obtain ⟨x, hx⟩ := fail_seq.2 he
  exact ⟨x, Fail.map _ (Fail.or (Fail.or (Fail.or (Fail.or (fail_spelling ha) (fail_spelling hb)) (fail_spelling hc))
    (fail_spelling hd)) hx)⟩

theorem fail_three {a b c : String} {u : TimeUnit} (ha : ¬ bytes a <+: r) (hb : ¬ bytes b <+: r)
    (hc : ¬ bytes c <+: r) : ∃ x, Fail (three a b c u) r x := by
  obtain ⟨x, hx⟩ := fail_seq.2 hc
  exact ⟨x, Fail.map _ (Fail.or (Fail.or (fail_spelling ha) (fail_spelling hb)) hx)⟩

/-- The parser of one unit. -/
def unitOf : TimeUnit → Parser UInt8 TimeUnit
  | .nanoseconds => unitNs
  | .microseconds => unitUs
  | .milliseconds => unitMs
  | .seconds => unitS
  | .minutes => unitM
  | .hours => unitH
  | .days => unitD

/-- The spellings of a unit, in the order in which they are tried. -/
def spellings : TimeUnit → List String
  | .nanoseconds => ["ns", "nano", "nanos", "nanosecond", "nanoseconds"]
  | .microseconds => ["us", "micro", "micros", "microsecond", "microseconds"]
  | .milliseconds => ["ms", "milli", "millis", "millisecond", "milliseconds"]
  | .seconds => ["s", "second", "seconds"]
  | .minutes => ["m", "minute", "minutes"]
  | .hours => ["h", "hour", "hours"]
  | .days => ["d", "day", "days"]

/-- The spellings tried before a unit. -/
def earlier : TimeUnit → List String
  | .nanoseconds => []
  | .microseconds => spellings .nanoseconds
  | .milliseconds => spellings .nanoseconds ++ spellings .microseconds
  | .seconds => spellings .nanoseconds ++ spellings .microseconds ++ spellings .milliseconds
  | .minutes => spellings .nanoseconds ++ spellings .microseconds ++ spellings .milliseconds ++ spellings .seconds
  | .hours => spellings .nanoseconds ++ spellings .microseconds ++ spellings .milliseconds ++ spellings .seconds ++
      spellings .minutes
  | .days => spellings .nanoseconds ++ spellings .microseconds ++ spellings .milliseconds ++ spellings .seconds ++
      spellings .minutes ++ spellings .hours

theorem fail_unitOf {u : TimeUnit} (h : ∀ s ∈ spellings u, ¬ bytes s <+: r) : Fail (attempt (unitOf u)) r .uncommitted := by
  have : ∃ x, Fail (unitOf u) r x := by
    cases u <;> simp only [spellings, List.forall_mem_cons] at h
    · exact fail_three h.1 h.2.1 h.2.2.1
    · exact fail_three h.1 h.2.1 h.2.2.1
    · exact fail_five h.1 h.2.1 h.2.2.1 h.2.2.2.1 h.2.2.2.2.1
    · exact fail_five h.1 h.2.1 h.2.2.1 h.2.2.2.1 h.2.2.2.2.1
    · exact fail_three h.1 h.2.1 h.2.2.1
    · exact fail_five h.1 h.2.1 h.2.2.1 h.2.2.2.1 h.2.2.2.2.1
    · exact fail_three h.1 h.2.1 h.2.2.1
  obtain ⟨x, hx⟩ := this
  exact fail_attempt_of hx

theorem eats_unitP {u : TimeUnit} (hE : ∀ s ∈ earlier u, ¬ bytes s <+: t ++ rest) (h : Eats (unitOf u) t u rest) :
    Eats unitP t u rest := by
  unfold unitP
  have hf : ∀ v, (∀ s ∈ spellings v, s ∈ earlier u) → Fail (attempt (unitOf v)) (t ++ rest) .uncommitted :=
    fun v hv => fail_unitOf fun s hs => hE s (hv s hs)
  cases u
  · exact .or_right (.or (.or (.or (.or (.or (hf .nanoseconds (by decide))
      (hf .microseconds (by decide))) (hf .milliseconds (by decide))) (hf .seconds (by decide)))
      (hf .minutes (by decide))) (hf .hours (by decide))) h
  · exact .or_left (.or_right (.or (.or (.or (.or (hf .nanoseconds (by decide))
      (hf .microseconds (by decide))) (hf .milliseconds (by decide))) (hf .seconds (by decide)))
      (hf .minutes (by decide))) h.attempt)
  · exact .or_left (.or_left (.or_left (.or_left (.or_left (.or_right (hf .nanoseconds (by decide)) h.attempt)))))
  · exact .or_left (.or_left (.or_left (.or_left (.or_right (.or (hf .nanoseconds (by decide))
      (hf .microseconds (by decide))) h.attempt))))
  · exact .or_left (.or_left (.or_right (.or (.or (.or (hf .nanoseconds (by decide))
      (hf .microseconds (by decide))) (hf .milliseconds (by decide))) (hf .seconds (by decide))) h.attempt))
  · exact .or_left (.or_left (.or_left (.or_left (.or_left (.or_left h.attempt)))))
  · exact .or_left (.or_left (.or_left (.or_right (.or (.or (hf .nanoseconds (by decide))
      (hf .microseconds (by decide))) (hf .milliseconds (by decide))) h.attempt)))

theorem fail_unitP (hr : NoHead UnitStart r) : ∃ x, Fail unitP r x := by
  have key : ∀ s ∈ earlier .days ++ spellings .days, ¬ bytes s <+: r := by
    intro s hs
    have : ∀ s ∈ earlier .days ++ spellings .days, ∃ b ∈ bytes "numshd", (bytes s).head? = some b := by decide
    obtain ⟨b, h1, h2⟩ := this s hs
    rintro ⟨x, hx⟩
    cases hb : bytes s with
    | nil => rw [hb] at h2; cases h2
    | cons a l =>
      rw [hb] at h2 hx
      cases h2
      exact hr b _ hx.symm h1
  have h1 : ∀ v, (∀ s ∈ spellings v, s ∈ earlier .days ++ spellings .days) →
      Fail (attempt (unitOf v)) r .uncommitted := fun v hv => fail_unitOf fun s hs => key s (hv s hs)
  obtain ⟨-, x, hx⟩ := fail_attempt.1 (h1 .days (by decide))
  exact ⟨x, .or (.or (.or (.or (.or (.or (h1 .nanoseconds (by decide))
      (h1 .microseconds (by decide))) (h1 .milliseconds (by decide))) (h1 .seconds (by decide)))
      (h1 .minutes (by decide))) (h1 .hours (by decide))) hx⟩

theorem spellings_letters (u : TimeUnit) : ∀ s ∈ spellings u, ∀ b ∈ bytes s, Letter b := by cases u <;> decide

theorem earlier_letters (u : TimeUnit) : ∀ s ∈ earlier u, ∀ b ∈ bytes s, Letter b := by cases u <;> decide

theorem eats_unitOf {u : TimeUnit} {i : Nat} (hi : i < 2) {s : String} (hs : (spellings u)[i]? = some s)
    (h5 : i = 0 ∨ (spellings u).length = 5) (h0 : i = 0 ∨ ∀ s' ∈ (spellings u).head?, ¬ bytes s' <+: bytes s ++ rest) :
    Eats (unitOf u) (bytes s) u rest := by
  match i, hi with
  | 0, _ => cases u <;> cases hs <;> first | exact eats_five | exact eats_three
  | 1, _ =>
    have h0 := h0.resolve_left (by decide)
    have h5 := h5.resolve_left (by decide)
    cases u <;> cases hs <;> first | exact eats_five' (h0 _ rfl) | exact absurd h5 (by decide)

/-- What the unit parser reads of each of the words: the word, the part read and the rest. -/
def unitTable : List (Bytes × Bytes × TimeUnit) :=
  shortUnits.map (fun (w, u) => (w, [], u)) ++
  [(bytes "nano", bytes "s", .nanoseconds), (bytes "nano", bytes "second", .nanoseconds),
   (bytes "nano", bytes "seconds", .nanoseconds),
   (bytes "micro", bytes "s", .microseconds), (bytes "micro", bytes "second", .microseconds),
   (bytes "micro", bytes "seconds", .microseconds),
   (bytes "milli", bytes "s", .milliseconds), (bytes "milli", bytes "second", .milliseconds),
   (bytes "milli", bytes "seconds", .milliseconds),
   (bytes "s", bytes "econd", .seconds), (bytes "s", bytes "econds", .seconds),
   (bytes "m", bytes "inute", .minutes), (bytes "m", bytes "inutes", .minutes),
   (bytes "h", bytes "our", .hours), (bytes "h", bytes "ours", .hours),
   (bytes "d", bytes "ay", .days), (bytes "d", bytes "ays", .days)]

theorem unitTable_ok : ∀ e ∈ unitTable, (∀ s ∈ earlier e.2.2, ¬ bytes s <+: e.1 ++ e.2.1) ∧
    (((spellings e.2.2)[0]?.map bytes = some e.1) ∨
      (spellings e.2.2).length = 5 ∧ ((spellings e.2.2)[1]?.map bytes = some e.1) ∧
        ∀ s' ∈ (spellings e.2.2).head?, ¬ bytes s' <+: e.1 ++ e.2.1) := by
  decide +kernel

theorem eats_unit {w w' : Bytes} {u : TimeUnit} (h : (w, w', u) ∈ unitTable) (hr : NoHead Letter rest) :
    Eats unitP w u (w' ++ rest) := by
  obtain ⟨h1, h2⟩ := unitTable_ok _ h
  refine eats_unitP ?_ ?_
  · intro s hs hp
    rw [← List.append_assoc] at hp
    exact h1 s hs (prefix_word (earlier_letters u s hs) hr hp)
  · rcases h2 with h2 | ⟨h2, h3, h5⟩
    · obtain ⟨s, h2, h3⟩ := Option.map_eq_some_iff.1 h2
      cases h3
      exact eats_unitOf (i := 0) (by decide) h2 (.inl rfl) (.inl rfl)
    · obtain ⟨s, h3, h4⟩ := Option.map_eq_some_iff.1 h3
      cases h4
      refine eats_unitOf (i := 1) (by decide) h3 (.inr h2) (.inr ?_)
      intro s' hs' hp
      rw [← List.append_assoc] at hp
      exact h5 s' hs' (prefix_word (spellings_letters u s' (List.mem_of_mem_head? hs')) hr hp)

/-! ### Strings -/

instance (b : UInt8) : Decidable (Special b) := by unfold Special; infer_instance

/-- One byte of `charString`. -/
theorem fail_strByte (hr : StrStop r) :
    Fail (or (noneOf (bytes "[]\r\n\\\"'")) (skipLeft (elm (byte '\\')) specialChar)) r .uncommitted := by
  refine .or ((one_none _).fail.2 ⟨rfl, hr.mono fun b hb => .inl hb⟩) (.skipLeft (fail_elm.2 ⟨rfl, ?_⟩))
  intro r' h
  exact hr _ _ h (.inr rfl)

theorem many_strByte {s : Bytes} (hs : ∀ b ∈ s, ¬ Special b) :
    Many (or (noneOf (bytes "[]\r\n\\\"'")) (skipLeft (elm (byte '\\')) specialChar)) s s rest := by
  induction s with
  | nil => exact .nil _
  | cons b s ih =>
    exact .cons (t := [b]) (t' := s) (.or_left ((one_none _).eats.2 ⟨rfl, hs b (by simp)⟩))
      (ih fun x hx => hs x (by simp [hx]))

theorem eats_charString {s : Bytes} (hne : s ≠ []) (hu : Uri.validUtf8 s = true) (hs : ∀ b ∈ s, ¬ Special b)
    (hr : StrStop rest) : Eats charString s s rest := by
  unfold charString
  refine eats_mapRes.2 ⟨s, eats_many1.2 ⟨hne, many_strByte hs, _, fail_strByte hr⟩, ?_⟩
  simp [fromUtf8, hu]

theorem fail_charString (hr : StrStop r) : Fail charString r .uncommitted := by
  unfold charString
  exact fail_mapRes.2 (.inl (fail_many1.2 ⟨rfl, _, fail_strByte hr⟩))

theorem fail_utf16String (hr : NoHead (fun b => b = byte '\\') r) : Fail utf16String r .uncommitted := by
  unfold utf16String
  refine .map _ (fail_many1.2 ⟨rfl, .uncommitted, ?_⟩)
  unfold utf16Char
  refine .skipLeft (fail_seq_soft (a := byte '\\') (lit := [byte 'u']) ?_)
  intro r' h
  exact hr _ _ h rfl

theorem StrStop.noEsc (hr : StrStop r) : NoHead (fun b => b = byte '\\') r := hr.mono fun _ h => .inr h

theorem eats_stringSurround {s : Bytes} (hne : s ≠ []) (hu : Uri.validUtf8 s = true) (hs : ∀ b ∈ s, ¬ Special b)
    (hr : StrStop rest) : Eats stringSurround s [s] rest := by
  unfold stringSurround
  refine eats_many1.2 ⟨by simp, ?_, .uncommitted, ?_⟩
  · have := Many.cons (p := or (attempt charString) utf16String) (t := s) (t' := []) (rest := rest)
      (.or_left (eats_charString hne hu hs hr).attempt) (.nil rest)
    simpa using this
  · exact .or (fail_attempt_of (fail_charString hr)) (fail_utf16String hr.noEsc)

theorem fail_stringSurround (hr : StrStop r) : Fail stringSurround r .uncommitted := by
  unfold stringSurround
  exact fail_many1.2 ⟨rfl, .uncommitted, .or (fail_attempt_of (fail_charString hr)) (fail_utf16String hr.noEsc)⟩

theorem fail_quote {ch : Char} (hq : Quiet r) (hr : NoHead (fun b => b = byte ch) r) : Fail (quote ch) r .uncommitted := by
  unfold quote
  exact fail_spaced' hq (fail_elm.2 ⟨rfl, fun r' h => hr _ _ h rfl⟩)

theorem eats_quote {ch : Char} {b2 : Bytes} (hc : byte ch ∉ bytes " \t\r\n#/") (h2 : Gap b2) (hr : Quiet rest) :
    Eats (quote ch) (byte ch :: b2) (byte ch) rest := by
  unfold quote
  exact eats_spaced' (t := [byte ch]) h2 (noHead_cons.2 hc) hr (eats_elm.2 ⟨rfl, rfl⟩)

theorem stringText_quiet {s : Bytes} (h : StringText s) : Quiet (s ++ r) := by
  obtain ⟨h1, -, h2, h3⟩ := h
  cases s with
  | nil => exact absurd rfl h1
  | cons b s =>
    have h3 := h3 b rfl
    have h2 := h2 b (by simp)
    refine noHead_cons.2 fun hb => ?_
    have : ∀ b ∈ bytes " \t\r\n#/", b ∈ bytes " \t#/" ∨ b ∈ bytes "[]\r\n\\\"'" := by decide
    rcases this b hb with h | h
    · exact h3 h
    · exact h2 h

/-- A double quoted string and the blanks behind it. -/
theorem eats_string {s b2 : Bytes} (h : StringText s) (h2 : Gap b2) (hr : Quiet rest) :
    Eats string (byte '"' :: s ++ (byte '"' :: b2)) s rest := by
  unfold string
  refine eats_map.2 ⟨[s], .or_left (.or_left (Eats.attempt ?_)), by simp⟩
  have h1 : Eats (quote '"') [byte '"'] (byte '"') (s ++ (byte '"' :: b2 ++ rest)) :=
    eats_quote (by decide) gap_nil (stringText_quiet h)
  exact Eats.surround h1 (eats_stringSurround h.1 h.2.1 h.2.2.1 (noHead_cons.2 (by decide)))
    (eats_quote (by decide) h2 hr)

/-- An unquoted string. -/
theorem eats_unquoted {s : Bytes} (hq : Quiet (s ++ rest)) (hne : s ≠ []) (hu : Uri.validUtf8 s = true)
    (hs : ∀ b ∈ s, ¬ Special b) (hr : StrStop rest) : Eats string s s rest := by
  unfold string
  have hn : ∀ b, Special b → NoHead (fun x => x = b) (s ++ rest) := by
    intro b hb
    cases s with
    | nil => exact absurd rfl hne
    | cons x s => exact noHead_cons.2 fun e => hs x (by simp) (e ▸ hb)
  refine eats_map.2 ⟨[s], .or_right (.or ?_ ?_) (eats_stringSurround hne hu hs hr), by simp⟩
  · exact fail_attempt_of (Fail.surround (fail_quote hq (hn _ (by decide))))
  · exact fail_attempt_of (Fail.surround (fail_quote hq (hn _ (by decide))))

theorem fail_string (hq : Quiet r) (hr : NoHead (fun b => ¬ Special b ∨ b ∈ bytes "\\\"'") r) :
    Fail string r .uncommitted := by
  unfold string
  refine .map _ (.or (.or (fail_attempt_of (.surround (fail_quote hq ?_))) (fail_attempt_of (.surround (fail_quote hq ?_))))
    (fail_stringSurround ?_))
  · exact hr.mono fun b hb => .inr (by rw [hb]; decide)
  · exact hr.mono fun b hb => .inr (by rw [hb]; decide)
  · exact hr.mono fun b hb => hb.imp id fun h => by rw [h]; decide

/-! ### References -/

theorem noPrefix_head {lit : Bytes} (hne : lit ≠ []) (h : NoHead (fun b => some b = lit.head?) r) : ¬ lit <+: r := by
  rintro ⟨x, hx⟩
  cases lit with
  | nil => exact hne rfl
  | cons a l => exact h a _ hx.symm rfl

theorem fail_word {lit : Bytes} (hne : lit ≠ []) (h : NoHead (fun b => some b = lit.head?) r) : ∃ c, Fail (seq lit) r c :=
  fail_seq.2 (noPrefix_head hne h)

theorem eats_reference {p : List Bytes} {o : Bool} {b2 : Bytes} (hp : PathText (joinDot p)) (h2 : Gap b2)
    (hr : Quiet rest) :
    Eats reference (bytes "${" ++ (((if o then bytes "?" else []) ++ joinDot p) ++ (bytes "}" ++ b2))) (o, joinDot p) rest := by
  unfold reference
  have h3 : Eats (spaced (seq (bytes "}"))) (bytes "}" ++ b2) (bytes "}") rest :=
    eats_spaced' h2 (noHead_cons.2 (by decide)) hr (eats_seq.2 ⟨rfl, rfl⟩)
  have hpath : Eats (text (many1Sep pathElement (elm (byte '.')))) (joinDot p) (joinDot p) (bytes "}" ++ b2 ++ rest) :=
    eats_path hp (noHead_cons.2 (by unfold PathByte; decide))
  have hopt : Eats (map (opt (elm (byte '?'))) Option.isSome) (if o then bytes "?" else []) o
      (joinDot p ++ (bytes "}" ++ b2 ++ rest)) := by
    obtain ⟨b, k', hk, hb⟩ := pathText_head hp
    cases o with
    | false =>
      refine eats_map.2 ⟨none, eats_opt.2 (.inr ⟨rfl, rfl, .uncommitted, fail_elm.2 ⟨rfl, ?_⟩⟩), rfl⟩
      intro r' h
      rw [hk] at h
      cases h
      exact absurd hb (by decide)
    | true => exact eats_map.2 ⟨some (byte '?'), eats_opt.2 (.inl ⟨_, rfl, eats_elm.2 ⟨rfl, rfl⟩⟩), rfl⟩
  have hmid := Eats.andThen hopt hpath
  refine Eats.surround (c := bytes "${") ?_ hmid h3
  refine eats_spaced' (t := bytes "${") (b2 := []) gap_nil (noHead_cons.2 (by decide)) ?_ (eats_seq.2 ⟨rfl, rfl⟩)
  obtain ⟨b, k', hk, hb⟩ := pathText_head hp
  cases o with
  | false => rw [hk]; exact noHead_cons.2 (seg_quiet hb)
  | true => exact noHead_cons.2 (by decide)

theorem fail_reference (hq : Quiet r) (hr : NoHead (fun b => b = byte '$') r) : ∃ c, Fail reference r c := by
  obtain ⟨c, hc⟩ := fail_word (lit := bytes "${") (by decide) (r := r) (hr.mono fun b hb => Option.some.inj hb)
  exact ⟨c, by unfold reference; exact .surround (fail_spaced' hq hc)⟩

/-! ### Simple values -/

theorem fail_numberBare (hr : NoHead (fun b => Digit b ∨ b = byte '-') r) : Fail numberBare r .uncommitted := by
  unfold numberBare
  refine .andThen (.andThen ?_)
  have h1 : Eats (opt (elm (byte '-'))) [] none r :=
    eats_opt.2 (.inr ⟨rfl, rfl, .uncommitted, fail_elm.2 ⟨rfl, fun r' h => hr _ _ h (.inr rfl)⟩⟩)
  refine h1.andThen_fail (fail_mapRes.2 (.inl ?_))
  unfold integer
  refine .or (fail_collect.2 (.andThen (fail_digit19 (hr.mono fun b hb => .inl hb.1)))) (fail_collect.2 (fail_elm.2 ⟨rfl, ?_⟩))
  intro r' h
  exact hr _ _ h (.inl (by decide))

theorem fail_softNumber (hq : Quiet r) (hr : NoHead (fun b => Digit b ∨ b = byte '-') r) :
    Fail (softNumber S) r .uncommitted := by
  unfold softNumber
  refine Fail.softUnwrap ?_
  unfold number
  exact .map _ (fail_spaced' hq (fail_numberBare hr))

theorem fail_softNumber_blanks {b : Bytes} (hb : Blanks b) (hq : Quiet r) (hr : NoHead (fun b => Digit b ∨ b = byte '-') r) :
    Fail (softNumber S) (b ++ r) .uncommitted := by
  unfold softNumber
  refine Fail.softUnwrap ?_
  unfold number
  exact .map _ (fail_spaced hb hq (fail_numberBare hr))

theorem fail_softDuration (hq : Quiet r) (hr : NoHead (fun b => Digit b ∨ b = byte '-') r) :
    Fail (softDuration S) r .uncommitted := by
  unfold softDuration; exact .andThen (fail_softNumber hq hr)

/-- A constant. -/
theorem eats_const {v : Value} {w : Bytes} {b2 : Bytes}
    (hw : (w, v) ∈ [(bytes "null", Value.null), (bytes "true", .bool true), (bytes "false", .bool false)])
    (h2 : Gap b2) (hr : Quiet rest) : Eats (softSimple S) (w ++ b2) v rest := by
  unfold softSimple
  have key : ∀ {lit : Bytes} {v : Value}, Eats (attempt (map (seq lit) fun _ => v)) lit v (b2 ++ rest) := fun {lit v} =>
    Eats.attempt (eats_map.2 ⟨_, eats_seq.2 ⟨rfl, rfl⟩, rfl⟩)
  have no : ∀ {lit x : Bytes} {v : Value}, lit ≠ [] → NoHead (fun b => some b = lit.head?) x →
      Fail (attempt (map (seq lit) fun _ => v)) x .uncommitted := fun {lit x v} h1 h2 => by
    obtain ⟨c, hc⟩ := fail_word h1 h2
    exact fail_attempt_of (hc.map _)
  simp only [List.mem_cons, Prod.mk.injEq, List.not_mem_nil, or_false] at hw
  rcases hw with ⟨rfl, rfl⟩ | ⟨rfl, rfl⟩ | ⟨rfl, rfl⟩
  · exact eats_spaced' h2 (noHead_cons.2 (by decide)) hr (.or_left (.or_left (.or_left (.or_left (.or_left key)))))
  · exact eats_spaced' h2 (noHead_cons.2 (by decide)) hr (.or_left (.or_left (.or_left (.or_left (.or_right
      (no (by decide) (noHead_cons.2 (by decide))) key)))))
  · exact eats_spaced' h2 (noHead_cons.2 (by decide)) hr (.or_left (.or_left (.or_left (.or_right
      (.or (no (by decide) (noHead_cons.2 (by decide))) (no (by decide) (noHead_cons.2 (by decide)))) key))))

/-- No constant begins here. -/
theorem fail_consts (hr : NoHead (fun b => b ∈ bytes "ntf") r) :
    Fail (or (or (attempt (map (seq (bytes "null")) fun _ => Value.null))
    (attempt (map (seq (bytes "true")) fun _ => .bool true)))
    (attempt (map (seq (bytes "false")) fun _ => .bool false))) r .uncommitted := by
  have no : ∀ {lit : Bytes} {v : Value}, lit ≠ [] → (∀ b, some b = lit.head? → b ∈ bytes "ntf") →
      Fail (attempt (map (seq lit) fun _ => v)) r .uncommitted := fun {lit v} h1 h2 => by
    obtain ⟨c, hc⟩ := fail_word h1 (hr.mono h2)
    exact fail_attempt_of (hc.map _)
  refine .or (.or (no (by decide) ?_) (no (by decide) ?_)) (no (by decide) ?_)
  all_goals rintro b ⟨⟩; decide

theorem digit_noConst {b : UInt8} (h : Digit b) : b ∉ bytes "ntf[{$" := fun hb =>
  (by decide : ∀ b ∈ bytes "ntf[{$", ¬ Digit b) b hb h

theorem decimalText_head (h : DecimalText t) : ∃ b x, t = b :: x ∧ Digit b := by
  obtain ⟨i, f, hi, -, rfl⟩ := decimalText_parts h
  obtain ⟨b, ds, rfl, hb⟩ := intText_head hi
  exact ⟨b, _, rfl, hb⟩

theorem decimalText_quiet (h : DecimalText t) : Quiet (t ++ r) := by
  obtain ⟨b, x, rfl, hb⟩ := decimalText_head h
  exact noHead_cons.2 (digit_quiet hb)

theorem decimalText_noConst (h : DecimalText t) : NoHead (fun b => b ∈ bytes "ntf") (t ++ r) := by
  obtain ⟨b, x, rfl, hb⟩ := decimalText_head h
  refine noHead_cons.2 fun hm => digit_noConst hb ?_
  exact (by decide : ∀ b ∈ bytes "ntf", b ∈ bytes "ntf[{$") b hm

/-- A number and the blanks behind it. -/
theorem eats_numberText {d : Decimal} {b2 : Bytes} (ht : DecimalText t) (hd : S.parseDecimal t = some d) (h2 : Gap b2)
    (hr : NoHead NumByte (b2 ++ rest)) (hq : Quiet rest) (hu : NoHead UnitStart rest) :
    Eats (softSimple S) (t ++ b2) (.num d) rest := by
  have hn := eats_softNumber ht hd h2 hr hq
  obtain ⟨x, hx⟩ := fail_unitP hu
  have hdur : Fail (softDuration S) (t ++ b2 ++ rest) x := by unfold softDuration; exact hn.andThen_fail hx
  have hc : ∀ r, Fail (or (or (attempt (map (seq (bytes "null")) fun _ => Value.null))
    (attempt (map (seq (bytes "true")) fun _ => .bool true)))
    (attempt (map (seq (bytes "false")) fun _ => .bool false))) (t ++ r) .uncommitted :=
      fun r => fail_consts (decimalText_noConst ht)
  unfold softSimple
  have := eats_spaced' (t := t ++ b2) (b2 := []) (rest := rest) (v := Value.num d) gap_nil
    (p := or (or (or (or (or (attempt (map (seq (bytes "null")) fun _ => .null))
    (attempt (map (seq (bytes "true")) fun _ => .bool true)))
    (attempt (map (seq (bytes "false")) fun _ => .bool false)))
    (attempt (map (softDuration S) fun (d, u) => .dur d u))) (attempt (map (softNumber S) .num)))
    stringConfigValue) (by rw [List.append_assoc]; exact decimalText_quiet ht) hq
    (.or_left (.or_right (.or ?_ (fail_attempt_of (hdur.map _))) (hn.map _).attempt))
  · simpa using this
  · rw [List.append_assoc]; exact hc _

theorem shortUnits_head : ∀ e ∈ shortUnits, ∃ b x, e.1 = b :: x ∧ ¬ NumByte b ∧ b ∉ bytes " \t\r\n#/" := by
  intro e he
  have : ∀ e ∈ shortUnits, (e.1.head?.all fun b => !decide (NumByte b) && !decide (b ∈ bytes " \t\r\n#/")) = true ∧ e.1 ≠ [] := by
    decide
  obtain ⟨h1, h2⟩ := this e he
  obtain ⟨b, x, hx⟩ := List.exists_cons_of_ne_nil h2
  rw [hx] at h1
  simp at h1
  exact ⟨b, x, hx, h1.1, h1.2⟩

/-- A duration and the blanks behind it. -/
theorem eats_durText {d : Decimal} {sp w' : Bytes} {u : TimeUnit} (ht : DecimalText t)
    (hd : S.parseDecimal t = some d) (hs : (sp, w', u) ∈ unitTable) (hr : NoHead Letter rest) :
    Eats (softDuration S) (t ++ sp) (d, u) (w' ++ rest) := by
  have hh : ∃ b x, sp = b :: x ∧ ¬ NumByte b ∧ b ∉ bytes " \t\r\n#/" := by
    have : (sp, u) ∈ shortUnits := (by decide : ∀ e ∈ unitTable, (e.1, e.2.2) ∈ shortUnits) _ hs
    exact shortUnits_head _ this
  obtain ⟨b, x, hx, h3, h4⟩ := hh
  have hn := eats_softNumber (b2 := []) (rest := sp ++ (w' ++ rest)) ht hd gap_nil
    (by rw [hx]; exact noHead_cons.2 h3) (by rw [hx]; exact noHead_cons.2 h4)
  unfold softDuration
  rw [List.append_nil] at hn
  exact Eats.andThen hn (eats_unit hs hr)

theorem eats_durValue {d : Decimal} {sp b2 : Bytes} {u : TimeUnit} (ht : DecimalText t)
    (hd : S.parseDecimal t = some d) (hs : (sp, u) ∈ shortUnits) (h2 : Gap b2)
    (hr : NoHead Letter (b2 ++ rest)) (hq : Quiet rest) : Eats (softSimple S) ((t ++ sp) ++ b2) (.dur d u) rest := by
  have hs' : (sp, [], u) ∈ unitTable := (by decide : ∀ e ∈ shortUnits, (e.1, [], e.2) ∈ unitTable) _ hs
  have hn := eats_durText ht hd hs' hr
  unfold softSimple
  refine eats_spaced' h2 (by rw [List.append_assoc]; exact decimalText_quiet ht) hq (.or_left (.or_left (.or_right ?_ ?_)))
  · rw [List.append_assoc]; exact fail_consts (decimalText_noConst ht)
  · exact (hn.map fun (d, u) => Value.dur d u).attempt

/-- A string and the blanks behind it. -/
theorem eats_strValue {s b2 : Bytes} (h : StringText s) (h2 : Gap b2) (hr : Quiet rest) :
    Eats (softSimple S) (byte '"' :: s ++ (byte '"' :: b2)) (.str s) rest := by
  have hn := eats_string h h2 hr
  have hq : Quiet (byte '"' :: s ++ (byte '"' :: b2) ++ rest) := noHead_cons.2 (by decide)
  have hd : NoHead (fun b => Digit b ∨ b = byte '-') (byte '"' :: s ++ (byte '"' :: b2) ++ rest) := noHead_cons.2 (by decide)
  unfold softSimple
  have := eats_spaced' (t := byte '"' :: s ++ (byte '"' :: b2)) (b2 := []) (rest := rest) (v := Value.str s) gap_nil
    (p := or (or (or (or (or (attempt (map (seq (bytes "null")) fun _ => .null))
    (attempt (map (seq (bytes "true")) fun _ => .bool true)))
    (attempt (map (seq (bytes "false")) fun _ => .bool false)))
    (attempt (map (softDuration S) fun (d, u) => .dur d u))) (attempt (map (softNumber S) .num)))
    stringConfigValue) hq hr
    (.or_right (.or (.or (fail_consts (noHead_cons.2 (by decide))) (fail_attempt_of ((fail_softDuration hq hd).map _)))
      (fail_attempt_of ((fail_softNumber hq hd).map _))) (by unfold stringConfigValue; exact hn.map _))
  simpa using this

/-- Nothing simple begins here. -/
theorem fail_softSimple (hq : Quiet r) (h1 : NoHead (fun b => b ∈ bytes "ntf") r)
    (h2 : NoHead (fun b => Digit b ∨ b = byte '-') r)
    (h3 : NoHead (fun b => ¬ Special b ∨ b ∈ bytes "\\\"'") r) : Fail (softSimple S) r .uncommitted := by
  unfold softSimple
  refine fail_spaced' hq (.or (.or (.or (fail_consts h1) (fail_attempt_of ((fail_softDuration hq h2).map _)))
      (fail_attempt_of ((fail_softNumber hq h2).map _))) ?_)
  unfold stringConfigValue
  exact (fail_string hq h3).map _

end OniComb.Hocon
