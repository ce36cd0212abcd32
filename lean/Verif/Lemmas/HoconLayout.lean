import Verif.Lemmas.HoconOdd

/-! # Helper lemmas: documents with free layout are read -/

namespace OniComb.Hocon
open OniComb OniComb.Hocon.Spec OniComb.Hocon.Spec.Layout
open OniComb.Uri (Bytes byte bytes fromUtf8 parseUInt mapUnwrap text)

variable {A B : Type} {t rest r : Bytes} {c : Committed} {S : Std}

/-! ### Entries with repeated keys -/

theorem gathered_keys {ps es : Entries} (h : Gathered ps es) : (keys es).Nodup ∧ ∀ k, k ∈ keys es ↔ k ∈ keys ps := by
  induction h with
  | nil => exact ⟨by simp [keys], fun k => .rfl⟩
  | @first ps es k v h hk ih =>
    refine ⟨?_, fun k' => ?_⟩
    · simp only [keys, List.map_append, List.map_cons, List.map_nil] at ih hk ⊢
      exact List.nodup_append.2 ⟨ih.1, by simp, fun a ha b hb => by
        rintro rfl
        exact hk ((List.mem_singleton.1 hb) ▸ ha)⟩
    · have := ih.2 k'
      simp only [keys, List.map_append, List.map_cons, List.map_nil, List.mem_append, List.mem_singleton] at this ⊢
      rw [this]
  | @again ps l r k c v h ih =>
    refine ⟨by simpa [keys] using ih.1, fun k' => ?_⟩
    have := ih.2 k'
    have hk := (ih.2 k).1 (by simp [keys])
    simp only [keys, List.map_append, List.map_cons, List.map_nil, List.mem_append, List.mem_singleton] at this hk ⊢
    rw [this]
    constructor
    · exact .inl
    · rintro (h | rfl)
      · exact h
      · exact hk

theorem get_at {l r : Entries} {k : Bytes} {c : Value} (h : (keys (l ++ (k, c) :: r)).Nodup) :
    get k (l ++ (k, c) :: r) = some c := get_of_mem (k := k) (v := c) h (by simp)

theorem set_at {k : Bytes} {c v : Value} {r : Entries} : ∀ {l : Entries}, (keys (l ++ (k, c) :: r)).Nodup →
    set k v (l ++ (k, c) :: r) = l ++ (k, v) :: r
  | [], _ => by simp [set]
  | (k', v') :: l, h => by
    have h' : k' ∉ keys (l ++ (k, c) :: r) ∧ (keys (l ++ (k, c) :: r)).Nodup := by
      simpa [keys] using h
    have hk : k' ≠ k := fun e => h'.1 (by simp [keys, e])
    rw [List.cons_append, set, if_neg hk, set_at h'.2, List.cons_append]

theorem gathered_fold {ps es : Entries} (h : Gathered ps es) : objectFold ps = es := by
  induction h with
  | nil => rfl
  | @first ps es k v h hk ih =>
    unfold objectFold at ih ⊢
    rw [List.foldl_append, ih, List.foldl_cons, List.foldl_nil]
    simp only [get_none_of_not_mem hk]
    rfl
  | @again ps l r k c v h ih =>
    have hn := (gathered_keys h).1
    unfold objectFold at ih ⊢
    rw [List.foldl_append, ih, List.foldl_cons, List.foldl_nil]
    simp only [get_at hn, set_at hn]
    cases v <;> rfl

theorem gathered_append : ∀ {es fs : Entries}, Gathered es es → (keys (es ++ fs)).Nodup → Gathered (es ++ fs) (es ++ fs)
  | es, [], h, _ => by simpa using h
  | es, (k, v) :: fs, h, hn => by
    have hk : k ∉ keys es := by
      simp only [keys, List.map_append, List.map_cons] at hn ⊢
      rw [List.nodup_append] at hn
      exact fun hk => hn.2.2 _ hk _ (by simp) rfl
    have := gathered_append (es := es ++ [(k, v)]) (fs := fs) (.first h hk) (by simpa using hn)
    simpa using this

theorem gathered_self {es : Entries} (h : (keys es).Nodup) : Gathered es es := gathered_append .nil h

theorem gathered_mentions {ps es : Entries} {p : Bytes} (h : Gathered ps es) {e : Bytes × Value} (he : e ∈ ps)
    (hm : Mentions e.2 p) : Mentions (.obj es) p := by
  induction h with
  | nil => cases he
  | @first ps es k v h hk ih =>
    rcases List.mem_append.1 he with he | he
    · cases ih he with
      | value hv hm => exact .value (List.mem_append_left _ hv) hm
    · cases List.mem_singleton.1 he
      exact .value (e := (k, v)) (by simp) hm
  | @again ps l r k c v h ih =>
    rcases List.mem_append.1 he with he | he
    · cases ih he with
      | @value e' _ _ hv hm =>
        rcases List.mem_append.1 hv with hv | hv
        · exact .value (List.mem_append_left _ hv) hm
        · rcases List.mem_cons.1 hv with rfl | hv
          · exact .value (e := (k, .link c (remember c v))) (by simp) (.older hm)
          · exact .value (List.mem_append_right _ (List.mem_cons_of_mem _ hv)) hm
    · cases List.mem_singleton.1 he
      refine .value (e := (k, .link c (remember c v))) (by simp) (.newer ?_)
      cases hm with
      | ref => exact .ref
      | elem hv h => exact .elem hv h
      | value hv h => exact .value hv h
      | older h => exact .older h
      | newer h => exact .newer h
      | part hv h => exact .part hv h

/-- What is so for all written values, and for a further definition, is so for what an object holds. -/
theorem gathered_both {ps es : Entries} {P Q : Value → Prop} (h : Gathered ps es) (hp : ∀ e ∈ ps, P e.2)
    (hf : ∀ v, P v → Q v) (ha : ∀ c v, Q c → P v → Q (.link c (remember c v))) : ∀ e ∈ es, Q e.2 := by
  induction h with
  | nil => simp
  | @first ps es k v h hk ih =>
    intro e he
    rcases List.mem_append.1 he with he | he
    · exact ih (fun e he => hp e (List.mem_append_left _ he)) e he
    · cases List.mem_singleton.1 he
      exact hf _ (hp (k, v) (by simp))
  | @again ps l r k c v h ih =>
    have ih := ih (fun e he => hp e (List.mem_append_left _ he))
    intro e he
    rcases List.mem_append.1 he with he | he
    · exact ih e (List.mem_append_left _ he)
    · rcases List.mem_cons.1 he with rfl | he
      · exact ha c v (ih (k, c) (by simp)) (hp (k, v) (by simp))
      · exact ih e (List.mem_append_right _ (List.mem_cons_of_mem _ he))

theorem gathered_all {ps es : Entries} {P : Value → Prop} (h : Gathered ps es) (hp : ∀ e ∈ ps, P e.2)
    (ha : ∀ c v, P c → P v → P (.link c (remember c v))) : ∀ e ∈ es, P e.2 :=
  gathered_both h hp (fun _ h => h) ha

theorem settled_remember {p v : Value} (h : Settled v) : Settled (remember p v) := by
  cases h with
  | constant h => cases v <;> exact .constant h
  | arr h => exact .arr h
  | obj h => exact .obj h
  | link hp hv => exact .link hp hv

theorem settled_resolved {var : Bytes → Option Bytes} {doc v : Value} (h : Settled v) : Resolved var doc v v := by
  induction h with
  | constant h => exact .constant h
  | @arr vs h ih =>
    clear h
    induction vs with
    | nil => exact .nil
    | cons v vs ihs => exact .cons (ih v (by simp)) (ihs fun w hw => ih w (List.mem_cons_of_mem _ hw))
  | @obj es h ih =>
    clear h
    induction es with
    | nil => exact .empty
    | cons e es ihs => exact .entry (ih e (by simp)) (ihs fun w hw => ih w (List.mem_cons_of_mem _ hw))
  | link _ _ ihp ihv => exact .link ihp ihv

/-! ### Gaps -/

theorem noHead_gap {P : UInt8 → Prop} {g : Bytes} (hP : ∀ b ∈ bytes " \t\r\n#/", ¬ P b) (hg : Gap g) (hr : NoHead P r) :
    NoHead P (g ++ r) := by
  obtain ⟨b, cs, hb, hc, rfl⟩ := hg
  cases b with
  | cons x b =>
    exact noHead_cons.2 (hP x ((by decide : ∀ b ∈ bytes " \t\r\n", b ∈ bytes " \t\r\n#/") x (hb x (by simp))))
  | nil =>
    cases cs with
    | nil => simpa [commentLines] using hr
    | cons c cs =>
      obtain ⟨⟨y, rfl | rfl⟩, -⟩ := hc c (by simp)
      · exact noHead_cons.2 (hP _ (by decide))
      · exact noHead_cons.2 (hP _ (by decide))

/-- A gap in front of something that skips gaps. -/
theorem eats_spaced_gap {p : Parser UInt8 A} [Good p] {v : A} {g : Bytes} (hg : Gap g) (hq : Quiet (t ++ rest))
    (h : Eats (spaced p) t v rest) : Eats (spaced p) (g ++ t) v rest := by
  unfold spaced surround at h ⊢
  obtain ⟨t1, t2, w, h1, h2, h3⟩ := eats_skipLeft.1 h
  obtain ⟨rfl, -, h4⟩ := eats_unique h2 (eats_gap gap_nil hq) (by rw [h1]; simp)
  rw [List.nil_append] at h1
  subst h1
  exact Eats.skipLeft (eats_gap hg hq) h3

/-! ### Keys -/

theorem quotedText_head {s t : Bytes} (h : QuotedText s t) : ∃ q x, (q = '"' ∨ q = '\'') ∧ t = byte q :: x := by
  obtain ⟨q, items, hq, -, -, -, rfl, -⟩ := h
  exact ⟨q, _, hq, rfl⟩

theorem keyText_head {P : UInt8 → Prop} {k kt : Bytes} (h : KeyText k kt) (hP : ∀ b, P b → ¬ SegByte b)
    (h1 : ¬ P (byte '"')) (h2 : ¬ P (byte '\'')) : NoHead P (kt ++ r) := by
  rcases h with ⟨h, -⟩ | h
  · obtain ⟨b, x, rfl, hb⟩ := pathText_head h
    exact noHead_cons.2 fun hp => hP b hp hb
  · obtain ⟨q, x, rfl | rfl, rfl⟩ := quotedText_head h
    · exact noHead_cons.2 h1
    · exact noHead_cons.2 h2

theorem keyText_quiet {k kt : Bytes} (h : KeyText k kt) : Quiet (kt ++ r) :=
  keyText_head h (fun b hb hs => seg_quiet hs hb) (by decide) (by decide)

theorem eats_quotedKey {k kt g : Bytes} (hk : QuotedText k kt) (hg : Gap g) (hr : Quiet rest) : Eats key (kt ++ g) k rest := by
  obtain ⟨q, items, hq, hne, h, hf, rfl, rfl⟩ := hk
  have h1 := eats_escString hq hne h hf hg hr
  have h2 : NoHead SegByte (byte q :: itemsText items ++ (byte q :: g) ++ rest) := by
    rcases hq with rfl | rfl <;> exact noHead_cons.2 (by decide)
  unfold key
  have := eats_spaced' (p := or (attempt path) string) (t := byte q :: itemsText items ++ (byte q :: g)) (b2 := [])
    (rest := rest) (v := denoted items) gap_nil
    (by rcases hq with rfl | rfl <;> exact noHead_cons.2 (by decide)) hr (.or_right (fail_path h2) h1)
  simpa using this

theorem eats_keyText {k kt g : Bytes} (hk : KeyText k kt) (hg : Gap g) (hr : Quiet rest) (hp : NoHead PathByte rest) :
    Eats key (kt ++ g) k rest := by
  rcases hk with ⟨hk, rfl⟩ | hk
  · unfold key
    exact eats_spaced' hg (pathText_quiet hk) hr (Eats.or_left (eats_path hk
      (noHead_gap (by unfold PathByte; decide) hg hp)).attempt)
  · exact eats_quotedKey hk hg hr

/-! ### Braces -/

section
variable {cv : Parser UInt8 Value} {prop : Parser UInt8 (Bytes × Value)} [Good cv] [Good prop]

/-- A byte that begins an unquoted key behind which there is no value. -/
theorem fail_run {x : Bytes} {b : UInt8} (hbq : b ∉ bytes " \t\r\n#/") (hbs : ¬ SegByte b) (hb : ¬ Special b) (h : Guarded x) :
    Fail (property cv prop) (b :: x) .uncommitted := by
  obtain ⟨run, g, y, rfl, hr, hs, hg, hq, hn⟩ := h
  have hall : ∀ x ∈ b :: run, ¬ Special x := by
    intro x hx
    rcases List.mem_cons.1 hx with rfl | hx
    · exact hb
    · exact hr x hx
  unfold property
  by_cases hu : Uri.validUtf8 (b :: run) = true
  · have hkey : Eats key ((b :: run) ++ g) (b :: run) y := by
      unfold key
      exact eats_spaced' hg (noHead_cons.2 hbq) hq
        (.or_right (fail_path (noHead_cons.2 hbs)) (eats_unquoted (noHead_cons.2 hbq) (by simp) hu hall hs))
    have := hkey.andThen_fail (fail_afterKey (cv := cv) (prop := prop) hq hn)
    simpa using this
  · refine .andThen ?_
    unfold key
    refine fail_spaced' (noHead_cons.2 hbq) (.or (fail_path (noHead_cons.2 hbs)) ?_)
    have hqt : ∀ ch, ch = '"' ∨ ch = '\'' → Fail (quote ch) (b :: (run ++ (g ++ y))) .uncommitted := by
      intro ch hch
      refine fail_quote (noHead_cons.2 hbq) (noHead_cons.2 ?_)
      rintro rfl
      rcases hch with rfl | rfl <;> exact hb (by decide)
    unfold string
    refine .map _ (.or (.or (fail_attempt_of (.surround (hqt _ (.inl rfl)))) (fail_attempt_of (.surround (hqt _ (.inr rfl)))))
      ?_)
    unfold stringSurround
    refine fail_many1.2 ⟨rfl, .uncommitted, .or (fail_attempt_of (c := .uncommitted) ?_) (fail_utf16String (noHead_cons.2 ?_))⟩
    · unfold charString
      refine fail_mapRes.2 (.inr ⟨rfl, b :: run, b :: run, g ++ y, rfl,
        eats_many1.2 ⟨by simp, many_strByte hall, _, fail_strByte hs⟩, ?_⟩)
      unfold fromUtf8
      simp [hu]
    · rintro rfl; exact hb (by decide)

theorem fail_guarded {x : Bytes} {b : UInt8} (hb : b = byte '{' ∨ b = byte '}') (h : Guarded x) :
    Fail (property cv prop) (b :: x) .uncommitted := by
  rcases hb with rfl | rfl <;> exact fail_run (by decide) (by decide) (by decide) h

theorem fail_property_bracket : Fail (property cv prop) (byte '[' :: r) .uncommitted := by
  unfold property key
  exact .andThen (fail_spaced' (noHead_cons.2 (by decide)) (.or (fail_path (noHead_cons.2 (by decide)))
    (fail_string (noHead_cons.2 (by decide)) (noHead_cons.2 (by decide)))))

/-! ### Values without parts -/

theorem eats_durGap {d : Decimal} {sp g1 b2 : Bytes} {u : TimeUnit} (ht : DecimalText t)
    (hd : S.parseDecimal t = some d) (h1 : Gap g1) (hs : (sp, u) ∈ shortUnits) (h2 : Gap b2)
    (hr : NoHead Letter (b2 ++ rest)) (hq : Quiet rest) :
    Eats (softSimple S) ((t ++ (g1 ++ sp)) ++ b2) (.dur d u) rest := by
  have hs' : (sp, [], u) ∈ unitTable := (by decide : ∀ e ∈ shortUnits, (e.1, [], e.2) ∈ unitTable) _ hs
  obtain ⟨b, x, hx, h3, h4⟩ := shortUnits_head _ hs
  dsimp only at hx
  have hn : Eats (softDuration S) (t ++ g1 ++ sp) (d, u) (b2 ++ rest) := by
    have hn := eats_softNumber (b2 := g1) (rest := sp ++ (b2 ++ rest)) ht hd h1
      (noHead_gap (by decide) h1 (by rw [hx]; exact noHead_cons.2 h3)) (by rw [hx]; exact noHead_cons.2 h4)
    unfold softDuration
    exact Eats.andThen hn (eats_unit (w' := []) hs' hr)
  rw [← List.append_assoc t]
  unfold softSimple
  refine eats_spaced' h2 (by rw [List.append_assoc, List.append_assoc]; exact decimalText_quiet ht) hq
    (.or_left (.or_left (.or_right ?_ ?_)))
  · rw [List.append_assoc, List.append_assoc]; exact fail_consts (decimalText_noConst ht)
  · exact (hn.map fun (d, u) => Value.dur d u).attempt

theorem bareText_head {P : UInt8 → Prop} {s : Bytes} (h : BareText s)
    (hP : ∀ b, P b → Special b ∨ b ∈ bytes " \t#/-{$" ∨ Digit b) : NoHead P (s ++ r) := by
  obtain ⟨h1, -, h2, h3, -⟩ := h
  cases s with
  | nil => exact absurd rfl h1
  | cons b s =>
    refine noHead_cons.2 fun hb => ?_
    rcases hP b hb with h | h
    · exact h2 b (by simp) h
    · exact h3 b s rfl h

theorem bareText_quiet {s : Bytes} (h : BareText s) : Quiet (s ++ r) :=
  bareText_head h (by
    intro b hb
    have : ∀ b ∈ bytes " \t\r\n#/", Special b ∨ b ∈ bytes " \t#/-{$" := by decide
    rcases this b hb with h | h
    · exact .inl h
    · exact .inr (.inl h))

theorem letter_noSpecial {b : UInt8} (h : Letter b) : ¬ Special b := fun hs =>
  (by decide : ∀ b ∈ bytes "[]\r\n\\\"'", ¬ Letter b) b hs h

theorem eats_bareValue {s b2 : Bytes} (h : BareText s) (hs : StrStop (b2 ++ rest)) (h2 : Gap b2) (hr : Quiet rest) :
    Eats (softSimple S) (s ++ b2) (.str s) rest := by
  have hn := eats_unquoted (bareText_quiet h) h.1 h.2.1 h.2.2.1 hs
  have hd : NoHead (fun b => Digit b ∨ b = byte '-') (s ++ (b2 ++ rest)) := bareText_head h (by
    rintro b (hb | rfl)
    · exact .inr (.inr hb)
    · exact .inr (.inl (by decide)))
  have hq : Quiet (s ++ (b2 ++ rest)) := bareText_quiet h
  have no : ∀ {lit : Bytes} {v : Value}, lit ∈ [bytes "null", bytes "true", bytes "false"] →
      Fail (attempt (map (seq lit) fun _ => v)) (s ++ (b2 ++ rest)) .uncommitted := by
    intro lit v hl
    obtain ⟨c, hc⟩ := fail_seq.2 (show ¬ lit <+: s ++ (b2 ++ rest) from fun hp =>
      h.2.2.2.2 lit hl (prefix_word (by
        revert hl; simp only [List.mem_cons, List.not_mem_nil, or_false]
        rintro (rfl | rfl | rfl) <;> decide) (hs.mono fun b hb => .inl (letter_noSpecial hb)) hp))
    exact fail_attempt_of (hc.map _)
  unfold softSimple
  refine eats_spaced' h2 hq hr (.or_right (.or (.or (.or (.or (no (by simp)) (no (by simp))) (no (by simp)))
      (fail_attempt_of ((fail_softDuration hq hd).map _))) (fail_attempt_of ((fail_softNumber hq hd).map _))) ?_)
  unfold stringConfigValue
  exact hn.map _

theorem eats_refGap {p : List Bytes} {o : Bool} {g1 g2 b2 : Bytes} (hp : PathText (joinDot p)) (h1 : Gap g1) (hg : Gap g2)
    (h2 : Gap b2) (hr : Quiet rest) :
    Eats referenceConfigValue
      ((bytes "${" ++ (g1 ++ ((if o then bytes "?" else []) ++ (joinDot p ++ (g2 ++ bytes "}"))))) ++ b2)
      (.ref none (joinDot p) o) rest := by
  unfold referenceConfigValue
  refine eats_map.2 ⟨(o, joinDot p), ?_, rfl⟩
  unfold reference
  have h3 : Eats (spaced (seq (bytes "}"))) (g2 ++ (bytes "}" ++ b2)) (bytes "}") rest :=
    eats_spaced hg h2 (noHead_cons.2 (by decide)) hr (eats_seq.2 ⟨rfl, rfl⟩)
  have hpath : Eats (text (many1Sep pathElement (elm (byte '.')))) (joinDot p) (joinDot p) (g2 ++ (bytes "}" ++ b2) ++ rest) := by
    refine eats_path hp ?_
    rw [List.append_assoc]
    exact noHead_gap (by unfold PathByte; decide) hg (noHead_cons.2 (by unfold PathByte; decide))
  have hopt : Eats (map (opt (elm (byte '?'))) Option.isSome) (if o then bytes "?" else []) o
      (joinDot p ++ (g2 ++ (bytes "}" ++ b2) ++ rest)) := by
    obtain ⟨b, k', hk, hb⟩ := pathText_head hp
    cases o with
    | false =>
      refine eats_map.2 ⟨none, eats_opt.2 (.inr ⟨rfl, rfl, .uncommitted, fail_elm.2 ⟨rfl, ?_⟩⟩), rfl⟩
      intro _ h
      rw [hk] at h
      cases h
      exact absurd hb (by decide)
    | true => exact eats_map.2 ⟨some (byte '?'), eats_opt.2 (.inl ⟨_, rfl, eats_elm.2 ⟨rfl, rfl⟩⟩), rfl⟩
  have hmid := Eats.andThen hopt hpath
  have h4 : Eats (spaced (seq (bytes "${"))) (bytes "${" ++ g1) (bytes "${")
      ((if o then bytes "?" else []) ++ joinDot p ++ (g2 ++ (bytes "}" ++ b2) ++ rest)) := by
    refine eats_spaced' (t := bytes "${") h1 (noHead_cons.2 (by decide)) ?_ (eats_seq.2 ⟨rfl, rfl⟩)
    obtain ⟨b, k', hk, hb⟩ := pathText_head hp
    cases o with
    | false => rw [hk]; exact noHead_cons.2 (seg_quiet hb)
    | true => exact noHead_cons.2 (by decide)
  have := Eats.surround h4 hmid h3
  simpa only [List.append_assoc] using this

/-! ### Elements and entries -/

/-- Elements read by `cv`, with what is behind the last one. -/
def ElemsRead (cv : Parser UInt8 Value) (vs : List Value) (t x : Bytes) : Prop :=
  vs = [] ∧ t = [] ∨ ∃ v ws t1 t2 t3, vs = v :: ws ∧ t = t1 ++ (t2 ++ t3) ∧ Eats cv t1 v (t2 ++ (t3 ++ x)) ∧
    SepMany cv (spaced (elm (byte ','))) t2 ws (t3 ++ x) ∧ (t3 = [] ∨ ∃ b, Eats (spaced (elm (byte ','))) t3 b x)

theorem eats_comma {g : Bytes} (hg : Gap g) (hr : Quiet r) : Eats (spaced (elm (byte ','))) (byte ',' :: g) (byte ',') r :=
  eats_spaced' (t := [byte ',']) hg (noHead_cons.2 (by decide)) hr (eats_elm.2 ⟨rfl, rfl⟩)

theorem fail_comma (hq : Quiet r) (hr : NoHead (fun b => b = byte ',') r) : Fail (spaced (elm (byte ','))) r .uncommitted :=
  fail_spaced' hq (fail_elm.2 ⟨rfl, fun _ h => hr _ _ h rfl⟩)

omit [Good cv] in
theorem ElemsRead.cons {v : Value} {vs : List Value} {t1 g1 t' x : Bytes} (hg : Gap g1) (hq : Quiet (t' ++ x))
    (h : Eats cv t1 v (byte ',' :: (g1 ++ (t' ++ x)))) (hs : ElemsRead cv vs t' x) :
    ElemsRead cv (v :: vs) (t1 ++ (byte ',' :: (g1 ++ t'))) x := by
  rcases hs with ⟨rfl, rfl⟩ | ⟨w, ws, u1, u2, u3, rfl, rfl, h1, h2, h3⟩
  · exact .inr ⟨v, [], t1, [], byte ',' :: g1, rfl, by simp, by simpa using h, .nil _, .inr ⟨_, eats_comma hg (by simpa using hq)⟩⟩
  · refine .inr ⟨v, w :: ws, t1, (byte ',' :: g1) ++ (u1 ++ u2), u3, rfl, by simp, by simpa using h, ?_, h3⟩
    exact .cons (eats_comma hg (by simpa using hq)) h1 h2

theorem eats_arrayOf {vs : List Value} {g1 g2 : Bytes} (h1 : Gap g1) (h : ElemsRead cv vs t (byte ']' :: (g2 ++ rest)))
    (hq : Quiet (t ++ (byte ']' :: (g2 ++ rest)))) (h0 : ∀ r, ∃ c, Fail cv (byte ']' :: r) c) (h2 : Gap g2) (hr : Quiet rest) :
    Eats (arrayConfigValue cv) ((byte '[' :: (g1 ++ (t ++ [byte ']']))) ++ g2) (.arr vs) rest := by
  have h3 : Eats (spaced (elm (byte ']'))) ([byte ']'] ++ g2) (byte ']') rest :=
    eats_spaced' h2 (noHead_cons.2 (by decide)) hr (eats_elm.2 ⟨rfl, rfl⟩)
  have h4 : Eats (spaced (elm (byte '['))) (byte '[' :: g1) (byte '[') (t ++ ([byte ']'] ++ g2 ++ rest)) :=
    eats_spaced' (t := [byte '[']) h1 (noHead_cons.2 (by decide)) (by simpa using hq) (eats_elm.2 ⟨rfl, rfl⟩)
  have h5 : Eats (many0Sep cv (spaced (elm (byte ',')))) t vs ([byte ']'] ++ g2 ++ rest) := by
    have hc : Fail (spaced (elm (byte ','))) ([byte ']'] ++ g2 ++ rest) .uncommitted :=
      fail_comma (noHead_cons.2 (by decide)) (noHead_cons.2 (by decide))
    refine eats_many0Sep.2 ?_
    rcases h with ⟨rfl, rfl⟩ | ⟨w, ws, u1, u2, u3, rfl, rfl, h1, h2, h3⟩
    · exact .inl ⟨rfl, rfl, by simpa using h0 _⟩
    · refine .inr (eats_many1Sep.2 ⟨u1, u2, u3, w, ws, rfl, rfl, by simpa using h1, by simpa using h2, ?_⟩)
      rcases h3 with rfl | h3
      · exact .inl ⟨rfl, _, hc⟩
      · exact .inr ⟨by simpa using h3, by simpa using h0 _⟩
  have := Eats.surround h4 h5 h3
  unfold arrayConfigValue array
  refine eats_map.2 ⟨vs, ?_, rfl⟩
  simpa using this

/-- Entries read by `prop`, with what is behind each of them. -/
inductive EntriesRead (prop : Parser UInt8 (Bytes × Value)) (commas : Bool) : Entries → Bytes → Bytes → Prop where
  | nil {x : Bytes} : EntriesRead prop commas [] [] x
  | cons {e : Bytes × Value} {es : Entries} {t s t' x : Bytes} (h : Eats prop t e (s ++ (t' ++ x))) (hs : Sep commas s)
      (hq : Quiet (t' ++ x)) (hn : commas = true → NoHead (fun b => b = byte ',') (t' ++ x)) (hm : EntriesRead prop commas es t' x) :
      EntriesRead prop commas (e :: es) (t ++ (s ++ t')) x

omit [Good prop] in
theorem EntriesRead.many {es : Entries} {x : Bytes} (h : EntriesRead prop false es t x) : Many prop t es x := by
  induction h with
  | nil => exact .nil _
  | cons h hs hq hn hm ih =>
    rcases hs with rfl | ⟨hs, -⟩
    · exact .cons (by simpa using h) (by simpa using ih)
    · cases hs

omit [Good prop] in
theorem eats_sep {s : Bytes} {b : Bool} (hs : Sep b s) (hq : Quiet r) (hn : NoHead (fun b => b = byte ',') r) :
    ∃ o, Eats (opt (spaced (elm (byte ',')))) s o r := by
  rcases hs with rfl | ⟨-, g, hg, rfl⟩
  · exact ⟨none, eats_opt.2 (.inr ⟨rfl, rfl, .uncommitted, fail_comma hq hn⟩)⟩
  · exact ⟨some (byte ','), eats_opt.2 (.inl ⟨_, rfl, eats_comma hg hq⟩)⟩

omit [Good prop] in
theorem EntriesRead.sep {es : Entries} {x : Bytes} (h : EntriesRead prop true es t x) (hq : Quiet x)
    (hn : NoHead (fun b => b = byte ',') x) :
    es = [] ∧ t = [] ∨ ∃ e ws t1 t2 t3, es = e :: ws ∧ t = t1 ++ (t2 ++ t3) ∧ Eats prop t1 e (t2 ++ (t3 ++ x)) ∧
      SepMany prop (opt (spaced (elm (byte ',')))) t2 ws (t3 ++ x) ∧ ∃ b, Eats (opt (spaced (elm (byte ',')))) t3 b x := by
  induction h with
  | nil => exact .inl ⟨rfl, rfl⟩
  | @cons e es t s t' x h hs hq' hn' hm ih =>
    obtain ⟨o, ho⟩ := eats_sep hs hq' (hn' rfl)
    rcases ih hq hn with ⟨rfl, rfl⟩ | ⟨w, ws, u1, u2, u3, rfl, rfl, h1, h2, h3⟩
    · exact .inr ⟨e, [], t, [], s, rfl, by simp, by simpa using h, .nil _, o, by simpa using ho⟩
    · refine .inr ⟨e, w :: ws, t, s ++ (u1 ++ u2), u3, rfl, by simp, by simpa using h, ?_, h3⟩
      exact .cons (by simpa using ho) h1 h2

theorem eats_objectOf {ps es : Entries} {g1 g2 : Bytes} (h1 : Gap g1) (h : EntriesRead prop true ps t (byte '}' :: (g2 ++ rest)))
    (hk : Gathered ps es)
    (hq : Quiet (t ++ (byte '}' :: (g2 ++ rest)))) (h0 : ∃ c, Fail prop (byte '}' :: (g2 ++ rest)) c) (h2 : Gap g2) (hr : Quiet rest) :
    Eats (objectConfigValue prop) ((byte '{' :: (g1 ++ (t ++ [byte '}']))) ++ g2) (.obj es) rest := by
  have h3 : Eats (spaced (elm (byte '}'))) ([byte '}'] ++ g2) (byte '}') rest :=
    eats_spaced' h2 (noHead_cons.2 (by decide)) hr (eats_elm.2 ⟨rfl, rfl⟩)
  have h4 : Eats (spaced (elm (byte '{'))) (byte '{' :: g1) (byte '{') (t ++ ([byte '}'] ++ g2 ++ rest)) :=
    eats_spaced' (t := [byte '{']) h1 (noHead_cons.2 (by decide)) (by simpa using hq) (eats_elm.2 ⟨rfl, rfl⟩)
  have h5 : Eats (many0Sep prop (opt (spaced (elm (byte ','))))) t ps ([byte '}'] ++ g2 ++ rest) := by
    refine eats_many0Sep.2 ?_
    rcases h.sep (noHead_cons.2 (by decide)) (noHead_cons.2 (by decide)) with ⟨rfl, rfl⟩ | ⟨w, ws, u1, u2, u3, rfl, rfl, h1, h2, h3⟩
    · exact .inl ⟨rfl, rfl, by simpa using h0⟩
    · exact .inr (eats_many1Sep.2 ⟨u1, u2, u3, w, ws, rfl, rfl, by simpa using h1, by simpa using h2,
        .inr ⟨by simpa using h3, by simpa using h0⟩⟩)
  have := Eats.surround h4 h5 h3
  unfold objectConfigValue object
  refine eats_map.2 ⟨es, eats_map.2 ⟨ps, ?_, (gathered_fold hk).symm⟩, rfl⟩
  simpa using this

theorem eats_assign {k kt g1 g2 : Bytes} {b : UInt8} {v : Value} (hk : KeyText k kt) (h1 : Gap g1)
    (hb : b = byte '=' ∨ b = byte ':') (h : Eats cv (g2 ++ t) v rest) :
    Eats (property cv prop) (kt ++ (g1 ++ b :: (g2 ++ t))) (k, v) rest := by
  have hkey : Eats key (kt ++ g1) k (b :: (g2 ++ t) ++ rest) := by
    refine eats_keyText hk h1 ?_ ?_
    · rcases hb with rfl | rfl <;> exact noHead_cons.2 (by decide)
    · rcases hb with rfl | rfl <;> exact noHead_cons.2 (by unfold PathByte; decide)
  unfold property
  have := Eats.andThen (q := or (or (attempt (skipLeft kv cv)) (attempt (objectConfigValue prop))) (arrayConfigValue cv)) hkey
    (.or_left (.or_left (Eats.attempt (Eats.skipLeft (p := kv) (t1 := [b]) (v := ()) (by
      unfold kv
      exact eats_discard.2 ⟨b, (one_of _).eats.2 ⟨rfl, by rcases hb with rfl | rfl <;> decide⟩⟩) h))))
  simpa using this

theorem fail_kv (hr : NoHead (fun b => b ∈ bytes "=:") r) : Fail (attempt (skipLeft kv cv)) r .uncommitted := by
  refine fail_attempt_of (c := .uncommitted) (.skipLeft ?_)
  unfold kv
  exact fail_discard.2 ((one_of _).fail.2 ⟨rfl, hr⟩)

theorem eats_objBlock {k kt g1 x : Bytes} {v : Value} (hk : KeyText k kt) (h1 : Gap g1) (ht : t = byte '{' :: x)
    (h : Eats (objectConfigValue prop) t v rest) : Eats (property cv prop) (kt ++ (g1 ++ t)) (k, v) rest := by
  subst ht
  have hkey : Eats key (kt ++ g1) k (byte '{' :: x ++ rest) :=
    eats_keyText hk h1 (noHead_cons.2 (by decide)) (noHead_cons.2 (by unfold PathByte; decide))
  unfold property
  have := Eats.andThen (q := or (or (attempt (skipLeft kv cv)) (attempt (objectConfigValue prop))) (arrayConfigValue cv)) hkey
    (.or_left (.or_right (fail_kv (noHead_cons.2 (by decide))) (Eats.attempt h)))
  simpa using this

theorem eats_arrBlock {k kt g1 x : Bytes} {v : Value} (hk : KeyText k kt) (h1 : Gap g1) (ht : t = byte '[' :: x)
    (h : Eats (arrayConfigValue cv) t v rest) : Eats (property cv prop) (kt ++ (g1 ++ t)) (k, v) rest := by
  subst ht
  have hkey : Eats key (kt ++ g1) k (byte '[' :: x ++ rest) :=
    eats_keyText hk h1 (noHead_cons.2 (by decide)) (noHead_cons.2 (by unfold PathByte; decide))
  unfold property
  have := Eats.andThen (q := or (or (attempt (skipLeft kv cv)) (attempt (objectConfigValue prop))) (arrayConfigValue cv)) hkey
    (.or_right (.or (fail_kv (noHead_cons.2 (by decide)))
      (fail_attempt_of (fail_object (noHead_cons.2 (by decide)) (noHead_cons.2 (by decide))))) h)
  simpa using this

end

/-! ### First bytes -/

variable {dec : Bytes → Option Decimal} {v : Value} {g x : Bytes}

theorem val_quiet (h : Val dec v t g r) : Quiet (t ++ rest) := by
  cases h with
  | null => exact noHead_cons.2 (by decide)
  | true_ => exact noHead_cons.2 (by decide)
  | false_ => exact noHead_cons.2 (by decide)
  | num ht => exact decimalText_quiet ht
  | dur ht => rw [List.append_assoc]; exact decimalText_quiet ht
  | quoted h => obtain ⟨q, x, rfl | rfl, rfl⟩ := quotedText_head h <;> exact noHead_cons.2 (by decide)
  | bare h => exact bareText_quiet h
  | ref => exact noHead_cons.2 (by decide)
  | arr => exact noHead_cons.2 (by decide)
  | obj => exact noHead_cons.2 (by decide)

theorem val_obj (h : Val dec v t g r) (hv : IsObj v) : ∃ x, t = byte '{' :: x := by
  cases h <;> first | exact ⟨_, rfl⟩ | cases hv

theorem val_arr (h : Val dec v t g r) (hv : IsArr v) : ∃ x, t = byte '[' :: x := by
  cases h <;> first | exact ⟨_, rfl⟩ | cases hv

theorem elems_quiet {vs : List Value} (h : Elems dec vs t x) (hx : Quiet x) : Quiet (t ++ x) := by
  cases h with
  | nil => exact hx
  | one hg h => rw [List.append_assoc]; exact val_quiet h
  | cons hg h1 h hs => rw [List.append_assoc]; exact val_quiet h

theorem members_head {commas : Bool} {es : Entries} {P : UInt8 → Prop} (h : Members dec commas es t x) (hx : NoHead P x)
    (hP : ∀ b, P b → ¬ SegByte b) (h1 : ¬ P (byte '"')) (h2 : ¬ P (byte '\'')) : NoHead P (t ++ x) := by
  cases h with
  | nil => exact hx
  | assign hk => rw [List.append_assoc]; exact keyText_head hk hP h1 h2
  | block hk => rw [List.append_assoc]; exact keyText_head hk hP h1 h2

theorem members_quiet {commas : Bool} {es : Entries} (h : Members dec commas es t x) (hx : Quiet x) : Quiet (t ++ x) :=
  members_head h hx (fun b hb hs => seg_quiet hs hb) (by decide) (by decide)

theorem members_comma {commas : Bool} {es : Entries} (h : Members dec commas es t x) (hx : NoHead (fun b => b = byte ',') x) :
    NoHead (fun b => b = byte ',') (t ++ x) :=
  members_head h hx (by rintro b rfl; decide) (by decide) (by decide)

/-! ### Values -/

/-- The value is read at nesting `n`. -/
structure Reads (S : Std) (n : Nat) (v : Value) (t g r : Bytes) : Prop where
  cv : Eats (softGrammar S n).1 (t ++ g) v r
  obj : IsObj v → Eats (objectConfigValue (softGrammar S n).2) (t ++ g) v r
  arr : IsArr v → Eats (arrayConfigValue (softGrammar S n).1) (t ++ g) v r

theorem reads_simple {n : Nat} (hq : Quiet (t ++ g ++ r)) (hr : Quiet r) (ho : ¬ IsObj v) (ha : ¬ IsArr v)
    (hn : NoHead (fun b => b ∈ bytes "[{$") (t ++ g ++ r)) (h : Eats (softSimple S) (t ++ g) v r) :
    Reads S (n + 1) v t g r := by
  refine ⟨?_, fun h => absurd h ho, fun h => absurd h ha⟩
  show Eats (softConfigValue S (lazy fun _ => (softGrammar S n).1) (lazy fun _ => (softGrammar S n).2)) _ _ _
  exact eats_cvSimple hq hr hn h

theorem decimalText_noOpen (h : DecimalText t) : NoHead (fun b => b ∈ bytes "[{$") (t ++ r) := by
  obtain ⟨b, x, rfl, hb⟩ := decimalText_head h
  exact noHead_cons.2 fun hm => digit_noConst hb ((by decide : ∀ b ∈ bytes "[{$", b ∈ bytes "ntf[{$") b hm)

/-- A value in front of which there is a gap. -/
theorem eats_gapValue {n : Nat} {g2 : Bytes} (h2 : Gap g2) (hq : Quiet (t ++ r)) (h : Eats (softGrammar S (n + 1)).1 t v r) :
    Eats (softGrammar S (n + 1)).1 (g2 ++ t) v r := by
  revert h
  show Eats (softConfigValue S (lazy fun _ => (softGrammar S n).1) (lazy fun _ => (softGrammar S n).2)) _ _ _ →
    Eats (softConfigValue S (lazy fun _ => (softGrammar S n).1) (lazy fun _ => (softGrammar S n).2)) _ _ _
  unfold softConfigValue
  exact fun h => eats_spaced_gap h2 hq h

theorem assign_reads {c : Bool} {k kt g1 g2 s t' : Bytes} {b : UInt8} {es : Entries} (hk : KeyText k kt)
    (h1 : Gap g1) (hb : b = byte '=' ∨ b = byte ':') (h2 : Gap g2) (hg : Gap g) (hs : Sep c s)
    (h : Val S.parseDecimal v t g (s ++ (t' ++ x))) (hm : Members S.parseDecimal c es t' x)
    (ih : Gap g → Quiet (s ++ (t' ++ x)) → ∃ N, ∀ n, N ≤ n → Reads S n v t g (s ++ (t' ++ x)))
    (ihm : Quiet x → (c = true → NoHead (fun b => b = byte ',') x) → ∃ N, ∀ n, N ≤ n → EntriesRead (softGrammar S n).2 c es t' x)
    (hx : Quiet x) (hc : c = true → NoHead (fun b => b = byte ',') x) :
    ∃ N, ∀ n, N ≤ n → EntriesRead (softGrammar S n).2 c ((k, v) :: es)
      (kt ++ (g1 ++ b :: (g2 ++ (t ++ (g ++ (s ++ t')))))) x := by
  have hq' := members_quiet hm hx
  have hc' := fun h => members_comma hm (hc h)
  have hq : Quiet (s ++ (t' ++ x)) := by
    rcases hs with rfl | ⟨-, g, -, rfl⟩
    · exact hq'
    · exact noHead_cons.2 (by decide)
  obtain ⟨N, hN⟩ := ih hg hq
  obtain ⟨M, hM⟩ := ihm hx hc
  refine ⟨max (N + 2) M, fun n hn => ?_⟩
  obtain ⟨m, rfl⟩ : ∃ m, n = m + 2 := ⟨n - 2, by omega⟩
  have he : Eats (softGrammar S (m + 2)).2 (kt ++ (g1 ++ b :: (g2 ++ (t ++ g)))) (k, v) (s ++ (t' ++ x)) := by
    show Eats (property (lazy fun _ => (softGrammar S (m + 1)).1) (lazy fun _ => (softGrammar S (m + 1)).2)) _ _ _
    exact eats_assign hk h1 hb (eats_gapValue h2 (by rw [List.append_assoc]; exact val_quiet h) (hN (m + 1) (by omega)).cv)
  have := EntriesRead.cons he hs hq' hc' (hM (m + 2) (by omega))
  simpa using this

theorem block_reads {c : Bool} {k kt g1 s t' : Bytes} {es : Entries} (hk : KeyText k kt)
    (h1 : Gap g1) (hv : IsObj v ∨ IsArr v) (hg : Gap g) (hs : Sep c s)
    (h : Val S.parseDecimal v t g (s ++ (t' ++ x))) (hm : Members S.parseDecimal c es t' x)
    (ih : Gap g → Quiet (s ++ (t' ++ x)) → ∃ N, ∀ n, N ≤ n → Reads S n v t g (s ++ (t' ++ x)))
    (ihm : Quiet x → (c = true → NoHead (fun b => b = byte ',') x) → ∃ N, ∀ n, N ≤ n → EntriesRead (softGrammar S n).2 c es t' x)
    (hx : Quiet x) (hc : c = true → NoHead (fun b => b = byte ',') x) :
    ∃ N, ∀ n, N ≤ n → EntriesRead (softGrammar S n).2 c ((k, v) :: es) (kt ++ (g1 ++ (t ++ (g ++ (s ++ t'))))) x := by
  have hq' := members_quiet hm hx
  have hc' := fun h => members_comma hm (hc h)
  have hq : Quiet (s ++ (t' ++ x)) := by
    rcases hs with rfl | ⟨-, g, -, rfl⟩
    · exact hq'
    · exact noHead_cons.2 (by decide)
  obtain ⟨N, hN⟩ := ih hg hq
  obtain ⟨M, hM⟩ := ihm hx hc
  refine ⟨max (N + 1) M, fun n hn => ?_⟩
  obtain ⟨m, rfl⟩ : ∃ m, n = m + 1 := ⟨n - 1, by omega⟩
  have he : Eats (softGrammar S (m + 1)).2 (kt ++ (g1 ++ (t ++ g))) (k, v) (s ++ (t' ++ x)) := by
    show Eats (property (lazy fun _ => (softGrammar S m).1) (lazy fun _ => (softGrammar S m).2)) _ _ _
    have hr := hN m (by omega)
    rcases hv with hv | hv
    · obtain ⟨y, rfl⟩ := val_obj h hv
      exact eats_objBlock hk h1 (List.cons_append ..) (hr.obj hv)
    · obtain ⟨y, rfl⟩ := val_arr h hv
      exact eats_arrBlock hk h1 (List.cons_append ..) (hr.arr hv)
  have := EntriesRead.cons he hs hq' hc' (hM (m + 1) (by omega))
  simpa using this

theorem val_reads (h : Val S.parseDecimal v t g r) : Gap g → Quiet r → ∃ N, ∀ n, N ≤ n → Reads S n v t g r := by
  refine Val.rec
    (motive_1 := fun v t g r _ => Gap g → Quiet r → ∃ N, ∀ n, N ≤ n → Reads S n v t g r)
    (motive_2 := fun vs t x _ => Quiet x → ∃ N, ∀ n, N ≤ n → ElemsRead (softGrammar S n).1 vs t x)
    (motive_3 := fun c es t x _ => Quiet x → (c = true → NoHead (fun b => b = byte ',') x) →
      ∃ N, ∀ n, N ≤ n → EntriesRead (softGrammar S n).2 c es t x)
    ?_ ?_ ?_ ?_ ?_ ?_ ?_ ?_ ?_ ?_ ?_ ?_ ?_ ?_ ?_ ?_ h
  -- constants, numbers, durations and strings
  · intro g r hg hr
    exact ⟨1, fun n hn => by
      obtain ⟨m, rfl⟩ : ∃ m, n = m + 1 := ⟨n - 1, by omega⟩
      exact reads_simple (noHead_cons.2 (by decide)) hr id id (noHead_cons.2 (by decide)) (eats_const (by simp) hg hr)⟩
  · intro g r hg hr
    exact ⟨1, fun n hn => by
      obtain ⟨m, rfl⟩ : ∃ m, n = m + 1 := ⟨n - 1, by omega⟩
      exact reads_simple (noHead_cons.2 (by decide)) hr id id (noHead_cons.2 (by decide)) (eats_const (by simp) hg hr)⟩
  · intro g r hg hr
    exact ⟨1, fun n hn => by
      obtain ⟨m, rfl⟩ : ∃ m, n = m + 1 := ⟨n - 1, by omega⟩
      exact reads_simple (noHead_cons.2 (by decide)) hr id id (noHead_cons.2 (by decide)) (eats_const (by simp) hg hr)⟩
  · intro t g r d ht hd he hg hr
    exact ⟨1, fun n hn => by
      obtain ⟨m, rfl⟩ : ∃ m, n = m + 1 := ⟨n - 1, by omega⟩
      refine reads_simple ?_ hr id id ?_ (eats_numberText ht hd hg he.1 hr he.2)
      · rw [List.append_assoc]; exact decimalText_quiet ht
      · rw [List.append_assoc]; exact decimalText_noOpen ht⟩
  · intro t g1 sp g r d u ht hd h1 hs he hg hr
    exact ⟨1, fun n hn => by
      obtain ⟨m, rfl⟩ : ∃ m, n = m + 1 := ⟨n - 1, by omega⟩
      refine reads_simple ?_ hr id id ?_ (eats_durGap ht hd h1 hs hg he hr)
      · rw [List.append_assoc, List.append_assoc]; exact decimalText_quiet ht
      · rw [List.append_assoc, List.append_assoc]; exact decimalText_noOpen ht⟩
  · rintro s t g r ⟨q, items, hq, hne, hi, hf, rfl, rfl⟩ hg hr
    exact ⟨1, fun n hn => by
      obtain ⟨m, rfl⟩ : ∃ m, n = m + 1 := ⟨n - 1, by omega⟩
      have h := eats_escValue (S := S) hq hne hi hf hg hr
      refine reads_simple ?_ hr id id ?_ (by simpa using h)
      · rcases hq with rfl | rfl <;> exact noHead_cons.2 (by decide)
      · rcases hq with rfl | rfl <;> exact noHead_cons.2 (by decide)⟩
  · intro s g r h he hg hr
    exact ⟨1, fun n hn => by
      obtain ⟨m, rfl⟩ : ∃ m, n = m + 1 := ⟨n - 1, by omega⟩
      refine reads_simple ?_ hr id id ?_ (eats_bareValue h he hg hr)
      · rw [List.append_assoc]; exact bareText_quiet h
      · rw [List.append_assoc]
        refine bareText_head h fun b hb => ?_
        have : ∀ b ∈ bytes "[{$", Special b ∨ b ∈ bytes " \t#/-{$" := by decide
        rcases this b hb with h | h
        · exact .inl h
        · exact .inr (.inl h)⟩
  -- references
  · intro p o g1 g2 g r hp h1 h2 hg hr
    exact ⟨1, fun n hn => by
      obtain ⟨m, rfl⟩ : ∃ m, n = m + 1 := ⟨n - 1, by omega⟩
      refine ⟨?_, False.elim, False.elim⟩
      show Eats (softConfigValue S (lazy fun _ => (softGrammar S m).1) (lazy fun _ => (softGrammar S m).2)) _ _ _
      exact eats_cvRef (noHead_cons.2 (by decide)) hr (noHead_cons.2 (by decide)) (eats_refGap hp h1 h2 hg hr)⟩
  -- arrays
  · intro vs g1 t g r h1 h ih hg hr
    have hx : Quiet (byte ']' :: (g ++ r)) := noHead_cons.2 (by decide)
    obtain ⟨N, hN⟩ := ih hx
    have key : ∀ n, N + 1 ≤ n → Eats (arrayConfigValue (softGrammar S n).1) ((byte '[' :: (g1 ++ (t ++ [byte ']']))) ++ g) (.arr vs) r := by
      intro n hn
      refine eats_arrayOf h1 (hN n (by omega)) (elems_quiet h hx) ?_ hg hr
      intro r
      obtain ⟨m, rfl⟩ : ∃ m, n = m + 1 := ⟨n - 1, by omega⟩
      exact ⟨.uncommitted, fail_cv_close⟩
    refine ⟨N + 2, fun n hn => ⟨?_, False.elim, fun _ => key n (by omega)⟩⟩
    obtain ⟨m, rfl⟩ : ∃ m, n = m + 1 := ⟨n - 1, by omega⟩
    show Eats (softConfigValue S (lazy fun _ => (softGrammar S m).1) (lazy fun _ => (softGrammar S m).2)) _ _ _
    exact eats_cvArray (noHead_cons.2 (by decide)) hr (key m (by omega))
  -- objects
  · intro ps es g1 t g r h1 h hk hgd ih hg hr
    have hx : Quiet (byte '}' :: (g ++ r)) := noHead_cons.2 (by decide)
    obtain ⟨N, hN⟩ := ih hx fun _ => noHead_cons.2 (by decide)
    have key : ∀ n, N + 1 ≤ n → Eats (objectConfigValue (softGrammar S n).2) ((byte '{' :: (g1 ++ (t ++ [byte '}']))) ++ g) (.obj es) r := by
      intro n hn
      refine eats_objectOf h1 (hN n (by omega)) hk (members_quiet h hx) ?_ hg hr
      obtain ⟨m, rfl⟩ : ∃ m, n = m + 1 := ⟨n - 1, by omega⟩
      exact ⟨.uncommitted, fail_guarded (.inr rfl) hgd⟩
    refine ⟨N + 2, fun n hn => ⟨?_, fun _ => key n (by omega), False.elim⟩⟩
    obtain ⟨m, rfl⟩ : ∃ m, n = m + 1 := ⟨n - 1, by omega⟩
    show Eats (softConfigValue S (lazy fun _ => (softGrammar S m).1) (lazy fun _ => (softGrammar S m).2)) _ _ _
    exact eats_cvObject (noHead_cons.2 (by decide)) hr (noHead_cons.2 (by decide)) (key m (by omega))
  -- elements
  · exact fun _ => ⟨0, fun n _ => .inl ⟨rfl, rfl⟩⟩
  · intro v t g x hg h ih hx
    obtain ⟨N, hN⟩ := ih hg hx
    exact ⟨N, fun n hn => .inr ⟨v, [], t ++ g, [], [], rfl, by simp, by simpa using (hN n hn).cv, .nil _, .inl rfl⟩⟩
  · intro v vs t g g1 t' x hg h1 h hs ih ihs hx
    obtain ⟨N, hN⟩ := ih hg (noHead_cons.2 (by decide))
    obtain ⟨M, hM⟩ := ihs hx
    refine ⟨max N M, fun n hn => ?_⟩
    have := ElemsRead.cons h1 (elems_quiet hs hx) (hN n (by omega)).cv (hM n (by omega))
    simpa using this
  -- entries
  · exact fun _ _ => ⟨0, fun n _ => .nil⟩
  · intro c k kt g1 g2 t g s t' x b v es hk h1 hb h2 hg hs h hm ih ihm hx hc
    exact assign_reads hk h1 hb h2 hg hs h hm ih ihm hx hc
  · intro c k kt g1 t g s t' x v es hk h1 hv hg hs h hm ih ihm hx hc
    exact block_reads hk h1 hv hg hs h hm ih ihm hx hc

theorem members_reads {commas : Bool} {es : Entries} (h : Members S.parseDecimal commas es t x) (hx : Quiet x)
    (hc : commas = true → NoHead (fun b => b = byte ',') x) : ∃ N, ∀ n, N ≤ n → EntriesRead (softGrammar S n).2 commas es t x := by
  induction es generalizing t with
  | nil => cases h; exact ⟨0, fun n _ => .nil⟩
  | cons e es ih =>
    cases h with
    | assign hk h1 hb h2 hg hs h hm =>
      exact assign_reads hk h1 hb h2 hg hs h hm (val_reads h) (fun _ _ => ih hm) hx hc
    | block hk h1 hv hg hs h hm => exact block_reads hk h1 hv hg hs h hm (val_reads h) (fun _ _ => ih hm) hx hc

/-! ### Documents -/

theorem items_head {vs : List Value} (h : Layout.Items dec vs t) :
    t = [] ∨ (∃ x, t = byte '{' :: x) ∨ ∃ x, t = byte '[' :: x := by
  cases h with
  | nil => exact .inl rfl
  | cons hv hg h hs =>
    rcases hv with hv | hv
    · obtain ⟨x, rfl⟩ := val_obj h hv; exact .inr (.inl ⟨_, rfl⟩)
    · obtain ⟨x, rfl⟩ := val_arr h hv; exact .inr (.inr ⟨_, rfl⟩)

theorem items_quiet' {vs : List Value} (h : Layout.Items dec vs t) : Quiet t := by
  rcases items_head h with rfl | ⟨x, rfl⟩ | ⟨x, rfl⟩
  · exact noHead_nil
  · exact noHead_cons.2 (by decide)
  · exact noHead_cons.2 (by decide)

theorem items_reads {vs : List Value} (h : Layout.Items S.parseDecimal vs t) : ∃ N, ∀ n, N ≤ n →
    Many (or (attempt (objectConfigValue (softGrammar S n).2)) (arrayConfigValue (softGrammar S n).1)) t vs [] := by
  induction h with
  | nil => exact ⟨0, fun n _ => .nil _⟩
  | @cons v vs t g t' hv hg h hs ih =>
    obtain ⟨M, hM⟩ := ih
    obtain ⟨N, hN⟩ := val_reads h hg (items_quiet' hs)
    refine ⟨max N M, fun n hn => ?_⟩
    have hr := hN n (by omega)
    rw [← List.append_assoc]
    refine .cons ?_ (hM n (by omega))
    rw [List.append_nil]
    rcases hv with hv | hv
    · exact .or_left (Eats.attempt (hr.obj hv))
    · refine .or_right (fail_attempt_of (c := .uncommitted) ?_) (hr.arr hv)
      obtain ⟨y, rfl⟩ := val_arr h hv
      exact fail_object (noHead_cons.2 (by decide)) (noHead_cons.2 (by decide))

theorem doc_config {n : Nat} {vs : List Value} (hg : Gap g) (hq : Quiet t)
    (h : Eats (config (softGrammar S n).1 (softGrammar S n).2) t vs []) : parse (hocon S n) (g ++ t) = .ok vs := by
  refine parse_soft ?_ (by simp)
  unfold softHocon
  refine parse_end_ok.2 ?_
  exact Eats.skipLeft (p := spaceOrComment) (eats_gap hg (by simpa using hq)) h

theorem doc_reads {vs : List Value} (h : Doc S.parseDecimal vs t) : ∃ N, ∀ n, N ≤ n → parse (hocon S n) t = .ok vs := by
  cases h with
  | @settings es g t hg hne hk h =>
    obtain ⟨N, hN⟩ := members_reads h noHead_nil fun _ => noHead_nil
    refine ⟨N + 1, fun n hn => doc_config hg ?_ ?_⟩
    · simpa using members_quiet h noHead_nil
    · have hm := (hN n (by omega)).many
      obtain ⟨m, rfl⟩ : ∃ m, n = m + 1 := ⟨n - 1, by omega⟩
      have h2 : Eats (many1 (softGrammar S (m + 1)).2) t es [] := eats_many1.2 ⟨hne, hm, .uncommitted, fail_property_end⟩
      have := h2.map (fun ps => [Value.obj (configFold ps)])
      rw [configFold_distinct hk] at this
      unfold config
      exact .or_left (.or_left this.attempt)
  | @items vs g t hg h hb =>
    obtain ⟨N, hN⟩ := items_reads h
    refine ⟨N + 1, fun n hn => doc_config hg (items_quiet' h) ?_⟩
    have hm := hN n (by omega)
    obtain ⟨m, rfl⟩ : ∃ m, n = m + 1 := ⟨n - 1, by omega⟩
    unfold config
    have hf : Fail (softGrammar S (m + 1)).2 t .uncommitted := by
      show Fail (property (lazy fun _ => (softGrammar S m).1) (lazy fun _ => (softGrammar S m).2)) _ _
      rcases items_head h with rfl | ⟨x, rfl⟩ | ⟨x, rfl⟩
      · exact fail_property_end
      · exact fail_guarded (.inl rfl) (hb x rfl)
      · exact fail_property_bracket
    have hi : Fail (many1 includeConfigValue) t .uncommitted := by
      obtain ⟨c, hc⟩ := fail_word (lit := bytes "include") (by decide) (r := t) (by
        rcases items_head h with rfl | ⟨x, rfl⟩ | ⟨x, rfl⟩
        · exact noHead_nil
        · exact noHead_cons.2 (by decide)
        · exact noHead_cons.2 (by decide))
      exact fail_many1.2 ⟨rfl, c, .map _ (.andThen (.skipLeft (.skipLeft hc)))⟩
    refine .or_right (.or (fail_attempt_of (c := .uncommitted) (.map _ (fail_many1.2 ⟨rfl, _, by simpa using hf⟩)))
      (fail_attempt_of (by simpa using hi))) ?_
    exact eats_many0.2 ⟨hm, .uncommitted, .or (fail_attempt_of (fail_object noHead_nil noHead_nil)) (fail_array noHead_nil noHead_nil)⟩

/-! ### Loading -/

theorem val_settled (h : Val dec v t g r) : (∀ p, ¬ Mentions v p) → Settled v := by
  refine Val.rec
    (motive_1 := fun v t g r _ => (∀ p, ¬ Mentions v p) → Settled v)
    (motive_2 := fun vs t x _ => (∀ v ∈ vs, ∀ p, ¬ Mentions v p) → ∀ v ∈ vs, Settled v)
    (motive_3 := fun c es t x _ => (∀ e ∈ es, ∀ p, ¬ Mentions e.2 p) → ∀ e ∈ es, Settled e.2)
    ?_ ?_ ?_ ?_ ?_ ?_ ?_ ?_ ?_ ?_ ?_ ?_ ?_ ?_ ?_ ?_ h
  iterate 7 (intros; exact .constant trivial)
  · intro p o g1 g2 g r hp h1 h2 h
    exact absurd .ref (h (joinDot p))
  · intro vs g1 t g r h1 h ih hm
    exact .arr (ih fun v hv p hp => hm p (.elem hv hp))
  · intro ps es g1 t g r h1 h hk hg ih hm
    exact .obj (gathered_all hk (ih fun e he p hp => hm p (gathered_mentions hk he hp))
      (fun c v hc hv => .link hc (settled_remember hv)))
  · simp
  · intro v t g x hg h ih hm
    simpa using ih (hm v (by simp))
  · intro v vs t g g1 t' x hg h1 h hs ih ihs hm
    exact List.forall_mem_cons.2 ⟨ih (hm v (by simp)), ihs fun v hv => hm v (List.mem_cons_of_mem _ hv)⟩
  · simp
  · intro c k kt g1 g2 t g s t' x b v es hk h1 hb h2 hg hs h hm ih ihm hn
    exact List.forall_mem_cons.2 ⟨ih (hn (k, v) (by simp)), ihm fun v hv => hn v (List.mem_cons_of_mem _ hv)⟩
  · intro c k kt g1 t g s t' x v es hk h1 hv hg hs h hm ih ihm hn
    exact List.forall_mem_cons.2 ⟨ih (hn (k, v) (by simp)), ihm fun v hv => hn v (List.mem_cons_of_mem _ hv)⟩

theorem val_resolved {var : Bytes → Option Bytes} {doc : Value} (h : Val dec v t g r) (hm : ∀ p, ¬ Mentions v p) :
    Resolved var doc v v := settled_resolved (val_settled h hm)

theorem members_resolved {var : Bytes → Option Bytes} {doc : Value} {commas : Bool} {es : Entries}
    (h : Members dec commas es t x) (hm : ∀ p, ¬ Mentions (.obj es) p) : Resolved var doc (.obj es) (.obj es) := by
  induction es generalizing t with
  | nil => exact .empty
  | cons e es ih =>
    have h1 : ∀ p, ¬ Mentions e.2 p := fun p hp => hm p (.value (e := e) (by simp) hp)
    have h2 : ∀ p, ¬ Mentions (.obj es) p := fun p hp => hm p (by
      cases hp with
      | value hv h => exact .value (List.mem_cons_of_mem _ hv) h)
    cases h with
    | assign hk h1' hb h2' hg hs h hm => exact .entry (val_resolved h h1) (ih hm h2)
    | block hk h1' hv hg hs h hm => exact .entry (val_resolved h h1) (ih hm h2)

theorem doc_resolved {var : Bytes → Option Bytes} {doc : Value} {es : Entries}
    (h : Doc dec [.obj es] t) (hm : ∀ p, ¬ Mentions (.obj es) p) : Resolved var doc (.obj es) (.obj es) := by
  cases h with
  | settings hg hne hk h => exact members_resolved h hm
  | items hg h hb =>
    cases h with
    | cons hv hg h hs => exact val_resolved h hm

theorem load_resolved {es : Entries} (h : ∃ M, ∀ n, M ≤ n → parse (hocon S n) t = .ok [.obj es]) (hd : ∀ e ∈ es, byte '.' ∉ e.1)
    (w : World) (v : Value) {N : Nat} (hv : resolve ⟨w.var, fun _ => .panic⟩ (.obj es) N (.obj es) = .ok v) :
    ∃ N, ∀ env n, env.var = w.var → N ≤ n → parseFromString S env n t = .ok (some v) := by
  obtain ⟨M, hM⟩ := h
  refine ⟨max N M, fun env n he hn => ?_⟩
  have hN' : resolve env (.obj es) n (.obj es) = .ok v :=
    resolve_le (by omega) (resolve_sub (env := ⟨w.var, fun _ => .panic⟩) ⟨he, fun _ _ h => by cases h⟩ _ _ _ hv)
  unfold parseFromString
  rw [hM n (by omega)]
  have : resolveStage0 env [.obj es] = .ok (.obj es) := by
    rw [resolveStage0, expand_plain (by simp) (by rintro es ⟨⟩; exact hd)]
    rfl
  simp only [Out.bind, this, resolveStage1]
  rw [hN']

theorem load_parsed {es : Entries} (h : ∃ M, ∀ n, M ≤ n → parse (hocon S n) t = .ok [.obj es]) (hd : ∀ e ∈ es, byte '.' ∉ e.1)
    (w : World) (v : Value) (hv : Resolved w.var (.obj es) (.obj es) v) :
    ∃ N, ∀ env n, env.var = w.var → N ≤ n → parseFromString S env n t = .ok (some v) := by
  obtain ⟨N, hN⟩ := resolve_complete (env := ⟨w.var, fun _ => .panic⟩) hv
  exact load_resolved h hd w v hN

theorem load_layout {es : Entries} (h : Doc S.parseDecimal [.obj es] t) (hd : ∀ e ∈ es, byte '.' ∉ e.1) (w : World) (v : Value)
    (hv : Resolved w.var (.obj es) (.obj es) v) :
    ∃ N, ∀ env n, env.var = w.var → N ≤ n → parseFromString S env n t = .ok (some v) := load_parsed (doc_reads h) hd w v hv

/-! ### Repeated settings -/

theorem val_wf (h : Val dec v t g r) : Wf v := by
  refine Val.rec
    (motive_1 := fun v t g r _ => Wf v)
    (motive_2 := fun vs t x _ => ∀ v ∈ vs, Wf v)
    (motive_3 := fun c es t x _ => ∀ e ∈ es, Wf e.2)
    ?_ ?_ ?_ ?_ ?_ ?_ ?_ ?_ ?_ ?_ ?_ ?_ ?_ ?_ ?_ ?_ h
  iterate 8 (intros; exact trivial)
  · intro vs g1 t g r h1 h ih
    exact wfList_iff.2 ih
  · intro ps es g1 t g r h1 h hk hg ih
    exact wf_obj.2 ⟨(gathered_keys hk).1, gathered_all hk ih fun c v hc hv => ⟨hc, wf_remember hv⟩⟩
  · simp
  · intro v t g x hg h ih
    simpa using ih
  · intro v vs t g g1 t' x hg h1 h hs ih ihs
    exact List.forall_mem_cons.2 ⟨ih, ihs⟩
  · simp
  · intro c k kt g1 g2 t g s t' x b v es hk h1 hb h2 hg hs h hm ih ihm
    exact List.forall_mem_cons.2 ⟨ih, ihm⟩
  · intro c k kt g1 t g s t' x v es hk h1 hv hg hs h hm ih ihm
    exact List.forall_mem_cons.2 ⟨ih, ihm⟩

theorem members_val {commas : Bool} {es : Entries} (h : Members dec commas es t x) :
    ∀ e ∈ es, ∃ t g r, Val dec e.2 t g r := by
  induction es generalizing t with
  | nil => simp
  | cons e es ih =>
    cases h with
    | assign hk h1 hb h2 hg hs h hm => exact List.forall_mem_cons.2 ⟨⟨_, _, _, h⟩, ih hm⟩
    | block hk h1 hv hg hs h hm => exact List.forall_mem_cons.2 ⟨⟨_, _, _, h⟩, ih hm⟩

theorem settled_get {es : Entries} {k : Bytes} {v : Value} (h : Settled (.obj es)) (hg : get k es = some v) : Settled v := by
  cases h with
  | constant h => cases h
  | obj h => exact h _ (get_mem hg)

theorem settled_merge (b : Value) : ∀ a, Wf a → Wf b → Settled a → Settled b → Settled (merge b a) := by
  intro a wa wb ha hb
  rcases merge_cases a b with ⟨a, b, rfl, rfl⟩ | ⟨a, b, rfl, rfl⟩ | ⟨hl, p, v, rfl⟩ | ⟨h1, h2, h3⟩
  · rw [merge_obj_obj]
    refine .obj fun e he => ?_
    have hv := get_of_mem (k := e.1) (v := e.2) (nodup_mergeEntries (wf_obj.1 wa).1) he
    rw [get_mergeEntries (wf_obj.1 wb).1] at hv
    cases hkb : get e.1 b with
    | none =>
      simp only [hkb] at hv
      exact settled_get ha hv
    | some y =>
      simp only [hkb, Option.some.injEq] at hv
      cases hka : get e.1 a with
      | none =>
        simp only [hka] at hv
        exact hv ▸ settled_get hb hkb
      | some x =>
        simp only [hka] at hv
        have := sizeOf_get hkb
        exact hv ▸ settled_merge y x (wf_get wa hka) (wf_get wb hkb) (settled_get ha hka) (settled_get hb hkb)
  · rw [merge_arr_arr]
    cases ha with
    | constant h => cases h
    | arr ha =>
      cases hb with
      | constant h => cases h
      | arr hb =>
        refine .arr fun v hv => ?_
        rcases List.mem_append.1 hv with h | h
        · exact ha v h
        · exact hb v h
  · rw [merge_link_left hl, push_eq]
    cases ha with
    | constant h => cases h
    | link hp hv => exact .link (.link hp hv) (settled_remember (settled_merge b v wa.2 wb hv hb))
  · rw [merge_keep h1 h2 h3]
    exact ha
termination_by a => (sizeOf b, sizeOf a)

theorem foldl_merged : ∀ (vs : List Value) (a : Value), (∀ v ∈ vs, Wf v) →
    MergedAll a vs (vs.foldl (fun a b => merge b a) a)
  | [], _, _ => .one
  | v :: vs, a, h => .more (merged v a (h v (by simp))) (foldl_merged vs _ fun w hw => h w (List.mem_cons_of_mem _ hw))

theorem foldl_settled : ∀ (vs : List Value) (a : Value), Wf a → Settled a → (∀ v ∈ vs, Wf v ∧ Settled v) →
    Settled (vs.foldl (fun a b => merge b a) a)
  | [], _, _, ha, _ => ha
  | v :: vs, a, wa, ha, h => by
    have hv := h v (by simp)
    exact foldl_settled vs _ (wf_merge v a wa hv.1) (settled_merge v a wa hv.1 ha hv.2)
      fun w hw => h w (List.mem_cons_of_mem _ hw)

theorem configFold_keys (ps : Entries) : (keys (configFold ps)).Nodup :=
  nodup_fold (fun v w => merge w v) ps [] (by simp [keys])

theorem mem_definitions {k : Bytes} {ps : Entries} {v : Value} (h : v ∈ definitions k ps) : (k, v) ∈ ps := by
  unfold definitions at h
  obtain ⟨⟨k', v'⟩, h1, rfl⟩ := List.mem_map.1 h
  obtain ⟨h2, h3⟩ := List.mem_filter.1 h1
  obtain rfl : k' = k := of_decide_eq_true h3
  exact h2

theorem configFold_combined {ps : Entries} (h : ∀ e ∈ ps, Wf e.2) : Combined ps (configFold ps) := by
  refine ⟨configFold_keys ps, fun k hk => by rw [get_configFold, hk], fun k d ds hd => ⟨_, by rw [get_configFold, hd], ?_⟩⟩
  refine foldl_merged ds d fun v hv => ?_
  exact h _ (mem_definitions (k := k) (by rw [hd]; exact List.mem_cons_of_mem _ hv))

theorem configFold_mem {ps : Entries} {e : Bytes × Value} (h : e ∈ configFold ps) :
    ∃ d ds, definitions e.1 ps = d :: ds ∧ e.2 = ds.foldl (fun a b => merge b a) d := by
  have := get_of_mem (k := e.1) (v := e.2) (configFold_keys ps) h
  rw [get_configFold] at this
  cases hd : definitions e.1 ps with
  | nil => rw [hd] at this; cases this
  | cons d ds => rw [hd] at this; exact ⟨d, ds, rfl, (Option.some.inj this).symm⟩

theorem configFold_settled {ps : Entries} (h : ∀ e ∈ ps, Wf e.2 ∧ Settled e.2) : ∀ e ∈ configFold ps, Settled e.2 := by
  intro e he
  obtain ⟨d, ds, hd, hv⟩ := configFold_mem he
  have hm : ∀ v ∈ d :: ds, Wf v ∧ Settled v := fun v hv => h _ (mem_definitions (k := e.1) (hd ▸ hv))
  rw [hv]
  exact foldl_settled ds d (hm d (by simp)).1 (hm d (by simp)).2 fun v hv => hm v (List.mem_cons_of_mem _ hv)

theorem configFold_key {ps : Entries} {e : Bytes × Value} (h : e ∈ configFold ps) : e.1 ∈ keys ps := by
  obtain ⟨d, ds, hd, -⟩ := configFold_mem h
  exact List.mem_map.2 ⟨_, mem_definitions (k := e.1) (v := d) (by rw [hd]; simp), rfl⟩

theorem settings_reads {ps : Entries} {g : Bytes} (hg : Gap g) (hne : ps ≠ []) (h : Members S.parseDecimal false ps t []) :
    ∃ N, ∀ n, N ≤ n → parse (hocon S n) (g ++ t) = .ok [.obj (configFold ps)] := by
  obtain ⟨N, hN⟩ := members_reads h noHead_nil (by simp)
  refine ⟨N + 1, fun n hn => doc_config hg ?_ ?_⟩
  · simpa using members_quiet h noHead_nil
  · have hm := (hN n (by omega)).many
    obtain ⟨m, rfl⟩ : ∃ m, n = m + 1 := ⟨n - 1, by omega⟩
    have h2 : Eats (many1 (softGrammar S (m + 1)).2) t ps [] := eats_many1.2 ⟨hne, hm, .uncommitted, fail_property_end⟩
    unfold config
    exact .or_left (.or_left (h2.map (fun ps => [Value.obj (configFold ps)])).attempt)

/-! ### Quoted strings without escapes -/

theorem quoted_plain {s : Bytes} {q : Char} (hq : q = '"' ∨ q = '\'') (h : StringText s) :
    QuotedText s (byte q :: s ++ [byte q]) := by
  obtain ⟨h1, h2, h3, h4⟩ := h
  have hu : (s.map Json.Spec.Item.raw).map (Json.Spec.Item.unit strKind) = s.map Sum.inl := by
    rw [List.map_map]; rfl
  refine ⟨q, s.map .raw, hq, by simpa using h1, ⟨?_, ?_, ?_⟩, ?_, ?_, ?_⟩
  · intro it hit
    obtain ⟨b, hb, rfl⟩ := List.mem_map.1 hit
    refine ⟨?_, ?_, .inl rfl⟩
    · rintro rfl; exact h3 _ hb (by decide)
    · rintro rfl; exact h3 _ hb (by decide)
  · intro b hb hm
    obtain ⟨b', hb', he⟩ := List.mem_map.1 hb
    cases he
    exact h3 b hb' ((by decide : ∀ b ∈ bytes "[]\r\n'", b ∈ bytes "[]\r\n\\\"'") b hm)
  · rw [hu]
    intro pre run post he hr hpre hpost
    have hno : ∀ u, Sum.inr u ∉ s.map (Sum.inl : UInt8 → UInt8 ⊕ Nat) := by
      intro u hu
      obtain ⟨b, -, hb⟩ := List.mem_map.1 hu
      cases hb
    obtain rfl : pre = [] := by
      rcases hpre with h | ⟨p, u, rfl⟩
      · exact h
      · exact absurd (by rw [he]; simp) (hno u)
    obtain rfl : post = [] := by
      rcases hpost with h | ⟨u, p, rfl⟩
      · exact h
      · exact absurd (by rw [he]; simp) (hno u)
    simp only [List.nil_append, List.append_nil] at he
    have : s = run := (List.map_injective_iff.2 fun a b h => by cases h; rfl) he
    subst this
    show fromUtf8 s = some s
    unfold fromUtf8
    simp [h2]
  · intro b hb
    cases s with
    | nil => exact absurd rfl h1
    | cons x s =>
      simp only [List.map_cons, List.head?_cons, Option.some.injEq, Json.Spec.Item.raw.injEq] at hb
      subst hb
      exact h4 x rfl
  · congr 2
    unfold itemsText
    induction s with
    | nil => exact absurd rfl h1
    | cons x s ih =>
      clear ih h1 h2 h3 h4 hu
      rw [List.flatMap_map]
      show _ = List.flatMap (fun b => [b]) _
      simp
  · unfold denoted
    rw [hu]
    clear h1 h2 h3 h4 hu
    induction s with
    | nil => rfl
    | cons x s ih => rw [List.map_cons, Json.Spec.decode, ← ih]

end OniComb.Hocon
