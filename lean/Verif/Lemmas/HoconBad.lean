import Verif.Lemmas.HoconDoc

/-!
# Helper lemmas: `hocon` documents that are misread

Signed numbers, the longer unit names, and numbers on which the closure of `number_value` panics.
-/

namespace OniComb.Hocon
open OniComb OniComb.Hocon.Spec
open OniComb.Uri (Bytes byte bytes fromUtf8 parseUInt mapUnwrap text)

variable {A B C : Type} {t rest r : Bytes} {c : Committed} {S : Std}

/-! ### Documents -/

/-- A parser that stops before the end of the text is an error. -/
theorem parse_end_err {p : Parser UInt8 A} [Good p] {v : A} (h : Eats p t v rest) (hr : rest ≠ []) :
    ∃ e, parse (skipRight p end_) (t ++ rest) = .err e := by
  have h1 : Fail (skipRight p end_) (t ++ rest) .uncommitted :=
    fail_skipRight.2 (.inr ⟨t, v, rest, rfl, h, fail_end.2 ⟨rfl, hr⟩⟩)
  obtain ⟨e, he⟩ := h1
  exact ⟨e, by unfold parse; rw [he]; rfl⟩

theorem parse_soft {n : Nat} {o : Res.Out UInt8 (List Value)} (h : parse (softHocon S n) t = o) (ho : o ≠ .diverge) :
    parse (hocon S n) t = o := by
  have h4 : Below (softHocon S n) (hocon S n) := inferInstance
  unfold parse at h ⊢
  rw [h4.eq]
  · exact h
  · intro h5; rw [h5] at h; exact ho h.symm

theorem soft_props {n : Nat} {t x : Bytes} {ps : Entries} (hne : ps ≠ []) (hq : Quiet (t ++ x))
    (hm : Many (softGrammar S n).2 t ps x) (hf : ∃ c, Fail (softGrammar S n).2 x c) :
    Eats (skipLeft spaceOrComment (config (softGrammar S n).1 (softGrammar S n).2)) t [.obj (configFold ps)] x := by
  have h2 : Eats (many1 (softGrammar S n).2) t ps x := eats_many1.2 ⟨hne, hm, hf⟩
  have h3 := Eats.skipLeft (p := spaceOrComment) (t1 := []) (t2 := t) (rest := x)
    (q := config (softGrammar S n).1 (softGrammar S n).2) (eats_blanks blanks_nil (by simpa using hq))
    (.or_left (.or_left (h2.map (fun ps => [Value.obj (configFold ps)])).attempt))
  simpa using h3

/-- A line with a value in front of a document. -/
theorem many_line {n : Nat} {k : Bytes} {v : Value} {ds : List (Bytes × Lit)} (hk : PathText k)
    (hn : depthEntries ds ≤ n) (hd : DocOk S.parseDecimal ds)
    (h : Eats (softGrammar S n).1 (t ++ bytes "\n") v (docText ds)) :
    Many (softGrammar S (n + 1)).2 (k ++ byte '=' :: t ++ byte '\n' :: docText ds)
      ((k, v) :: valueEntries S.parseDecimal ds) [] := by
  have h2 : Eats (softGrammar S (n + 1)).2 (k ++ (byte '=' :: (t ++ bytes "\n"))) (k, v) (docText ds ++ []) := by
    rw [List.append_nil]
    exact eats_property hk h
  have := Many.cons h2 (many_doc S n ds hn hd)
  simpa [show bytes "\n" = [byte '\n'] from rfl] using this

theorem hocon_line {n : Nat} {k : Bytes} {v : Value} {ds : List (Bytes × Lit)} (hk : PathText k)
    (hn : depthEntries ds ≤ n) (hd : DocOk S.parseDecimal ds)
    (h : Eats (softGrammar S n).1 (t ++ bytes "\n") v (docText ds)) :
    parse (hocon S (n + 1)) (k ++ byte '=' :: t ++ byte '\n' :: docText ds) =
      .ok [.obj (configFold ((k, v) :: valueEntries S.parseDecimal ds))] := by
  refine parse_soft ?_ (by simp)
  unfold softHocon
  refine parse_end_ok.2 (soft_props (by simp) ?_ (many_line hk hn hd h) ⟨_, fail_property_end⟩)
  rw [List.append_nil, List.append_assoc]
  exact pathText_quiet hk

/-! ### Signed numbers -/

theorem eats_negNumber {b2 : Bytes} {d : Decimal} (ht : DecimalText t) (hd : S.parseDecimal t = some d)
    (h2 : Gap b2) (hr : NoHead NumByte (b2 ++ rest)) (hq : Quiet rest) :
    Eats (softNumber S) ((byte '-' :: t) ++ b2) d rest := by
  obtain ⟨i, f, hi, hf, rfl⟩ := decimalText_parts ht
  have := eats_number (s := some (byte '-')) (e := none) hi (by simp) hf (by simp) h2 hr hq
  unfold softNumber
  refine Eats.softUnwrap (by simpa [optText] using this) ?_
  cases f with
  | none => simpa [numberOf, optText] using hd
  | some x => simpa [numberOf, optText] using hd

theorem eats_negText {d : Decimal} {b2 : Bytes} (ht : DecimalText t) (hd : S.parseDecimal t = some d) (h2 : Gap b2)
    (hr : NoHead NumByte (b2 ++ rest)) (hq : Quiet rest) (hu : NoHead UnitStart rest) :
    Eats (softSimple S) ((byte '-' :: t) ++ b2) (.num d) rest := by
  have hn := eats_negNumber ht hd h2 hr hq
  obtain ⟨x, hx⟩ := fail_unitP hu
  have hdur : Fail (softDuration S) ((byte '-' :: t) ++ b2 ++ rest) x := by
    unfold softDuration; exact hn.andThen_fail hx
  have hc : ∀ r, Fail (or (or (attempt (map (seq (bytes "null")) fun _ => Value.null))
    (attempt (map (seq (bytes "true")) fun _ => .bool true)))
    (attempt (map (seq (bytes "false")) fun _ => .bool false))) ((byte '-' :: t) ++ r) .uncommitted :=
      fun r => fail_consts (noHead_cons.2 (by decide))
  unfold softSimple
  have := eats_spaced' (t := (byte '-' :: t) ++ b2) (b2 := []) (rest := rest) (v := Value.num d) gap_nil
    (p := or (or (or (or (or (attempt (map (seq (bytes "null")) fun _ => .null))
    (attempt (map (seq (bytes "true")) fun _ => .bool true)))
    (attempt (map (seq (bytes "false")) fun _ => .bool false)))
    (attempt (map (softDuration S) fun (d, u) => .dur d u))) (attempt (map (softNumber S) .num)))
    stringConfigValue) (noHead_cons.2 (by decide)) hq
    (.or_left (.or_right (.or ?_ (fail_attempt_of (hdur.map _))) (hn.map _).attempt))
  · simpa using this
  · rw [List.append_assoc]; exact hc _

/-- Nothing that can be read as a unit follows. -/
def NoUnitKey (ds : List (Bytes × Lit)) : Prop := ∀ e, ds.head? = some e → ∀ b, e.1.head? = some b → ¬ UnitStart b

theorem docText_noUnit {ds : List (Bytes × Lit)} (hd : DocOk S.parseDecimal ds) (h : NoUnitKey ds) :
    NoHead UnitStart (docText ds) := by
  rcases docText_head ds hd with h' | ⟨k', r, hk', h', e, he, rfl⟩
  · rw [h']; exact noHead_nil
  · rw [h']
    obtain ⟨b, x, hx, -⟩ := pathText_head hk'
    rw [hx]
    exact noHead_cons.2 (h e he b (by rw [hx]; rfl))

theorem eats_negValue {n : Nat} {d : Decimal} {ds : List (Bytes × Lit)} (ht : DecimalText t)
    (hd : S.parseDecimal t = some d) (hds : DocOk S.parseDecimal ds) (hu : NoUnitKey ds) :
    Eats (softGrammar S (n + 1)).1 ((byte '-' :: t) ++ bytes "\n") (.num d) (docText ds) := by
  have hq := docText_quiet ds hds
  refine eats_cvSimple (noHead_cons.2 (by decide)) hq.1 (noHead_cons.2 (by decide)) ?_
  exact eats_negText ht hd gap_line (noHead_cons.2 (by decide)) hq.1 (docText_noUnit hds hu)

theorem neg_doc {n : Nat} {k : Bytes} {d : Decimal} {ds : List (Bytes × Lit)} (hk : PathText k) (ht : DecimalText t)
    (hd : S.parseDecimal t = some d) (hn : depthEntries ds ≤ n) (hds : DocOk S.parseDecimal ds) (hu : NoUnitKey ds) :
    parse (hocon S (n + 1)) (k ++ byte '=' :: (byte '-' :: t) ++ byte '\n' :: docText ds) =
      .ok [.obj (configFold ((k, .num d) :: valueEntries S.parseDecimal ds))] := by
  have := one_le_depthEntries ds
  obtain ⟨m, rfl⟩ : ∃ m, n = m + 1 := ⟨n - 1, by omega⟩
  exact hocon_line hk hn hds (eats_negValue ht hd hds hu)

/-! ### Longer unit names -/

/-- What the parser leaves of a longer unit name. -/
theorem long_split : ∀ e ∈ longUnits, ∃ w w', (w, w', e.2) ∈ unitTable ∧ e.1 = w ++ w' ∧ Segment w' := by
  have : ∀ e ∈ longUnits, unitTable.any (fun x => decide (x.2.2 = e.2 ∧ e.1 = x.1 ++ x.2.1 ∧ x.2.1 ≠ [] ∧
      ∀ b ∈ x.2.1, Element.isAlpha b = true)) = true := by decide +kernel
  intro e he
  obtain ⟨⟨w, w', u⟩, h1, h2⟩ := List.any_eq_true.1 (this e he)
  simp only [decide_eq_true_eq] at h2
  obtain ⟨rfl, h3, h4, h5⟩ := h2
  exact ⟨w, w', h1, h3, h4, fun b hb => .inl (h5 b hb)⟩

theorem long_doc {n : Nat} {k sp : Bytes} {u : TimeUnit} {d : Decimal} {ds : List (Bytes × Lit)} (hk : PathText k)
    (ht : DecimalText t) (hd : S.parseDecimal t = some d) (hs : (sp, u) ∈ longUnits) (hds : DocOk S.parseDecimal ds) :
    ∃ e, parse (hocon S (n + 2)) (k ++ byte '=' :: (t ++ sp) ++ byte '\n' :: docText ds) = .err e := by
  obtain ⟨w, w', h1, h2, h3⟩ := long_split _ hs
  dsimp only at h1 h2
  have hw' : PathText w' := ⟨[w'], by simp, by simpa using h3, rfl⟩
  have hq := docText_quiet ds hds
  have hd1 := eats_durText (rest := byte '\n' :: docText ds) ht hd h1 (noHead_cons.2 (by decide))
  have hq1 : Quiet (w' ++ (byte '\n' :: docText ds)) := pathText_quiet hw'
  have hq2 : ∀ r, Quiet (t ++ r) := fun r => decimalText_quiet ht
  have hval : Eats (softGrammar S (n + 1)).1 (t ++ w) (.dur d u) (w' ++ (byte '\n' :: docText ds)) := by
    refine eats_cvSimple (by rw [List.append_assoc]; exact hq2 _) hq1 ?_ ?_
    · obtain ⟨b, x, rfl, hb⟩ := decimalText_head ht
      exact noHead_cons.2 fun hm => digit_noConst hb ((by decide : ∀ b ∈ bytes "[{$", b ∈ bytes "ntf[{$") b hm)
    · unfold softSimple
      have := eats_spaced' (t := t ++ w) (b2 := []) (rest := w' ++ (byte '\n' :: docText ds)) (v := Value.dur d u) gap_nil
        (p := or (or (or (or (or (attempt (map (seq (bytes "null")) fun _ => .null))
        (attempt (map (seq (bytes "true")) fun _ => .bool true)))
        (attempt (map (seq (bytes "false")) fun _ => .bool false)))
        (attempt (map (softDuration S) fun (d, u) => .dur d u))) (attempt (map (softNumber S) .num)))
        stringConfigValue) (by rw [List.append_assoc]; exact hq2 _) hq1
        (.or_left (.or_left (.or_right ?_ (hd1.map fun (d, u) => Value.dur d u).attempt)))
      · simpa using this
      · rw [List.append_assoc]; exact fail_consts (decimalText_noConst ht)
  have hprop : Eats (softGrammar S (n + 2)).2 (k ++ (byte '=' :: (t ++ w))) (k, .dur d u)
      ([] ++ (w' ++ (byte '\n' :: docText ds))) := eats_property hk hval
  have hfail : Fail (softGrammar S (n + 2)).2 (w' ++ (byte '\n' :: docText ds)) .uncommitted := by
    show Fail (property _ _) _ _
    unfold property
    have hkey := eats_key' (b2 := [byte '\n']) (rest := docText ds) hw' (by decide)
      hq.1 (noHead_cons.2 (by unfold PathByte; decide))
    have := hkey.andThen_fail (fail_afterKey (cv := lazy fun _ => (softGrammar S (n + 1)).1)
      (prop := lazy fun _ => (softGrammar S (n + 1)).2) hq.1 hq.2)
    simpa using this
  have hm := Many.cons hprop (.nil _)
  have hall := soft_props (by simp) (by rw [List.append_nil, List.append_assoc]; exact pathText_quiet hk) hm ⟨_, hfail⟩
  obtain ⟨e, he⟩ := parse_end_err hall (by
    obtain ⟨b, x, hx, -⟩ := pathText_head hw'
    rw [hx]; simp)
  refine ⟨e, parse_soft ?_ (by simp)⟩
  unfold softHocon
  rw [← he, h2]
  simp

/-! ### Panics -/

/-- `p` panics on the text `r`, wherever it stands. -/
def Panics (p : Parser UInt8 A) (r : Bytes) : Prop := ∀ pre, p ⟨pre ++ r, pre.length⟩ = .panic

theorem Panics.map {p : Parser UInt8 A} (h : Panics p r) (f : A → B) : Panics (OniComb.map p f) r := fun pre => by
  unfold OniComb.map; rw [h pre]

theorem Panics.attempt {p : Parser UInt8 A} (h : Panics p r) : Panics (OniComb.attempt p) r := fun pre => by
  unfold OniComb.attempt; rw [h pre]; rfl

theorem Panics.or_left {p q : Parser UInt8 A} (h : Panics p r) : Panics (OniComb.or p q) r := fun pre => by
  unfold OniComb.or; rw [h pre]

/-- The first alternative fails; it need not be a good parser itself. -/
theorem Panics.or_right {p p' q : Parser UInt8 A} [Good p'] [Below p' p] (h : Fail p' r .uncommitted) (hq : Panics q r) :
    Panics (OniComb.or p q) r := fun pre => by
  obtain ⟨e, he⟩ := (at_failure pre r .uncommitted).2 h
  unfold OniComb.or
  rw [Below.eq (p := p') (q := p) (by rw [he]; simp), he]
  exact hq pre

theorem Panics.andThen {p : Parser UInt8 A} {q : Parser UInt8 B} (h : Panics p r) : Panics (OniComb.andThen p q) r := fun pre => by
  unfold OniComb.andThen; rw [h pre]

theorem Panics.skipRight {p : Parser UInt8 A} {q : Parser UInt8 B} (h : Panics p r) : Panics (OniComb.skipRight p q) r := fun pre => by
  unfold OniComb.skipRight; rw [h pre]

theorem Panics.skipLeft {p : Parser UInt8 A} {q : Parser UInt8 B} [Good p] {v : A} (h : Eats p t v r) (hq : Panics q r) :
    Panics (OniComb.skipLeft p q) (t ++ r) := fun pre => by
  unfold OniComb.skipLeft
  rw [(at_success pre (t ++ r) v t.length).2 h]
  have := hq (pre ++ t)
  simp only [State.advanceBy]
  rw [List.length_append, List.append_assoc] at this
  rw [this]

theorem Panics.andThen_right {p : Parser UInt8 A} {q : Parser UInt8 B} [Good p] {v : A} (h : Eats p t v r) (hq : Panics q r) :
    Panics (OniComb.andThen p q) (t ++ r) := fun pre => by
  unfold OniComb.andThen
  rw [(at_success pre (t ++ r) v t.length).2 h]
  have := hq (pre ++ t)
  simp only [State.advanceBy]
  rw [List.length_append, List.append_assoc] at this
  rw [this]

theorem Panics.spaced {p : Parser UInt8 A} (hq : Quiet r) (h : Panics p r) : Panics (OniComb.Hocon.spaced p) r := by
  unfold OniComb.Hocon.spaced surround
  exact Panics.skipLeft (t := []) (v := ()) (eats_blanks blanks_nil hq) h.skipRight

theorem Panics.many1 {p : Parser UInt8 A} (h : Panics p r) : Panics (OniComb.many1 p) r := fun pre => by
  unfold OniComb.many1 repeatSep; rw [h pre]

theorem Panics.unwrap {p : Parser UInt8 A} [Good p] {f : A → Option B} {v : A} (h : Eats p t v rest) (hf : f v = none) :
    Panics (mapUnwrap p f) (t ++ rest) := fun pre => by
  unfold mapUnwrap
  rw [(at_success pre (t ++ rest) v t.length).2 h]
  simp only [hf]

/-- The text of a number without decimal value. -/
theorem panics_number {i : Bytes} {f e : Option Bytes} {s : Option UInt8} {b2 : Bytes} (hi : IntText i)
    (hs : ∀ b, s = some b → b = byte '-') (hf : ∀ x, f = some x → FracText x) (he : ∀ x, e = some x → ExpText x)
    (h2 : Gap b2) (hr : NoHead NumByte (b2 ++ rest)) (hq : Quiet rest) (hnone : numberOf S (s, i, f, e) = none) :
    Panics (numberValue S) ((((s.toList ++ i) ++ optText f) ++ optText e) ++ b2 ++ rest) :=
  Panics.unwrap (eats_number hi hs hf he h2 hr hq) hnone

/-- A document that begins with a definition whose number panics. -/
theorem panic_doc {n : Nat} {k x : Bytes} (hk : PathText k) (hq : Quiet x)
    (hd : NoHead (fun b => b ∈ bytes "ntf[{$") x) (h : Panics (numberValue S) x) :
    parse (hocon S (n + 2)) (k ++ byte '=' :: x) = .panic := by
  have hsimple : Panics (simpleConfigValue S) x := by
    unfold simpleConfigValue
    refine Panics.spaced hq (Panics.or_left (Panics.or_left (Panics.or_right (fail_consts (hd.mono ?_)) ?_)))
    · exact fun b hb => (by decide : ∀ b ∈ bytes "ntf", b ∈ bytes "ntf[{$") b hb
    · unfold durationValue duration
      exact (h.andThen.map _).attempt
  have hcv : Panics (grammar S (n + 1)).1 x := by
    show Panics (configValue S (lazy fun _ => (grammar S n).1) (lazy fun _ => (grammar S n).2)) x
    unfold configValue
    refine Panics.spaced hq (Panics.or_left (Panics.or_right (p' := or (or (attempt (arrayConfigValue
      (lazy fun _ => (softGrammar S n).1))) (attempt (objectConfigValue (lazy fun _ => (softGrammar S n).2))))
      (attempt referenceConfigValue)) ?_ hsimple.attempt))
    exact .or (.or (fail_attempt_of (fail_array hq (hd.mono fun b hb => by rw [hb]; decide)))
      (fail_attempt_of (fail_object hq (hd.mono fun b hb => by rw [hb]; decide))))
      (fail_refValue hq (hd.mono fun b hb => by rw [hb]; decide))
  have hprop : Panics (grammar S (n + 2)).2 (k ++ byte '=' :: x) := by
    show Panics (property (lazy fun _ => (grammar S (n + 1)).1) (lazy fun _ => (grammar S (n + 1)).2)) _
    unfold property
    have hkey := eats_key (b1 := []) (b2 := []) (rest := byte '=' :: x) hk gap_nil blanks_nil
      (noHead_cons.2 (by decide)) (noHead_cons.2 (by unfold PathByte; decide))
    rw [List.nil_append, List.append_nil] at hkey
    refine Panics.andThen_right hkey (Panics.or_left (Panics.or_left (Panics.attempt ?_)))
    refine Panics.skipLeft (t := [byte '=']) (v := ()) ?_ hcv
    unfold kv
    exact eats_discard.2 ⟨byte '=', (one_of _).eats.2 ⟨rfl, by decide⟩⟩
  have hall : Panics (hocon S (n + 2)) (k ++ byte '=' :: x) := by
    unfold hocon
    refine Panics.skipRight (Panics.skipLeft (t := []) (v := ()) (eats_blanks blanks_nil (pathText_quiet hk)) ?_)
    unfold config
    exact Panics.or_left (Panics.or_left (hprop.many1.map _).attempt)
  have := hall []
  unfold parse
  simp only [List.nil_append, List.length_nil] at this
  rw [this]
  rfl

end OniComb.Hocon
