import Verif.Props.Hocon

/-!
# C57 and C60: what is left of an object with dotted keys, numbers with a fraction and an exponent
-/

namespace OniComb.Hocon
open OniComb OniComb.Hocon.Spec
open OniComb.Uri (Bytes byte bytes)

/-! ## C57 Dotted keys -/

private theorem expandEntries_nil {env : Env} : ∀ (es : Entries) (new res : Entries), expandEntries env es new = .ok res →
    res = [] → new = [] ∧ ∀ e ∈ es, byte '.' ∉ e.1 := by
  intro es
  induction es with
  | nil => intro new res h hr; rw [expandEntries] at h; cases h; exact ⟨hr, by simp⟩
  | cons e es ih =>
    obtain ⟨k, v⟩ := e
    intro new res h hr
    rw [expandEntries] at h
    obtain ⟨new', h1, h2⟩ := bind_eq_ok.1 h
    obtain ⟨h3, h4⟩ := ih _ _ h2 hr
    by_cases hk : byte '.' ∈ k
    · obtain ⟨s, ss, hs, hss⟩ := splitDot_dotted hk
      rw [expandEntry_dotted hk hs hss] at h1
      obtain ⟨x, -, h5⟩ := bind_eq_ok.1 h1
      cases h5
      exfalso
      have := get_mergeEntry (k := s) (k' := s) (v := nest ss x) (l := new)
      rw [h3] at this
      simp [get] at this
    · rw [expandEntry_plain hk] at h1
      cases h1
      refine ⟨h3, fun e he => ?_⟩
      rcases List.mem_cons.1 he with rfl | he
      · exact hk
      · exact h4 e he

/-- With a dotted key in the object, everything that is found in the result lies on the path of a dotted key, above it
or below it. -/
theorem c57_only_partial (env : Env) (es : Entries) (w : Value) (h : expand env (.obj es) = .ok w)
    (hd : ∃ e ∈ es, byte '.' ∈ e.1) (p : List Bytes) (hp : p ≠ []) (x : Value) (hx : at_ p w = some x) :
    ∃ q v, (joinDot q, v) ∈ es ∧ 1 < q.length ∧ (∀ s ∈ q, byte '.' ∉ s) ∧ Comparable p q := by
  rw [expand] at h
  obtain ⟨new, h1, h2⟩ := bind_eq_ok.1 h
  have key : at_ p (.obj new) = some x := by
    cases new with
    | nil =>
      exfalso
      obtain ⟨e, he, hde⟩ := hd
      exact (expandEntries_nil es _ _ h1 rfl).2 e he hde
    | cons e new => cases h2; exact hx
  rcases expandEntries_only es h1 (by rw [key]; rfl) with h3 | ⟨e, he, hde, hc⟩
  · match p, hp with
    | a :: p, _ => simp [at_, get] at h3
  · obtain ⟨s, ss, h4, h5⟩ := splitDot_dotted (k := e.1) hde
    refine ⟨splitDot e.1, e.2, by rw [joinDot_splitDot]; exact he, ?_, fun s hs => splitDot_mem hs, hc⟩
    rw [h4]
    have := List.length_pos_of_ne_nil h5
    simp; omega

/-! ## C60 Numbers with a fraction and an exponent -/

theorem eats_signedText {S : Std} {d : Decimal} {i rest : Bytes} {f e : Option Bytes} {s : Option UInt8} {b2 : Bytes} (hi : IntText i)
    (hs : ∀ b, s = some b → b = byte '-') (hf : ∀ x, f = some x → FracText x) (he : ∀ x, e = some x → ExpText x)
    (hd : numberOf S (s, i, f, e) = some d) (h2 : Gap b2)
    (hr : NoHead NumByte (b2 ++ rest)) (hq : Quiet rest) (hu : NoHead UnitStart rest) :
    Eats (softSimple S) ((((s.toList ++ i) ++ optText f) ++ optText e) ++ b2) (.num d) rest := by
  obtain ⟨b, is, rfl, hb⟩ := intText_head hi
  have hn : Eats (softNumber S) ((((s.toList ++ b :: is) ++ optText f) ++ optText e) ++ b2) d rest := by
    unfold softNumber
    exact Eats.softUnwrap (eats_number hi hs hf he h2 hr hq) hd
  have hh : ∃ c t, ((s.toList ++ b :: is) ++ optText f) ++ optText e = c :: t ∧ (c = byte '-' ∨ Digit c) := by
    cases s with
    | none => exact ⟨b, _, rfl, .inr hb⟩
    | some x => exact ⟨x, _, rfl, .inl (hs x rfl)⟩
  obtain ⟨c, t, ht, hc⟩ := hh
  rw [ht] at hn ⊢
  have hq1 : Quiet ((c :: t) ++ b2 ++ rest) := by
    rcases hc with rfl | hc
    · exact noHead_cons.2 (by decide)
    · exact noHead_cons.2 (digit_quiet hc)
  obtain ⟨x, hx⟩ := fail_unitP hu
  have hdur : Fail (softDuration S) ((c :: t) ++ b2 ++ rest) x := by
    unfold softDuration; exact hn.andThen_fail hx
  have hcs : ∀ r, Fail (or (or (attempt (map (seq (bytes "null")) fun _ => Value.null))
    (attempt (map (seq (bytes "true")) fun _ => .bool true)))
    (attempt (map (seq (bytes "false")) fun _ => .bool false))) ((c :: t) ++ r) .uncommitted := by
      intro r
      refine fail_consts (noHead_cons.2 ?_)
      rcases hc with rfl | hc
      · decide
      · exact fun h => digit_noConst hc ((by decide : ∀ b ∈ bytes "ntf", b ∈ bytes "ntf[{$") c h)
  unfold softSimple
  have := eats_spaced' (t := (c :: t) ++ b2) (b2 := []) (rest := rest) (v := Value.num d) gap_nil
    (p := or (or (or (or (or (attempt (map (seq (bytes "null")) fun _ => .null))
    (attempt (map (seq (bytes "true")) fun _ => .bool true)))
    (attempt (map (seq (bytes "false")) fun _ => .bool false)))
    (attempt (map (softDuration S) fun (d, u) => .dur d u))) (attempt (map (softNumber S) .num)))
    stringConfigValue) (by simpa using hq1) hq
    (.or_left (.or_right (.or ?_ (fail_attempt_of (hdur.map _))) (hn.map _).attempt))
  · simpa using this
  · rw [List.append_assoc]; exact hcs _

/-- A number with a fraction and an exponent is what `Decimal::from_str` makes of the text without the sign; the call
panics if that refuses it. -/
theorem c60_scientific_violated (S : Std) (n : Nat) (k i f e : Bytes) (neg : Bool) (hk : PathText k) (hi : IntText i)
    (hf : FracText f) (he : ExpText e) :
    (∀ d, S.parseDecimal (i ++ f ++ e) = some d →
      parse (hocon S (n + 2)) (k ++ byte '=' :: ((if neg then [byte '-'] else []) ++ i ++ f ++ e) ++ bytes "\n") =
        .ok [.obj [(k, .num d)]]) ∧
    (S.parseDecimal (i ++ f ++ e) = none →
      parse (hocon S (n + 2)) (k ++ byte '=' :: ((if neg then [byte '-'] else []) ++ i ++ f ++ e) ++ bytes "\n") = .panic) := by
  have hs : ∀ b, (if neg then some (byte '-') else none) = some b → b = byte '-' := by cases neg <;> simp
  have hl : (if neg then some (byte '-') else none).toList = if neg then [byte '-'] else [] := by cases neg <;> rfl
  have hno : numberOf S (if neg then some (byte '-') else none, i, some f, some e) = S.parseDecimal (i ++ f ++ e) := by
    cases neg <;> rfl
  have hf' : ∀ x, some f = some x → FracText x := by rintro _ ⟨⟩; exact hf
  have he' : ∀ x, some e = some x → ExpText x := by rintro _ ⟨⟩; exact he
  obtain ⟨b, is, rfl, hb⟩ := intText_head hi
  have hh : ∃ c t, (if neg then [byte '-'] else []) ++ b :: is ++ f ++ e = c :: t ∧ (c = byte '-' ∨ Digit c) := by
    cases neg
    · exact ⟨b, _, rfl, .inr hb⟩
    · exact ⟨byte '-', _, rfl, .inl rfl⟩
  obtain ⟨c, t, ht, hc⟩ := hh
  have hq1 : ∀ r, Quiet ((c :: t) ++ r) := by
    intro r
    rcases hc with rfl | hc
    · exact noHead_cons.2 (by decide)
    · exact noHead_cons.2 (digit_quiet hc)
  have hq2 : ∀ r, NoHead (fun b => b ∈ bytes "ntf[{$") ((c :: t) ++ r) := by
    intro r
    rcases hc with rfl | hc
    · exact noHead_cons.2 (by decide)
    · exact noHead_cons.2 (digit_noConst hc)
  constructor
  · intro d hd
    have h1 := eats_signedText (rest := docText []) (b2 := bytes "\n") hi hs hf' he' (hno.trans hd) gap_line
      (noHead_cons.2 (by decide)) noHead_nil noHead_nil
    rw [hl] at h1
    simp only [optText, Option.getD_some] at h1
    rw [ht] at h1
    have h2 : Eats (softGrammar S (n + 1)).1 ((c :: t) ++ bytes "\n") (.num d) (docText []) :=
      eats_cvSimple (by rw [List.append_assoc]; exact hq1 _) noHead_nil (by
        rw [List.append_assoc]
        exact (hq2 _).mono fun b hb => (by decide : ∀ b ∈ bytes "[{$", b ∈ bytes "ntf[{$") b hb) h1
    have h3 := hocon_line (n := n + 1) hk (by simp [depthEntries]) (by simp [DocOk]) h2
    rw [ht]
    simpa [docText, valueEntries, configFold, get, insertNew, show bytes "\n" = [byte '\n'] from rfl] using h3
  · intro hd
    have h1 := panics_number (b2 := bytes "\n") (rest := []) hi hs hf' he' gap_line (noHead_cons.2 (by decide)) noHead_nil
      (hno.trans hd)
    rw [hl] at h1
    simp only [optText, Option.getD_some] at h1
    rw [ht] at h1
    have := panic_doc (n := n) (k := k) hk (by simpa using hq1 _) (by simpa using hq2 _) h1
    rw [ht]
    simpa using this

example : parse (hocon decDigits 2) (bytes "a=-1.5e3\n") = .panic :=
  (c60_scientific_violated decDigits 0 (bytes "a") (bytes "1") (bytes ".5") (bytes "e3") true
    ⟨[bytes "a"], by simp, by simp [Segment]; decide, rfl⟩ (.inr ⟨_, [], rfl, by decide, by decide, by simp⟩)
    ⟨bytes "5", rfl, by decide, by unfold Digit; decide⟩
    ⟨_, [], bytes "3", rfl, .inl rfl, .inl rfl, by decide, by unfold Digit; decide⟩).2 (by decide)

end OniComb.Hocon
