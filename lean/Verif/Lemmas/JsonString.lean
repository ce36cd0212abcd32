import Verif.Lemmas.Json

/-! # Helper lemmas: strings of the JSON examples -/

set_option linter.unusedSectionVars false

namespace OniComb.Json
open OniComb.Json.Spec

section
variable {I F : Type} [DecidableEq I] [Element I] {K : Kind I F} [L : Lawful K]
variable {t r rest : List I}

/-! ### What a list of items denotes -/

/-- The list does not begin with an element. -/
def NoInl (us : List (I ⊕ Nat)) : Prop := ∀ b r, us ≠ .inl b :: r
/-- The list does not begin with a code unit. -/
def NoInr (us : List (I ⊕ Nat)) : Prop := ∀ u r, us ≠ .inr u :: r

omit [DecidableEq I] [Element I] L in
theorem decode_inl (run : List I) (us : List (I ⊕ Nat)) : decode K (run.map .inl ++ us) = run ++ decode K us := by
  induction run with
  | nil => rfl
  | cons b run ih => simp [decode, ih]

omit [DecidableEq I] [Element I] L in
theorem decode_inr_one {u : Nat} {us : List (I ⊕ Nat)} (h : NoInr us) : decode K (.inr u :: us) =
    K.enc (if Unicode.isHigh u || Unicode.isLow u then 0xFFFD else u) ++ decode K us := by
  cases us with
  | nil => simp [decode]
  | cons x us =>
    cases x with
    | inl b => simp [decode]
    | inr w => exact absurd rfl (h w us)

omit [DecidableEq I] [Element I] L in
theorem decode_inr (ws : List Nat) {us : List (I ⊕ Nat)} (h : NoInr us) :
    decode K (ws.map .inr ++ us) = (Unicode.decodeUtf16 ws).flatMap K.enc ++ decode K us := by
  induction ws using Unicode.decodeUtf16.induct with
  | case1 => rfl
  | case2 u hu => simp [decode_inr_one h, Unicode.decodeUtf16, hu]
  | case3 u hu =>
    have hu' : (Unicode.isHigh u || Unicode.isLow u) = false := by simpa using hu
    simp [decode_inr_one h, Unicode.decodeUtf16, hu']
  | case4 u w us' hu hw ih => simp [decode, Unicode.decodeUtf16, hu, hw, ih]
  | case5 u w us' hu hw ih =>
    have hw' : Unicode.isLow w = false := by simpa using hw
    simp only [List.map_cons, List.cons_append] at ih
    simp [decode, Unicode.decodeUtf16, hu, hw', ih]
  | case6 u w us' hu hw ih =>
    have hu' : Unicode.isHigh u = false := by simpa using hu
    simp only [List.map_cons, List.cons_append] at ih
    simp [decode, Unicode.decodeUtf16, hu', hw, ih]
  | case7 u w us' hu hw ih =>
    have hu' : Unicode.isHigh u = false := by simpa using hu
    have hw' : Unicode.isLow u = false := by simpa using hw
    simp only [List.map_cons, List.cons_append] at ih
    simp [decode, Unicode.decodeUtf16, hu', hw', ih]

omit [DecidableEq I] [Element I] L in
theorem utf8_nil : Utf8 K ([] : List (I ⊕ Nat)) := by
  intro pre run post h hr _ _
  cases run with
  | nil => exact absurd rfl hr
  | cons b run => simp at h

omit [DecidableEq I] [Element I] L in
theorem utf8_inr {u : Nat} {us : List (I ⊕ Nat)} : Utf8 K (.inr u :: us) ↔ Utf8 K us := by
  constructor
  · intro h pre run post he hr hp hq
    refine h (.inr u :: pre) run post (by rw [he]; rfl) hr (.inr ?_) hq
    rcases hp with rfl | ⟨p, w, rfl⟩
    · exact ⟨[], u, rfl⟩
    · exact ⟨.inr u :: p, w, rfl⟩
  · intro h pre run post he hr hp hq
    cases pre with
    | nil =>
      cases run with
      | nil => exact absurd rfl hr
      | cons b run => simp at he
    | cons x pre =>
      simp only [List.cons_append, List.cons.injEq] at he
      refine h pre run post he.2 hr ?_ hq
      rcases hp with hp | ⟨p, w, hp⟩
      · cases hp
      · cases p with
        | nil => exact .inl (by simpa using (List.cons.inj hp).2)
        | cons y p => exact .inr ⟨p, w, (List.cons.inj hp).2⟩

omit [DecidableEq I] [Element I] L in
theorem run_unique {a b : List I} {us vs : List (I ⊕ Nat)} (h : a.map Sum.inl ++ us = b.map Sum.inl ++ vs)
    (hu : NoInl us) (hv : NoInl vs) : a = b ∧ us = vs := by
  induction a generalizing b with
  | nil =>
    cases b with
    | nil => exact ⟨rfl, h⟩
    | cons x b => exact absurd h (hu x _)
  | cons y a ih =>
    cases b with
    | nil => exact absurd h.symm (hv y _)
    | cons x b =>
      simp only [List.map_cons, List.cons_append, List.cons.injEq, Sum.inl.injEq] at h
      obtain ⟨h1, h2⟩ := ih h.2
      exact ⟨by rw [h.1, h1], h2⟩

omit [DecidableEq I] [Element I] L in
theorem utf8_inl {run : List I} {us : List (I ⊕ Nat)} (hne : run ≠ []) (hu : NoInl us) :
    Utf8 K (run.map .inl ++ us) ↔ K.str run = some run ∧ Utf8 K us := by
  constructor
  · intro h
    refine ⟨h [] run us rfl hne (.inl rfl) ?_, ?_⟩
    · cases us with
      | nil => exact .inl rfl
      | cons x us =>
        cases x with
        | inl b => exact absurd rfl (hu b us)
        | inr w => exact .inr ⟨w, us, rfl⟩
    · intro pre run' post he hr hp hq
      refine h (run.map .inl ++ pre) run' post (by rw [he]; simp) hr (.inr ?_) hq
      rcases hp with rfl | ⟨p, w, rfl⟩
      · cases run' with
        | nil => exact absurd rfl hr
        | cons b run' => exact absurd he (hu b _)
      · exact ⟨run.map .inl ++ p, w, by simp⟩
  · rintro ⟨h1, h2⟩ pre run' post he hr hp hq
    have hpost : NoInl post := by
      intro b r e
      rcases hq with rfl | ⟨w, p, rfl⟩ <;> cases e
    rcases hp with rfl | ⟨p, w, rfl⟩
    · obtain ⟨rfl, -⟩ := run_unique he hu hpost
      exact h1
    · rcases List.append_eq_append_iff.1 he with ⟨m, h3, h4⟩ | ⟨m, h3, h4⟩
      · refine h2 m run' post h4 hr ?_ hq
        rcases List.eq_nil_or_concat m with rfl | ⟨m, x, rfl⟩
        · exact .inl rfl
        · rw [List.concat_eq_append] at h3 ⊢
          rw [← List.append_assoc] at h3
          have := List.append_inj_right' h3 rfl
          simp only [List.cons.injEq, and_true] at this
          exact .inr ⟨m, w, by rw [this]⟩
      · have : (.inr w : I ⊕ Nat) ∈ run.map Sum.inl := by rw [h3]; simp
        simp at this

/-! ### The parts of a string -/

instance : Good (specialChar K) := by unfold specialChar; infer_instance
instance : Good (escapeSequence K) := by unfold escapeSequence; infer_instance
instance : Good (charString K) := by unfold charString; infer_instance
instance : Good (utf16Char K) := by unfold utf16Char; infer_instance
instance : Good (utf16String K) := by unfold utf16String; infer_instance
instance : Good (string K) := by unfold string; infer_instance
instance : Halts (specialChar K) := by unfold specialChar; infer_instance
instance : Halts (escapeSequence K) := by unfold escapeSequence; infer_instance
instance : Prog (or (noneOf (K.lits "\\\"")) (escapeSequence K)) := ⟨fun t v rest he => by
  rcases eats_or.1 he with h | ⟨-, h⟩
  · rw [(one_none _).eats] at h; rw [h.1]; simp
  · unfold escapeSequence at h
    obtain ⟨t1, t2, w, rfl, h1, h2⟩ := eats_skipLeft.1 h
    rw [(eats_elm.1 h1).1]; simp⟩
instance : Halts (charString K) := by unfold charString; infer_instance
instance : Halts (utf16Char K) := by unfold utf16Char; infer_instance
instance : Prog (utf16Char K) := ⟨fun t v rest he => by
  unfold utf16Char at he
  obtain ⟨t1, t2, w, rfl, h1, h2⟩ := eats_skipLeft.1 he
  rw [(eats_seq.1 h1).1]; simp [Kind.lits]⟩
instance : Halts (utf16String K) := by unfold utf16String; infer_instance
instance : Prog (charString K) := by unfold charString; infer_instance
instance : Prog (utf16String K) := by unfold utf16String; infer_instance
instance : Halts (string K) := by unfold string; infer_instance

/-- The characters that may follow a backslash, with `u` aside. -/
abbrev escs : List Char := ['"', '\\', '/', 'b', 'f', 'n', 'r', 't']

omit [Element I] L in
theorem eats_mapElm {a b v : I} : Eats (map (elm a) fun _ => b) t v rest ↔ t = [a] ∧ v = b := by
  rw [eats_map]
  simp only [eats_elm]
  exact ⟨fun ⟨_, h, e⟩ => ⟨h.1, e⟩, fun ⟨h, e⟩ => ⟨a, ⟨h, rfl⟩, e⟩⟩

omit [Element I] L in
theorem fail_mapElm {a b : I} {c : Committed} : Fail (map (elm a) fun _ => b) r c ↔
    c = .uncommitted ∧ ∀ rest, r ≠ a :: rest := by rw [fail_map, fail_elm]

theorem eats_special {v : I} : Eats (specialChar K) t v rest ↔ ∃ c ∈ escs, t = [K.lit c] ∧ v = K.lit (escaped c) := by
  constructor
  · intro h
    unfold specialChar at h
    simp only [eats_or, eats_mapElm, eats_elm] at h
    rcases h with (((((((⟨h, h'⟩ | ⟨-, h, h'⟩) | ⟨-, h, h'⟩) | ⟨-, h, h'⟩) | ⟨-, h, h'⟩) | ⟨-, h, h'⟩) |
      ⟨-, h, h'⟩) | ⟨-, h, h'⟩)
    · exact ⟨'\\', by decide, h, h'⟩
    · exact ⟨'/', by decide, h, h'⟩
    · exact ⟨'"', by decide, h, h'⟩
    · exact ⟨'b', by decide, h, h'⟩
    · exact ⟨'f', by decide, h, h'⟩
    · exact ⟨'n', by decide, h, h'⟩
    · exact ⟨'r', by decide, h, h'⟩
    · exact ⟨'t', by decide, h, h'⟩
  · rintro ⟨c, hc, rfl, rfl⟩
    unfold specialChar
    simp only [eats_or, eats_mapElm, eats_elm, fail_or, fail_mapElm, fail_elm, reduceCtorEq, false_and,
      true_and, false_or]
    simp only [List.mem_cons, List.not_mem_nil, or_false] at hc
    rcases hc with rfl | rfl | rfl | rfl | rfl | rfl | rfl | rfl
    all_goals
      simp only [escaped]
      simp [List.cons.injEq, lit_eq]

theorem fail_special_of {c : Char} (hc : K.lit c ∉ escs.map K.lit) : Fail (specialChar K) (K.lit c :: r) .uncommitted := by
  unfold specialChar
  simp only [fail_or, fail_mapElm, fail_elm, reduceCtorEq, false_and, true_and, false_or]
  simp only [escs, List.map_cons, List.map_nil, List.mem_cons, List.not_mem_nil, or_false, not_or] at hc
  simp [hc]

omit L in
theorem mem_bq {x : I} : x ∈ K.lits "\\\"" ↔ x = K.lit '\\' ∨ x = K.lit '"' := lits_two (by decide)

/-- One element of a string that is not a `\u` escape. -/
abbrev strChar (K : Kind I F) : Parser I I := or (noneOf (K.lits "\\\"")) (escapeSequence K)

theorem eats_strChar {v : I} : Eats (strChar K) t v rest ↔
    ∃ it : Item I, it.Ok K true ∧ it.text K = t ∧ it.unit K = .inl v := by
  unfold strChar escapeSequence
  rw [eats_or, (one_none _).eats, (one_none _).fail, eats_skipLeft]
  constructor
  · rintro (⟨rfl, h⟩ | ⟨-, t1, t2, w, rfl, h1, h2⟩)
    · rw [mem_bq, not_or] at h
      exact ⟨.raw v, ⟨h.2, h.1, .inl rfl⟩, rfl, rfl⟩
    · obtain ⟨rfl, -⟩ := eats_elm.1 h1
      obtain ⟨c, hc, rfl, rfl⟩ := eats_special.1 h2
      exact ⟨.esc c, hc, rfl, rfl⟩
  · rintro ⟨it, h1, rfl, h2⟩
    cases it with
    | raw b =>
      simp only [Item.unit, Sum.inl.injEq] at h2
      subst h2
      exact .inl ⟨rfl, by rw [mem_bq, not_or]; exact ⟨h1.2.1, h1.1⟩⟩
    | esc c =>
      simp only [Item.unit, Sum.inl.injEq] at h2
      refine .inr ⟨⟨rfl, noHead_cons.2 ?_⟩, [K.lit '\\'], [K.lit c], K.lit '\\', rfl, eats_elm.2 ⟨rfl, rfl⟩,
        eats_special.2 ⟨c, h1, rfl, h2.symm⟩⟩
      rw [not_not, mem_bq]; exact .inl rfl
    | uni ds => cases h2

/-- Neither the closing quote nor a `\u` escape is such an element. -/
theorem fail_strChar (h : (∃ r', r = K.lit '"' :: r') ∨ ∃ r', r = K.lit '\\' :: K.lit 'u' :: r') :
    Fail (strChar K) r .uncommitted := by
  unfold strChar escapeSequence
  refine Fail.or ((one_none _).fail.2 ⟨rfl, ?_⟩) ?_
  · rcases h with ⟨r', rfl⟩ | ⟨r', rfl⟩ <;> rw [noHead_cons, not_not, mem_bq]
    · exact .inr rfl
    · exact .inl rfl
  · rcases h with ⟨r', rfl⟩ | ⟨r', rfl⟩
    · refine Fail.skipLeft (fail_elm.2 ⟨rfl, ?_⟩)
      intro r'' e
      injection e with e
      exact lit_ne (K := K) (by decide) (by decide) (by decide) e
    · refine Eats.skipLeft_fail (t1 := [K.lit '\\']) (eats_elm.2 ⟨rfl, rfl⟩) (fail_special_of ?_)
      simp [escs, lit_eq]

omit [DecidableEq I] L in
theorem hex_ascii {b : I} (h : Hex K b) : ∃ c : Char, c.toNat < 128 ∧ b = K.lit c := by
  obtain ⟨c, hc, rfl⟩ := List.mem_map.1 h
  exact ⟨c, (by decide : ∀ x ∈ "0123456789abcdefABCDEF".toList, x.toNat < 128) c hc, rfl⟩

omit [DecidableEq I] [Element I] L in
theorem lits_bu : K.lits "\\u" = [K.lit '\\', K.lit 'u'] := by
  unfold Kind.lits
  have : "\\u".toList = ['\\', 'u'] := by decide
  rw [this]; rfl

theorem one_hex : OneOfP (elmPred K.hex) (Hex K) := (one_pred _).congr L.hex

theorem eats_utf16Char {u : Nat} : Eats (utf16Char K) t u rest ↔
    ∃ ds : List I, (Item.uni ds).Ok K true ∧ (Item.uni ds).text K = t ∧ u = hexValue ds := by
  unfold utf16Char
  rw [eats_skipLeft]
  constructor
  · rintro ⟨t1, t2, w, rfl, h1, h2⟩
    obtain ⟨rfl, -⟩ := eats_seq.1 h1
    obtain ⟨s, h2, h3⟩ := eats_mapRes.1 h2
    obtain ⟨s', h2, h4⟩ := eats_mapRes.1 h2
    have := L.str_id _ _ h4; subst this
    obtain ⟨h5, h6⟩ := (eats_count (by decide)).1 h2
    obtain ⟨rfl, h7⟩ := (one_hex (K := K)).many.1 h6
    rw [L.u16 _ h5 h7] at h3
    exact ⟨s, ⟨h5, h7⟩, by rw [lits_bu]; rfl, by simpa using h3.symm⟩
  · rintro ⟨ds, ⟨h1, h2⟩, rfl, rfl⟩
    refine ⟨K.lits "\\u", ds, _, by rw [lits_bu]; rfl, eats_seq.2 ⟨rfl, rfl⟩, eats_mapRes.2 ⟨ds, eats_mapRes.2 ⟨ds, ?_,
      L.str_ascii ds fun b hb => hex_ascii (h2 b hb)⟩, L.u16 ds h1 h2⟩⟩
    exact (eats_count (by decide)).2 ⟨h1, (one_hex (K := K)).many.2 ⟨rfl, h2⟩⟩

theorem fail_utf16Char (h : ∀ r', r ≠ K.lit '\\' :: K.lit 'u' :: r') : ∃ c, Fail (utf16Char K) r c := by
  have : ∃ c, Fail (seq (K.lits "\\u")) r c := by
    rw [fail_seq, lits_bu]
    rintro ⟨r', rfl⟩
    exact h r' rfl
  obtain ⟨c, hc⟩ := this
  exact ⟨c, by unfold utf16Char; exact Fail.skipLeft hc⟩

theorem many_strChar {vs : List I} : Many (strChar K) t vs rest ↔
    ∃ items : List (Item I), (∀ it ∈ items, it.Ok K true) ∧ items.flatMap (Item.text K) = t ∧
      items.map (Item.unit K) = vs.map .inl := by
  constructor
  · intro h
    induction h with
    | nil => exact ⟨[], by simp, rfl, rfl⟩
    | cons h1 _ ih =>
      obtain ⟨items, h2, rfl, h4⟩ := ih
      obtain ⟨it, h5, rfl, h7⟩ := eats_strChar.1 h1
      exact ⟨it :: items, by simpa using ⟨h5, h2⟩, rfl, by simp [h4, h7]⟩
  · rintro ⟨items, h1, rfl, h3⟩
    induction items generalizing vs with
    | nil => cases vs with
      | nil => exact .nil _
      | cons v vs => cases h3
    | cons it items ih => cases vs with
      | nil => cases h3
      | cons v vs =>
        simp only [List.map_cons, List.cons.injEq] at h3
        rw [List.flatMap_cons]
        exact .cons (eats_strChar.2 ⟨it, h1 it (by simp), rfl, h3.1⟩) (ih (fun x hx => h1 x (by simp [hx])) h3.2)

theorem many_utf16Char {us : List Nat} : Many (utf16Char K) t us rest ↔
    ∃ items : List (Item I), (∀ it ∈ items, it.Ok K true) ∧ items.flatMap (Item.text K) = t ∧
      items.map (Item.unit K) = us.map .inr := by
  constructor
  · intro h
    induction h with
    | nil => exact ⟨[], by simp, rfl, rfl⟩
    | cons h1 _ ih =>
      obtain ⟨items, h2, rfl, h4⟩ := ih
      obtain ⟨ds, h5, rfl, rfl⟩ := eats_utf16Char.1 h1
      exact ⟨.uni ds :: items, by simpa using ⟨h5, h2⟩, rfl, by simp [h4, Item.unit]⟩
  · rintro ⟨items, h1, rfl, h3⟩
    induction items generalizing us with
    | nil => cases us with
      | nil => exact .nil _
      | cons v vs => cases h3
    | cons it items ih => cases us with
      | nil => cases h3
      | cons v vs =>
        simp only [List.map_cons, List.cons.injEq] at h3
        rw [List.flatMap_cons]
        refine .cons ?_ (ih (fun x hx => h1 x (by simp [hx])) h3.2)
        have h4 := h1 it (by simp)
        cases it with
        | uni ds =>
          simp only [Item.unit, Sum.inr.injEq] at h3
          exact eats_utf16Char.2 ⟨ds, h4, rfl, h3.1.symm⟩
        | _ => simp [Item.unit] at h3

/-! ### The content of a string -/

/-- One piece of the content. -/
abbrev piece (K : Kind I F) : Parser I (List I) := or (charString K) (utf16String K)

/-- The content read denotes what is returned. -/
theorem sound_content {ss : List (List I)} (h : Many (piece K) t ss rest) :
    ∃ items : List (Item I), (∀ it ∈ items, it.Ok K true) ∧ items.flatMap (Item.text K) = t ∧
      Utf8 K (items.map (Item.unit K)) ∧ decode K (items.map (Item.unit K)) = ss.flatten ∧
      ((∃ c, Fail (strChar K) (t ++ rest) c) → NoInl (items.map (Item.unit K))) ∧
      ((∃ c, Fail (utf16Char K) (t ++ rest) c) → NoInr (items.map (Item.unit K))) := by
  induction h with
  | nil => exact ⟨[], by simp, rfl, utf8_nil, rfl, fun _ b r e => by (cases e), fun _ b r e => by (cases e)⟩
  | @cons t t' rest v vs h1 _ ih =>
    obtain ⟨items, i1, i2, i3, i4, i5, i6⟩ := ih
    rcases eats_or.1 h1 with h1 | ⟨-, h1⟩
    · unfold charString at h1
      obtain ⟨w, h1, h2⟩ := eats_mapRes.1 h1
      have := L.str_id _ _ h2; subst this
      obtain ⟨hne, hm, hf⟩ := eats_many1.1 h1
      have hno := i5 hf
      obtain ⟨its, j1, j2, j3⟩ := many_strChar.1 hm
      refine ⟨its ++ items, ?_, by simp [i2, j2], ?_, ?_, ?_, ?_⟩
      · intro it hit
        rcases List.mem_append.1 hit with h | h
        · exact j1 it h
        · exact i1 it h
      · rw [List.map_append, j3, utf8_inl hne hno]
        exact ⟨h2, i3⟩
      · rw [List.map_append, j3, decode_inl, i4]; rfl
      · rintro ⟨c, e, hc⟩
        exfalso
        cases hm with
        | nil => exact hne rfl
        | cons h5 h6 =>
          unfold Eats at h5
          simp only [List.append_assoc] at h5 hc
          cases h5.symm.trans hc
      · intro _ b r e
        rw [List.map_append, j3] at e
        cases v with
        | nil => exact hne rfl
        | cons x v => cases e
    · unfold utf16String at h1
      obtain ⟨us, h2, rfl⟩ := eats_map.1 h1
      obtain ⟨hne, hm, hf⟩ := eats_many1.1 h2
      have hno := i6 hf
      obtain ⟨its, j1, j2, j3⟩ := many_utf16Char.1 hm
      have huni : ∀ ws : List Nat, Utf8 K (ws.map .inr ++ items.map (Item.unit K)) := by
        intro ws
        induction ws with
        | nil => exact i3
        | cons w ws ih => exact utf8_inr.2 ih
      refine ⟨its ++ items, ?_, by simp [i2, j2], ?_, ?_, ?_, ?_⟩
      · intro it hit
        rcases List.mem_append.1 hit with h | h
        · exact j1 it h
        · exact i1 it h
      · rw [List.map_append, j3]; exact huni us
      · rw [List.map_append, j3, decode_inr _ hno, i4]; rfl
      · intro _ b r e
        rw [List.map_append, j3] at e
        cases us with
        | nil => exact hne rfl
        | cons x v => cases e
      · rintro ⟨c, e, hc⟩
        exfalso
        cases hm with
        | nil => exact hne rfl
        | cons h5 h6 =>
          unfold Eats at h5
          simp only [List.append_assoc] at h5 hc
          cases h5.symm.trans hc

/-- Splitting a leading run of elements off. -/
theorem split_inl (items : List (Item I)) : ∃ (run : List I) (its items' : List (Item I)), items = its ++ items' ∧
    its.map (Item.unit K) = run.map .inl ∧ NoInl (items'.map (Item.unit K)) := by
  induction items with
  | nil => exact ⟨[], [], [], rfl, rfl, fun b r e => by cases e⟩
  | cons it items ih =>
    cases hu : it.unit K with
    | inl b =>
      obtain ⟨run, its, items', rfl, h1, h2⟩ := ih
      exact ⟨b :: run, it :: its, items', rfl, by simp [hu, h1], h2⟩
    | inr u => exact ⟨[], [], it :: items, rfl, rfl, fun b r e => by rw [List.map_cons, hu] at e; cases e⟩

/-- Splitting a leading run of `\u` escapes off. -/
theorem split_inr (items : List (Item I)) : ∃ (run : List Nat) (its items' : List (Item I)), items = its ++ items' ∧
    its.map (Item.unit K) = run.map .inr ∧ NoInr (items'.map (Item.unit K)) := by
  induction items with
  | nil => exact ⟨[], [], [], rfl, rfl, fun b r e => by cases e⟩
  | cons it items ih =>
    cases hu : it.unit K with
    | inr b =>
      obtain ⟨run, its, items', rfl, h1, h2⟩ := ih
      exact ⟨b :: run, it :: its, items', rfl, by simp [hu, h1], h2⟩
    | inl u => exact ⟨[], [], it :: items, rfl, rfl, fun b r e => by rw [List.map_cons, hu] at e; cases e⟩

/-- What follows a run of elements. -/
theorem after_inl {items : List (Item I)} (h : NoInl (items.map (Item.unit K))) :
    Fail (strChar K) (items.flatMap (Item.text K) ++ K.lit '"' :: rest) .uncommitted := by
  refine fail_strChar ?_
  cases items with
  | nil => exact .inl ⟨_, rfl⟩
  | cons it items =>
    cases it with
    | uni ds => exact .inr ⟨ds ++ (items.flatMap (Item.text K) ++ K.lit '"' :: rest), by simp [Item.text]⟩
    | raw b => exact absurd rfl (h b _)
    | esc c => exact absurd rfl (h (K.lit (escaped c)) _)

/-- What follows a run of `\u` escapes. -/
theorem after_inr {items : List (Item I)} (hok : ∀ it ∈ items, it.Ok K true) (h : NoInr (items.map (Item.unit K))) :
    ∃ c, Fail (utf16Char K) (items.flatMap (Item.text K) ++ K.lit '"' :: rest) c := by
  refine fail_utf16Char ?_
  intro r' e
  cases items with
  | nil =>
    injection e with e
    exact lit_ne (K := K) (by decide) (by decide) (by decide) e
  | cons it items =>
    have h1 := hok it (by simp)
    cases it with
    | uni ds => exact absurd rfl (h (hexValue ds) _)
    | raw b =>
      simp only [List.flatMap_cons, Item.text, List.cons_append, List.nil_append, List.cons.injEq] at e
      exact h1.2.1 e.1
    | esc c =>
      simp only [List.flatMap_cons, Item.text, List.cons_append, List.nil_append, List.cons.injEq] at e
      have hc : c ∈ escs := h1
      have := L.inj _ _ ((by decide : ∀ x ∈ escs, x.toNat < 128) c hc) (by decide) e.2.1
      subst this
      exact absurd hc (by decide)

/-- Every sequence of items is read. -/
theorem content_eats (n : Nat) (items : List (Item I)) (hn : items.length ≤ n) (hok : ∀ it ∈ items, it.Ok K true)
    (hu : Utf8 K (items.map (Item.unit K))) :
    ∃ ss, Many (piece K) (items.flatMap (Item.text K)) ss (K.lit '"' :: rest) ∧
      ss.flatten = decode K (items.map (Item.unit K)) := by
  induction n generalizing items with
  | zero =>
    cases items with
    | nil => exact ⟨[], .nil _, rfl⟩
    | cons it items => simp at hn
  | succ n ih =>
    cases items with
    | nil => exact ⟨[], .nil _, rfl⟩
    | cons it items =>
      cases hit : it.unit K with
      | inl b =>
        obtain ⟨run, its, items', h1, h2, h3⟩ := split_inl (K := K) (it :: items)
        have hne : run ≠ [] := by
          rintro rfl
          have : its = [] := by simpa using h2
          subst this
          simp only [List.nil_append] at h1
          subst h1
          exact h3 b _ (by rw [List.map_cons, hit])
        have hlen : its ≠ [] := by
          rintro rfl
          exact hne (by simpa using h2.symm)
        have hl : its.length ≠ 0 := fun h => hlen (List.length_eq_zero_iff.1 h)
        rw [h1] at hok hu hn ⊢
        rw [List.map_append, h2, utf8_inl hne h3] at hu
        obtain ⟨ss, hs, hd⟩ := ih items' (by simp at hn; omega) (fun x hx => hok x (by simp [hx])) hu.2
        refine ⟨run :: ss, ?_, by rw [List.map_append, h2, decode_inl, ← hd]; rfl⟩
        rw [List.flatMap_append]
        refine .cons (Eats.or_left ?_) hs
        unfold charString
        refine eats_mapRes.2 ⟨run, eats_many1.2 ⟨hne, many_strChar.2 ⟨its, fun x hx => hok x (by simp [hx]), rfl, h2⟩,
          _, after_inl h3⟩, hu.1⟩
      | inr u =>
        obtain ⟨run, its, items', h1, h2, h3⟩ := split_inr (K := K) (it :: items)
        have hne : run ≠ [] := by
          rintro rfl
          have : its = [] := by simpa using h2
          subst this
          simp only [List.nil_append] at h1
          subst h1
          exact h3 u _ (by rw [List.map_cons, hit])
        have hlen : its ≠ [] := by
          rintro rfl
          exact hne (by simpa using h2.symm)
        have hl : its.length ≠ 0 := fun h => hlen (List.length_eq_zero_iff.1 h)
        have hfirst : NoInl ((it :: items).map (Item.unit K)) := by
          intro b r e; rw [List.map_cons, hit] at e; cases e
        have hfail := after_inl (rest := rest) hfirst
        rw [h1] at hok hu hn hfail ⊢
        rw [List.map_append, h2] at hu
        have hu' : ∀ ws : List Nat, Utf8 K (ws.map .inr ++ items'.map (Item.unit K)) → Utf8 K (items'.map (Item.unit K)) := by
          intro ws
          induction ws with
          | nil => exact id
          | cons w ws ih => exact fun h => ih (utf8_inr.1 h)
        obtain ⟨ss, hs, hd⟩ := ih items' (by simp at hn; omega) (fun x hx => hok x (by simp [hx])) (hu' _ hu)
        refine ⟨(Unicode.decodeUtf16 run).flatMap K.enc :: ss, ?_, by rw [List.map_append, h2, decode_inr _ h3, ← hd]; rfl⟩
        rw [List.flatMap_append] at hfail ⊢
        refine .cons (Eats.or_right ?_ ?_) hs
        · unfold charString
          rw [fail_mapRes, fail_many1]
          exact .inl ⟨rfl, _, by simpa using hfail⟩
        · unfold utf16String
          refine eats_map.2 ⟨run, eats_many1.2 ⟨hne, many_utf16Char.2 ⟨its, fun x hx => hok x (by simp [hx]), rfl, h2⟩, ?_⟩, rfl⟩
          exact after_inr (fun x hx => hok x (by simp [hx])) h3

theorem fail_piece_quote : ∃ c, Fail (piece K) (K.lit '"' :: rest) c := by
  refine ⟨.uncommitted, Fail.or ?_ ?_⟩
  · unfold charString
    rw [fail_mapRes, fail_many1]
    exact .inl ⟨rfl, _, fail_strChar (.inl ⟨_, rfl⟩)⟩
  · unfold utf16String
    rw [fail_map, fail_many1]
    refine ⟨rfl, fail_utf16Char ?_⟩
    intro r' e
    injection e with e
    exact lit_ne (K := K) (by decide) (by decide) (by decide) e

/-- What the string parser reads. -/
theorem eats_string {s : List I} : Eats (string K) t s rest ↔ StrText K true s t := by
  unfold string
  constructor
  · intro h
    obtain ⟨ss, h0, rfl⟩ := eats_map.1 h
    unfold surround at h0
    obtain ⟨t1, t2, w, rfl, h1, h2⟩ := eats_skipLeft.1 h0
    obtain ⟨t3, t4, w', rfl, h3, h4⟩ := eats_skipRight.1 h2
    obtain ⟨rfl, -⟩ := eats_elm.1 h1
    obtain ⟨rfl, -⟩ := eats_elm.1 h4
    obtain ⟨items, i1, i2, i3, i4, -, -⟩ := sound_content (eats_many0.1 h3).1
    exact ⟨items, i1, i3, i4.symm, by rw [i2]; rfl⟩
  · rintro ⟨items, h1, h2, rfl, rfl⟩
    obtain ⟨ss, hs, hd⟩ := content_eats (rest := rest) _ items (Nat.le_refl _) h1 h2
    refine eats_map.2 ⟨ss, ?_, hd.symm⟩
    exact Eats.surround (t1 := [K.lit '"']) (t3 := [K.lit '"']) (c := K.lit '"') (w := K.lit '"') (eats_elm.2 ⟨rfl, rfl⟩)
      (eats_many0.2 ⟨hs, fail_piece_quote⟩) (eats_elm.2 ⟨rfl, rfl⟩)

omit L in
theorem fail_string (h : ∀ r', r ≠ K.lit '"' :: r') : Fail (string K) r .uncommitted := by
  unfold string
  rw [fail_map]
  exact Fail.surround (fail_elm.2 ⟨rfl, h⟩)

end
end OniComb.Json
