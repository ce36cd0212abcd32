import Verif.Lemmas.JsonString
import Verif.Lemmas.JsonKinds
import Verif.Lemmas.HoconScalar

/-! # Helper lemmas: the strings of `hocon`, with escapes -/

namespace OniComb.Hocon
open OniComb OniComb.Hocon.Spec
open OniComb.Json (NoInl NoInr escs)
open OniComb.Json.Spec (Item)
open OniComb.Uri (Bytes byte bytes fromUtf8 parseUInt mapUnwrap text)

variable {t rest r : Bytes} {c : Committed} {S : Std}

/-- One byte of `charString`. -/
abbrev strByte : Parser UInt8 UInt8 := or (noneOf (bytes "[]\r\n\\\"'")) (skipLeft (elm (byte '\\')) specialChar)

/-- An item that may occur. -/
def ItemOk (it : StrItem) : Prop := it.Ok strKind true ∧ ∀ b, it = .raw b → b ∉ bytes "[]\r\n'"

theorem special_iff {b : UInt8} : Special b ↔ b = byte '"' ∨ b = byte '\\' ∨ b ∈ bytes "[]\r\n'" := by
  unfold Special
  have h : ∀ b : UInt8, b ∈ bytes "[]\r\n\\\"'" ↔ b = byte '"' ∨ b = byte '\\' ∨ b ∈ bytes "[]\r\n'" := by
    intro b
    simp only [show bytes "[]\r\n\\\"'" = [byte '[', byte ']', byte '\r', byte '\n', byte '\\', byte '"', byte '\''] from rfl,
      show bytes "[]\r\n'" = [byte '[', byte ']', byte '\r', byte '\n', byte '\''] from rfl, List.mem_cons,
      List.not_mem_nil, or_false]
    constructor
    · rintro (h | h | h | h | h | h | h) <;> simp [h]
    · rintro (h | h | h | h | h | h | h) <;> simp [h]
  exact h b

theorem eats_strByte {v : UInt8} : Eats strByte t v rest ↔
    ∃ it : StrItem, ItemOk it ∧ it.text strKind = t ∧ it.unit strKind = .inl v := by
  unfold strByte
  rw [eats_or, (one_none _).eats, (one_none _).fail, eats_skipLeft]
  constructor
  · rintro (⟨rfl, h⟩ | ⟨-, t1, t2, w, rfl, h1, h2⟩)
    · have h' := mt special_iff.2 h
      simp only [not_or] at h'
      exact ⟨.raw v, ⟨⟨h'.1, h'.2.1, .inl rfl⟩, by rintro b ⟨⟩; exact h'.2.2⟩, rfl, rfl⟩
    · obtain ⟨rfl, -⟩ := eats_elm.1 h1
      obtain ⟨c, hc, rfl, rfl⟩ := (Json.eats_special (K := strKind)).1 h2
      exact ⟨.esc c, ⟨hc, by rintro b ⟨⟩⟩, rfl, rfl⟩
  · rintro ⟨it, ⟨h1, h3⟩, rfl, h2⟩
    cases it with
    | raw b =>
      simp only [Item.unit, Sum.inl.injEq] at h2
      subst h2
      refine .inl ⟨rfl, ?_⟩
      intro h
      rcases special_iff.1 h with h | h | h
      · exact h1.1 h
      · exact h1.2.1 h
      · exact h3 _ rfl h
    | esc c =>
      simp only [Item.unit, Sum.inl.injEq] at h2
      refine .inr ⟨⟨rfl, noHead_cons.2 ?_⟩, [byte '\\'], [byte c], byte '\\', rfl, eats_elm.2 ⟨rfl, rfl⟩,
        (Json.eats_special (K := strKind)).2 ⟨c, h1, rfl, h2.symm⟩⟩
      rw [not_not]; decide
    | uni ds => cases h2

theorem many_strItems {vs : Bytes} {items : List StrItem} (h1 : ∀ it ∈ items, ItemOk it)
    (h3 : items.map (Item.unit strKind) = vs.map .inl) : Many strByte (itemsText items) vs rest := by
  induction items generalizing vs with
  | nil => cases vs with
    | nil => exact .nil _
    | cons v vs => cases h3
  | cons it items ih => cases vs with
    | nil => cases h3
    | cons v vs =>
      simp only [List.map_cons, List.cons.injEq] at h3
      unfold itemsText at ih ⊢
      rw [List.flatMap_cons]
      exact .cons (eats_strByte.2 ⟨it, h1 it (by simp), rfl, h3.1⟩) (ih (fun x hx => h1 x (by simp [hx])) h3.2)

/-- Where a string stops. -/
def StopsAt (x : Bytes) : Prop :=
  (∃ c, Fail strByte x c) ∧ ∃ c, Fail utf16Char x c

/-- The literal bytes stop in front of a `\u`. -/
theorem fail_strByte_u {x : Bytes} : Fail strByte (byte '\\' :: byte 'u' :: x) .uncommitted := by
  refine Fail.or ((one_none _).fail.2 ⟨rfl, noHead_cons.2 (by decide)⟩) ?_
  refine Eats.skipLeft_fail (t1 := [byte '\\']) (eats_elm.2 ⟨rfl, rfl⟩) ?_
  exact Json.fail_special_of (K := strKind) (c := 'u') (by decide)

theorem after_inl {items : List StrItem} (hr : StopsAt rest) (h : NoInl (items.map (Item.unit strKind))) :
    ∃ c, Fail strByte (itemsText items ++ rest) c := by
  cases items with
  | nil => exact hr.1
  | cons it items =>
    cases it with
    | uni ds =>
      have := fail_strByte_u (x := ds ++ (itemsText items ++ rest))
      rw [← List.append_assoc] at this
      exact ⟨_, this⟩
    | raw b => exact absurd rfl (h b _)
    | esc c => exact absurd rfl (h _ _)

theorem after_inr {items : List StrItem} (hr : StopsAt rest) (hok : ∀ it ∈ items, ItemOk it)
    (h : NoInr (items.map (Item.unit strKind))) : ∃ c, Fail utf16Char (itemsText items ++ rest) c := by
  cases items with
  | nil => exact hr.2
  | cons it items =>
    refine Json.fail_utf16Char (K := strKind) ?_
    intro r' e
    have h1 := (hok it (by simp)).1
    cases it with
    | uni ds => exact absurd rfl (h _ _)
    | raw b =>
      simp only [itemsText, List.flatMap_cons, Item.text, List.cons_append, List.nil_append, List.cons.injEq] at e
      exact h1.2.1 e.1
    | esc c =>
      simp only [itemsText, List.flatMap_cons, Item.text, List.cons_append, List.nil_append, List.cons.injEq] at e
      have hc : c ∈ escs := h1
      have := (inferInstance : Json.Lawful strKind).inj _ _ ((by decide : ∀ x ∈ escs, x.toNat < 128) c hc) (by decide) e.2.1
      subst this
      exact absurd hc (by decide)

/-- One piece of a string. -/
abbrev strPiece : Parser UInt8 Bytes := or (attempt charString) utf16String

theorem content_eats (n : Nat) (items : List StrItem) (hr : StopsAt rest) (hn : items.length ≤ n)
    (hok : ∀ it ∈ items, ItemOk it) (hu : Json.Spec.Utf8 strKind (items.map (Item.unit strKind))) :
    ∃ ss, Many strPiece (itemsText items) ss rest ∧ ss.flatten = denoted items ∧ (items ≠ [] → ss ≠ []) := by
  induction n generalizing items with
  | zero =>
    cases items with
    | nil => exact ⟨[], .nil _, rfl, by simp⟩
    | cons it items => simp at hn
  | succ n ih =>
    cases items with
    | nil => exact ⟨[], .nil _, rfl, by simp⟩
    | cons it items =>
      cases hit : it.unit strKind with
      | inl b =>
        obtain ⟨run, its, items', h1, h2, h3⟩ := Json.split_inl (K := strKind) (it :: items)
        have hne : run ≠ [] := by
          rintro rfl
          have : its = [] := by simpa using h2
          subst this
          simp only [List.nil_append] at h1
          subst h1
          exact h3 b _ (by rw [List.map_cons, hit])
        have hlen : its ≠ [] := by
          rintro rfl
          exact hne (by simpa using h2.symm)
        have hl : its.length ≠ 0 := fun h => hlen (List.length_eq_zero_iff.1 h)
        rw [h1] at hok hu hn ⊢
        rw [List.map_append, h2, Json.utf8_inl hne h3] at hu
        obtain ⟨ss, hs, hd, -⟩ := ih items' (by simp at hn; omega) (fun x hx => hok x (by simp [hx])) hu.2
        refine ⟨run :: ss, ?_, by unfold denoted at hd ⊢; rw [List.map_append, h2, Json.decode_inl, ← hd]; rfl, by simp⟩
        have hs' : itemsText (its ++ items') = itemsText its ++ itemsText items' := by simp [itemsText]
        rw [hs']
        refine .cons (Eats.or_left (Eats.attempt ?_)) hs
        unfold charString
        exact eats_mapRes.2 ⟨run, eats_many1.2 ⟨hne, many_strItems (fun x hx => hok x (by simp [hx])) h2,
          after_inl hr h3⟩, hu.1⟩
      | inr u =>
        obtain ⟨run, its, items', h1, h2, h3⟩ := Json.split_inr (K := strKind) (it :: items)
        have hne : run ≠ [] := by
          rintro rfl
          have : its = [] := by simpa using h2
          subst this
          simp only [List.nil_append] at h1
          subst h1
          exact h3 u _ (by rw [List.map_cons, hit])
        have hlen : its ≠ [] := by
          rintro rfl
          exact hne (by simpa using h2.symm)
        have hl : its.length ≠ 0 := fun h => hlen (List.length_eq_zero_iff.1 h)
        have hfirst : NoInl ((it :: items).map (Item.unit strKind)) := by
          intro b r e; rw [List.map_cons, hit] at e; cases e
        have hfail := after_inl (rest := rest) hr hfirst
        rw [h1] at hok hu hn hfail ⊢
        rw [List.map_append, h2] at hu
        have hu' : ∀ ws : List Nat, Json.Spec.Utf8 strKind (ws.map .inr ++ items'.map (Item.unit strKind)) →
            Json.Spec.Utf8 strKind (items'.map (Item.unit strKind)) := by
          intro ws
          induction ws with
          | nil => exact id
          | cons w ws ih => exact fun h => ih (Json.utf8_inr.1 h)
        obtain ⟨ss, hs, hd, -⟩ := ih items' (by simp at hn; omega) (fun x hx => hok x (by simp [hx])) (hu' _ hu)
        refine ⟨(Unicode.decodeUtf16 run).flatMap Unicode.encodeUtf8 :: ss, ?_, by
          unfold denoted at hd ⊢; rw [List.map_append, h2, Json.decode_inr _ h3, ← hd]; rfl, by simp⟩
        have hs' : itemsText (its ++ items') = itemsText its ++ itemsText items' := by simp [itemsText]
        rw [hs'] at hfail ⊢
        obtain ⟨c, hc⟩ := hfail
        refine .cons (Eats.or_right (fail_attempt_of (c := .uncommitted) ?_) ?_) hs
        · unfold charString
          rw [fail_mapRes, fail_many1]
          exact .inl ⟨rfl, c, by simpa using hc⟩
        · show Eats (Json.utf16String strKind) _ _ _
          unfold Json.utf16String
          exact eats_map.2 ⟨run, eats_many1.2 ⟨hne, Json.many_utf16Char.2 ⟨its, fun x hx => (hok x (by simp [hx])).1, rfl, h2⟩,
            after_inr hr (fun x hx => hok x (by simp [hx])) h3⟩, rfl⟩

theorem fail_piece (hr : StopsAt r) : ∃ c, Fail strPiece r c := by
  obtain ⟨⟨c1, h1⟩, c2, h2⟩ := hr
  refine ⟨.uncommitted, .or (fail_attempt_of (c := .uncommitted) ?_) ?_⟩
  · unfold charString
    exact fail_mapRes.2 (.inl (fail_many1.2 ⟨rfl, c1, h1⟩))
  · unfold utf16String
    exact .map _ (fail_many1.2 ⟨rfl, c2, h2⟩)

theorem itemsOk_all {items : List StrItem} (h : ItemsOk items) : ∀ it ∈ items, ItemOk it :=
  fun it hit => ⟨h.1 it hit, fun b hb => h.2.1 b (hb ▸ hit)⟩

theorem eats_items {items : List StrItem} (hne : items ≠ []) (h : ItemsOk items) (hr : StopsAt rest) :
    ∃ ss, Eats stringSurround (itemsText items) ss rest ∧ ss.flatten = denoted items := by
  obtain ⟨ss, h1, h2, h3⟩ := content_eats _ items hr (Nat.le_refl _) (itemsOk_all h) h.2.2
  exact ⟨ss, by unfold stringSurround; exact eats_many1.2 ⟨h3 hne, h1, fail_piece hr⟩, h2⟩

theorem stopsAt_stop (hr : StrStop r) : StopsAt r := by
  refine ⟨⟨_, fail_strByte hr⟩, Json.fail_utf16Char (K := strKind) ?_⟩
  rintro r' rfl
  exact hr _ _ rfl (.inr rfl)

theorem stopsAt_bad {x : Bytes} (h : BadEscape x) : StopsAt (byte '\\' :: x) := by
  rcases h with h | ⟨y, rfl, h⟩
  · refine ⟨⟨.uncommitted, .or ((one_none _).fail.2 ⟨rfl, noHead_cons.2 (by decide)⟩) ?_⟩,
      Json.fail_utf16Char (K := strKind) ?_⟩
    · refine Eats.skipLeft_fail (t1 := [byte '\\']) (eats_elm.2 ⟨rfl, rfl⟩) ?_
      unfold specialChar
      simp only [fail_or, fail_map, fail_elm, reduceCtorEq, false_and, true_and, false_or]
      cases x with
      | nil => simp
      | cons b x =>
        have hb := h b x rfl
        have hm : bytes "\"\\/bfnrtu" = [byte '"', byte '\\', byte '/', byte 'b', byte 'f', byte 'n', byte 'r', byte 't',
          byte 'u'] := rfl
        rw [hm] at hb
        simp only [List.mem_cons, List.not_mem_nil, or_false, not_or] at hb
        simp [hb]
    · rintro r' e
      injection e with _ e
      subst e
      exact h _ _ rfl (by decide)
  · refine ⟨⟨_, fail_strByte_u⟩, ?_⟩
    rcases outcomes (Json.utf16Char strKind) (byte '\\' :: byte 'u' :: y) with ⟨t, v, r, h1, h2⟩ | h1 | h1
    · exfalso
      obtain ⟨ds, h3, rfl, -⟩ := (Json.eats_utf16Char (K := strKind)).1 h2
      simp only [Item.text, List.cons_append, List.cons.injEq] at h1
      exact h ⟨ds, r, h1.2.2, h3.1, h3.2⟩
    · exact h1
    · exact absurd (Halts.out _) h1

theorem items_quiet {items : List StrItem} {x : Bytes} (hne : items ≠ []) (h : ItemsOk items) (hf : FirstOk items) :
    Quiet (itemsText items ++ x) := by
  cases items with
  | nil => exact absurd rfl hne
  | cons it items =>
    cases it with
    | raw b =>
      have h3 := hf b rfl
      have h2 := h.2.1 b (by simp)
      refine noHead_cons.2 fun hb => ?_
      have : ∀ b ∈ bytes " \t\r\n#/", b ∈ bytes " \t#/" ∨ b ∈ bytes "[]\r\n'" := by decide
      rcases this b hb with h | h
      · exact h3 h
      · exact h2 h
    | esc c => exact noHead_cons.2 (by decide)
    | uni ds => exact noHead_cons.2 (by decide)

/-- A quoted string with escapes and the blanks behind it. -/
theorem eats_escString {items : List StrItem} {q : Char} {b2 : Bytes} (hq : q = '"' ∨ q = '\'') (hne : items ≠ [])
    (h : ItemsOk items) (hf : FirstOk items) (h2 : Gap b2) (hr : Quiet rest) :
    Eats string (byte q :: itemsText items ++ (byte q :: b2)) (denoted items) rest := by
  have hs : StopsAt (byte q :: b2 ++ rest) := stopsAt_stop (by rcases hq with rfl | rfl <;> exact noHead_cons.2 (by decide))
  have hc : byte q ∉ bytes " \t\r\n#/" := by rcases hq with rfl | rfl <;> decide
  obtain ⟨ss, h3, h4⟩ := eats_items hne h hs
  have h1 : Eats (quote q) [byte q] (byte q) (itemsText items ++ (byte q :: b2 ++ rest)) :=
    eats_quote hc gap_nil (items_quiet hne h hf)
  have h5 := Eats.surround h1 h3 (eats_quote hc h2 hr)
  have h6 : Eats (surround (quote q) stringSurround (quote q)) (byte q :: itemsText items ++ (byte q :: b2)) ss rest := by
    simpa using h5
  unfold string
  refine eats_map.2 ⟨ss, ?_, h4.symm⟩
  rcases hq with rfl | rfl
  · exact .or_left (.or_left h6.attempt)
  · refine .or_left (.or_right (fail_attempt_of (c := .uncommitted) (.surround (fail_quote ?_ ?_))) h6.attempt)
    · exact noHead_cons.2 (by decide)
    · exact noHead_cons.2 (by decide)

/-- A quoted string as a value. -/
theorem eats_escValue {items : List StrItem} {q : Char} {b2 : Bytes} (hq : q = '"' ∨ q = '\'') (hne : items ≠ [])
    (h : ItemsOk items) (hf : FirstOk items) (h2 : Gap b2) (hr : Quiet rest) :
    Eats (softSimple S) (byte q :: itemsText items ++ (byte q :: b2)) (.str (denoted items)) rest := by
  have hn := eats_escString hq hne h hf h2 hr
  have hq1 : Quiet (byte q :: itemsText items ++ (byte q :: b2) ++ rest) := by
    rcases hq with rfl | rfl <;> exact noHead_cons.2 (by decide)
  have hd : NoHead (fun b => Digit b ∨ b = byte '-') (byte q :: itemsText items ++ (byte q :: b2) ++ rest) := by
    rcases hq with rfl | rfl <;> exact noHead_cons.2 (by decide)
  have hc : NoHead (fun b => b ∈ bytes "ntf") (byte q :: itemsText items ++ (byte q :: b2) ++ rest) := by
    rcases hq with rfl | rfl <;> exact noHead_cons.2 (by decide)
  unfold softSimple
  have := eats_spaced' (t := byte q :: itemsText items ++ (byte q :: b2)) (b2 := []) (rest := rest)
    (v := Value.str (denoted items)) gap_nil
    (p := or (or (or (or (or (attempt (map (seq (bytes "null")) fun _ => .null))
    (attempt (map (seq (bytes "true")) fun _ => .bool true)))
    (attempt (map (seq (bytes "false")) fun _ => .bool false)))
    (attempt (map (softDuration S) fun (d, u) => .dur d u))) (attempt (map (softNumber S) .num)))
    stringConfigValue) hq1 hr
    (.or_right (.or (.or (fail_consts hc) (fail_attempt_of ((fail_softDuration hq1 hd).map _)))
      (fail_attempt_of ((fail_softNumber hq1 hd).map _))) (by unfold stringConfigValue; exact hn.map _))
  simpa using this

end OniComb.Hocon
