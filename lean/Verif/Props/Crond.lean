import Verif.Lemmas.CrondParse

/-!
# C35–C37: the cron parser
-/

namespace OniComb.Crond
open OniComb

/-- The accepted texts and their trees are exactly those of the specification. -/
theorem c35_language (input : List Char) (e : CronExpr) :
    cronParse input = .ok e ↔ CronText input e := by
  unfold cronParse
  rw [parse_end_ok, eats_instruction]

private theorem digitChar_toNat {n : Nat} (h : n < 10) : (digitChar n).toNat = 48 + n := by
  have : ∀ n < 10, (digitChar n).toNat = 48 + n := by decide
  exact this n h

private theorem digits_print {n : Nat} (h : n < 100) : Digits (printNum n) n := by
  unfold printNum
  split
  · rename_i hn
    have := digitChar_toNat hn
    have hd := Digits.one (c := digitChar n) (by rw [this]; simp) (by rw [this]; show 48 + n ≤ 57; omega)
    rw [this] at hd
    have h0 : 48 + n - '0'.toNat = n := by show 48 + n - 48 = n; omega
    rwa [h0] at hd
  · have h1 := digitChar_toNat (n := n / 10) (by omega)
    have h2 := digitChar_toNat (n := n % 10) (by omega)
    have hd := Digits.two (c := digitChar (n / 10)) (d := digitChar (n % 10))
      (by rw [h1]; simp) (by rw [h1]; show _ ≤ 57; omega)
      (by rw [h2]; simp) (by rw [h2]; show _ ≤ 57; omega)
    rw [h1, h2] at hd
    have h0 : 10 * (48 + n / 10 - '0'.toNat) + (48 + n % 10 - '0'.toNat) = n := by
      show 10 * (48 + n / 10 - 48) + (48 + n % 10 - 48) = n; omega
    rwa [h0] at hd

private theorem valueText_print {f : Field} {e : CronExpr} (h : WFValue f e) : ValueText f (printExpr e) e := by
  cases h with
  | @value n h1 h2 =>
    have hh : f.hi < 100 := by cases f <;> decide
    have hd := digits_print (n := n) (by omega)
    simp only [printExpr]
    by_cases hf : f = .weekday
    · subst hf
      have : n < 10 := by simp only [Field.hi] at h2; omega
      have hp : printNum n = [digitChar n] := by simp [printNum, this]
      rw [hp] at hd ⊢
      exact .weekday hd h1 h2
    · exact .number hf hd h1 h2
  | last hf => subst hf; simp only [printExpr]; exact .last

private theorem itemText_print {f : Field} {e : CronExpr} (h : WFItem f e) : ItemText f (printExpr e) e := by
  cases h with
  | value h => exact .value (valueText_print h)
  | range h1 h2 => simp only [printExpr]; exact .range (valueText_print h1) (valueText_print h2)
  | @step a b k h1 h2 h3 =>
    have hk : printExpr (.range a b k) = printExpr a ++ '-' :: printExpr b ++ '/' :: printExpr k := by
      cases h3 <;> simp only [printExpr]
    rw [hk]
    exact .step (valueText_print h1) (valueText_print h2) (valueText_print h3)

private theorem itemsText_print {f : Field} {es : List CronExpr} (hne : es ≠ [])
    (h : ∀ e ∈ es, WFItem f e) : ItemsText f (printItems es) es := by
  induction es with
  | nil => exact absurd rfl hne
  | cons e es ih =>
    cases es with
    | nil => simp only [printItems]; exact .one (itemText_print (h e (by simp)))
    | cons e' es =>
      have he : printItems (e :: e' :: es) = printExpr e ++ ',' :: printItems (e' :: es) := by
        simp only [printItems]
      rw [he]
      exact .cons (itemText_print (h e (by simp)))
        (ih (by simp) (fun x hx => h x (List.mem_cons_of_mem _ hx)))

private theorem fieldText_print {f : Field} {e : CronExpr} (h : WFField f e) :
    FieldText f (printExpr e) e := by
  cases h with
  | any => simp only [printExpr]; exact .any
  | per h => simp only [printExpr]; exact .per (valueText_print h)
  | item h => exact .list (.one (itemText_print h))
  | @list es h1 h2 =>
    simp only [printExpr]
    have hne : es ≠ [] := by rintro rfl; simp at h1
    have := FieldText.list (itemsText_print hne h2)
    have hl : listTree es = .list es := by
      match es, h1 with
      | _ :: _ :: _, _ => rfl
    rwa [hl] at this

/-- Round trip: the canonical text of a tree with values in range is parsed to exactly that tree. -/
theorem c35_round_trip (e : CronExpr) (h : WFCron e) : cronParse (printExpr e) = .ok e := by
  rw [c35_language]
  cases h with
  | mk ha hb hc hd he =>
    simp only [printExpr]
    exact .mk (fieldText_print ha) (fieldText_print hb) (fieldText_print hc) (fieldText_print hd)
      (fieldText_print he)

theorem wf_value {f : Field} {t : List Char} {e : CronExpr} (h : ValueText f t e) : WFValue f e := by
  cases h with
  | number _ _ h1 h2 => exact .value h1 h2
  | weekday _ h1 h2 => exact .value h1 h2
  | name h =>
    simp only [weekdayNames, List.mem_cons, List.not_mem_nil, or_false, Prod.mk.injEq] at h
    rcases h with ⟨rfl, rfl⟩ | ⟨rfl, rfl⟩ | ⟨rfl, rfl⟩ | ⟨rfl, rfl⟩ | ⟨rfl, rfl⟩ | ⟨rfl, rfl⟩ |
        ⟨rfl, rfl⟩ <;> exact .value (by decide) (by decide)
  | last => exact .last rfl

theorem wf_item {f : Field} {t : List Char} {e : CronExpr} (h : ItemText f t e) : WFItem f e := by
  cases h with
  | value h => exact .value (wf_value h)
  | range h1 h2 => exact .range (wf_value h1) (wf_value h2)
  | step h1 h2 h3 => exact .step (wf_value h1) (wf_value h2) (wf_value h3)

theorem wf_items {f : Field} {t : List Char} {es : List CronExpr} (h : ItemsText f t es) :
    es ≠ [] ∧ ∀ e ∈ es, WFItem f e := by
  induction h with
  | one h => exact ⟨by simp, by intro e he; rw [List.mem_singleton] at he; subst he; exact wf_item h⟩
  | cons h _ ih =>
    refine ⟨by simp, ?_⟩
    intro e he
    rcases List.mem_cons.1 he with rfl | he
    · exact wf_item h
    · exact ih.2 e he

theorem wf_listTree {f : Field} {es : List CronExpr} (hne : es ≠ [])
    (h : ∀ e ∈ es, WFItem f e) : WFField f (listTree es) := by
  match es, hne with
  | [e], _ => exact .item (h e (by simp))
  | a :: b :: es, _ => exact .list (by simp) h

theorem wf_field {f : Field} {t : List Char} {e : CronExpr} (h : FieldText f t e) : WFField f e := by
  cases h with
  | any => exact .any
  | per h => exact .per (wf_value h)
  | list h => exact wf_listTree (wf_items h).1 (wf_items h).2
  | listComma h => exact wf_listTree (wf_items h).1 (wf_items h).2

/-- Whatever is accepted has the documented shape, with every number in the range of its field. -/
theorem c36_in_range (input : List Char) (e : CronExpr) (h : cronParse input = .ok e) : WFCron e := by
  rw [c35_language] at h
  cases h with
  | mk ha hb hc hd he =>
    exact .mk (wf_field ha) (wf_field hb) (wf_field hc) (wf_field hd) (wf_field he)

/-- The trees the parser can return are exactly the well formed ones. -/
theorem c36_image (e : CronExpr) : (∃ input, cronParse input = .ok e) ↔ WFCron e :=
  ⟨fun ⟨input, h⟩ => c36_in_range input e h, fun h => ⟨_, c35_round_trip e h⟩⟩

/-- `CronParser::parse` returns on every text, without panic. -/
theorem c37_total (input : List Char) :
    (∃ e, cronParse input = .ok e) ∨ ∃ err, cronParse input = .err err := by
  have hs := Good.safe (skipRight instruction end_) ⟨input, 0⟩ (Nat.zero_le _)
  have hr := ret_instruction (r := input)
  unfold cronParse parse
  unfold Ret at hr
  cases h : skipRight instruction end_ ⟨input, 0⟩ with
  | success v n => exact .inl ⟨v, rfl⟩
  | failure e c => exact .inr ⟨e, rfl⟩
  | panic => rw [h] at hs; exact hs.elim
  | diverge => exact absurd h hr

/-- It reports an error exactly for the texts outside the grammar. -/
theorem c37_error_iff (input : List Char) :
    (∃ err, cronParse input = .err err) ↔ ¬ ∃ e, CronText input e := by
  simp only [← c35_language]
  rcases c37_total input with ⟨e, h⟩ | ⟨err, h⟩ <;> simp [h]

/-- A tree with lists, ranges, steps and `L`: the hypotheses of `c35_round_trip` hold. -/
example : WFCron (.cron (.list [.value 0, .range (.value 10) (.value 20) .noOp, .value 59])
    (.per .any (.value 2)) .any (.range (.value 1) (.value 12) (.value 3)) (.list [.value 2, .last])) := by
  refine .mk (.list (by simp) ?_) (.per (.value (by decide) (by decide))) .any
    (.item (.step (.value (by decide) (by decide)) (.value (by decide) (by decide))
      (.value (by decide) (by decide)))) (.list (by simp) ?_)
  · intro e he
    simp only [List.mem_cons, List.not_mem_nil, or_false] at he
    rcases he with rfl | rfl | rfl
    · exact .value (.value (by decide) (by decide))
    · exact .range (.value (by decide) (by decide)) (.value (by decide) (by decide))
    · exact .value (.value (by decide) (by decide))
  · intro e he
    simp only [List.mem_cons, List.not_mem_nil, or_false] at he
    rcases he with rfl | rfl
    · exact .value (.value (by decide) (by decide))
    · exact .value (.last rfl)

/-- Names, leading zeros and a comma at the end are accepted. -/
example : cronParse "05,10, * 1-9/2 12 SUN".toList =
    .ok (.cron (.list [.value 5, .value 10]) .any (.range (.value 1) (.value 9) (.value 2)) (.value 12)
      (.value 1)) := by
  rfl

/-- A number outside its field's range is an error. -/
example : ¬ ∃ e, cronParse "60 * * * *".toList = .ok e := by
  have h : ∃ err, cronParse "60 * * * *".toList = .err err := ⟨_, rfl⟩
  obtain ⟨err, h⟩ := h
  rw [h]; simp

end OniComb.Crond
