import Verif.Lemmas.JsonPrint

/-! # Helper lemmas: what strict JSON texts end with -/

set_option linter.unusedSectionVars false

namespace OniComb.Json
open OniComb.Json.Spec

section
variable {I F : Type} [DecidableEq I] [Element I] {K : Kind I F} [L : Lawful K] {lax : Bool}
variable {t : List I}

/-- The last characters of values. -/
abbrev lastChars : List Char := 'l' :: 'e' :: '"' :: ']' :: '}' :: "0123456789".toList

/-- The text ends with one of the last characters of values. -/
def Ends (K : Kind I F) (t : List I) : Prop := ∃ c ∈ lastChars, ∃ r, t = r ++ [K.lit c]

theorem Ends.append {t : List I} (h : Ends K t) (a : List I) : Ends K (a ++ t) := by
  obtain ⟨c, hc, r, rfl⟩ := h
  exact ⟨c, hc, a ++ r, by simp⟩

theorem digits_ends {b : List I} (hne : b ≠ []) (h : ∀ x ∈ b, Digit K x) : Ends K b := by
  rcases List.eq_nil_or_concat b with h0 | ⟨r, x, e⟩
  · exact absurd h0 hne
  · rw [List.concat_eq_append] at e
    subst e
    obtain ⟨c, hc, rfl⟩ := List.mem_map.1 (h x (by simp))
    refine ⟨c, ?_, r, rfl⟩
    simp only [List.mem_cons]
    tauto

theorem numText_ends (h : NumText K t) : Ends K t := by
  obtain ⟨s, i, f, e, rfl, -, hi, hf, he⟩ := h
  refine Ends.append ?_ s
  cases he with
  | none =>
    cases hf with
    | none =>
      rw [List.append_nil, List.append_nil]
      cases hi with
      | zero => exact ⟨'0', by simp, [], rfl⟩
      | @pos d ds h1 _ h2 =>
        exact digits_ends (by simp) (by simpa using ⟨h1, h2⟩)
    | @some ds h =>
      rw [List.append_nil]
      refine Ends.append (Ends.append (t := ds) ?_ [K.lit '.']) i
      exact digits_ends h.1 h.2
  | @some e s ds h1 h2 h3 =>
    refine Ends.append (Ends.append (Ends.append (t := s ++ ds) ?_ [e]) f) i
    exact Ends.append (digits_ends h3.1 h3.2) s

theorem text_ends {v : Value I F} (h : Text K lax v t) : Ends K t := by
  cases h with
  | null => exact ⟨'l', by simp, ['n', 'u', 'l'].map K.lit, by simp [Kind.lits]⟩
  | true_ => exact ⟨'e', by simp, ['t', 'r', 'u'].map K.lit, by simp [Kind.lits]⟩
  | false_ => exact ⟨'e', by simp, ['f', 'a', 'l', 's'].map K.lit, by simp [Kind.lits]⟩
  | num h _ => exact numText_ends h
  | str h => obtain ⟨items, -, -, -, rfl⟩ := h; exact ⟨'"', by simp, _ :: _, rfl⟩
  | @arrEmpty w => exact ⟨']', by simp, K.lit '[' :: w, rfl⟩
  | @arr vs t => exact ⟨']', by simp, K.lit '[' :: t, rfl⟩
  | @objEmpty w => exact ⟨'}', by simp, K.lit '{' :: w, rfl⟩
  | @obj vs t => exact ⟨'}', by simp, K.lit '{' :: t, rfl⟩

theorem ends_ne (h : Ends K t) {c : Char} (hc : c ∉ lastChars) (h' : c.toNat < 128) : ∀ r, t ≠ r ++ [K.lit c] := by
  obtain ⟨x, hx, r, rfl⟩ := h
  intro r' e
  have := (List.append_inj' e rfl).2
  simp only [List.cons.injEq, and_true] at this
  have hasc : ∀ x ∈ lastChars, x.toNat < 128 := by decide
  have := L.inj _ _ (hasc x hx) h' this
  exact hc (this ▸ hx)

/-- A text that neither begins nor ends with white space is a document only if it is a value. -/
theorem doc_text {v : Value I F} {x y : I} {m : List I} (h : Doc K lax v t) (e1 : ∃ r, t = x :: r) (e2 : t = m ++ [y])
    (hx : ¬ WsB K x) (hy : ¬ WsB K y) : Text K lax v t := by
  obtain ⟨a, u, b, rfl, ha, hu, hb⟩ := h
  have ha' : a = [] := by
    cases a with
    | nil => rfl
    | cons z a =>
      obtain ⟨r, e1⟩ := e1
      injection e1 with e1 _
      exact absurd (e1 ▸ ws_iff.1 ha z (by simp)) hx
  have hb' : b = [] := by
    rcases List.eq_nil_or_concat b with h0 | ⟨b, z, e⟩
    · exact h0
    · rw [List.concat_eq_append] at e
      subst e
      rw [← List.append_assoc, ← List.append_assoc] at e2
      have := (List.append_inj' e2 rfl).2
      simp only [List.cons.injEq, and_true] at this
      exact absurd (this ▸ ws_iff.1 hb z (by simp)) hy
  subst ha' hb'
  simpa using hu

/-- The inside of an array of the RFC ends with a value and white space. -/
theorem elems_ends : ∀ {vs : List (Value I F)} {t : List I}, Elems K false vs t → ∃ u w, t = u ++ w ∧ Ends K u ∧ Ws K w
  | _, _, .one _ h hb => ⟨_, _, (List.append_assoc ..).symm, (text_ends h).append _, hb⟩
  | _, _, .trailing h .. => nomatch h
  | _, _, .cons (a := a) (t := t) (b := b) _ _ _ hr => by
    obtain ⟨u, w, rfl, h1, h2⟩ := elems_ends hr
    exact ⟨a ++ (t ++ (b ++ K.lit ',' :: u)), w, by simp,
      Ends.append (Ends.append (Ends.append (h1.append [K.lit ',']) b) t) a, h2⟩

/-- No array of the RFC ends with a comma. -/
theorem no_trailing {vs : List (Value I F)} {r : List I} : ¬ Elems K false vs (r ++ [K.lit ',']) := by
  intro h
  obtain ⟨u, w, e, h1, h2⟩ := elems_ends h
  rcases List.eq_nil_or_concat w with rfl | ⟨w, z, e'⟩
  · rw [List.append_nil] at e
    exact ends_ne h1 (by decide) (by decide) r e.symm
  · rw [List.concat_eq_append] at e'
    subst e'
    rw [← List.append_assoc] at e
    have := (List.append_inj' e rfl).2
    simp only [List.cons.injEq, and_true] at this
    have hz := ws_iff.1 h2 z (by simp)
    rw [← this] at hz
    exact noHead_cons.1 (lit_noWs (K := K) (c := ',') (r := [])) hz

/-! ### Duplicate keys -/

theorem lastOf_nodupKeys {V : Type} (ms : List (List I × V)) : ((lastOf ms).map Prod.fst).Nodup := by
  induction ms with
  | nil => simp [lastOf]
  | cons m ms ih =>
    unfold lastOf
    split
    · exact ih
    · rename_i h
      rw [List.map_cons, List.nodup_cons]
      refine ⟨fun h' => h ?_, ih⟩
      obtain ⟨e, he, h1⟩ := List.mem_map.1 h'
      exact List.mem_map.2 ⟨e, lastOf_keys ms e he, h1⟩

theorem lookup_append {V : Type} (a b : List (List I × V)) (k : List I) :
    (a ++ b).lookup k = (a.lookup k).or (b.lookup k) := by
  induction a with
  | nil => simp
  | cons x a ih =>
    obtain ⟨k', v⟩ := x
    simp only [List.cons_append, List.lookup_cons]
    cases k == k' <;> simp [ih]

theorem lookup_none {V : Type} {a : List (List I × V)} {k : List I} : a.lookup k = none ↔ k ∉ a.map Prod.fst := by
  induction a with
  | nil => simp
  | cons x a ih =>
    obtain ⟨k', v⟩ := x
    simp only [List.lookup_cons, List.map_cons, List.mem_cons]
    by_cases h : k = k'
    · simp [h]
    · have : (k == k') = false := by simpa using h
      rw [this]
      simp only [ih, h, false_or]

theorem lastOf_cons {V : Type} (m : List I × V) (ms : List (List I × V)) :
    lastOf (m :: ms) = if m.1 ∈ ms.map Prod.fst then lastOf ms else m :: lastOf ms := rfl

theorem lastOf_lookup {V : Type} (ms : List (List I × V)) (k : List I) : (lastOf ms).lookup k = ms.reverse.lookup k := by
  induction ms with
  | nil => rfl
  | cons m ms ih =>
    obtain ⟨k', v⟩ := m
    have hrev : ms.reverse.lookup k = none ↔ k ∉ ms.map Prod.fst := by
      rw [lookup_none]; simp
    rw [List.reverse_cons, lookup_append, ← ih, lastOf_cons]
    rw [← ih] at hrev
    split
    · rename_i h
      by_cases hk : k = k'
      · subst hk
        cases h' : (lastOf ms).lookup k with
        | none => exact absurd h (hrev.1 h')
        | some v => rfl
      · have : (k == k') = false := by simpa using hk
        simp [List.lookup_cons, this]
    · rename_i h
      by_cases hk : k = k'
      · subst hk
        rw [hrev.2 h]
        simp
      · have : (k == k') = false := by simpa using hk
        simp [List.lookup_cons, this]

end
end OniComb.Json
