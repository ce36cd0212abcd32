import Verif.Lemmas.HoconJson

/-! # JSON texts with white space in the layout grammar of configuration documents -/

namespace OniComb.Hocon
open OniComb OniComb.Hocon.Spec OniComb.Hocon.Spec.Layout
open OniComb.Uri (Bytes byte bytes)

variable {dec : Bytes → Option Decimal}

theorem literal_quoted {s t : Bytes} (h : JsonLiteral s t) : QuotedText s t := by
  obtain ⟨items, h1, h2, h3, h4, h5, rfl, rfl⟩ := h
  have hraw : ∀ b, .raw b ∈ items → 0x20 ≤ b.toNat := by
    intro b hb
    rcases (h2 _ hb).2.2 with h | h
    · cases h
    · exact h
  refine ⟨'"', items, .inl rfl, h1, ⟨?_, ?_, h4⟩, h5, rfl, rfl⟩
  · intro it hit
    have := h2 it hit
    revert this
    cases it with
    | raw b => exact fun h => ⟨h.1, h.2.1, .inl rfl⟩
    | esc c => exact id
    | uni ds => exact id
  · intro b hb hm
    exact h3 b hb ((by decide : ∀ b ∈ bytes "[]\r\n'", 0x20 ≤ b.toNat → b ∈ bytes "[]'") b hm (hraw b hb))

theorem literal_head {s t : Bytes} (h : JsonLiteral s t) : ∃ z, t = byte '"' :: z := by
  obtain ⟨items, -, -, -, -, -, rfl, -⟩ := h
  exact ⟨_, rfl⟩

theorem blanks_gap {w : Bytes} (h : Blanks w) : Gap w := ⟨w, [], h, by simp, by simp [commentLines]⟩

/-! ### What comes behind objects -/

theorem guarded_cons {b : UInt8} {x : Bytes} (hb : ¬ Special b) (h : Guarded x) : Guarded (b :: x) := by
  obtain ⟨run, g, y, rfl, h1, h2, h3, h4, h5⟩ := h
  refine ⟨b :: run, g, y, rfl, fun c hc => ?_, h2, h3, h4, h5⟩
  rcases List.mem_cons.1 hc with rfl | hc
  · exact hb
  · exact h1 c hc

/-- Blanks in front of something that cannot belong to a setting. -/
theorem guarded_blanks {w x : Bytes} (hw : Blanks w) (h : Guarded x) (hq : Quiet x)
    (hx : NoHead (fun b => b ∈ bytes "=:{[") x) : Guarded (w ++ x) := by
  induction w with
  | nil => exact h
  | cons b w ih =>
    have hw' : Blanks w := fun c hc => hw c (by simp [hc])
    by_cases hs : Special b
    · refine ⟨[], b :: w, x, rfl, by simp, noHead_cons.2 ?_, blanks_gap hw, hq, hx⟩
      rintro (h | rfl)
      · exact h hs
      · exact absurd (hw (byte '\\') (by simp)) (by decide)
    · exact guarded_cons hs (ih hw')

theorem guarded_here {x : Bytes} (h1 : StrStop x) (h2 : Quiet x) (h3 : NoHead (fun b => b ∈ bytes "=:{[") x) : Guarded x :=
  ⟨[], [], x, rfl, by simp, h1, gap_nil, h2, h3⟩

theorem guarded_quote {w z : Bytes} (hw : Blanks w) : Guarded (w ++ byte '"' :: z) :=
  guarded_blanks hw (guarded_here (noHead_cons.2 (by unfold Special; decide)) (noHead_cons.2 (by decide)) (noHead_cons.2 (by decide)))
    (noHead_cons.2 (by decide)) (noHead_cons.2 (by decide))

theorem guarded_comma {w w' z : Bytes} (hw : Blanks w) (hw' : Blanks w') : Guarded (w ++ byte ',' :: (w' ++ byte '"' :: z)) :=
  guarded_blanks hw (guarded_cons (by unfold Special; decide) (guarded_quote hw')) (noHead_cons.2 (by decide))
    (noHead_cons.2 (by decide))

theorem guarded_close {w x : Bytes} (hw : Blanks w) (hx : Guarded x) : Guarded (w ++ byte '}' :: x) :=
  guarded_blanks hw (guarded_cons (by unfold Special; decide) hx) (noHead_cons.2 (by decide)) (noHead_cons.2 (by decide))

theorem guarded_bracket {w x : Bytes} (hw : Blanks w) : Guarded (w ++ byte ']' :: x) :=
  guarded_blanks hw (guarded_here (noHead_cons.2 (by unfold Special; decide)) (noHead_cons.2 (by decide)) (noHead_cons.2 (by decide)))
    (noHead_cons.2 (by decide)) (noHead_cons.2 (by decide))

theorem guarded_end {w : Bytes} (hw : Blanks w) : Guarded w := by
  have := guarded_blanks (x := []) hw (guarded_here noHead_nil noHead_nil noHead_nil) noHead_nil noHead_nil
  simpa using this

/-! ### The texts -/

theorem json_layout {v : JsonValue} {t : Bytes} (h : JsonText dec v t) :
    ∀ g r, Blanks g → (JsonObj v → Guarded (g ++ r)) → NoHead NumByte r → NoHead UnitStart r →
      Val dec (ofJson v) t g r := by
  refine JsonText.rec (dec := dec)
    (motive_1 := fun v t _ => ∀ g r, Blanks g → (JsonObj v → Guarded (g ++ r)) → NoHead NumByte r → NoHead UnitStart r →
      Val dec (ofJson v) t g r)
    (motive_2 := fun vs t _ => ∃ a t', t = a ++ t' ∧ Blanks a ∧ ∀ x, Elems dec (ofJsonElems vs) t' (byte ']' :: x))
    (motive_3 := fun ms t _ => ∃ a z, t = a ++ byte '"' :: z ∧ Blanks a ∧ ∀ x, Guarded x →
      Members dec true (ofJsonMembers ms) (byte '"' :: z) (byte '}' :: x))
    ?_ ?_ ?_ ?_ ?_ ?_ ?_ ?_ ?_ ?_ ?_ ?_ ?_ h
  · intro g r _ _ _ _; rw [ofJson]; exact .null
  · intro g r _ _ _ _; rw [ofJson]; exact .true_
  · intro g r _ _ _ _; rw [ofJson]; exact .false_
  · intro t d ht hd g r hg _ h1 h2; rw [ofJson]; exact .num ht hd ⟨noNum_blanks hg h1, h2⟩
  · intro s t h g r _ _ _ _; rw [ofJson]; exact .quoted (literal_quoted h)
  · intro w hw g r _ _ _ _
    rw [ofJson, ofJsonElems]
    exact Val.arr (t := []) (blanks_gap hw) .nil
  · rintro vs t - ⟨a, t', rfl, ha, h⟩ g r _ _ _ _
    rw [ofJson, List.append_assoc]
    exact Val.arr (blanks_gap ha) (h _)
  · intro w hw g r _ hgu _ _
    rw [ofJson, ofJsonMembers]
    exact Val.obj (t := []) (blanks_gap hw) .nil .nil (hgu trivial)
  · rintro ms t - hn ⟨a, z, rfl, ha, h⟩ g r _ hgu _ _
    rw [ofJson, List.append_assoc]
    exact Val.obj (blanks_gap ha) (h _ (hgu trivial)) (gathered_self (by rw [keys_ofJson]; exact hn)) (hgu trivial)
  · intro v a t b ha hv hb ih
    refine ⟨a, t ++ b, rfl, ha, fun x => ?_⟩
    rw [ofJsonElems, ofJsonElems]
    exact Elems.one (blanks_gap hb) (ih b _ hb (fun _ => guarded_bracket hb) (noNumUnit (b := byte ']') (by decide)).1
      (noNumUnit (b := byte ']') (by decide)).2)
  · rintro v vs a t b r ha hv hb hgu - ih ⟨a', t', rfl, ha', ih'⟩
    refine ⟨a, t ++ (b ++ byte ',' :: (a' ++ t')), rfl, ha, fun x => ?_⟩
    rw [ofJsonElems]
    exact Elems.cons (blanks_gap hb) (blanks_gap ha') (ih b _ hb (fun ho => by simpa using hgu ho x)
      (noNumUnit (b := byte ',') (by decide)).1 (noNumUnit (b := byte ',') (by decide)).2) (ih' x)
  · intro k v a s b c t d ha hk hb hc hv hd ih
    obtain ⟨z, rfl⟩ := literal_head hk
    refine ⟨a, z ++ (b ++ byte ':' :: (c ++ (t ++ d))), by simp, ha, fun x hx => ?_⟩
    rw [ofJsonMembers, ofJsonMembers]
    have := Members.assign (c := true) (s := []) (t' := []) (x := byte '}' :: x) (.inr (literal_quoted hk)) (blanks_gap hb)
      (.inr rfl) (blanks_gap hc) (blanks_gap hd) (.inl rfl) (ih d (byte '}' :: x) hd (fun _ => guarded_close hd hx)
        (noNumUnit (b := byte '}') (by decide)).1 (noNumUnit (b := byte '}') (by decide)).2) .nil
    simpa using this
  · rintro k v ms a s b c t d r ha hk hb hc hv hd - ih ⟨a', z', rfl, ha', ih'⟩
    obtain ⟨z, rfl⟩ := literal_head hk
    refine ⟨a, z ++ (b ++ byte ':' :: (c ++ (t ++ (d ++ byte ',' :: (a' ++ byte '"' :: z'))))), by simp, ha, fun x hx => ?_⟩
    rw [ofJsonMembers]
    have := Members.assign (c := true) (s := byte ',' :: a') (t' := byte '"' :: z') (x := byte '}' :: x)
      (.inr (literal_quoted hk)) (blanks_gap hb)
      (.inr rfl) (blanks_gap hc) (blanks_gap hd) (.inr ⟨rfl, a', blanks_gap ha', rfl⟩)
      (ih d ((byte ',' :: a') ++ ((byte '"' :: z') ++ byte '}' :: x)) hd
        (fun _ => by simpa using guarded_comma (z := z' ++ byte '}' :: x) hd ha')
        (noNumUnit (b := byte ',') (by decide)).1 (noNumUnit (b := byte ',') (by decide)).2) (ih' x hx)
    simpa using this

theorem spaced_doc {v : JsonValue} {t : Bytes} (h : JsonDoc dec v t) : Doc dec [ofJson v] t := by
  obtain ⟨a, u, b, rfl, ha, hu, hb, hv⟩ := h
  have hv' : IsObj (ofJson v) ∨ IsArr (ofJson v) := by
    cases v <;> simp only [JsonObj, JsonArr, or_self] at hv <;> rw [ofJson] <;> simp [IsObj, IsArr]
  have hend : Guarded b := guarded_end hb
  have h1 := Items.cons (t' := []) hv' (blanks_gap hb) (json_layout hu b [] hb (fun _ => by simpa using hend) noHead_nil noHead_nil)
    Items.nil
  have h2 := Doc.items (blanks_gap ha) h1 (by
    intro x hx
    rw [List.append_nil] at hx
    cases hu with
    | null => cases hv <;> contradiction
    | true_ => cases hv <;> contradiction
    | false_ => cases hv <;> contradiction
    | str => cases hv <;> contradiction
    | num => cases hv <;> contradiction
    | arrEmpty => cases hx
    | arr => cases hx
    | objEmpty hw =>
      injection hx with _ hx
      subst hx
      show Guarded ((_ ++ [byte '}']) ++ b)
      rw [List.append_assoc]
      exact guarded_close hw hend
    | obj hm _ =>
      injection hx with _ hx
      subst hx
      cases hm with
      | one ha hk _ _ _ _ =>
        obtain ⟨z, rfl⟩ := literal_head hk
        show Guarded ((_ ++ [byte '}']) ++ b)
        simp only [List.append_assoc, List.cons_append]
        exact guarded_quote ha
      | cons ha hk _ _ _ _ _ =>
        obtain ⟨z, rfl⟩ := literal_head hk
        show Guarded ((_ ++ [byte '}']) ++ b)
        simp only [List.append_assoc, List.cons_append]
        exact guarded_quote ha)
  simpa using h2

/-! ### They are JSON, too -/

theorem literal_json {s t : Bytes} (h : JsonLiteral s t) : Json.Spec.StrText (jsonKind dec) false s t := by
  obtain ⟨items, -, h2, -, h4, -, rfl, rfl⟩ := h
  have hok : ∀ it : StrItem, it.Ok strKind false → it.Ok (jsonKind dec) false := by
    intro it; cases it <;> exact id
  have hunit : Json.Spec.Item.unit (jsonKind dec) = Json.Spec.Item.unit strKind := by
    funext it; cases it <;> rfl
  have htext : Json.Spec.Item.text (jsonKind dec) = Json.Spec.Item.text strKind := by
    funext it; cases it <;> rfl
  have henc : (jsonKind dec).enc = strKind.enc := rfl
  have hdec : ∀ us, Json.Spec.decode (jsonKind dec) us = Json.Spec.decode strKind us := by
    intro us
    induction us using Json.Spec.decode.induct with
    | case1 => simp only [Json.Spec.decode]
    | case2 b r ih => simp only [Json.Spec.decode, ih]
    | case3 u w r h ih => simp only [Json.Spec.decode, if_pos h, ih, henc]
    | case4 u w r h ih => simp only [Json.Spec.decode, if_neg h, ih, henc]
    | case5 u r h ih => simp only [Json.Spec.decode, ih, henc]
  refine ⟨items, fun it hit => hok it (h2 it hit), ?_, ?_, ?_⟩
  · rw [hunit]; exact h4
  · rw [hunit, hdec]; rfl
  · rw [htext]; rfl

theorem blanks_ws {w : Bytes} (h : Blanks w) : Json.Spec.Ws (jsonKind dec) w := by
  intro b hb
  have := h b hb
  have h : b = byte ' ' ∨ b = byte '\t' ∨ b = byte '\r' ∨ b = byte '\n' := by simpa [Blank, bytes] using this
  exact h

theorem json_rfc {v : JsonValue} {t : Bytes} (h : JsonText dec v t) :
    Json.Spec.Text (jsonKind dec) false v t := by
  refine JsonText.rec (dec := dec)
    (motive_1 := fun v t _ => Json.Spec.Text (jsonKind dec) false v t)
    (motive_2 := fun vs t _ => Json.Spec.Elems (jsonKind dec) false vs t)
    (motive_3 := fun ms t _ => Json.Spec.Members (jsonKind dec) false ms t)
    ?_ ?_ ?_ ?_ ?_ ?_ ?_ ?_ ?_ ?_ ?_ ?_ ?_ h
  · exact .null
  · exact .true_
  · exact .false_
  · intro t d h1 h2; exact .num (decimal_json h1) h2
  · intro s t h; exact .str (literal_json h)
  · intro w h; exact .arrEmpty (blanks_ws h)
  · intro vs t _ h; exact .arr h
  · intro w h; exact .objEmpty (blanks_ws h)
  · intro ms t _ hn h
    have := Json.Spec.Text.obj h
    rwa [Json.lastOf_nodup hn] at this
  · intro v a t b ha _ hb h; exact .one (blanks_ws ha) h (blanks_ws hb)
  · intro v vs a t b r ha _ hb _ _ h h'; exact .cons (blanks_ws ha) h (blanks_ws hb) h'
  · intro k v a s b c t d ha hk hb hc _ hd h
    exact .one (blanks_ws ha) (literal_json hk) (blanks_ws hb) (blanks_ws hc) h (blanks_ws hd)
  · intro k v ms a s b c t d r ha hk hb hc _ hd _ h h'
    exact .cons (blanks_ws ha) (literal_json hk) (blanks_ws hb) (blanks_ws hc) h (blanks_ws hd) h'

theorem spaced_rfc {v : JsonValue} {t : Bytes} (h : JsonDoc dec v t) : Json.Spec.Doc (jsonKind dec) false v t := by
  obtain ⟨a, u, b, rfl, ha, hu, hb, -⟩ := h
  exact ⟨a, u, b, rfl, blanks_ws ha, json_rfc hu, blanks_ws hb⟩

theorem spaced_mentions {v : JsonValue} {t : Bytes} (h : JsonText dec v t) (p : Bytes) :
    ¬ Mentions (ofJson v) p := by
  refine JsonText.rec (dec := dec)
    (motive_1 := fun v _ _ => ¬ Mentions (ofJson v) p)
    (motive_2 := fun vs _ _ => ∀ v ∈ vs, ¬ Mentions (ofJson v) p)
    (motive_3 := fun ms _ _ => ∀ v ∈ ms.map Prod.snd, ¬ Mentions (ofJson v) p)
    ?_ ?_ ?_ ?_ ?_ ?_ ?_ ?_ ?_ ?_ ?_ ?_ ?_ h
  · rw [ofJson]; rintro ⟨⟩
  · rw [ofJson]; rintro ⟨⟩
  · rw [ofJson]; rintro ⟨⟩
  · intros; rw [ofJson]; rintro ⟨⟩
  · intros; rw [ofJson]; rintro ⟨⟩
  · intros
    rw [ofJson, ofJsonElems]
    intro h
    cases h with
    | elem hv h => cases hv
  · intro vs t _ ih
    rw [ofJson]
    intro h
    cases h with
    | elem hv h =>
      obtain ⟨u, hu, rfl⟩ := ofJson_elem hv
      exact ih u hu h
  · intros
    rw [ofJson, ofJsonMembers]
    intro h
    cases h with
    | value he h => cases he
  · intro ms t _ _ ih
    rw [ofJson]
    intro h
    cases h with
    | value he h =>
      obtain ⟨-, u, hu, e⟩ := ofJson_member he
      rw [e] at h
      exact ih u hu h
  · intro v a t b _ _ _ ih
    simpa using ih
  · intro v vs a t b r _ _ _ _ _ ih ih' u hu
    rcases List.mem_cons.1 hu with rfl | hu
    · exact ih
    · exact ih' u hu
  · intro k v a s b c t d _ _ _ _ _ _ ih
    simpa using ih
  · intro k v ms a s b c t d r _ _ _ _ _ _ _ ih ih' u hu
    rcases List.mem_cons.1 hu with rfl | hu
    · exact ih
    · exact ih' u hu

end OniComb.Hocon
