import Verif.Spec.HoconJson
import Verif.Lemmas.HoconLayout
import Verif.Lemmas.JsonPrint

/-! # Compact JSON texts in the layout grammar of configuration documents -/

namespace OniComb.Hocon
open OniComb OniComb.Hocon.Spec OniComb.Hocon.Spec.Layout
open OniComb.Uri (Bytes byte bytes)

variable {dec : Bytes → Option Decimal} {num : Decimal → Bytes}

/-- The elements of JSON texts are bytes. -/
abbrev jsonKind (dec : Bytes → Option Decimal) : Json.Kind UInt8 Decimal := Json.byteKind dec

theorem quote_quoted {s : Bytes} (h : JsonString s) : QuotedText s (Json.Spec.quote (jsonKind dec) s) := by
  obtain ⟨h1, h2, h3, h4⟩ := h
  have hs : strKind.str s = some s := by
    show Uri.fromUtf8 s = some s
    unfold Uri.fromUtf8; rw [if_pos h2]
  have hraw : ∀ b x, Json.Spec.itemOf strKind x = .raw b → b = x ∧ 0x20 ≤ b.toNat := by
    intro b x h
    unfold Json.Spec.itemOf at h
    split at h
    · cases h
    · split at h
      · cases h
      · split at h
        · cases h
        · rename_i hx
          cases h
          exact ⟨rfl, by exact Nat.le_of_not_lt hx⟩
  refine ⟨'"', s.map (Json.Spec.itemOf strKind), .inl rfl, by simpa using h1, ⟨?_, ?_, ?_⟩, ?_, ?_, ?_⟩
  · intro it hit
    obtain ⟨b, -, rfl⟩ := List.mem_map.1 hit
    have := Json.itemOf_ok (K := strKind) b
    revert this
    cases Json.Spec.itemOf strKind b with
    | raw b => exact fun h => ⟨h.1, h.2.1, .inl rfl⟩
    | esc c => exact id
    | uni ds => exact id
  · intro b hb hm
    obtain ⟨x, hx, he⟩ := List.mem_map.1 hb
    obtain ⟨rfl, hge⟩ := hraw b x he
    refine h3 b hx ((by decide : ∀ b ∈ bytes "[]\r\n'", 0x20 ≤ b.toNat → b ∈ bytes "[]'") b hm hge)
  · rw [List.map_map]; exact Json.utf8_items hs
  · intro b hb hm
    rcases s with _ | ⟨x, s⟩
    · exact h1 rfl
    · simp only [List.map_cons, List.head?_cons, Option.some.injEq] at hb
      obtain ⟨rfl, hge⟩ := hraw b x hb
      exact h4 b rfl ((by decide : ∀ b ∈ bytes " \t#/", 0x20 ≤ b.toNat → b ∈ bytes " #/") b hm hge)
  · unfold Json.Spec.quote itemsText
    rw [List.flatMap_map]
    rfl
  · unfold denoted
    rw [List.map_map]; exact (Json.decode_items s).symm

/-! ### What comes behind objects -/

/-- The next byte that ends a string, if any, is a double quote or `]`. -/
def Safe (r : Bytes) : Prop := ∃ run y, r = run ++ y ∧ (∀ b ∈ run, ¬ Special b) ∧
  (y = [] ∨ (∃ z, y = byte ']' :: z) ∨ ∃ z, y = byte '"' :: z)

theorem safe_nil : Safe [] := ⟨[], [], rfl, by simp, .inl rfl⟩
theorem safe_close {r : Bytes} : Safe (byte ']' :: r) := ⟨[], _, rfl, by simp, .inr (.inl ⟨_, rfl⟩)⟩
theorem safe_quote {r : Bytes} : Safe (byte '"' :: r) := ⟨[], _, rfl, by simp, .inr (.inr ⟨_, rfl⟩)⟩
theorem safe_append {t r : Bytes} (ht : ∀ b ∈ t, ¬ Special b) (h : Safe r) : Safe (t ++ r) := by
  obtain ⟨run, y, rfl, h1, h2⟩ := h
  refine ⟨t ++ run, y, by simp, fun b hb => ?_, h2⟩
  rcases List.mem_append.1 hb with hb | hb
  · exact ht b hb
  · exact h1 b hb
theorem safe_cons {b : UInt8} {r : Bytes} (hb : ¬ Special b) (h : Safe r) : Safe (b :: r) :=
  safe_append (t := [b]) (by simpa using hb) h

theorem safe_guarded {r : Bytes} (h : Safe r) : Guarded r := by
  obtain ⟨run, y, rfl, h1, h2⟩ := h
  refine ⟨run, [], y, rfl, h1, ?_, gap_nil, ?_, ?_⟩ <;>
  · rcases h2 with rfl | ⟨z, rfl⟩ | ⟨z, rfl⟩
    · exact noHead_nil
    · exact noHead_cons.2 (by decide)
    · exact noHead_cons.2 (by decide)

theorem decimal_noSpecial {t : Bytes} (h : DecimalText t) : ∀ b ∈ t, ¬ Special b := by
  have hd : ∀ b, Digit b ∨ b = byte '.' → ¬ Special b := by
    rintro b (⟨h1, h2⟩ | rfl) hs
    · exact (by decide : ∀ b ∈ bytes "[]\r\n\\\"'", ¬ (48 ≤ b.toNat ∧ b.toNat ≤ 57)) b hs ⟨h1, h2⟩
    · revert hs; decide
  have hi : ∀ t, IntText t → ∀ b ∈ t, Digit b ∨ b = byte '.' := by
    rintro t (rfl | ⟨c, ds, rfl, h1, -, h2⟩) b hb
    · rw [List.mem_singleton.1 hb]; exact .inl (by unfold Digit; decide)
    · rcases List.mem_cons.1 hb with rfl | hb
      · exact .inl h1
      · exact .inl (h2 b hb)
  intro b hb
  refine hd b ?_
  rcases h with h | ⟨i, f, rfl, h, ds, rfl, -, h2⟩
  · exact hi t h b hb
  · rcases List.mem_append.1 hb with hb | hb
    · exact hi i h b hb
    · rcases List.mem_cons.1 hb with rfl | hb
      · exact .inr rfl
      · exact .inl (h2 b hb)


/-- How the text of an array goes on. -/
def tailElems (dec : Bytes → Option Decimal) (num : Decimal → Bytes) (vs : List JsonValue) : Bytes :=
  match vs with
  | [] => []
  | v :: vs => byte ',' :: Json.Spec.printElems (jsonKind dec) num (v :: vs)

/-- How the text of an object goes on. -/
def tailMembers (dec : Bytes → Option Decimal) (num : Decimal → Bytes) (ms : List (Bytes × JsonValue)) : Bytes :=
  match ms with
  | [] => []
  | m :: ms => byte ',' :: Json.Spec.printMembers (jsonKind dec) num (m :: ms)

theorem printElems_cons (v : JsonValue) (vs : List JsonValue) :
    Json.Spec.printElems (jsonKind dec) num (v :: vs) = Json.Spec.print (jsonKind dec) num v ++ tailElems dec num vs := by
  cases vs with
  | nil => simp [Json.Spec.printElems, tailElems]
  | cons w vs => simp [Json.Spec.printElems, tailElems]; rfl

theorem printMembers_cons (k : Bytes) (v : JsonValue) (ms : List (Bytes × JsonValue)) :
    Json.Spec.printMembers (jsonKind dec) num ((k, v) :: ms) =
      Json.Spec.quote (jsonKind dec) k ++ byte ':' :: (Json.Spec.print (jsonKind dec) num v ++ tailMembers dec num ms) := by
  cases ms with
  | nil => simp [Json.Spec.printMembers, tailMembers]; rfl
  | cons w ms => simp [Json.Spec.printMembers, tailMembers]; exact ⟨rfl, rfl⟩

theorem quote_head (s : Bytes) : ∃ x, Json.Spec.quote (jsonKind dec) s = byte '"' :: x := ⟨_, rfl⟩

theorem members_safe {ms : List (Bytes × JsonValue)} {r : Bytes} (hr : Safe r) :
    Safe (Json.Spec.printMembers (jsonKind dec) num ms ++ r) ∧ Safe (tailMembers dec num ms ++ r) := by
  have h : ∀ ms : List (Bytes × JsonValue), Safe (Json.Spec.printMembers (jsonKind dec) num ms ++ r) := by
    intro ms
    rcases ms with _ | ⟨⟨k, v⟩, ms⟩
    · rw [Json.Spec.printMembers]; exact hr
    · rw [printMembers_cons]
      obtain ⟨x, hx⟩ := quote_head (dec := dec) k
      rw [hx]
      exact safe_quote
  refine ⟨h ms, ?_⟩
  rcases ms with _ | ⟨m, ms⟩
  · exact hr
  · exact safe_cons (by decide) (h (m :: ms))

theorem print_safe {v : JsonValue} {r : Bytes} (h : JsonPlain dec num v) (ha : ¬ JsonArr v) (hr : Safe r) :
    Safe (Json.Spec.print (jsonKind dec) num v ++ r) := by
  cases h with
  | null => exact safe_append (t := bytes "null") (by decide) hr
  | bool b => cases b <;> rw [Json.Spec.print]
              · exact safe_append (t := bytes "false") (by decide) hr
              · exact safe_append (t := bytes "true") (by decide) hr
  | str h => exact safe_quote
  | num h _ => rw [Json.Spec.print]; exact safe_append (decimal_noSpecial h) hr
  | arr => exact absurd trivial ha
  | @obj ms _ _ _ =>
    rw [Json.Spec.print]
    simp only [List.cons_append, List.append_assoc, List.nil_append]
    exact safe_cons (b := byte '{') (by decide) (members_safe (safe_cons (b := byte '}') (by decide) hr)).1

theorem elems_safe {vs : List JsonValue} {x : Bytes} (h : ∀ v ∈ vs, JsonPlain dec num v) (ha : ∀ v ∈ vs, ¬ JsonArr v) :
    Safe (tailElems dec num vs ++ byte ']' :: x) := by
  induction vs with
  | nil => exact safe_close
  | cons v vs ih =>
    show Safe ((byte ',' :: Json.Spec.printElems (jsonKind dec) num (v :: vs)) ++ byte ']' :: x)
    rw [printElems_cons]
    simp only [List.cons_append, List.append_assoc]
    exact safe_cons (by decide) (print_safe (h v (by simp)) (ha v (by simp)) (ih (fun w hw => h w (by simp [hw]))
      (fun w hw => ha w (by simp [hw]))))

/-! ### The texts -/

/-- What may come behind a value. -/
def Behind (v : JsonValue) (r : Bytes) : Prop := (JsonObj v → Safe r) ∧ NoHead NumByte r ∧ NoHead UnitStart r

theorem noNumUnit {b : UInt8} {r : Bytes} (hb : b ∈ bytes ",]}") : NoHead NumByte (b :: r) ∧ NoHead UnitStart (b :: r) :=
  ⟨noHead_cons.2 ((by decide : ∀ b ∈ bytes ",]}", ¬ NumByte b) b hb),
    noHead_cons.2 ((by unfold UnitStart; decide : ∀ b ∈ bytes ",]}", ¬ UnitStart b) b hb)⟩

theorem elems_doc {vs : List JsonValue} {x : Bytes}
    (ih : ∀ v ∈ vs, ∀ r, Behind v r → Val dec (ofJson v) (Json.Spec.print (jsonKind dec) num v) [] r)
    (h : ∀ v ∈ vs, JsonPlain dec num v) (hp : vs.Pairwise (fun v w => ¬ (JsonObj v ∧ JsonArr w))) :
    Elems dec (ofJsonElems vs) (Json.Spec.printElems (jsonKind dec) num vs) (byte ']' :: x) := by
  induction vs with
  | nil => rw [ofJsonElems, Json.Spec.printElems]; exact .nil
  | cons v vs ih' =>
    rw [List.pairwise_cons] at hp
    have hrest := ih' (fun w hw => ih w (by simp [hw])) (fun w hw => h w (by simp [hw])) hp.2
    have hs : JsonObj v → Safe (tailElems dec num vs ++ byte ']' :: x) := fun ho =>
      elems_safe (fun w hw => h w (by simp [hw])) fun w hw ha => hp.1 w hw ⟨ho, ha⟩
    rw [ofJsonElems, printElems_cons]
    cases vs with
    | nil =>
      rw [ofJsonElems]
      exact Elems.one (g := []) gap_nil (ih v (by simp) _ ⟨hs, noNumUnit (b := byte ']') (by decide)⟩)
    | cons w vs =>
      exact Elems.cons (g := []) (g1 := []) gap_nil gap_nil
        (ih v (by simp) _ ⟨hs, noNumUnit (b := byte ',') (by decide)⟩) hrest

theorem members_doc {ms : List (Bytes × JsonValue)} {x : Bytes}
    (ih : ∀ v ∈ ms.map Prod.snd, ∀ r, Behind v r → Val dec (ofJson v) (Json.Spec.print (jsonKind dec) num v) [] r)
    (hk : ∀ k ∈ ms.map Prod.fst, JsonString k) (hx : Safe x) :
    Members dec true (ofJsonMembers ms) (Json.Spec.printMembers (jsonKind dec) num ms) (byte '}' :: x) := by
  induction ms with
  | nil => rw [ofJsonMembers, Json.Spec.printMembers]; exact .nil
  | cons m ms ih' =>
    obtain ⟨k, v⟩ := m
    have hrest := ih' (fun w hw => ih w (by simp only [List.map_cons]; exact List.mem_cons_of_mem _ hw))
      (fun w hw => hk w (by simp only [List.map_cons]; exact List.mem_cons_of_mem _ hw))
    have hs : Safe (tailMembers dec num ms ++ byte '}' :: x) :=
      (members_safe (safe_cons (b := byte '}') (by decide) hx)).2
    have hkey : KeyText k (Json.Spec.quote (jsonKind dec) k) := .inr (quote_quoted (hk k (by simp)))
    rw [ofJsonMembers, printMembers_cons]
    cases ms with
    | nil =>
      have := Members.assign (c := true) (g1 := []) (g2 := []) (g := []) (s := []) hkey gap_nil (.inr rfl) gap_nil gap_nil (.inl rfl)
        (ih v (by simp) _ ⟨fun _ => hs, noNumUnit (b := byte '}') (by decide)⟩) hrest
      simpa [tailMembers, Json.Spec.printMembers] using this
    | cons w ms =>
      have := Members.assign (c := true) (g1 := []) (g2 := []) (g := []) (s := [byte ',']) hkey gap_nil (.inr rfl) gap_nil gap_nil
        (.inr ⟨rfl, [], gap_nil, rfl⟩)
        (ih v (by simp) _ ⟨fun _ => hs, noNumUnit (b := byte ',') (by decide)⟩) hrest
      simpa [tailMembers] using this

theorem keys_ofJson (ms : List (Bytes × JsonValue)) : keys (ofJsonMembers ms) = ms.map Prod.fst := by
  induction ms with
  | nil => rfl
  | cons m ms ih =>
    obtain ⟨k, v⟩ := m
    rw [ofJsonMembers]
    show k :: keys (ofJsonMembers ms) = _
    rw [ih]; rfl

theorem print_val {v : JsonValue} (h : JsonPlain dec num v) :
    ∀ r, Behind v r → Val dec (ofJson v) (Json.Spec.print (jsonKind dec) num v) [] r := by
  induction h with
  | null => intro r _; rw [ofJson]; exact .null
  | bool b => intro r _; cases b <;> rw [ofJson, Json.Spec.print] <;> constructor
  | str h => intro r _; rw [ofJson, Json.Spec.print]; exact .quoted (quote_quoted h)
  | num h1 h2 => intro r hr; rw [ofJson, Json.Spec.print]; exact .num h1 h2 ⟨hr.2.1, hr.2.2⟩
  | arr h hp ih =>
    intro r _
    rw [ofJson, Json.Spec.print]
    exact .arr (g1 := []) gap_nil (elems_doc ih h hp)
  | obj hn hk h ih =>
    intro r hr
    rw [ofJson, Json.Spec.print]
    exact .obj (g1 := []) gap_nil (members_doc ih hk (hr.1 trivial)) (gathered_self (by rw [keys_ofJson]; exact hn)) (safe_guarded (hr.1 trivial))

/-- The compact text of an object or an array is a document. -/
theorem print_doc {v : JsonValue} (h : JsonPlain dec num v) (hv : JsonObj v ∨ JsonArr v) :
    Doc dec [ofJson v] (Json.Spec.print (jsonKind dec) num v) := by
  have hv' : IsObj (ofJson v) ∨ IsArr (ofJson v) := by
    cases v <;> simp only [JsonObj, JsonArr, or_self] at hv <;> rw [ofJson] <;> simp [IsObj, IsArr]
  have h1 := Items.cons (g := []) hv' gap_nil (print_val h [] ⟨fun _ => safe_nil, noHead_nil, noHead_nil⟩) Items.nil
  have h2 := Doc.items (g := []) gap_nil h1 (by
    intro x hx
    rw [List.append_nil, List.append_nil] at hx
    cases h with
    | null => cases hv <;> contradiction
    | bool => cases hv <;> contradiction
    | str => cases hv <;> contradiction
    | num => cases hv <;> contradiction
    | arr => rw [Json.Spec.print] at hx; cases hx
    | obj =>
      rw [Json.Spec.print] at hx
      injection hx with _ hx
      subst hx
      exact safe_guarded (members_safe (safe_cons (b := byte '}') (by decide) safe_nil)).1)
  simpa using h2

/-! ### It is JSON, too -/

theorem decimal_json {t : Bytes} (h : DecimalText t) : Json.Spec.NumText (jsonKind dec) t := by
  have hd : ∀ b, Digit b → Json.Spec.Digit (jsonKind dec) b := by
    rintro b ⟨h1, h2⟩
    have := (by decide +kernel : ∀ i : Fin 256, 48 ≤ i.val → i.val ≤ 57 → (UInt8.ofNat i.val) ∈ bytes "0123456789")
      ⟨b.toNat, b.toNat_lt⟩ h1 h2
    have h : b ∈ bytes "0123456789" := by simpa using this
    exact h
  have hi : ∀ t, IntText t → Json.Spec.IntText (jsonKind dec) t := by
    rintro t (rfl | ⟨b, ds, rfl, h1, h2, h3⟩)
    · exact .zero
    · exact .pos (hd b h1) h2 fun d h => hd d (h3 d h)
  rcases h with h | ⟨i, f, rfl, h, ds, rfl, h1, h2⟩
  · exact ⟨[], t, [], [], by simp, .inl rfl, hi t h, .none, .none⟩
  · exact ⟨[], i, byte '.' :: ds, [], by simp, .inl rfl, hi i h, .some ⟨h1, fun b hb => hd b (h2 b hb)⟩, .none⟩

theorem plain_proper {v : JsonValue} (h : JsonPlain dec num v) : Json.Spec.Proper (jsonKind dec) num v := by
  have hs : ∀ s, JsonString s → (jsonKind dec).str s = some s := by
    intro s h
    show Uri.fromUtf8 s = some s
    unfold Uri.fromUtf8; rw [if_pos h.2.1]
  induction h with
  | null => exact .null
  | bool b => exact .bool b
  | str h => exact .str (hs _ h)
  | num h1 h2 => exact .num (decimal_json h1) h2
  | arr _ _ ih => exact .arr ih
  | obj hn hk _ ih => exact .obj hn (fun k h => hs k (hk k h)) ih

/-! ### Looking up -/

theorem json_latest (v : JsonValue) : latest (ofJson v) = ofJson v := by cases v <;> rw [ofJson] <;> rfl

theorem json_get (k : Bytes) (ms : List (Bytes × JsonValue)) : get k (ofJsonMembers ms) = (jsonGet k ms).map ofJson := by
  induction ms with
  | nil => rw [ofJsonMembers]; rfl
  | cons m ms ih =>
    obtain ⟨k', v⟩ := m
    rw [ofJsonMembers]
    unfold jsonGet at ih ⊢
    by_cases h : k' = k
    · simp [get, h]
    · simp [get, h, ih]

theorem json_descend (ss : List Bytes) (v : JsonValue) : descend ss (ofJson v) = (jsonAt ss v).map ofJson := by
  induction ss generalizing v with
  | nil => cases v <;> rfl
  | cons s ss ih =>
    cases v with
    | obj ms =>
      rw [ofJson, descend, json_get, jsonAt]
      cases jsonGet s ms with
      | none => rfl
      | some w => simp only [Option.map_some, Option.bind_some, json_latest, ih]
    | _ => rw [ofJson, jsonAt] <;> simp [descend]

theorem ofJson_elem {vs : List JsonValue} {w : Value} (h : w ∈ ofJsonElems vs) : ∃ v ∈ vs, w = ofJson v := by
  induction vs with
  | nil => rw [ofJsonElems] at h; cases h
  | cons v vs ih =>
    rw [ofJsonElems] at h
    rcases List.mem_cons.1 h with rfl | h
    · exact ⟨v, by simp, rfl⟩
    · obtain ⟨u, hu, e⟩ := ih h
      exact ⟨u, by simp [hu], e⟩

theorem ofJson_member {ms : List (Bytes × JsonValue)} {e : Bytes × Value} (h : e ∈ ofJsonMembers ms) :
    e.1 ∈ ms.map Prod.fst ∧ ∃ v ∈ ms.map Prod.snd, e.2 = ofJson v := by
  induction ms with
  | nil => rw [ofJsonMembers] at h; cases h
  | cons m ms ih =>
    obtain ⟨k, v⟩ := m
    rw [ofJsonMembers] at h
    rcases List.mem_cons.1 h with rfl | h
    · exact ⟨by simp, v, by simp, rfl⟩
    · obtain ⟨h1, u, hu, e⟩ := ih h
      exact ⟨by rw [List.map_cons]; exact List.mem_cons_of_mem _ h1, u, by rw [List.map_cons]; exact List.mem_cons_of_mem _ hu, e⟩

theorem json_mentions {v : JsonValue} (h : JsonPlain dec num v) (p : Bytes) : ¬ Mentions (ofJson v) p := by
  induction h with
  | null => rintro ⟨⟩
  | bool b => rintro ⟨⟩
  | str _ => rw [ofJson]; rintro ⟨⟩
  | num _ _ => rw [ofJson]; rintro ⟨⟩
  | arr _ _ ih =>
    rw [ofJson]
    intro h
    cases h with
    | elem hv h =>
      obtain ⟨u, hu, rfl⟩ := ofJson_elem hv
      exact ih u hu h
  | obj _ _ _ ih =>
    rw [ofJson]
    intro h
    cases h with
    | value he h =>
      obtain ⟨-, u, hu, e⟩ := ofJson_member he
      rw [e] at h
      exact ih u hu h

end OniComb.Hocon
