import Verif.Props.HoconLayout
import Verif.Lemmas.HoconSpaced
import Verif.Props.Json

/-!
# Properties of the `hocon` crate: JSON texts

Texts printed without white space, `Json.Spec.print`, and texts with any white space, `JsonDoc`; see
`Verif/Spec/HoconJson.lean` for the values and texts in question.
-/

namespace OniComb.Hocon
open OniComb OniComb.Hocon.Spec OniComb.Hocon.Spec.Layout
open OniComb.Uri (Bytes byte bytes)

/-- The compact JSON text of an object or array is JSON by the RFC, and the crate reads it as that object or array.
Missing for the full property: empty strings, brackets and single quotes in strings, signs and exponents, and
an array behind an object (see `c98_json_violated`); for white space see `c98_spaced_partial`. -/
theorem c98_compact_partial (S : Std) (num : Decimal → Bytes) (v : JsonValue) (h : JsonPlain S.parseDecimal num v)
    (hv : JsonObj v ∨ JsonArr v) (n : Nat)
    (hn : (Json.Spec.print (Json.byteKind S.parseDecimal) num v).length < n) :
    Json.Spec.Doc (Json.byteKind S.parseDecimal) false v (Json.Spec.print (Json.byteKind S.parseDecimal) num v) ∧
      parse (hocon S n) (Json.Spec.print (Json.byteKind S.parseDecimal) num v) = .ok [ofJson v] :=
  ⟨Json.doc_print (plain_proper h), c97_layout_partial S n _ _ (print_doc h hv) hn⟩

/-- The JSON example and the `hocon` crate read such a text as the same value. -/
theorem c98_agreement_partial (S : Std) (num : Decimal → Bytes) (v : JsonValue) (h : JsonPlain S.parseDecimal num v)
    (hv : JsonObj v ∨ JsonArr v) (n : Nat)
    (hn : (Json.Spec.print (Json.byteKind S.parseDecimal) num v).length < n) :
    ∃ w, parse (Json.jsonByte S.parseDecimal n) (Json.Spec.print (Json.byteKind S.parseDecimal) num v) = .ok w ∧
      parse (hocon S n) (Json.Spec.print (Json.byteKind S.parseDecimal) num v) = .ok [ofJson w] :=
  ⟨v, Json.c62_roundtrip_byte _ num v (plain_proper h) n hn, (c98_compact_partial S num v h hv n hn).2⟩

/-- `get_value` on such a document gives the value of the JSON object at the path. -/
theorem c98_get_value_partial (S : Std) (w : World) (num : Decimal → Bytes) (ms : List (Bytes × JsonValue))
    (h : JsonPlain S.parseDecimal num (.obj ms)) (hd : ∀ k ∈ ms.map Prod.fst, byte '.' ∉ k) :
    ∃ v N, (∀ n, N ≤ n → parseDocument S w n (Json.Spec.print (Json.byteKind S.parseDecimal) num (.obj ms)) = .ok (some v)) ∧
      ∀ ss, ss ≠ [] → (∀ s ∈ ss, Segment s) → getValue v (joinDot ss) = .ok ((jsonAt ss (.obj ms)).map ofJson) := by
  have h1 := print_doc h (.inl trivial)
  have h2 := json_mentions h
  rw [ofJson] at h1 h2
  obtain ⟨v, N, hN, hv⟩ := c97_get_value_partial S w _ _ h1 (fun e he => hd _ (ofJson_member he).1) h2
  refine ⟨v, N, hN, fun ss hs hs' => ?_⟩
  rw [hv ss hs hs', ← json_descend, ofJson]

/-- The value of the examples: `{"a":[[],1,{"b":"x\ny"},{}],"c":{"d":null}}`. -/
def jsonEx : JsonValue :=
  .obj [(bytes "a", .arr [.arr [], .num ⟨1, 0⟩, .obj [(bytes "b", .str (bytes "x\ny"))], .obj []]),
    (bytes "c", .obj [(bytes "d", .null)])]

theorem jsonEx_plain : JsonPlain decDigits.parseDecimal (fun _ => bytes "1") jsonEx := by
  have hs : ∀ s ∈ [bytes "a", bytes "b", bytes "c", bytes "d", bytes "x\ny"], JsonString s := by
    intro s hs
    simp only [List.mem_cons, List.not_mem_nil, or_false] at hs
    rcases hs with rfl | rfl | rfl | rfl | rfl <;> exact ⟨by decide, by decide, by decide, by rintro x ⟨⟩; decide⟩
  refine .obj (by decide) ?_ ?_
  · intro k hk
    exact hs k ((by decide : ∀ k ∈ [bytes "a", bytes "c"], k ∈ [bytes "a", bytes "b", bytes "c", bytes "d", bytes "x\ny"]) k hk)
  · intro v hv
    simp only [List.map_cons, List.map_nil, List.mem_cons, List.not_mem_nil, or_false] at hv
    rcases hv with rfl | rfl
    · refine .arr ?_ ?_
      · intro v hv
        simp only [List.mem_cons, List.not_mem_nil, or_false] at hv
        rcases hv with rfl | rfl | rfl | rfl
        · exact .arr (by simp) (by simp)
        · exact .num (.inl (.inr ⟨_, [], rfl, by decide, by decide, by simp⟩)) (by decide)
        · exact .obj (by decide) (by simpa using hs (bytes "b") (by simp)) (by
            simpa using JsonPlain.str (hs (bytes "x\ny") (by simp)))
        · exact .obj (by decide) (by simp) (by simp)
      · simp [JsonObj, JsonArr]
    · exact .obj (by decide) (by simpa using hs (bytes "d") (by simp)) (by simpa using JsonPlain.null)

/-- The text of the example. -/
theorem jsonEx_text : Json.Spec.print (Json.byteKind decDigits.parseDecimal) (fun _ => bytes "1") jsonEx =
    bytes "{\"a\":[[],1,{\"b\":\"x\\u000ay\"},{}],\"c\":{\"d\":null}}" := by decide +kernel

example : parse (hocon decDigits 100) (bytes "{\"a\":[[],1,{\"b\":\"x\\u000ay\"},{}],\"c\":{\"d\":null}}") =
    .ok [ofJson jsonEx] := by
  rw [← jsonEx_text]
  exact (c98_compact_partial decDigits _ _ jsonEx_plain (.inl trivial) 100 (by rw [jsonEx_text]; decide)).2

example (w : World) : ∃ v N, (∀ n, N ≤ n → parseDocument decDigits w n
      (bytes "{\"a\":[[],1,{\"b\":\"x\\u000ay\"},{}],\"c\":{\"d\":null}}") = .ok (some v)) ∧
    getValue v (bytes "c.d") = .ok (some .null) := by
  obtain ⟨v, N, hN, hv⟩ := c98_get_value_partial decDigits w _ _ jsonEx_plain (by decide)
  refine ⟨v, N, ?_, ?_⟩
  · rw [← jsonEx_text]; exact hN
  · exact hv [bytes "c", bytes "d"] (by simp) (by simp [Segment]; decide)

/-! ## White space -/

/-- A JSON text with any white space is JSON by the RFC, and the crate reads it as the value that the RFC gives it.
Missing for the full property: empty strings, brackets and single quotes that stand for themselves in strings, signs
and exponents, repeated keys, and arrays in which something like a setting comes behind an object (see
`c98_json_violated`). -/
theorem c98_spaced_partial (S : Std) (v : JsonValue) (t : Bytes) (h : JsonDoc S.parseDecimal v t) (n : Nat)
    (hn : t.length < n) :
    Json.Spec.Doc (Json.byteKind S.parseDecimal) false v t ∧ parse (hocon S n) t = .ok [ofJson v] :=
  ⟨spaced_rfc h, c97_layout_partial S n _ _ (spaced_doc h) hn⟩

/-- The JSON example and the `hocon` crate read such a text as the same value. -/
theorem c98_spaced_agreement_partial (S : Std) (v : JsonValue) (t : Bytes) (h : JsonDoc S.parseDecimal v t) (n : Nat)
    (hn : t.length < n) :
    ∃ w, parse (Json.jsonByte S.parseDecimal n) t = .ok w ∧ parse (hocon S n) t = .ok [ofJson w] :=
  ⟨v, Json.c72_rfc_accepted_byte _ n t hn v (spaced_rfc h), (c98_spaced_partial S v t h n hn).2⟩

/-- `get_value` on such a document gives the value of the JSON object at the path. -/
theorem c98_spaced_get_value_partial (S : Std) (w : World) (ms : List (Bytes × JsonValue)) (t : Bytes)
    (h : JsonDoc S.parseDecimal (.obj ms) t) (hd : ∀ k ∈ ms.map Prod.fst, byte '.' ∉ k) :
    ∃ v N, (∀ n, N ≤ n → parseDocument S w n t = .ok (some v)) ∧
      ∀ ss, ss ≠ [] → (∀ s ∈ ss, Segment s) → getValue v (joinDot ss) = .ok ((jsonAt ss (.obj ms)).map ofJson) := by
  have h1 := spaced_doc h
  have h2 : ∀ p, ¬ Mentions (ofJson (.obj ms)) p := by
    obtain ⟨a, u, b, -, -, hu, -, -⟩ := h
    exact spaced_mentions hu
  rw [ofJson] at h1 h2
  obtain ⟨v, N, hN, hv⟩ := c97_get_value_partial S w _ _ h1 (fun e he => hd _ (ofJson_member he).1) h2
  refine ⟨v, N, hN, fun ss hs hs' => ?_⟩
  rw [hv ss hs hs', ← json_descend, ofJson]

/-- The value of the examples: `{"a":[{"b":1},{}],"c":"d"}`. -/
def spacedEx : JsonValue :=
  .obj [(bytes "a", .arr [.obj [(bytes "b", .num ⟨1, 0⟩)], .obj []]), (bytes "c", .str (bytes "d"))]

/-- A text of the examples, with line ends, tabs and blanks. -/
theorem spacedEx_doc : JsonDoc decDigits.parseDecimal spacedEx
    (bytes "\n{\n  \"a\" : [\n    {\"b\":\t1 }, {}\n  ],\r\n  \"c\":\n\"d\"}\n") := by
  have hl : ∀ c ∈ [bytes "a", bytes "b", bytes "c", bytes "d"], JsonLiteral c (byte '"' :: c ++ [byte '"']) := by
    intro c hc
    simp only [List.mem_cons, List.not_mem_nil, or_false] at hc
    have key : ∀ x : UInt8, x ∈ bytes "abcd" → JsonLiteral [x] (byte '"' :: [x] ++ [byte '"']) := by
      intro x hx
      refine ⟨[.raw x], by simp, ?_, ?_, ?_, ?_, rfl, rfl⟩
      · intro it hit
        rw [List.mem_singleton] at hit
        subst hit
        exact (by decide : ∀ x ∈ bytes "abcd", x ≠ byte '"' ∧ x ≠ byte '\\' ∧ (false = true ∨ 0x20 ≤ x.toNat)) x hx
      · intro b hb
        cases List.mem_singleton.1 hb
        exact (by decide : ∀ x ∈ bytes "abcd", x ∉ bytes "[]'") x hx
      · exact (Json.utf8_inl (K := strKind) (run := [x]) (us := []) (by simp) (by rintro b y ⟨⟩)).2
          ⟨(by decide : ∀ x ∈ bytes "abcd", Uri.fromUtf8 [x] = some [x]) x hx, Json.utf8_nil⟩
      · rintro b ⟨⟩
        exact (by decide : ∀ x ∈ bytes "abcd", x ∉ bytes " \t#/") x hx
    rcases hc with rfl | rfl | rfl | rfl <;> exact key _ (by decide)
  have hone : JsonText decDigits.parseDecimal (.num ⟨1, 0⟩) (bytes "1") :=
    .num (.inl (.inr ⟨_, [], rfl, by decide, by decide, by simp⟩)) (by decide)
  have hb : JsonText decDigits.parseDecimal (.obj [(bytes "b", .num ⟨1, 0⟩)]) (bytes "{\"b\":\t1 }") :=
    .obj (t := bytes "\"b\":\t1 ") (.one (a := []) (s := bytes "\"b\"") (b := []) (c := bytes "\t") (t := bytes "1") (d := bytes " ")
      (by decide) (hl (bytes "b") (by simp)) (by decide) (by decide) hone (by decide)) (by decide)
  have ha : JsonText decDigits.parseDecimal (.arr [.obj [(bytes "b", .num ⟨1, 0⟩)], .obj []])
      (bytes "[\n    {\"b\":\t1 }, {}\n  ]") := by
    refine .arr (t := bytes "\n    {\"b\":\t1 }, {}\n  ") (.cons (a := bytes "\n    ") (t := bytes "{\"b\":\t1 }") (b := [])
      (r := bytes " {}\n  ") (by decide) hb (by decide) (fun _ x => ?_)
      (.one (a := bytes " ") (t := bytes "{}") (b := bytes "\n  ") (by decide) (.objEmpty (w := []) (by decide)) (by decide)))
    exact ⟨bytes ", {}", bytes "\n  ", bytes "]" ++ x, rfl, by unfold Special; decide, noHead_cons.2 (by unfold Special; decide),
      Blanks.gap (by decide), noHead_cons.2 (by decide), noHead_cons.2 (by decide)⟩
  refine ⟨bytes "\n", bytes "{\n  \"a\" : [\n    {\"b\":\t1 }, {}\n  ],\r\n  \"c\":\n\"d\"}", bytes "\n", by decide, by decide, ?_,
    by decide, .inl trivial⟩
  refine .obj (t := bytes "\n  \"a\" : [\n    {\"b\":\t1 }, {}\n  ],\r\n  \"c\":\n\"d\"") (.cons (a := bytes "\n  ") (s := bytes "\"a\"")
    (b := bytes " ") (c := bytes " ") (t := bytes "[\n    {\"b\":\t1 }, {}\n  ]") (d := [])
    (r := bytes "\r\n  \"c\":\n\"d\"") (by decide) (hl (bytes "a") (by simp)) (by decide) (by decide) ha (by decide)
    (.one (a := bytes "\r\n  ") (s := bytes "\"c\"") (b := []) (c := bytes "\n") (t := bytes "\"d\"") (d := []) (by decide)
      (hl (bytes "c") (by simp)) (by decide) (by decide) (.str (hl (bytes "d") (by simp))) (by decide))) (by decide)

example : parse (hocon decDigits 100)
    (bytes "\n{\n  \"a\" : [\n    {\"b\":\t1 }, {}\n  ],\r\n  \"c\":\n\"d\"}\n") = .ok [ofJson spacedEx] :=
  (c98_spaced_partial decDigits _ _ spacedEx_doc 100 (by decide)).2

end OniComb.Hocon
