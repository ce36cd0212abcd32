import Verif.Lemmas.JsonBench
import Verif.Props.Json

/-!
# Properties of the benchmark grammars

`/repo/parser/benches/oni_comb_json.rs` writes the JSON grammars of the examples again, with `.cache()` on most
parts.  `Parses p t o` says that parsing `t` with `p` can come out as `o`, whatever addresses the cached parsers
get and whatever the caches already share them with inside one run.
-/

namespace OniComb.Json
open OniComb.Stateful OniComb.Json.Spec

variable {F : Type}

/-! ### C104: the caches of the benchmark change nothing -/

/-- The cached grammar over characters always comes to an end and gives on every text exactly what the uncached
`json_char.rs` gives: the same value or the same error. -/
theorem c104_cached_char (f64 : List Char → Option F) (n : Nat) (t : List Char) (hn : t.length < n) :
    (∃ o, Parses (benchChar f64 n) t o) ∧ ∀ o, Parses (benchChar f64 n) t o → o = parse (jsonChar f64 n) t := by
  have e : plainJson (charKind f64) (string (charKind f64)) (number (charKind f64)) n = jsonChar f64 n :=
    plainJson_eq n
  have hr : plainJson (charKind f64) (string (charKind f64)) (number (charKind f64)) n ⟨t, 0⟩ ≠ .diverge := by
    rw [e]
    intro hd
    rcases c73_total_char f64 n t hn with ⟨v, h⟩ | ⟨x, h⟩ <;> unfold parse at h <;> rw [hd] at h <;> cases h
  have := benchJson_plain (charKind f64) (number (charKind f64)) (benchString_caches (charKind f64)) n t hr
  rw [e] at this
  exact this

/-- So every JSON text of RFC 8259 is accepted with its value by the cached grammar. -/
theorem c104_cached_accepts (f64 : List Char → Option F) (n : Nat) (t : List Char) (hn : t.length < n)
    (v : Value Char F) (h : Doc (charKind f64) false v t) (o : Res.Out Char (Value Char F))
    (ho : Parses (benchChar f64 n) t o) : o = .ok v :=
  ((c104_cached_char f64 n t hn).2 o ho).trans (c72_rfc_accepted_char f64 n t hn v h)

example : ∀ o, Parses (benchChar (fun _ => some ()) 20) " [ 0 ,\n{ }] ".toList o → o = .ok (.arr [.num (), .obj []]) :=
  fun o h => c104_cached_accepts _ _ _ (by decide) _ doc_ex o h

/-- The same over bytes, against the same grammar with the `.cache()` calls left out, on every text on which that
returns. -/
theorem c104_cached_byte (f64 : List UInt8 → Option F) (lossy : List UInt8 → List UInt8) (n : Nat) (t : List UInt8)
    (hr : plainJson (byteKind f64) (plainStringBytes f64 lossy) (benchNumber f64) n ⟨t, 0⟩ ≠ .diverge) :
    (∃ o, Parses (benchByte f64 lossy n) t o) ∧ ∀ o, Parses (benchByte f64 lossy n) t o →
      o = parse (plainJson (byteKind f64) (plainStringBytes f64 lossy) (benchNumber f64) n) t :=
  benchJson_plain (byteKind f64) (benchNumber f64) (benchStringBytes_caches f64 lossy) n t hr

/-! ### C105: the benchmark over bytes reads JSON -/

/-- On UTF-8 without backslashes the benchmark gives what `json_byte.rs` gives, provided `f64::from_str` accepts the
numbers of the grammar and `from_utf8_lossy` leaves UTF-8 alone.  Missing: texts with escapes, where it is false. -/
theorem c105_bytes_partial (f64 : List UInt8 → Option F) (hf : ReadsNumbers f64) (lossy : List UInt8 → List UInt8)
    (hl : ∀ x, Uri.validUtf8 x = true → lossy x = x) (n : Nat) (t : List UInt8) (hn : t.length < n)
    (hu : Uri.validUtf8 t = true) (hb : Uri.byte '\\' ∉ t) :
    (∃ o, Parses (benchByte f64 lossy n) t o) ∧
      ∀ o, Parses (benchByte f64 lossy n) t o → o = parse (jsonByte f64 n) t := by
  have e := plainBytes_json hf hl hu hb n
  have hr : plainJson (byteKind f64) (plainStringBytes f64 lossy) (benchNumber f64) n ⟨t, 0⟩ ≠ .diverge := by
    rw [e]
    intro hd
    rcases c73_total_byte f64 n t hn with ⟨v, h⟩ | ⟨x, h⟩ <;> unfold parse at h <;> rw [hd] at h <;> cases h
  obtain ⟨h1, h2⟩ := c104_cached_byte f64 lossy n t hr
  refine ⟨h1, fun o ho => (h2 o ho).trans ?_⟩
  unfold parse
  rw [e]

/-- `f64::from_str` and `from_utf8_lossy` as the theorem wants them, and a text. -/
example : ReadsNumbers (fun _ => some ()) ∧ (∀ x, Uri.validUtf8 x = true → id x = x) ∧
    (Uri.validUtf8 (Uri.bytes "[\"" ++ [0xC3, 0xA9] ++ Uri.bytes "\", {\"a\":1.5}]") = true) ∧
    (Uri.byte '\\' ∉ Uri.bytes "[\"" ++ [0xC3, 0xA9] ++ Uri.bytes "\", {\"a\":1.5}]") :=
  ⟨fun _ _ => ⟨(), rfl⟩, fun _ _ => rfl, by decide +kernel, by decide +kernel⟩

theorem decode_length {K : Kind UInt8 F} {items : List (Item UInt8)} (h : Short K items) :
    (decode K (items.map (Item.unit K))).length = items.length := by
  induction items with
  | nil => rfl
  | cons it items ih =>
    have ih := ih fun x hx => h x (by simp [hx])
    cases it with
    | raw b => simpa [Item.unit, decode] using ih
    | esc c => simpa [Item.unit, decode] using ih
    | uni ds => exact absurd rfl ((h (.uni ds) (by simp)).2 ds)

theorem text_length {K : Kind UInt8 F} (items : List (Item UInt8)) :
    items.length ≤ (items.flatMap (Item.text K)).length ∧
      ((∃ c, .esc c ∈ items) → items.length < (items.flatMap (Item.text K)).length) := by
  induction items with
  | nil => simp
  | cons it items ih =>
    simp only [List.flatMap_cons, List.length_append, List.length_cons]
    refine ⟨?_, ?_⟩
    · have : 1 ≤ (it.text K).length := by cases it <;> simp [Item.text]
      omega
    · rintro ⟨c, hc⟩
      rcases List.mem_cons.1 hc with rfl | hc
      · have := ih.1
        simp only [Item.text, List.length_cons, List.length_nil]
        omega
      · have := ih.2 ⟨c, hc⟩
        have : 1 ≤ (it.text K).length := by cases it <;> simp [Item.text]
        omega

/-- String literals with escapes are kept as they are written: where `json_byte.rs` gives the string that is
denoted, the benchmark gives the text between the quotes, and the two differ as soon as there is an escape. -/
theorem c105_escapes_violated (f64 : List UInt8 → Option F) (hf : ReadsNumbers f64) (lossy : List UInt8 → List UInt8)
    (hl : ∀ x, Uri.validUtf8 x = true → lossy x = x) (items : List (Item UInt8)) (h : Short (byteKind f64) items)
    (hu : Uri.validUtf8 (items.flatMap (Item.text (byteKind f64))) = true)
    (hd : Utf8 (byteKind f64) (items.map (Item.unit (byteKind f64)))) (he : ∃ c, .esc c ∈ items) (n : Nat)
    (t : List UInt8) (ht : t = Uri.byte '"' :: (items.flatMap (Item.text (byteKind f64)) ++ [Uri.byte '"']))
    (hn : t.length < n) :
    ∃ s, parse (jsonByte f64 n) t = .ok (.str s) ∧ s ≠ items.flatMap (Item.text (byteKind f64)) ∧
      (∃ o, Parses (benchByte f64 lossy n) t o) ∧
      ∀ o, Parses (benchByte f64 lossy n) t o → o = .ok (.str (items.flatMap (Item.text (byteKind f64)))) := by
  subst ht
  obtain ⟨n, rfl⟩ : ∃ m, n = m + 1 := ⟨n - 1, by omega⟩
  refine ⟨decode (byteKind f64) (items.map (Item.unit (byteKind f64))), ?_, ?_, ?_⟩
  · exact c72_rfc_accepted_byte f64 _ _ hn _ (doc_of_text (.str ⟨items, fun it hit => (h it hit).1, hd, rfl, rfl⟩))
  · intro e
    have h1 := congrArg List.length e
    rw [decode_length h] at h1
    exact absurd h1 (Nat.ne_of_lt ((text_length items).2 he))
  · have e := plainBytes_string hf n (stringBytes_eats (lossy := lossy) h [])
    rw [hl _ hu] at e
    rw [← e]
    refine c104_cached_byte f64 lossy _ _ fun hd => ?_
    unfold parse at e
    rw [hd] at e
    cases e

/-- The literal `"a\n"`. -/
example : Short (byteKind (fun _ => some ())) [.raw (Uri.byte 'a'), .esc 'n'] ∧
    Uri.validUtf8 ([.raw (Uri.byte 'a'), .esc 'n'].flatMap (Item.text (byteKind (fun _ => some ())))) = true ∧
    Utf8 (byteKind (fun _ => some ())) ([.raw (Uri.byte 'a'), .esc 'n'].map (Item.unit (byteKind (fun _ => some ())))) := by
  refine ⟨?_, by decide +kernel, ?_⟩
  · intro it hit
    simp only [List.mem_cons, List.not_mem_nil, or_false] at hit
    rcases hit with rfl | rfl
    · exact ⟨⟨by decide, by decide, .inr (by decide)⟩, by simp⟩
    · exact ⟨by simp [Item.Ok], by simp⟩
  · intro pre run post e hne h1 h2
    have e' : [Sum.inl (Uri.byte 'a'), Sum.inl (Uri.byte '\n')] = pre ++ (run.map Sum.inl ++ post) := e
    have hm : ∀ u : Nat, Sum.inr u ∉ pre ++ (run.map Sum.inl ++ post) := by rw [← e']; simp
    rcases h1 with rfl | ⟨p, u, rfl⟩
    · rcases h2 with rfl | ⟨u, p, rfl⟩
      · simp only [List.nil_append, List.append_nil] at e'
        obtain rfl : run = [Uri.byte 'a', Uri.byte '\n'] := by
          match run, e' with
          | [x, y], e' => simpa using e'.symm
        decide +kernel
      · exact absurd (by simp) (hm u)
    · exact absurd (by simp) (hm u)

/-- String literals with a `\u` escape are rejected, although they are JSON. -/
theorem c105_unicode_violated (f64 : List UInt8 → Option F) (hf : ReadsNumbers f64) (lossy : List UInt8 → List UInt8)
    (items items' : List (Item UInt8)) (ds s : List UInt8) (h : Short (byteKind f64) items) (n : Nat) (t : List UInt8)
    (ht : t = Uri.byte '"' :: ((items ++ .uni ds :: items').flatMap (Item.text (byteKind f64)) ++ [Uri.byte '"']))
    (hs : StrText (byteKind f64) false s t) (hn : t.length < n) :
    parse (jsonByte f64 n) t = .ok (.str s) ∧ (∃ o, Parses (benchByte f64 lossy n) t o) ∧
      ∀ o, Parses (benchByte f64 lossy n) t o → ∃ e, o = .err e := by
  refine ⟨c72_rfc_accepted_byte f64 _ _ hn _ (doc_of_text (.str hs)), ?_⟩
  obtain ⟨n, rfl⟩ : ∃ m, n = m + 1 := ⟨n - 1, by omega⟩
  have e0 : t = Uri.byte '"' :: (items.flatMap (Item.text (byteKind f64)) ++ Uri.byte '\\' :: Uri.byte 'u' ::
      (ds ++ (items'.flatMap (Item.text (byteKind f64)) ++ [Uri.byte '"']))) := by
    rw [ht]
    simp only [List.flatMap_append, List.flatMap_cons, Item.text, List.append_assoc, List.cons_append]
    rfl
  subst e0
  obtain ⟨x, e⟩ := plainBytes_reject hf n (stringBytes_fail (lossy := lossy) h
    (ds ++ (items'.flatMap (Item.text (byteKind f64)) ++ [Uri.byte '"'])))
  obtain ⟨h1, h2⟩ := c104_cached_byte f64 lossy (n + 1) _ fun hd => by
    unfold parse at e
    rw [hd] at e
    cases e
  exact ⟨h1, fun o ho => ⟨x, (h2 o ho).trans e⟩⟩

/-- The literal `"\u0041"`. -/
example : StrText (byteKind (fun _ => some ())) false [Uri.byte 'A'] (Uri.byte '"' ::
    (([] ++ .uni (Uri.bytes "0041") :: [] : List (Item UInt8)).flatMap (Item.text (byteKind (fun _ => some ()))) ++ [Uri.byte '"'])) := by
  refine ⟨[.uni (Uri.bytes "0041")], ?_, ?_, by decide +kernel, rfl⟩
  · intro it hit
    obtain rfl := List.mem_singleton.1 hit
    exact ⟨by decide, by unfold Hex; decide +kernel⟩
  · intro pre run post e hne h1 h2
    exfalso
    cases run with
    | nil => exact hne rfl
    | cons x run =>
      have : Sum.inl x ∈ [Item.unit (byteKind fun _ => some ()) (.uni (Uri.bytes "0041"))] := by
        have e : [Item.unit (byteKind fun _ => some ()) (.uni (Uri.bytes "0041"))] = _ := e
        rw [e]; simp
      simp [Item.unit] at this

end OniComb.Json
