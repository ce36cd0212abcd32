import Verif.Props.HoconLoad

/-!
# Properties C95 to C97: strings with escapes, concatenation, braces
-/

namespace OniComb.Hocon
open OniComb OniComb.Hocon.Spec
open OniComb.Json.Spec (Item)
open OniComb.Uri (Bytes byte bytes)

/-! ## C95 Escapes in quoted strings -/

/-- The key of a document of one definition. -/
theorem pathText_segment {k : Bytes} (h : Segment k) : PathText k :=
  ⟨[k], by simp, by simpa using h, rfl⟩

theorem segment_dot {k : Bytes} (h : Segment k) : byte '.' ∉ k := by
  intro hm
  have := h.2 _ hm
  revert this
  decide

/-- Loading a document that defines a key by a quoted string with escapes: `get_value` of the key is the string
denoted. -/
theorem c95_escapes_partial (S : Std) (w : World) (k : Bytes) (q : Char) (items : List StrItem) (hk : Segment k)
    (hq : q = '"' ∨ q = '\'') (hne : items ≠ []) (hi : ItemsOk items) (hf : FirstOk items) :
    ∃ v N, (∀ n, N ≤ n → parseDocument S w n (k ++ byte '=' :: byte q :: itemsText items ++ [byte q, byte '\n']) =
        .ok (some v)) ∧ getValue v k = .ok (some (.str (denoted items))) := by
  obtain ⟨v, N, h1, h2⟩ := c88_get_value_partial S w [(k, .quoted q items)] [] (by simp)
    ⟨pathText_segment hk, by rw [Lit.Ok]; exact ⟨hq, hne, hi, hf⟩, fun h => h.elim, trivial⟩ trivial (by simp)
    (by simpa using segment_dot hk) (by simp [ClosedEntries, ClosedEntry, Lit.Closed])
  refine ⟨v, N, ?_, ?_⟩
  · simpa [noted, docText, Lit.text] using h1
  · have := h2 [k] (by simp) (by simpa using hk)
    simpa [joinDot, written, find, Lit.value] using this

/-- A backslash in a string that is followed neither by one of `" \ / b f n r t` nor by `u` and four hexadecimal
digits is a syntax error. -/
theorem c95_bad_escape (S : Std) (n : Nat) (k x : Bytes) (items : List StrItem) (hk : PathText k) (hi : ItemsOk items)
    (hf : FirstOk items) (hx : BadEscape x) :
    ∃ e, parse (hocon S (n + 2)) (k ++ byte '=' :: byte '"' :: itemsText items ++ byte '\\' :: x) = .err e := by
  have := bad_doc (S := S) (n := n + 1) (x := byte '"' :: (itemsText items ++ byte '\\' :: x)) hk
    ⟨_, fail_cv_quoted (fail_badEscape hi hf hx)⟩
  simpa using this

/-- A bracket or a single quote in a string with escapes, which stands for itself in JSON, is a syntax error. -/
theorem c95_bracket_violated (S : Std) (n : Nat) (k x : Bytes) (b : UInt8) (items : List StrItem) (hk : PathText k)
    (hi : ItemsOk items) (hf : FirstOk items) (hb : b = byte '[' ∨ b = byte ']' ∨ b = byte '\'') :
    ∃ e, parse (hocon S (n + 2)) (k ++ byte '=' :: byte '"' :: itemsText items ++ b :: x) = .err e := by
  have hb' : b ∈ bytes "[]'" := by rcases hb with rfl | rfl | rfl <;> decide
  have := bad_doc (S := S) (n := n + 1) (x := byte '"' :: (itemsText items ++ b :: x)) hk
    ⟨_, fail_cv_quoted (fail_bracketItems hi hf hb')⟩
  simpa using this

/-- `a\té😀`. -/
def sampleItems : List StrItem :=
  [.raw (byte 'a'), .esc 't', .raw 195, .raw 169, .uni (bytes "d83d"), .uni (bytes "DE00")]

theorem sampleItems_ok : ItemsOk sampleItems ∧ FirstOk sampleItems := by
  refine ⟨⟨?_, ?_, ?_⟩, ?_⟩
  · have h : ∀ b ∈ bytes "d83d", Json.Spec.Hex strKind b := by unfold Json.Spec.Hex; decide
    have h' : ∀ b ∈ bytes "DE00", Json.Spec.Hex strKind b := by unfold Json.Spec.Hex; decide
    intro it hit
    simp only [sampleItems, List.mem_cons, List.not_mem_nil, or_false] at hit
    rcases hit with rfl | rfl | rfl | rfl | rfl | rfl
    · exact ⟨by decide, by decide, .inl rfl⟩
    · show 't' ∈ _; decide
    · exact ⟨by decide, by decide, .inl rfl⟩
    · exact ⟨by decide, by decide, .inl rfl⟩
    · exact ⟨rfl, h⟩
    · exact ⟨rfl, h'⟩
  · intro b hb
    simp only [sampleItems, List.mem_cons, List.not_mem_nil, or_false, Item.raw.injEq, reduceCtorEq, false_or] at hb
    rcases hb with rfl | rfl | rfl <;> decide
  · show Json.Spec.Utf8 strKind ([byte 'a', 9, 195, 169].map .inl ++ [.inr 0xd83d, .inr 0xde00])
    rw [Json.utf8_inl (by simp) (by intro b r h; cases h), Json.utf8_inr, Json.utf8_inr]
    exact ⟨by decide, Json.utf8_nil⟩
  · intro b hb
    cases hb
    decide

/-- The UTF-8 form of a text. -/
def utf8 (s : String) : Bytes := s.toUTF8.data.toList

theorem sampleItems_text : itemsText sampleItems = utf8 "a\\té\\ud83d\\uDE00" ∧ denoted sampleItems = utf8 "a\té😀" := by
  constructor <;> decide +kernel

example (w : World) : ∃ v N, (∀ n, N ≤ n → parseDocument decDigits w n
    (bytes "k" ++ byte '=' :: byte '"' :: utf8 "a\\té\\ud83d\\uDE00" ++ [byte '"', byte '\n']) = .ok (some v)) ∧
      getValue v (bytes "k") = .ok (some (.str (utf8 "a\té😀"))) := by
  have := c95_escapes_partial decDigits w (bytes "k") '"' sampleItems ⟨by decide, by decide⟩ (.inl rfl) (by decide)
    sampleItems_ok.1 sampleItems_ok.2
  rwa [sampleItems_text.1, sampleItems_text.2] at this

example : ∃ e, parse (hocon decDigits 2)
    (bytes "k" ++ byte '=' :: byte '"' :: utf8 "a\\té\\ud83d\\uDE00" ++ byte '\\' :: bytes "x\"") = .err e := by
  have := c95_bad_escape decDigits 0 (bytes "k") (bytes "x\"") sampleItems (pathText_segment ⟨by decide, by decide⟩)
    sampleItems_ok.1 sampleItems_ok.2 (.inl (by intro b r h; cases h; decide))
  rwa [sampleItems_text.1] at this

example : ∃ e, parse (hocon decDigits 2)
    (bytes "k" ++ byte '=' :: byte '"' :: utf8 "a\\té\\ud83d\\uDE00" ++ byte ']' :: bytes "x\"") = .err e := by
  have := c95_bracket_violated decDigits 0 (bytes "k") (bytes "x\"") (byte ']') sampleItems (pathText_segment ⟨by decide, by decide⟩)
    sampleItems_ok.1 sampleItems_ok.2 (.inr (.inl rfl))
  rwa [sampleItems_text.1] at this

end OniComb.Hocon
