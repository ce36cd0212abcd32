import Verif.Props.HoconLayout
import Verif.Lemmas.HoconDisplay

/-!
# Properties of the `hocon` crate: printed configurations

C99: what `to_string` of a configuration gives can be parsed again and is the same configuration.
-/

namespace OniComb.Hocon
open OniComb OniComb.Hocon.Spec OniComb.Hocon.Spec.Layout
open OniComb.Uri (Bytes byte bytes)

/-- The text of a configuration without arrays is read as the newest definitions of that configuration, in
whatever order the map gives its entries. -/
theorem c99_roundtrip_partial (S : Std) (fmt : Decimal → Bytes) (es : Entries) (h : Printable S.parseDecimal fmt (.obj es))
    (n : Nat) (hn : (display fmt (.obj es)).length < n) :
    parse (hocon S n) (display fmt (.obj es)) = .ok [.obj (currentEntries es)] :=
  c97_layout_partial S n _ _ (display_doc h) hn

/-- The same for an array of values without arrays. -/
theorem c99_array_partial (S : Std) (fmt : Decimal → Bytes) (vs : List Value) (h : ∀ v ∈ vs, Printable S.parseDecimal fmt v)
    (n : Nat) (hn : (display fmt (.arr vs)).length < n) :
    parse (hocon S n) (display fmt (.arr vs)) = .ok [.arr (currentList vs)] :=
  c97_layout_partial S n _ _ (display_array_doc h) hn

/-- Loaded again, `get_value` gives the newest definition at every path. -/
theorem c99_get_value_partial (S : Std) (w : World) (fmt : Decimal → Bytes) (es : Entries)
    (h : Printable S.parseDecimal fmt (.obj es)) (hd : ∀ e ∈ es, byte '.' ∉ e.1)
    (hm : ∀ p, ¬ Mentions (.obj (currentEntries es)) p) :
    ∃ v N, (∀ n, N ≤ n → parseDocument S w n (display fmt (.obj es)) = .ok (some v)) ∧
      ∀ ss, ss ≠ [] → (∀ s ∈ ss, Segment s) → getValue v (joinDot ss) = .ok (descend ss (.obj (currentEntries es))) := by
  refine c97_get_value_partial S w _ _ (display_doc h) (fun e he => ?_) hm
  have : e.1 ∈ keys (currentEntries es) := List.mem_map.2 ⟨e, he, rfl⟩
  rw [current_key] at this
  obtain ⟨e', he', hk⟩ := List.mem_map.1 this
  rw [← hk]
  exact hd e' he'

/-- A configuration whose map gives an array first is printed as a text that is a syntax error. -/
theorem c99_array_violated (S : Std) (fmt : Decimal → Bytes) (k : Bytes) (vs : List Value) (es : Entries) (hk : PathText k)
    (hv : ∀ v ∈ vs, Printable S.parseDecimal fmt v) (hke : ∀ e ∈ es, PathText e.1)
    (hes : ∀ e ∈ es, Printable S.parseDecimal fmt e.2) (n : Nat)
    (hn : (display fmt (.obj ((k, .arr vs) :: es))).length < n) :
    ∃ e, parse (hocon S n) (display fmt (.obj ((k, .arr vs) :: es))) = .err e :=
  lift_err (brace_array_err hk hv hke hes) n hn

/-- Strings are printed without escapes: if their content looks like escapes, those are replaced when the text is
read again. -/
theorem c99_escape_violated (S : Std) (fmt : Decimal → Bytes) (k : Bytes) (items : List StrItem) (hk : PathText k)
    (hne : items ≠ []) (h : ItemsOk items) (hf : FirstOk items) (n : Nat)
    (hn : (display fmt (.obj [(k, .str (itemsText items))])).length < n) :
    parse (hocon S n) (display fmt (.obj [(k, .str (itemsText items))])) = .ok [.obj [(k, .str (denoted items))]] :=
  c97_layout_partial S n _ _ (display_string_doc hk rfl hne h hf) hn

/-- How the number of the examples is printed. -/
def fmtOne : Decimal → Bytes := fun _ => bytes "1"

/-- `{ a = { b = "x", c = 1 s }, d = ${?a.b} }`, where `c` has an older definition. -/
theorem printable_ex : Printable decDigits.parseDecimal fmtOne
    (.obj [(bytes "a", .obj [(bytes "b", .str (bytes "x")), (bytes "c", .link .null (.dur ⟨1, 0⟩ .seconds))]),
      (bytes "d", .ref none (bytes "a.b") true)]) := by
  have key : ∀ k ∈ [bytes "a", bytes "b", bytes "c", bytes "d"], PathText k := by
    intro k hk
    refine pathText_one ?_
    simp only [List.mem_cons, List.not_mem_nil, or_false] at hk
    rcases hk with rfl | rfl | rfl | rfl <;> exact ⟨by decide, by decide⟩
  have hd : DecimalText (fmtOne ⟨1, 0⟩) := .inl (.inr ⟨_, [], rfl, by decide, by decide, by simp⟩)
  refine .obj (by decide) ?_ ?_
  · simpa using ⟨key (bytes "a") (by simp), key (bytes "d") (by simp)⟩
  · have h1 : Printable decDigits.parseDecimal fmtOne
        (.obj [(bytes "b", .str (bytes "x")), (bytes "c", .link .null (.dur ⟨1, 0⟩ .seconds))]) := by
      refine .obj (by decide) ?_ ?_
      · simpa using ⟨key (bytes "b") (by simp), key (bytes "c") (by simp)⟩
      · have h2 : Printable decDigits.parseDecimal fmtOne (.str (bytes "x")) :=
          .str ⟨by decide, by decide, by decide, by rintro x ⟨⟩; decide⟩
        have h3 : Printable decDigits.parseDecimal fmtOne (.link .null (.dur ⟨1, 0⟩ .seconds)) := .link (.dur hd (by decide))
        simpa using ⟨h2, h3⟩
    have h4 : Printable decDigits.parseDecimal fmtOne (.ref none (bytes "a.b") true) :=
      .ref ⟨[bytes "a", bytes "b"], by simp, by simp [Segment]; decide, rfl⟩
    simpa using ⟨h1, h4⟩

example : parse (hocon decDigits 50) (bytes "{ a = { b = \"x\", c = 1 s }, d = ${?a.b} }") =
    .ok [.obj [(bytes "a", .obj [(bytes "b", .str (bytes "x")), (bytes "c", .dur ⟨1, 0⟩ .seconds)]),
      (bytes "d", .ref none (bytes "a.b") true)]] :=
  c99_roundtrip_partial decDigits fmtOne _ printable_ex 50 (by decide)

/-- `{ a = [1] }` is a syntax error. -/
example : ∃ e, parse (hocon decDigits 20) (bytes "{ a = [1] }") = .err e :=
  c99_array_violated decDigits fmtOne (bytes "a") [.num ⟨1, 0⟩] [] (pathText_one ⟨by decide, by decide⟩)
    (by
      have : Printable decDigits.parseDecimal fmtOne (.num ⟨1, 0⟩) :=
        .num (.inl (.inr ⟨_, [], rfl, by decide, by decide, by simp⟩)) (by decide)
      simpa using this) (by simp) (by simp) 20 (by decide)

/-- The backslash and the `n` of a string become a line end. -/
example : parse (hocon decDigits 30) (display fmtOne (.obj [(bytes "a", .str (bytes "\\n"))])) =
    .ok [.obj [(bytes "a", .str (bytes "\n"))]] := by
  have h := c99_escape_violated decDigits fmtOne (bytes "a") [.esc 'n'] (pathText_one ⟨by decide, by decide⟩) (by simp)
    ⟨by simp [Json.Spec.Item.Ok], by simp, by
      intro pre run post he hr hpre hpost
      have hall : ∀ x ∈ pre ++ (run.map Sum.inl ++ post), x = (.inl (byte '\n') : UInt8 ⊕ Nat) := by
        rw [← he]
        intro x hx
        rw [List.map_cons, List.map_nil, List.mem_singleton] at hx
        rw [hx]; rfl
      have hrun : ∀ b ∈ run, b = byte '\n' := fun b hb => by
        have := hall (.inl b) (by simp [hb])
        exact Sum.inl.inj this
      show Uri.fromUtf8 run = some run
      unfold Uri.fromUtf8
      rw [if_pos (Uri.validUtf8_ascii _ fun b hb => by rw [hrun b hb]; decide)]⟩
    (by rintro b ⟨⟩) 30 (by decide)
  exact h

end OniComb.Hocon
