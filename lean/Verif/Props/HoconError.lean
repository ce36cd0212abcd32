import Verif.Lemmas.HoconError
import Verif.Props.HoconLayout

/-!
# C101: syntax errors in configuration documents

A text that is not a document should make `parse_from_string` return an error.  The parser does; but the message of
the `ConfigError` shows the piece of the text the error points to (`pe.input_string()`, model.rs:86), and the slice
for it panics unless the unread rest is longer than what was read.
-/

namespace OniComb.Hocon
open OniComb OniComb.Hocon.Spec OniComb.Hocon.Spec.Layout
open OniComb.Uri (Bytes byte bytes)

/-- Without `end`, the parser reads the first `off` bytes of the text. -/
def ReadsUpTo (S : Std) (n : Nat) (t : Bytes) (off : Nat) : Prop :=
  ∃ vs, skipLeft spaceOrComment (config (grammar S n).1 (grammar S n).2) ⟨t, 0⟩ = .success vs off

/-- Exactly when a syntax error is reported: the parser stopped at some place `off`, and what is left is longer than
`off + 1` bytes.  Otherwise `parse_from_string` panics.  Full claim: it is always reported; that is false
(`c101_brace_violated`). -/
theorem c101_reported_partial (S : Std) (w : World) (n : Nat) (t : Bytes) (e : PError UInt8)
    (h : parse (hocon S n) t = .err e) :
    ∃ off, off < t.length ∧ ReadsUpTo S n t off ∧
      parseDocument S w n t = if off + 2 ≤ t.length - off then .ok none else .panic := by
  obtain ⟨vs, off, h1, h2, rfl⟩ := end_err (firm_skipLeft firm_spaceOrComment (firm_config _ _)) h
  refine ⟨off, h2, ⟨vs, h1⟩, ?_⟩
  unfold parseDocument parseFromString
  rw [h]
  simp only [PError.inputExcerpt, List.length_drop]
  by_cases hl : off + 2 ≤ t.length - off
  · rw [if_pos (by omega), if_pos hl]
  · rw [if_neg (by omega), if_neg hl]

/-- A syntax error before anything could be read is reported, in a text of at least two bytes. -/
theorem c101_nothing_read_partial (S : Std) (w : World) (n : Nat) (t : Bytes) (e : PError UInt8)
    (h : parse (hocon S n) t = .err e) (h0 : ReadsUpTo S n t 0) (h2 : 2 ≤ t.length) : parseDocument S w n t = .ok none := by
  obtain ⟨off, -, ⟨vs, h1⟩, h3⟩ := c101_reported_partial S w n t e h
  obtain ⟨vs', h0⟩ := h0
  rw [h0] at h1
  cases h1
  rw [h3, if_pos (by omega)]

/-- Settings with a closing brace too many, and perhaps some more text behind it: `parse_from_string` panics. -/
theorem c101_brace_violated (S : Std) (w : World) (n : Nat) (g t y : Bytes) (es : Entries) (hg : Gap g) (hne : es ≠ [])
    (hm : Members S.parseDecimal false es t (byte '}' :: y)) (hy : Guarded y) (hl : y.length ≤ (g ++ t).length)
    (hn : (g ++ t ++ byte '}' :: y).length < n) : parseDocument S w n (g ++ t ++ byte '}' :: y) = .panic := by
  obtain ⟨N, hN⟩ := settings_stop hg hne hm (noHead_cons.2 (by decide))
    (fun n => ⟨.uncommitted, fail_run (by decide) (by decide) (by decide) hy⟩) (by simp)
  have h := hN (max N ((g ++ t ++ byte '}' :: y).length + 1)) (by omega)
  rw [← c89_depth S n _ _ hn (by omega)] at h
  unfold parseDocument parseFromString
  rw [h]
  simp only [PError.inputExcerpt, List.length_cons]
  rw [if_neg (by omega)]

theorem guarded_nil : Guarded [] := ⟨[], [], [], rfl, by simp, noHead_nil, gap_nil, noHead_nil, noHead_nil⟩

/-- `a=1\n}`. -/
example (w : World) : parseDocument decDigits w 10 (bytes "a=1\n}") = .panic := by
  have hm : Members decDigits.parseDecimal false [(bytes "a", .num ⟨1, 0⟩)] (bytes "a=1\n") (byte '}' :: []) :=
    Members.assign (g1 := []) (g2 := []) (t := bytes "1") (g := bytes "\n") (s := []) (t' := []) (b := byte '=')
      (.inl ⟨pathText_one ⟨by decide, by decide⟩, rfl⟩) gap_nil (.inl rfl) gap_nil gap_line (.inl rfl)
      (.num (.inl (.inr ⟨byte '1', [], rfl, by decide, by decide, by simp⟩)) (by decide +kernel)
        ⟨noHead_cons.2 (by unfold NumByte Digit; decide), noHead_cons.2 (by unfold UnitStart; decide)⟩) .nil
  exact c101_brace_violated decDigits w 10 [] _ [] _ gap_nil (by simp) hm guarded_nil (by decide) (by decide)

/-- The error of a result. -/
def errorOf {A : Type} : Res.Out UInt8 A → Option (PError UInt8)
  | .err e => some e
  | _ => none

/-- A text that nothing can be read of. -/
theorem bracket_err : parse (hocon decDigits 10) (bytes "a=]") = .err (.mismatch (bytes "a=]") 1 1) := by
  have h : errorOf (parse (hocon decDigits 10) (bytes "a=]")) = some (.mismatch (bytes "a=]") 1 1) := by decide +kernel
  cases h' : parse (hocon decDigits 10) (bytes "a=]") <;> rw [h'] at h <;> cases h
  rfl

/-- It is reported. -/
example (w : World) : parseDocument decDigits w 10 (bytes "a=]") = .ok none := by
  refine c101_nothing_read_partial decDigits w 10 _ _ bracket_err ?_ (by decide)
  obtain ⟨vs, off, h1, -, h2⟩ := end_err (firm_skipLeft firm_spaceOrComment (firm_config _ _)) bracket_err
  simp only [PError.mismatch.injEq, and_true] at h2
  obtain rfl : off = 0 := by omega
  exact ⟨vs, h1⟩

/-- A syntax error in an included file is never reported: loading the document panics. -/
theorem c101_included_violated (S : Std) (w : World) (n : Nat) (m p t : Bytes) (e : PError UInt8)
    (hm : m = bytes "file" ∨ m = bytes "url") (hp : PathText p) (hf : w.file (byte '"' :: p ++ [byte '"']) = some t) (h : parse (hocon S (t.length + 1)) t = .err e)
    (hn : t.length < n) :
    parseDocument S w (n + 1) (bytes "include " ++ m ++ bytes "(\"" ++ p ++ bytes "\")") = .panic := by
  unfold parseDocument parseFromString
  rw [hocon_include hm hp]
  simp only [resolveStage0, expand]
  have h' : parse (hocon S (n + 1)) t = .err e := by rw [c89_depth S (n + 1) (t.length + 1) t (by omega) (by omega)]; exact h
  have : (w.env S (n + 1)).load (byte '"' :: p ++ [byte '"']) = .panic := by
    unfold World.env
    simp only
    rw [loadFromFile]
    simp only [hf, Option.getD_some]
    unfold parseFromString
    rw [h']
    simp only
    split <;> rfl
  rw [this]
  rfl

example : ∃ w : World, parseDocument decDigits w 5 (bytes "include " ++ bytes "file" ++ bytes "(\"" ++ bytes "conf" ++ bytes "\")") = .panic ∧
    w.file (bytes "\"conf\"") = some (bytes "a=]") :=
  ⟨⟨fun _ => some (bytes "a=]"), fun _ => none⟩, c101_included_violated decDigits _ 4 (bytes "file") (bytes "conf") (bytes "a=]") _ (.inl rfl)
    (pathText_one ⟨by decide, by decide⟩) rfl
    ((c89_depth decDigits _ 10 _ (by decide) (by decide)).trans bracket_err) (by decide), rfl⟩

end OniComb.Hocon
