import Verif.Props.HoconLayout
import Verif.Lemmas.HoconEq

/-!
# C94: comments between the sign and the value of a setting; C96: parts of a concatenation that are not strings
-/

namespace OniComb.Hocon
open OniComb OniComb.Hocon.Spec OniComb.Hocon.Spec.Layout
open OniComb.Uri (Bytes byte bytes)

/-- Blanks, a comment, the end of the line. -/
private theorem eats_line {b c r : Bytes} (hb : Blanks b) (hcl : CommentLine c)
    (hr : NoHead (fun b => b = byte '#' ∨ b = byte '/') r) : Eats spaceOrComment (b ++ (c ++ bytes "\n")) () r := by
  obtain ⟨v, hv⟩ := eats_commentOne (rest := r) hcl (.inr rfl)
  have hm := Many.cons (t' := []) (rest := r) (by simpa using hv) (.nil _)
  rw [List.append_nil] at hm
  refine eats_comment hb (by simp) hm ?_ hr
  obtain ⟨b, y, rfl, hb⟩ := commentLine_head hcl
  exact noHead_cons.2 hb

private theorem noHead_blanks {b r : Bytes} {P : UInt8 → Prop} (hb : Blanks b) (hne : b ≠ []) (hP : ∀ x, Blank x → ¬ P x) :
    NoHead P (b ++ r) := by
  cases b with
  | nil => exact absurd rfl hne
  | cons y b => exact noHead_cons.2 (hP y (hb y (by simp)))

/-- Two lines of comments, the second indented, and an indented value: its text is taken for a string. -/
private theorem eats_indented (S : Std) {n : Nat} {b1 c1 b2 c2 b3 u x : Bytes} (hb1 : Blanks b1) (h1 : CommentLine c1)
    (hb2 : Blanks b2) (hne2 : b2 ≠ []) (h2 : CommentLine c2) (hb3 : ∀ b ∈ b3, b ∈ bytes " \t") (hne3 : b3 ≠ [])
    (hne : u ≠ []) (hs : ∀ b ∈ u, ¬ Special b) (hu : Uri.validUtf8 (b3 ++ u) = true)
    (hh : NoHead (fun b => b ∈ bytes " \t#/-" ∨ Digit b) u) (hx : Quiet x) :
    Eats (softGrammar S (n + 1)).1 ((b1 ++ (c1 ++ bytes "\n")) ++ ((b2 ++ (c2 ++ bytes "\n")) ++ ((b3 ++ u) ++ bytes "\n")))
      (.str (b3 ++ u)) x := by
  have hB3 : Blanks b3 := fun b hb => (by decide : ∀ b ∈ bytes " \t", b ∈ bytes " \t\r\n") b (hb3 b hb)
  have hcom : ∀ x, Blank x → ¬ (x = byte '#' ∨ x = byte '/') := by unfold Blank; decide
  obtain ⟨y, u', rfl⟩ := List.exists_cons_of_ne_nil hne
  have hy : ¬ (y ∈ bytes " \t#/-" ∨ Digit y) := hh y u' rfl
  have hys : ¬ Special y := hs y (by simp)
  have hyq : y ∉ bytes " \t\r\n#/" := by
    intro hm
    rcases (by decide : ∀ b ∈ bytes " \t\r\n#/", b ∈ bytes " \t#/-" ∨ Special b) y hm with h | h
    · exact hy (.inl h)
    · exact hys h
  have hquiet : ∀ r, Quiet (y :: u' ++ r) := fun r => noHead_cons.2 hyq
  have two : ∀ {A : Type} {p : Parser UInt8 A} [Good p] {c : Committed} {z : Bytes}, Fail p ((b3 ++ (y :: u')) ++ z) c →
      Fail (spaced p) ((b2 ++ (c2 ++ bytes "\n")) ++ ((b3 ++ (y :: u')) ++ z)) c := by
    intro A p _ c z h
    unfold spaced surround
    exact Eats.skipLeft_fail (eats_line hb2 h2 (by rw [List.append_assoc]; exact noHead_blanks hB3 hne3 hcom)) h.skipRight
  have hel : ∀ (ch : Char) z, byte ch ∉ bytes " \t\r\n" → Fail (spaced (elm (byte ch)))
      ((b2 ++ (c2 ++ bytes "\n")) ++ ((b3 ++ (y :: u')) ++ z)) .uncommitted := by
    intro ch z hch
    refine two (fail_elm.2 ⟨rfl, fun r' h => ?_⟩)
    rw [List.append_assoc] at h
    exact noHead_blanks hB3 hne3 (P := fun b => b = byte ch) (by rintro x hx rfl; exact hch hx) _ _ h rfl
  have hquote : ∀ ch z, ch = '"' ∨ ch = '\'' → Fail (quote ch) ((b3 ++ (y :: u')) ++ z) .uncommitted := by
    intro ch z hch
    unfold quote
    rw [List.append_assoc]
    refine fail_spaced hB3 (hquiet z) (fail_elm.2 ⟨rfl, ?_⟩)
    rintro r' ⟨⟩
    rcases hch with rfl | rfl <;> exact hys (by decide)
  have hnum : ∀ z, Fail (softNumber S) ((b3 ++ (y :: u')) ++ z) .uncommitted := by
    intro z
    rw [List.append_assoc]
    refine fail_softNumber_blanks hB3 (hquiet z) (noHead_cons.2 ?_)
    rintro (h | rfl)
    · exact hy (.inr h)
    · exact hy (.inl (by decide))
  have hall : ∀ b ∈ b3 ++ (y :: u'), ¬ Special b := by
    intro b hb
    rcases List.mem_append.1 hb with hb | hb
    · exact (by decide : ∀ b ∈ bytes " \t", ¬ Special b) b (hb3 b hb)
    · exact hs b hb
  have hst : StrStop (bytes "\n" ++ x) := noHead_cons.2 (by decide)
  have hstr : Eats string (b3 ++ (y :: u')) (b3 ++ (y :: u')) (bytes "\n" ++ x) := by
    unfold string
    refine eats_map.2 ⟨[b3 ++ (y :: u')], .or_right (.or (fail_attempt_of (.surround (hquote _ _ (.inl rfl))))
      (fail_attempt_of (.surround (hquote _ _ (.inr rfl))))) (eats_stringSurround (by simp) hu hall hst), by simp⟩
  have hsimple : Eats (softSimple S) ((b2 ++ (c2 ++ bytes "\n")) ++ ((b3 ++ (y :: u')) ++ bytes "\n")) (.str (b3 ++ (y :: u'))) x := by
    unfold softSimple spaced
    refine Eats.surround (eats_line hb2 h2 ?_) (.or_right (.or (.or (fail_consts ?_) (fail_attempt_of (c := .uncommitted) (.map _ ?_)))
      (fail_attempt_of (.map _ (hnum _)))) ?_) (eats_gap gap_line hx)
    · rw [List.append_assoc]; exact noHead_blanks hB3 hne3 hcom
    · rw [List.append_assoc]; exact noHead_blanks hB3 hne3 (by unfold Blank; decide)
    · unfold softDuration; exact .andThen (hnum _)
    · unfold stringConfigValue; exact hstr.map _
  show Eats (softConfigValue S (lazy fun _ => (softGrammar S n).1) (lazy fun _ => (softGrammar S n).2)) _ _ _
  unfold softConfigValue spaced
  have key := Eats.surround (l := spaceOrComment) (q := spaceOrComment)
    (p := or (or (or (or (attempt (arrayConfigValue (lazy fun _ => (softGrammar S n).1)))
      (attempt (objectConfigValue (lazy fun _ => (softGrammar S n).2)))) (attempt referenceConfigValue)) (attempt (softSimple S)))
      enumerationConfigValue) (t3 := []) (rest := x)
    (eats_line (r := ((b2 ++ (c2 ++ bytes "\n")) ++ ((b3 ++ (y :: u')) ++ bytes "\n")) ++ ([] ++ x)) hb1 h1 (by
      rw [List.append_assoc, List.append_assoc]; exact noHead_blanks hb2 hne2 hcom))
    (.or_left (.or_right (.or (.or (fail_attempt_of (c := .uncommitted) ?_) (fail_attempt_of (c := .uncommitted) ?_)) ?_)
      hsimple.attempt)) (eats_gap gap_nil hx)
  · simpa using key
  · unfold arrayConfigValue array
    have := hel '[' (bytes "\n" ++ x) (by decide)
    exact .map _ (.surround (by simpa using this))
  · unfold objectConfigValue object
    have := hel '{' (bytes "\n" ++ x) (by decide)
    exact .map _ (.map _ (.surround (by simpa using this)))
  · have hw : ∃ c, Fail (seq (bytes "${")) ((b3 ++ (y :: u')) ++ (bytes "\n" ++ x)) c := by
      refine fail_word (by decide) ?_
      rw [List.append_assoc]
      refine noHead_blanks hB3 hne3 ?_
      rintro x hx h
      cases h
      exact absurd hx (by decide)
    obtain ⟨c, hw⟩ := hw
    refine fail_attempt_of (c := c) ?_
    unfold referenceConfigValue reference
    have := two hw
    exact .map _ (.surround (by simpa using this))

/-- A comment behind the sign of a setting, an indented line of comment, and then the value on an indented line: whatever
the value is – `null`, an object, a reference – the setting holds the text of that line, with the blanks in front of it,
as a string.  (The value must not begin with a digit or a minus sign, nor contain brackets, quotes or backslashes.) -/
theorem c94_value_violated (S : Std) (n : Nat) (k b1 c1 b2 c2 b3 u t : Bytes) (es : Entries) (hk : PathText k)
    (hb1 : Blanks b1) (h1 : CommentLine c1) (hb2 : Blanks b2) (hne2 : b2 ≠ []) (h2 : CommentLine c2)
    (hb3 : ∀ b ∈ b3, b ∈ bytes " \t") (hne3 : b3 ≠ []) (hne : u ≠ []) (hs : ∀ b ∈ u, ¬ Special b)
    (hu : Uri.validUtf8 (b3 ++ u) = true) (hh : NoHead (fun b => b ∈ bytes " \t#/-" ∨ Digit b) u)
    (h : Members S.parseDecimal false es t []) (hd : (keys ((k, Value.null) :: es)).Nodup)
    (hn : (k ++ (byte '=' :: ((b1 ++ (c1 ++ bytes "\n")) ++ ((b2 ++ (c2 ++ bytes "\n")) ++ ((b3 ++ u) ++ bytes "\n")))) ++ t).length < n) :
    parse (hocon S n) (k ++ (byte '=' :: ((b1 ++ (c1 ++ bytes "\n")) ++ ((b2 ++ (c2 ++ bytes "\n")) ++ ((b3 ++ u) ++ bytes "\n")))) ++ t) =
      .ok [.obj ((k, .str (b3 ++ u)) :: es)] := by
  refine lift_ok ?_ n hn
  obtain ⟨N, hN⟩ := members_reads h noHead_nil (by simp)
  have hq : Quiet t := by simpa using members_quiet h noHead_nil
  refine ⟨N + 2, fun n hn => ?_⟩
  obtain ⟨m, rfl⟩ : ∃ m, n = m + 2 := ⟨n - 2, by omega⟩
  have he : Eats (softGrammar S (m + 2)).2
      (k ++ (byte '=' :: ((b1 ++ (c1 ++ bytes "\n")) ++ ((b2 ++ (c2 ++ bytes "\n")) ++ ((b3 ++ u) ++ bytes "\n")))))
      (k, .str (b3 ++ u)) t :=
    eats_property hk (eats_indented S (n := m) hb1 h1 hb2 hne2 h2 hb3 hne3 hne hs hu hh hq)
  revert he
  generalize hT : byte '=' :: ((b1 ++ (c1 ++ bytes "\n")) ++ ((b2 ++ (c2 ++ bytes "\n")) ++ ((b3 ++ u) ++ bytes "\n"))) = T
  intro he
  have hm : Many (softGrammar S (m + 2)).2 (k ++ T ++ t) _ [] := Many.cons (by simpa using he) (hN (m + 2) (by omega)).many
  refine doc_config (g := []) (t := k ++ T ++ t) gap_nil ?_ ?_
  · rw [List.append_assoc]; exact pathText_quiet hk
  · have h2 := (eats_many1 (p := (softGrammar S (m + 2)).2)).2 ⟨by simp, hm, .uncommitted, fail_property_end⟩
    have := h2.map (fun ps => [Value.obj (configFold ps)])
    rw [configFold_distinct (by simpa [keys] using hd)] at this
    unfold config
    exact .or_left (.or_left this.attempt)

example : parse (hocon decDigits 40) (bytes "a= # one\n # two\n null\nb=true\n") =
    .ok [.obj [(bytes "a", .str (bytes " null")), (bytes "b", .bool true)]] := by
  have := c94_value_violated decDigits 40 (bytes "a") (bytes " ") (bytes "# one") (bytes " ") (bytes "# two") (bytes " ")
    (bytes "null") (bytes "b=true\n") [(bytes "b", .bool true)] (pathText_one ⟨by decide, by decide⟩) (by decide)
    ⟨⟨_, .inl rfl⟩, by decide⟩ (by decide) (by decide) ⟨⟨_, .inl rfl⟩, by decide⟩ (by decide) (by decide) (by decide) (by decide)
    (by decide +kernel) (noHead_cons.2 (by decide))
    (.assign (kt := bytes "b") (g1 := []) (b := byte '=') (g2 := []) (t := bytes "true") (g := bytes "\n") (s := []) (t' := [])
      (.inl ⟨pathText_one ⟨by decide, by decide⟩, rfl⟩) gap_nil (.inl rfl) gap_nil gap_line (.inl rfl)
      .true_ .nil)
    (by decide) (by decide)
  exact this

/-! ## C96 Concatenation, continued -/

private theorem mapOut_append {A B : Type} (f : A → Out B) : ∀ l m : List A,
    mapOut f (l ++ m) = (mapOut f l).bind fun bs => (mapOut f m).bind fun cs => .ok (bs ++ cs)
  | [], m => by cases h : mapOut f m <;> simp [mapOut, Out.bind, h]
  | a :: l, m => by
    rw [List.cons_append, mapOut, mapOut, mapOut_append f l m]
    cases f a <;> cases mapOut f l <;> cases mapOut f m <;> rfl

/-- A part of a concatenation that stands for a number, a boolean, a list, … is left out of the text without any
report: the concatenation is replaced by the same as without that part. -/
theorem c96_dropped_violated (env : Env) (doc : Value) (prev : Option Value) (vs ws : List Value) (v x : Value)
    (h : Resolved env.var doc v x) (hx : ∀ s, x ≠ .str s) :
    ∃ N, ∀ n, N ≤ n → resolve env doc n (.enumeration prev (vs ++ v :: ws)) = resolve env doc n (.enumeration prev (vs ++ ws)) := by
  obtain ⟨M, h2⟩ := resolve_complete (env := env) h
  refine ⟨M + 1, fun n hn => ?_⟩
  obtain ⟨m, rfl⟩ : ∃ m, n = m + 1 := ⟨n - 1, by omega⟩
  have hv : resolve env doc m v = .ok x := resolve_le (show M ≤ m by omega) h2
  rw [resolve_enum, resolve_enum, mapOut_append, mapOut_append, mapOut, hv]
  generalize mapOut (resolve env doc m) vs = a
  generalize mapOut (resolve env doc m) ws = b
  cases a <;> cases b <;> try rfl
  simp only [Out.bind, List.flatMap_append, List.flatMap_cons]
  cases x with
  | str s => exact absurd rfl (hx s)
  | _ => rfl

/-- A document in which this happens: the first comment ends the line of the sign, the second is taken for a part. -/
example : parse (hocon decDigits 2) (bytes "x=1\na=#\n #\n\n${x}\n") =
    .ok [.obj [(bytes "x", .num ⟨1, 0⟩), (bytes "a", .enumeration none [.str (bytes " #"), .ref none (bytes "x") false])]] :=
  okIs_eq (by decide +kernel)

example (env : Env) : ∃ N, ∀ n, N ≤ n →
    resolve env (.obj [(bytes "x", .num ⟨1, 0⟩)]) n (.enumeration none [.str (bytes "a"), .ref none (bytes "x") false]) =
      .ok (.str (bytes "a")) := by
  obtain ⟨N, hN⟩ := c96_dropped_violated env (.obj [(bytes "x", .num ⟨1, 0⟩)]) none [.str (bytes "a")] []
    (.ref none (bytes "x") false) (.num ⟨1, 0⟩)
    (.found (x := .num ⟨1, 0⟩) ⟨[bytes "x"], by simp, by simp [Segment]; decide, rfl, rfl⟩ (.constant trivial)) (by simp)
  obtain ⟨M, hM⟩ := c96_concat_partial env (.obj [(bytes "x", .num ⟨1, 0⟩)]) none [.str (bytes "a")] (bytes "a")
    (.cons (s := bytes "a") (r := []) (.constant trivial) .nil) (by decide)
  exact ⟨max N M, fun n hn => (hN n (by omega)).trans (hM n (by omega))⟩

end OniComb.Hocon
