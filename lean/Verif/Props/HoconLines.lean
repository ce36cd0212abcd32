import Verif.Props.HoconLayout
import Verif.Lemmas.HoconMeaning
import Verif.Lemmas.HoconEq

/-!
# C87: objects on lines of their own
-/

namespace OniComb.Hocon
open OniComb OniComb.Hocon.Spec
open OniComb.Uri (Bytes byte bytes)

/-- A text without brackets, quotes, backslashes and line ends, then a line end, then an object or an array: the whole
text is taken for the key. -/
private theorem line_key (S : Std) {b : UInt8} {k g t g' : Bytes} {v : Value} (hbq : b ∉ bytes " \t\r\n#/") (hbs : ¬ SegByte b)
    (hk : ∀ x ∈ b :: k, ¬ Special x) (hu : Uri.validUtf8 (b :: k) = true) (hs : StrStop (g ++ (t ++ g'))) (hg : Gap g)
    (hv : IsObj v ∨ IsArr v) (h : Layout.Val S.parseDecimal v t g' []) (hg' : Gap g') :
    ∃ N, ∀ n, N ≤ n → parse (hocon S n) (b :: k ++ (g ++ (t ++ g'))) = .ok [.obj [(b :: k, v)]] := by
  obtain ⟨N, hN⟩ := val_reads h hg' noHead_nil
  refine ⟨N + 1, fun n hn => ?_⟩
  obtain ⟨m, rfl⟩ : ∃ m, n = m + 1 := ⟨n - 1, by omega⟩
  have hr := hN m (by omega)
  have hq : Quiet (t ++ g') := val_quiet h
  have hkey : Eats key ((b :: k) ++ g) (b :: k) (t ++ g') := by
    unfold key
    refine eats_spaced' hg (noHead_cons.2 hbq) hq (.or_right (fail_path (noHead_cons.2 hbs))
      (eats_unquoted (noHead_cons.2 hbq) (by simp) hu hk hs))
  have he : Eats (softGrammar S (m + 1)).2 (b :: k ++ (g ++ (t ++ g'))) (b :: k, v) [] := by
    show Eats (property (lazy fun _ => (softGrammar S m).1) (lazy fun _ => (softGrammar S m).2)) _ _ _
    unfold property
    rw [← List.append_assoc]
    refine Eats.andThen (by simpa using hkey) ?_
    rcases hv with hv | hv
    · obtain ⟨y, rfl⟩ := val_obj h hv
      exact .or_left (.or_right (fail_kv (noHead_cons.2 (by decide))) (Eats.attempt (hr.obj hv)))
    · obtain ⟨y, rfl⟩ := val_arr h hv
      exact .or_right (.or (fail_kv (noHead_cons.2 (by decide)))
        (fail_attempt_of (fail_object (noHead_cons.2 (by decide)) (noHead_cons.2 (by decide))))) (hr.arr hv)
  refine doc_config (g := []) gap_nil (noHead_cons.2 hbq) ?_
  have h2 : Eats (many1 (softGrammar S (m + 1)).2) (b :: k ++ (g ++ (t ++ g'))) [(b :: k, v)] [] :=
    eats_many1.2 ⟨by simp, by simpa using Many.cons (by simpa using he) (.nil []), .uncommitted, fail_property_end⟩
  have := h2.map (fun ps => [Value.obj (configFold ps)])
  unfold config
  exact .or_left (.or_left this.attempt)

/-- An object on a line of its own, followed by an object or an array on another line, is not the first of two values:
the text of the object becomes the key of the second value, in one object.  Comments and empty lines may be between
the two. -/
theorem c87_lines_violated (S : Std) (n : Nat) (body g t g' : Bytes) (e : UInt8) (v : Value)
    (hb : ∀ x ∈ body, ¬ Special x) (hu : Uri.validUtf8 (byte '{' :: body ++ [byte '}']) = true)
    (he : e = byte '\n' ∨ e = byte '\r') (hg : Gap (e :: g)) (hv : IsObj v ∨ IsArr v)
    (h : Layout.Val S.parseDecimal v t g' []) (hg' : Gap g') (hn : (byte '{' :: body ++ [byte '}'] ++ (e :: g ++ (t ++ g'))).length < n) :
    parse (hocon S n) (byte '{' :: body ++ [byte '}'] ++ (e :: g ++ (t ++ g'))) =
      .ok [.obj [(byte '{' :: body ++ [byte '}'], v)]] := by
  refine lift_ok (line_key S (b := byte '{') (k := body ++ [byte '}']) (g := e :: g) (by decide) (by decide) ?_ hu ?_ hg hv h hg') n hn
  · intro x hx
    simp only [List.mem_cons, List.mem_append, List.not_mem_nil, or_false] at hx
    rcases hx with rfl | hx | rfl
    · decide
    · exact hb x hx
    · decide
  · rcases he with rfl | rfl <;> exact noHead_cons.2 (by decide)

/-- `{a=1}`, `{b=null}` on two lines: one object with the key `{a=1}`. -/
example : parse (hocon decDigits 15) (bytes "{a=1}\n{b=null}") = .ok [.obj [(bytes "{a=1}", .obj [(bytes "b", .null)])]] :=
  c87_lines_violated decDigits 15 (bytes "a=1") [] (bytes "{b=null}") [] _ _ (by decide) (Uri.validUtf8_ascii _ (by decide)) (.inl rfl)
    gap_line (.inl trivial)
    (.obj (ps := [(bytes "b", .null)]) (g1 := []) gap_nil (.assign (kt := bytes "b") (g1 := []) (b := byte '=') (g2 := [])
      (t := bytes "null") (g := []) (s := []) (t' := []) (.inl ⟨pathText_one ⟨by decide, by decide⟩, rfl⟩) gap_nil (.inl rfl) gap_nil
      gap_nil (.inl rfl) .null .nil) (gathered_self (by decide))
      ⟨[], [], [], rfl, by simp, noHead_nil, gap_nil, noHead_nil, noHead_nil⟩) gap_nil (by decide)

/-- On one line they are two values. -/
example : parse (hocon decDigits 3) (bytes "{a=1}{b=2}") = .ok [.obj [(bytes "a", int 1)], .obj [(bytes "b", int 2)]] :=
  okIs_eq (by decide +kernel)

end OniComb.Hocon
