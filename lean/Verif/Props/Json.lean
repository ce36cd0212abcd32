import Verif.Lemmas.JsonStrict

/-!
# Properties of the JSON examples

`f64` stands for `f64::from_str` and is arbitrary; `n` is how often `lazy(value)` is unrolled, more than the
length of the text being as good as any number (`c73_*`).
-/

namespace OniComb.Json
open OniComb.Json.Spec

variable {F : Type}

/-! ### Helpers -/

theorem jsonOf_ok {I : Type} [DecidableEq I] [Element I] {K : Kind I F} [Lawful K] {n : Nat} {t : List I} {v : Value I F}
    (hn : t.length < n) : parse (jsonOf K (arrayByte K) n) t = .ok v ↔ Doc K true v t := by
  unfold jsonOf
  rw [parse_end_ok, eats_doc hn]

theorem jsonOf_strict {I : Type} [DecidableEq I] [Element I] {K : Kind I F} [Lawful K] {n : Nat} {t : List I}
    {v : Value I F} (hn : t.length < n) (h : Doc K false v t) : parse (jsonOf K (arrayByte K) n) t = .ok v := by
  unfold jsonOf
  rw [parse_end_ok]
  exact eats_strict hn h

theorem jsonOf_total {I : Type} [DecidableEq I] [Element I] {K : Kind I F} [Lawful K] {n : Nat} {t : List I}
    (hn : t.length < n) : (∃ v, parse (jsonOf K (arrayByte K) n) t = .ok v) ∨
      ∃ e, parse (jsonOf K (arrayByte K) n) t = .err e := by
  have hr : Ret (jsonOf K (arrayByte K) n) t := by
    unfold jsonOf
    exact ret_skipRight.2 ⟨ret_doc hn, fun _ _ _ _ _ => ret_end⟩
  have hg : Good (jsonOf K (arrayByte K) n) := by unfold jsonOf; infer_instance
  have hs := Good.safe (jsonOf K (arrayByte K) n) ⟨t, 0⟩ (Nat.zero_le _)
  unfold parse
  unfold Ret at hr
  cases h : jsonOf K (arrayByte K) n ⟨t, 0⟩ with
  | success v m => exact .inl ⟨v, rfl⟩
  | failure e c => exact .inr ⟨e, rfl⟩
  | panic => rw [h] at hs; exact absurd hs (by simp [SafeAt])
  | diverge => exact absurd h hr

theorem jsonOf_depth {I : Type} [DecidableEq I] [Element I] {K : Kind I F} [Lawful K] {n m : Nat} {t : List I}
    (hn : t.length < n) (hm : t.length < m) :
    parse (jsonOf K (arrayByte K) n) t = parse (jsonOf K (arrayByte K) m) t := by
  have hF : Monotone (valueOf K (arrayByte K)) := by
    intro p q h
    unfold valueOf arrayByte object member
    infer_instance
  have key : ∀ n m, n ≤ m → t.length < n →
      parse (jsonOf K (arrayByte K) n) t = parse (jsonOf K (arrayByte K) m) t := by
    intro n m hnm hn
    have := below_fixN hF hnm
    have hb : Below (jsonOf K (arrayByte K) n) (jsonOf K (arrayByte K) m) := by unfold jsonOf; infer_instance
    have hr : Ret (jsonOf K (arrayByte K) n) t := by
      unfold jsonOf
      exact ret_skipRight.2 ⟨ret_doc hn, fun _ _ _ _ _ => ret_end⟩
    unfold parse
    rw [hb.eq hr]
  rcases Nat.le_total n m with h | h
  · exact key n m h hn
  · exact (key m n h hm).symm

theorem doc_of_text {I : Type} [DecidableEq I] [Element I] {K : Kind I F} {lax : Bool} {t : List I} {v : Value I F}
    (h : Text K lax v t) : Doc K lax v t := ⟨[], t, [], by simp, ws_nil, h, ws_nil⟩

theorem doc_print {I : Type} [DecidableEq I] [Element I] {K : Kind I F} [Prints K] {num : F → List I} {v : Value I F}
    (h : Proper K num v) : Doc K false v (print K num v) :=
  doc_of_text (print_text h)

/-! ### C62: printed values are read back -/

/-- Printing a value without white space and parsing the text gives the value, `json_char.rs`. -/
theorem c62_roundtrip_char (f64 : List Char → Option F) (num : F → List Char) (v : Value Char F)
    (h : Proper (charKind f64) num v) (n : Nat) (hn : (print (charKind f64) num v).length < n) :
    parse (jsonChar f64 n) (print (charKind f64) num v) = .ok v := by
  unfold jsonChar
  rw [arrayChar_eq]
  exact jsonOf_strict hn (doc_print h)

/-- The same for `json_byte.rs`. -/
theorem c62_roundtrip_byte (f64 : List UInt8 → Option F) (num : F → List UInt8) (v : Value UInt8 F)
    (h : Proper (byteKind f64) num v) (n : Nat) (hn : (print (byteKind f64) num v).length < n) :
    parse (jsonByte f64 n) (print (byteKind f64) num v) = .ok v :=
  jsonOf_strict hn (doc_print h)

/-- The number formatter of the examples. -/
def numEx : Unit → List Char := fun _ => ['-', '1', '0', '.', '5', 'e', '+', '3']

/-- A value with all constructors, escapes and a character outside ASCII. -/
def valueEx : Value Char Unit :=
  .obj [(['k', '"'], .arr [.num (), .null, .arr [], .str ['é', '\n', '\\', Char.ofNat 0x1F600]]),
    ([], .obj [(['a'], .bool true), (['b'], .bool false)])]

theorem numText_ex {f64 : List Char → Option Unit} : NumText (charKind f64) (numEx ()) :=
  ⟨['-'], ['1', '0'], ['.', '5'], ['e', '+', '3'], rfl, .inr rfl,
    .pos (char_digit.2 (by decide)) (by simp [charKind]) (by simp [char_digit]),
    .some ⟨by simp, by simp [char_digit]⟩, .some (.inl rfl) .plus ⟨by simp, by simp [char_digit]⟩⟩

example : Proper (charKind fun _ => some ()) numEx valueEx := by
  unfold valueEx
  refine .obj (by decide) (fun _ _ => rfl) ?_
  simp only [List.map_cons, List.map_nil, List.mem_cons, List.not_mem_nil, or_false, forall_eq_or_imp, forall_eq]
  refine ⟨.arr ?_, .obj (by decide) (fun _ _ => rfl) ?_⟩
  · simp only [List.mem_cons, List.not_mem_nil, or_false, forall_eq_or_imp, forall_eq]
    exact ⟨.num numText_ex rfl, .null, .arr (by simp), .str rfl⟩
  · simp only [List.map_cons, List.map_nil, List.mem_cons, List.not_mem_nil, or_false, forall_eq_or_imp, forall_eq]
    exact ⟨.bool true, .bool false⟩

example : print (charKind fun _ => some ()) numEx valueEx =
    "{\"k\\\"\":[-10.5e+3,null,[],\"é\\u000a\\\\😀\"],\"\":{\"a\":true,\"b\":false}}".toList := by decide

/-- A value for the byte examples: a two-byte character, a control character and a nested array. -/
theorem proper_byte_ex : Proper (byteKind fun _ => some ()) (fun _ => [Uri.byte '7'])
    (.arr [.str [0xC3, 0xA9, 10], .num ()]) := by
  refine .arr ?_
  simp only [List.mem_cons, List.not_mem_nil, or_false, forall_eq_or_imp, forall_eq]
  refine ⟨.str (by decide), .num ⟨[], [Uri.byte '7'], [], [], rfl, .inl rfl, ?_, .none, .none⟩ rfl⟩
  exact .pos (byte_digit.2 (by decide)) (by show Uri.byte '7' ≠ Uri.byte '0'; decide) (by simp)

example : parse (jsonByte (fun _ => some ()) 20) (Uri.bytes "[\"" ++ [0xC3, 0xA9] ++ Uri.bytes "\\u000a\",7]") =
    .ok (.arr [.str [0xC3, 0xA9, 10], .num ()]) :=
  c62_roundtrip_byte _ _ _ proper_byte_ex 20 (by decide)

/-! ### C72: the language -/

/-- Every text of the grammar of RFC 8259 is accepted and gives the value it denotes, `json_char.rs`. -/
theorem c72_rfc_accepted_char (f64 : List Char → Option F) (n : Nat) (t : List Char) (hn : t.length < n)
    (v : Value Char F) (h : Doc (charKind f64) false v t) : parse (jsonChar f64 n) t = .ok v := by
  unfold jsonChar
  rw [arrayChar_eq]
  exact jsonOf_strict hn h

/-- The same for `json_byte.rs`. -/
theorem c72_rfc_accepted_byte (f64 : List UInt8 → Option F) (n : Nat) (t : List UInt8) (hn : t.length < n)
    (v : Value UInt8 F) (h : Doc (byteKind f64) false v t) : parse (jsonByte f64 n) t = .ok v :=
  jsonOf_strict hn h

/-- A text that the RFC allows in only one way: white space, an array, an empty object. -/
theorem doc_ex : Doc (charKind fun _ => some ()) false (.arr [.num (), .obj []]) " [ 0 ,\n{ }] ".toList := by
  refine ⟨[' '], "[ 0 ,\n{ }]".toList, [' '], by decide, by simp [Ws, charKind], ?_, by simp [Ws, charKind]⟩
  have h0 : Text (charKind fun _ => some ()) false (.num ()) ['0'] :=
    .num ⟨[], ['0'], [], [], rfl, .inl rfl, .zero, .none, .none⟩ rfl
  have h1 : Text (charKind fun _ => some ()) false (.obj []) ['{', ' ', '}'] := .objEmpty (w := [' ']) (by simp [Ws, charKind])
  have h2 := Elems.one (lax := false) (a := ['\n']) (b := []) (by simp [Ws, charKind]) h1 ws_nil
  have h3 := Elems.cons (lax := false) (a := [' ']) (b := [' ']) (by simp [Ws, charKind]) h0 (by simp [Ws, charKind]) h2
  exact .arr h3

example : parse (jsonChar (fun _ => some ()) 20) " [ 0 ,\n{ }] ".toList = .ok (.arr [.num (), .obj []]) :=
  c72_rfc_accepted_char _ _ _ (by decide) _ doc_ex

/-- What is accepted, exactly: the grammar of RFC 8259 with two liberties (`lax`), a comma after the last
element of a non-empty array or object and control characters in strings.  Full claim: only texts of the RFC
are accepted; that is false (`c72_only_rfc_violated`). -/
theorem c72_language_char_partial (f64 : List Char → Option F) (n : Nat) (t : List Char) (hn : t.length < n)
    (v : Value Char F) : parse (jsonChar f64 n) t = .ok v ↔ Doc (charKind f64) true v t := by
  unfold jsonChar
  rw [arrayChar_eq]
  exact jsonOf_ok hn

/-- The same for `json_byte.rs`; there the strings must also be UTF-8. -/
theorem c72_language_byte_partial (f64 : List UInt8 → Option F) (n : Nat) (t : List UInt8) (hn : t.length < n)
    (v : Value UInt8 F) : parse (jsonByte f64 n) t = .ok v ↔ Doc (byteKind f64) true v t :=
  jsonOf_ok hn

/-- Texts outside the RFC are accepted: `[0,]` and a string with a line break in it. -/
theorem c72_only_rfc_violated :
    (parse (jsonChar (fun _ => some ()) 10) ['[', '0', ',', ']'] = .ok (.arr [.num ()]) ∧
      ¬ ∃ v, Doc (charKind fun _ => some ()) false v ['[', '0', ',', ']']) ∧
    (parse (jsonChar (fun _ => some ()) 10) ['"', '\n', '"'] = .ok (.str ['\n']) ∧
      ¬ ∃ v, Doc (charKind fun _ => some ()) false v ['"', '\n', '"']) := by
  have hws : ∀ c : Char, c ∉ " \t\r\n".toList → c.toNat < 128 → ¬ WsB (charKind fun _ => some ()) c :=
    fun c h h' => noHead_cons.1 (lit_noWs (K := charKind fun _ => some ()) (r := []) h h')
  refine ⟨⟨?_, ?_⟩, ?_, ?_⟩
  · rw [c72_language_char_partial _ _ _ (by decide)]
    refine doc_of_text ?_
    have h0 : Text (charKind fun _ => some ()) true (.num ()) ['0'] :=
      .num ⟨[], ['0'], [], [], rfl, .inl rfl, .zero, .none, .none⟩ rfl
    exact .arr (Elems.trailing (a := []) (b := []) (c := []) rfl ws_nil h0 ws_nil ws_nil)
  · rintro ⟨v, h⟩
    have h := doc_text (x := '[') (y := ']') (m := ['[', '0', ',']) h ⟨_, rfl⟩ rfl (hws _ (by decide) (by decide))
      (hws _ (by decide) (by decide))
    generalize e : ['[', '0', ',', ']'] = t at h
    cases h with
    | null => exact absurd e (by decide)
    | true_ => exact absurd e (by decide)
    | false_ => exact absurd e (by decide)
    | num h _ =>
      obtain ⟨s, i, f, e', rfl, hs, hi, -, -⟩ := h
      rcases hs with rfl | rfl
      · cases hi with
        | zero => injection e with e; exact absurd e (by decide)
        | pos h1 _ _ => injection e with e; subst e; exact absurd (char_digit.1 h1) (by decide)
      · injection e with e; exact absurd e (by decide)
    | str h => obtain ⟨_, -, -, -, rfl⟩ := h; injection e with e; exact absurd e (by decide)
    | arrEmpty h =>
      injection e with _ e
      have e : ['0', ','] ++ [']'] = _ := e
      obtain ⟨rfl, -⟩ := List.append_inj' e rfl
      exact absurd (h '0' (by simp)) (by simp [charKind])
    | arr h =>
      injection e with _ e
      have e : ['0', ','] ++ [']'] = _ := e
      obtain ⟨rfl, -⟩ := List.append_inj' e rfl
      exact no_trailing (r := ['0']) h
    | objEmpty h => injection e with e; exact absurd e (by decide)
    | obj h => injection e with e; exact absurd e (by decide)
  · rw [c72_language_char_partial _ _ _ (by decide)]
    refine doc_of_text (.str ⟨[.raw '\n'], ?_, fun _ run _ _ _ _ _ => rfl, rfl, rfl⟩)
    intro it hit
    rw [List.mem_singleton] at hit
    subst hit
    exact ⟨by simp [charKind], by simp [charKind], .inl rfl⟩
  · rintro ⟨v, h⟩
    have h := doc_text (x := '"') (y := '"') (m := ['"', '\n']) h ⟨_, rfl⟩ rfl (hws _ (by decide) (by decide))
      (hws _ (by decide) (by decide))
    generalize e : ['"', '\n', '"'] = t at h
    cases h with
    | null => exact absurd e (by decide)
    | true_ => exact absurd e (by decide)
    | false_ => exact absurd e (by decide)
    | num h _ =>
      obtain ⟨s, i, f, e', rfl, hs, hi, -, -⟩ := h
      rcases hs with rfl | rfl
      · cases hi with
        | zero => injection e with e; exact absurd e (by decide)
        | pos h1 _ _ => injection e with e; subst e; exact absurd (char_digit.1 h1) (by decide)
      · injection e with e; exact absurd e (by decide)
    | str h =>
      obtain ⟨items, hok, -, -, rfl⟩ := h
      injection e with _ e
      have e : ['\n'] ++ ['"'] = _ := e
      obtain ⟨e, -⟩ := List.append_inj' e rfl
      rcases items with _ | ⟨it, items⟩
      · cases e
      · have hit := hok it (by simp)
        cases it with
        | raw b =>
          injection e with e
          subst e
          rcases hit.2.2 with h | h
          · cases h
          · exact absurd h (by decide)
        | esc c => injection e with e; exact absurd e (by decide)
        | uni ds => injection e with e; exact absurd e (by decide)
    | arrEmpty h => injection e with e; exact absurd e (by decide)
    | arr h => injection e with e; exact absurd e (by decide)
    | objEmpty h => injection e with e; exact absurd e (by decide)
    | obj h => injection e with e; exact absurd e (by decide)

theorem ws_app {I : Type} [DecidableEq I] [Element I] {K : Kind I F} {a b : List I} (ha : Ws K a) (hb : Ws K b) : Ws K (a ++ b) :=
  fun x hx => (List.mem_append.1 hx).elim (ha x) (hb x)

/-- An array of the RFC with a comma and white space behind the last element, as the parser takes it. -/
theorem elems_trailing {I : Type} [DecidableEq I] [Element I] {K : Kind I F} {c : List I} (hc : Ws K c)
    (lift : ∀ {v : Value I F} {t : List I}, Text K false v t → Doc K true v t) : ∀ {vs : List (Value I F)} {t : List I},
    Elems K false vs t → Elems K true vs (t ++ K.lit ',' :: c) := by
  intro vs
  induction vs with
  | nil => intro t h; cases h
  | cons v vs ih =>
    intro t h
    cases h with
    | one ha ht hb =>
      obtain ⟨a', u, b', rfl, ha', hu, hb'⟩ := lift ht
      have := Elems.trailing (lax := true) rfl (ws_app ha ha') hu (ws_app hb' hb) hc
      simp only [List.append_assoc] at this ⊢
      exact this
    | trailing hl => cases hl
    | cons ha ht hb hr =>
      obtain ⟨a', u, b', rfl, ha', hu, hb'⟩ := lift ht
      have := Elems.cons (lax := true) (ws_app ha ha') hu (ws_app hb' hb) (ih hr)
      simp only [List.append_assoc, List.cons_append] at this ⊢
      exact this

/-- Every array of the RFC that has elements is accepted with a comma and white space behind the last of them, and means the same. -/
theorem c72_trailing_accepted_violated (f64 : List Char → Option F) {vs : List (Value Char F)} {t c : List Char}
    (h : Elems (charKind f64) false vs t) (hc : Ws (charKind f64) c) (n : Nat) (hn : t.length + c.length + 3 < n) :
    parse (jsonChar f64 n) ('[' :: ((t ++ ',' :: c) ++ [']'])) = .ok (.arr vs) := by
  rw [c72_language_char_partial _ _ _ (by simp only [List.length_cons, List.length_append, List.length_nil]; omega)]
  refine doc_of_text (.arr (elems_trailing hc (fun {v t} h => ?_) h))
  exact (c72_language_char_partial f64 (t.length + 1) t (by omega) v).1
    (c72_rfc_accepted_char f64 (t.length + 1) t (by omega) v (doc_of_text h))

/-- The same for `json_byte.rs`. -/
theorem c72_trailing_accepted_byte_violated (f64 : List UInt8 → Option F) {vs : List (Value UInt8 F)} {t c : List UInt8}
    (h : Elems (byteKind f64) false vs t) (hc : Ws (byteKind f64) c) (n : Nat) (hn : t.length + c.length + 3 < n) :
    parse (jsonByte f64 n) (Uri.byte '[' :: ((t ++ Uri.byte ',' :: c) ++ [Uri.byte ']'])) = .ok (.arr vs) := by
  rw [c72_language_byte_partial _ _ _ (by simp only [List.length_cons, List.length_append, List.length_nil]; omega)]
  refine doc_of_text (.arr (elems_trailing hc (fun {v t} h => ?_) h))
  exact (c72_language_byte_partial f64 (t.length + 1) t (by omega) v).1
    (c72_rfc_accepted_byte f64 (t.length + 1) t (by omega) v (doc_of_text h))

/-- None of them is a text of the RFC (no white space behind the comma). -/
theorem c72_trailing_outside_violated (f64 : List Char → Option F) (t : List Char) :
    ¬ ∃ v, Doc (charKind f64) false v ('[' :: ((t ++ [',']) ++ [']'])) := by
  rintro ⟨v, h⟩
  have hws : ∀ c : Char, c ∉ " \t\r\n".toList → c.toNat < 128 → ¬ WsB (charKind f64) c :=
    fun c h h' => noHead_cons.1 (lit_noWs (K := charKind f64) (r := []) h h')
  have h := doc_text (x := '[') (y := ']') (m := '[' :: (t ++ [','])) h ⟨_, rfl⟩ rfl (hws _ (by decide) (by decide))
    (hws _ (by decide) (by decide))
  generalize e : '[' :: ((t ++ [',']) ++ [']']) = u at h
  cases h with
  | null => injection e with e; exact absurd (show '[' = 'n' from e) (by decide)
  | true_ => injection e with e; exact absurd (show '[' = 't' from e) (by decide)
  | false_ => injection e with e; exact absurd (show '[' = 'f' from e) (by decide)
  | num h _ =>
    obtain ⟨s, i, f, e', rfl, hs, hi, -, -⟩ := h
    rcases hs with rfl | rfl
    · cases hi with
      | zero => injection e with e; exact absurd (show '[' = '0' from e) (by decide)
      | pos h1 _ _ => injection e with e; subst e; exact absurd (char_digit.1 h1) (by decide)
    · injection e with e; exact absurd (show '[' = '-' from e) (by decide)
  | str h => obtain ⟨_, -, -, -, rfl⟩ := h; injection e with e; exact absurd (show '[' = '"' from e) (by decide)
  | arrEmpty h =>
    injection e with _ e
    obtain ⟨rfl, -⟩ := List.append_inj' e rfl
    exact absurd (h ',' (by simp)) (by simp [charKind])
  | arr h =>
    injection e with _ e
    obtain ⟨rfl, -⟩ := List.append_inj' e rfl
    exact no_trailing (r := t) h
  | objEmpty h => injection e with e; exact absurd (show '[' = '{' from e) (by decide)
  | obj h => injection e with e; exact absurd (show '[' = '{' from e) (by decide)

/-- `[ 0 , ]` by the general theorem. -/
example : parse (jsonChar (fun _ => some ()) 20) ('[' :: (([' ', '0', ' '] ++ [',', ' ']) ++ [']'])) = .ok (.arr [.num ()]) := by
  have h0 : Text (charKind fun _ => some ()) false (.num ()) ['0'] :=
    .num ⟨[], ['0'], [], [], rfl, .inl rfl, .zero, .none, .none⟩ rfl
  exact c72_trailing_accepted_violated _ (Elems.one (a := [' ']) (b := [' ']) (by simp [Ws, charKind]) h0 (by simp [Ws, charKind]))
    (c := [' ']) (by simp [Ws, charKind]) 20 (by decide)

/-- `[0,]` in bytes. -/
example : parse (jsonByte (fun _ => some ()) 20) (Uri.byte '[' :: (([Uri.byte '0'] ++ [Uri.byte ',']) ++ [Uri.byte ']'])) = .ok (.arr [.num ()]) := by
  have h0 : Text (byteKind fun _ => some ()) false (.num ()) [Uri.byte '0'] :=
    .num ⟨[], [Uri.byte '0'], [], [], rfl, .inl rfl, .zero, .none, .none⟩ rfl
  exact c72_trailing_accepted_byte_violated _ (Elems.one (a := []) (b := []) ws_nil h0 ws_nil) (c := []) ws_nil 20 (by decide)

/-! ### C73: totality -/

/-- Every input is answered with a value or an error, `json_char.rs`. -/
theorem c73_total_char (f64 : List Char → Option F) (n : Nat) (t : List Char) (hn : t.length < n) :
    (∃ v, parse (jsonChar f64 n) t = .ok v) ∨ ∃ e, parse (jsonChar f64 n) t = .err e := by
  unfold jsonChar
  rw [arrayChar_eq]
  exact jsonOf_total hn

/-- The same for `json_byte.rs`. -/
theorem c73_total_byte (f64 : List UInt8 → Option F) (n : Nat) (t : List UInt8) (hn : t.length < n) :
    (∃ v, parse (jsonByte f64 n) t = .ok v) ∨ ∃ e, parse (jsonByte f64 n) t = .err e :=
  jsonOf_total hn

/-- How deep the grammar is unrolled does not matter, `json_char.rs`. -/
theorem c73_depth_char (f64 : List Char → Option F) (n m : Nat) (t : List Char) (hn : t.length < n)
    (hm : t.length < m) : parse (jsonChar f64 n) t = parse (jsonChar f64 m) t := by
  unfold jsonChar
  rw [arrayChar_eq]
  exact jsonOf_depth hn hm

/-- The same for `json_byte.rs`. -/
theorem c73_depth_byte (f64 : List UInt8 → Option F) (n m : Nat) (t : List UInt8) (hn : t.length < n)
    (hm : t.length < m) : parse (jsonByte f64 n) t = parse (jsonByte f64 m) t :=
  jsonOf_depth hn hm

example : ("[[[[".toList).length < 5 := by decide

/-! ### C74: duplicate keys -/

/-- The members written in an object, one after the other (`Members`), give a map without duplicate keys in
which every key has the value written last for it, `json_char.rs`. -/
theorem c74_last_wins_char (f64 : List Char → Option F) (n : Nat) (t : List Char) (hn : t.length + 2 < n)
    (ms : List (List Char × Value Char F)) (h : Members (charKind f64) false ms t) :
    ∃ m, parse (jsonChar f64 n) ('{' :: (t ++ ['}'])) = .ok (.obj m) ∧ (m.map Prod.fst).Nodup ∧
      ∀ k, m.lookup k = ms.reverse.lookup k :=
  ⟨lastOf ms, c72_rfc_accepted_char f64 n _ (by simpa using hn) _
    (doc_of_text (.obj h)), lastOf_nodupKeys ms, lastOf_lookup ms⟩

/-- The same for `json_byte.rs`. -/
theorem c74_last_wins_byte (f64 : List UInt8 → Option F) (n : Nat) (t : List UInt8) (hn : t.length + 2 < n)
    (ms : List (List UInt8 × Value UInt8 F)) (h : Members (byteKind f64) false ms t) :
    ∃ m, parse (jsonByte f64 n) (Uri.byte '{' :: (t ++ [Uri.byte '}'])) = .ok (.obj m) ∧ (m.map Prod.fst).Nodup ∧
      ∀ k, m.lookup k = ms.reverse.lookup k :=
  ⟨lastOf ms, c72_rfc_accepted_byte f64 n _ (by simpa using hn) _
    (doc_of_text (.obj h)), lastOf_nodupKeys ms, lastOf_lookup ms⟩

example : Members (charKind fun _ => some ()) false [(['a'], .null), (['a'], .bool true)]
    "\"a\":null,\"a\":true".toList := by
  have hs : StrText (charKind fun _ => some ()) false ['a'] ['"', 'a', '"'] :=
    strText_quote (K := charKind fun _ => some ()) rfl
  exact .cons (a := []) (b := []) (c := []) (d := []) ws_nil hs ws_nil ws_nil .null ws_nil
    (.one (a := []) (b := []) (c := []) (d := []) ws_nil hs ws_nil ws_nil .true_ ws_nil)

end OniComb.Json
