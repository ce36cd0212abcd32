import Verif.Lemmas.JsonValue

/-! # Helper lemmas: every JSON text is read, and reading always ends -/

set_option linter.unusedSectionVars false

namespace OniComb.Json
open OniComb.Json.Spec

section
variable {I F : Type} [DecidableEq I] [Element I] {K : Kind I F} [L : Lawful K]
variable {t r rest : List I} {p : Parser I (Value I F)} [Good p]

/-- The text begins with none of these characters. -/
def NoLit (K : Kind I F) (cs : List Char) (r : List I) : Prop := ∀ c ∈ cs, ∀ r', r ≠ K.lit c :: r'

theorem noLit_cons {cs : List Char} {c : Char} (h : c ∉ cs) (hc : c.toNat < 128) (hcs : ∀ x ∈ cs, x.toNat < 128) :
    NoLit K cs (K.lit c :: r) := by
  intro x hx r' e
  injection e with e
  have := L.inj _ _ hc (hcs x hx) e
  exact h (this ▸ hx)

theorem fail_seq_lits {c : Char} {s : String} {cs : List Char} (hs : s.toList = c :: cs)
    (h : ∀ r', r ≠ K.lit c :: r') : Fail (seq (K.lits s)) r .uncommitted := by
  unfold Kind.lits
  rw [hs]
  exact fail_seq_soft h

theorem fail_null (h : NoLit K ['n'] r) : Fail (map (seq (K.lits "null")) fun _ => (Value.null : Value I F)) r .uncommitted :=
  fail_map.2 (fail_seq_lits (cs := ['u', 'l', 'l']) (by decide) (h 'n' (by simp)))

theorem fail_true (h : NoLit K ['t'] r) : Fail (map (seq (K.lits "true")) fun _ => (Value.bool true : Value I F)) r .uncommitted :=
  fail_map.2 (fail_seq_lits (cs := ['r', 'u', 'e']) (by decide) (h 't' (by simp)))

theorem fail_false (h : NoLit K ['f'] r) : Fail (map (seq (K.lits "false")) fun _ => (Value.bool false : Value I F)) r .uncommitted :=
  fail_map.2 (fail_seq_lits (cs := ['a', 'l', 's', 'e']) (by decide) (h 'f' (by simp)))

theorem noLit_mono {cs cs' : List Char} (h : NoLit K cs r) (hs : ∀ c ∈ cs', c ∈ cs) : NoLit K cs' r :=
  fun c hc => h c (hs c hc)

/-- The first characters of numbers. -/
abbrev numHead : List Char := '-' :: "0123456789".toList

theorem noLit_num (h : NoLit K numHead r) : NoHead (fun b => Digit K b ∨ b = K.lit '-') r := by
  rintro b r' rfl (hb | rfl)
  · obtain ⟨c, hc, rfl⟩ := List.mem_map.1 hb
    exact h c (List.mem_cons_of_mem _ hc) r' rfl
  · exact h '-' List.mem_cons_self r' rfl

theorem fail_object (h : NoLit K ['{'] r) : Fail (object K p) r .uncommitted := by
  unfold object
  exact fail_map.2 (fail_listOf (h '{' (by simp)))

/-- A text that begins with none of the first characters of values is no value. -/
theorem fail_valueOf (h : NoLit K ('n' :: 't' :: 'f' :: '"' :: '[' :: '{' :: numHead) r) :
    Fail (valueOf K (arrayByte K) p) r .uncommitted := by
  unfold valueOf
  refine Fail.skipRight (Fail.or (Fail.or (Fail.or (Fail.or (Fail.or (Fail.or ?_ ?_) ?_) ?_) ?_) ?_) ?_)
  · exact fail_null (noLit_mono h (by simp))
  · exact fail_true (noLit_mono h (by simp))
  · exact fail_false (noLit_mono h (by simp))
  · exact fail_map.2 (fail_number (noLit_num (noLit_mono h (by intro c hc; simp only [List.mem_cons] at hc ⊢; tauto))))
  · exact fail_map.2 (fail_string (h '"' (by simp)))
  · exact fail_map.2 (fail_listOf (h '[' (by simp)))
  · exact fail_map.2 (fail_object (noLit_mono h (by simp)))

theorem close_noLit {c : Char} (hc : c ∈ [']', '}']) :
    NoLit K ('n' :: 't' :: 'f' :: '"' :: '[' :: '{' :: numHead) (K.lit c :: r) := by
  simp only [List.mem_cons, List.not_mem_nil, or_false] at hc
  rcases hc with rfl | rfl <;> exact noLit_cons (by decide) (by decide) (by decide)

theorem fail_value_close {n : Nat} {c : Char} (hc : c ∈ [']', '}']) :
    Fail (fixN (valueOf K (arrayByte K)) (n + 1)) (K.lit c :: r) .uncommitted :=
  fail_valueOf (p := lazy fun _ => fixN (valueOf K (arrayByte K)) n) (close_noLit hc)

theorem fail_member_close {c : Char} (hc : c ∈ [']', '}']) : Fail (member K p) (K.lit c :: r) .uncommitted := by
  unfold member
  exact Fail.andThen (Fail.skipRight (Fail.skipRight (Fail.skipRight (fail_string (close_noLit hc '"' (by simp))))))

/-! ### One value -/

theorem strText_lax {lax : Bool} {s : List I} (h : StrText K lax s t) : StrText K true s t := by
  obtain ⟨items, h1, h2, h3, h4⟩ := h
  refine ⟨items, fun it hit => ?_, h2, h3, h4⟩
  have := h1 it hit
  cases it with
  | raw b => exact ⟨this.1, this.2.1, .inl rfl⟩
  | esc c => exact this
  | uni ds => exact this

/-- The first character of a value. -/
theorem text_head {lax : Bool} {v : Value I F} (h : Text K lax v t) :
    ∃ c ∈ 'n' :: 't' :: 'f' :: '"' :: '[' :: '{' :: numHead, ∃ r, t = K.lit c :: r := by
  cases h with
  | null => exact ⟨'n', by simp, _, rfl⟩
  | true_ => exact ⟨'t', by simp, _, rfl⟩
  | false_ => exact ⟨'f', by simp, _, rfl⟩
  | num h _ =>
    obtain ⟨s, i, f, e, rfl, hs, hi, -, -⟩ := h
    rcases hs with rfl | rfl
    · cases hi with
      | zero => exact ⟨'0', by simp, _, rfl⟩
      | pos h1 _ _ =>
        obtain ⟨c, hc, rfl⟩ := List.mem_map.1 h1
        exact ⟨c, by simp only [List.mem_cons]; tauto, _, rfl⟩
    · exact ⟨'-', by simp, _, rfl⟩
  | str h => obtain ⟨items, -, -, -, rfl⟩ := h; exact ⟨'"', by simp, _, rfl⟩
  | arrEmpty => exact ⟨'[', by simp, _, rfl⟩
  | arr => exact ⟨'[', by simp, _, rfl⟩
  | objEmpty => exact ⟨'{', by simp, _, rfl⟩
  | obj => exact ⟨'{', by simp, _, rfl⟩

theorem text_noWs {lax : Bool} {v : Value I F} (h : Text K lax v t) : NoHead (WsB K) (t ++ rest) := by
  obtain ⟨c, hc, r, rfl⟩ := text_head h
  have h1 : ∀ c ∈ 'n' :: 't' :: 'f' :: '"' :: '[' :: '{' :: numHead, c ∉ " \t\r\n".toList ∧ c.toNat < 128 := by decide
  exact lit_noWs (h1 c hc).1 (h1 c hc).2

theorem str_noWs {lax : Bool} {s : List I} (h : StrText K lax s t) : NoHead (WsB K) (t ++ rest) := by
  obtain ⟨items, -, -, -, rfl⟩ := h
  exact lit_noWs

/-- After an item and white space no number goes on. -/
theorem follow_num {w : List I} (hw : Ws K w) (h : Follow K rest) : NoHead (NumCont K) (w ++ rest) := by
  have key : ∀ c : Char, c ∉ '.' :: 'e' :: 'E' :: "0123456789".toList → c.toNat < 128 → ¬ NumCont K (K.lit c) := by
    intro c hc hc' hn
    simp only [List.mem_cons] at hc
    rcases hn with h | h | h | h
    · exact hc (.inr (.inr (.inr ((digit_iff hc').1 h))))
    · exact hc (.inl ((lit_eq hc' (by decide)).1 h))
    · exact hc (.inr (.inl ((lit_eq hc' (by decide)).1 h)))
    · exact hc (.inr (.inr (.inl ((lit_eq hc' (by decide)).1 h))))
  cases w with
  | nil =>
    rcases h with rfl | ⟨c, hc, r', rfl⟩
    · exact noHead_nil
    · refine noHead_cons.2 ?_
      simp only [List.mem_cons, List.not_mem_nil, or_false] at hc
      rcases hc with rfl | rfl | rfl <;> exact key _ (by decide) (by decide)
  | cons b w =>
    refine noHead_cons.2 ?_
    rcases hw b (by simp) with rfl | rfl | rfl | rfl <;> exact key _ (by decide) (by decide)

theorem valueOf_eats {alt : Value I F} {w : List I} (hw : Ws K w) (hr : Follow K rest)
    (h : Eats (or (or (or (or (or (or (map (seq (K.lits "null")) fun _ => .null)
      (map (seq (K.lits "true")) fun _ => .bool true))
      (map (seq (K.lits "false")) fun _ => .bool false))
      (map (number K) .num))
      (map (string K) .str))
      (map (arrayByte K p) .arr))
      (map (object K p) .obj)) t alt (w ++ rest)) : Eats (valueOf K (arrayByte K) p) (t ++ w) alt rest := by
  unfold valueOf
  exact Eats.skipRight (w := ()) h (eats_space.2 ⟨hw, hr.noWs⟩)

theorem member_eats {lax : Bool} {k : List I} {v : Value I F} {s b c : List I} (hs : StrText K lax k s) (hb : Ws K b)
    (hc : Ws K c) (ht : NoHead (WsB K) (t ++ rest)) (h : Eats p t v rest) :
    Eats (member K p) (s ++ (b ++ K.lit ':' :: (c ++ t))) (k, v) rest := by
  unfold member
  have h1 : Eats (string K) s k (b ++ K.lit ':' :: (c ++ (t ++ rest))) := eats_string.2 (strText_lax hs)
  have h2 : Eats (space K) b () (K.lit ':' :: (c ++ (t ++ rest))) := eats_space.2 ⟨hb, lit_noWs⟩
  have h3 : Eats (elm (K.lit ':')) [K.lit ':'] (K.lit ':') (c ++ (t ++ rest)) := eats_elm.2 ⟨rfl, rfl⟩
  have h4 : Eats (space K) c () (t ++ rest) := eats_space.2 ⟨hc, ht⟩
  have h5 := Eats.skipRight h1 h2
  have h6 := Eats.skipRight (t1 := s ++ b) (t2 := [K.lit ':']) h5 h3
  have h7 := Eats.skipRight (t1 := s ++ b ++ [K.lit ':']) (t2 := c) h6 h4
  have h8 := Eats.andThen (t1 := s ++ b ++ [K.lit ':'] ++ c) (t2 := t) h7 h
  simpa using h8

/-- All values, arrays and objects of the grammar are read once the grammar is unrolled deep enough. -/
def ValueEats (K : Kind I F) (n : Nat) (v : Value I F) (t : List I) : Prop :=
  ∀ w, Ws K w → ∀ rest, Follow K rest → Eats (fixN (valueOf K (arrayByte K)) n) (t ++ w) v rest

theorem num_alt (h : NumText K t) : NoLit K ['n', 't', 'f'] (t ++ rest) := by
  have ⟨c, hc, r, e⟩ : ∃ c ∈ numHead, ∃ r, t = K.lit c :: r := by
    obtain ⟨s, i, f, e, rfl, hs, hi, -, -⟩ := h
    rcases hs with rfl | rfl
    · cases hi with
      | zero => exact ⟨'0', by simp, _, rfl⟩
      | pos h1 _ _ =>
        obtain ⟨c, hc, rfl⟩ := List.mem_map.1 h1
        exact ⟨c, List.mem_cons_of_mem _ hc, _, rfl⟩
    · exact ⟨'-', by simp, _, rfl⟩
  subst e
  have h1 : ∀ c ∈ numHead, c ∉ ['n', 't', 'f'] ∧ c.toNat < 128 := by decide
  exact noLit_cons (h1 c hc).1 (h1 c hc).2 (by decide)

theorem fail_words (h : NoLit K ['n', 't', 'f'] r) :
    Fail (or (or (map (seq (K.lits "null")) fun _ => (.null : Value I F)) (map (seq (K.lits "true")) fun _ => .bool true))
      (map (seq (K.lits "false")) fun _ => .bool false)) r .uncommitted :=
  Fail.or (Fail.or (fail_null (noLit_mono h (by simp))) (fail_true (noLit_mono h (by simp))))
    (fail_false (noLit_mono h (by simp)))

theorem arr_eats {w u : List I} {vs : List (Value I F)} (hw : Ws K w) (hr : Follow K rest)
    (h : Eats (listOf K '[' ']' p) (K.lit '[' :: u) vs (w ++ rest)) :
    Eats (valueOf K (arrayByte K) p) (K.lit '[' :: u ++ w) (.arr vs) rest := by
  refine valueOf_eats hw hr ?_
  refine Eats.or_left (Eats.or_right ?_ (eats_map.2 ⟨vs, h, rfl⟩))
  refine Fail.or (Fail.or (fail_words (noLit_cons (by decide) (by decide) (by decide))) (fail_map.2 (fail_number (noLit_num
    (noLit_cons (by decide) (by decide) (by decide)))))) (fail_map.2 (fail_string ?_))
  exact noLit_cons (K := K) (cs := ['"']) (by decide) (by decide) (by decide) '"' (by simp)

theorem obj_eats {w u : List I} {ms : List (List I × Value I F)} (hw : Ws K w) (hr : Follow K rest)
    (h : Eats (listOf K '{' '}' (member K p)) (K.lit '{' :: u) ms (w ++ rest)) :
    Eats (valueOf K (arrayByte K) p) (K.lit '{' :: u ++ w) (.obj (lastOf ms)) rest := by
  refine valueOf_eats hw hr ?_
  have hno := fun (cs : List Char) (h1 : '{' ∉ cs) (h2 : ∀ x ∈ cs, x.toNat < 128) =>
    noLit_cons (K := K) (r := u ++ (w ++ rest)) h1 (by decide) h2
  refine Eats.or_right ?_ (eats_map.2 ⟨lastOf ms, eats_map.2 ⟨ms, h, (collectMap_eq ms).symm⟩, rfl⟩)
  refine Fail.or (Fail.or (Fail.or (fail_words (hno _ (by decide) (by decide))) (fail_map.2 (fail_number (noLit_num
    (hno _ (by decide) (by decide)))))) (fail_map.2 (fail_string (hno ['"'] (by decide) (by decide) '"' (by simp)))))
    (fail_map.2 (fail_listOf (hno ['['] (by decide) (by decide) '[' (by simp))))

variable {lax : Bool}

mutual

theorem value_eats : ∀ {v : Value I F} {t : List I}, Text K lax v t → ∀ n, t.length < n → ValueEats K n v t
  | _, _, .null, n + 1, _, w, hw, rest, hr => by
    refine valueOf_eats (p := lazy fun _ => fixN (valueOf K (arrayByte K)) n) hw hr ?_
    exact Eats.or_left (Eats.or_left (Eats.or_left (Eats.or_left (Eats.or_left (Eats.or_left
      (eats_map.2 ⟨_, eats_seq.2 ⟨rfl, rfl⟩, rfl⟩))))))
  | _, _, .true_, n + 1, _, w, hw, rest, hr => by
    refine valueOf_eats (p := lazy fun _ => fixN (valueOf K (arrayByte K)) n) hw hr ?_
    refine Eats.or_left (Eats.or_left (Eats.or_left (Eats.or_left (Eats.or_left (Eats.or_right ?_
      (eats_map.2 ⟨_, eats_seq.2 ⟨rfl, rfl⟩, rfl⟩))))))
    exact fail_null (noLit_cons (c := 't') (by decide) (by decide) (by decide))
  | _, _, .false_, n + 1, _, w, hw, rest, hr => by
    refine valueOf_eats (p := lazy fun _ => fixN (valueOf K (arrayByte K)) n) hw hr ?_
    refine Eats.or_left (Eats.or_left (Eats.or_left (Eats.or_left (Eats.or_right (Fail.or ?_ ?_)
      (eats_map.2 ⟨_, eats_seq.2 ⟨rfl, rfl⟩, rfl⟩)))))
    · exact fail_null (noLit_cons (c := 'f') (by decide) (by decide) (by decide))
    · exact fail_true (noLit_cons (c := 'f') (by decide) (by decide) (by decide))
  | _, _, .num h hx, n + 1, _, w, hw, rest, hr => by
    refine valueOf_eats (p := lazy fun _ => fixN (valueOf K (arrayByte K)) n) hw hr ?_
    exact Eats.or_left (Eats.or_left (Eats.or_left (Eats.or_right (fail_words (num_alt h))
      (eats_map.2 ⟨_, number_eats h hx (follow_num hw hr), rfl⟩))))
  | _, _, .str h, n + 1, _, w, hw, rest, hr => by
    refine valueOf_eats (p := lazy fun _ => fixN (valueOf K (arrayByte K)) n) hw hr ?_
    refine Eats.or_left (Eats.or_left (Eats.or_right ?_ (eats_map.2 ⟨_, eats_string.2 (strText_lax h), rfl⟩)))
    obtain ⟨items, -, -, -, rfl⟩ := h
    exact Fail.or (fail_words (noLit_cons (c := '"') (by decide) (by decide) (by decide)))
      (fail_map.2 (fail_number (noLit_num (noLit_cons (c := '"') (by decide) (by decide) (by decide)))))
  | _, _, .arrEmpty (w := w') h, n + 2, _, w, hw, rest, hr =>
    arr_eats (p := lazy fun _ => fixN (valueOf K (arrayByte K)) (n + 1)) hw hr
      (listOf_eats_nil (by simp) h fun _ => ⟨_, fail_value_close (by simp)⟩)
  | _, _, .objEmpty (w := w') h, n + 2, _, w, hw, rest, hr =>
    obj_eats (p := lazy fun _ => fixN (valueOf K (arrayByte K)) (n + 1)) hw hr
      (listOf_eats_nil (by simp) h fun _ => ⟨_, fail_member_close (by simp)⟩)
  | _, _, .arr (t := u) h, n + 2, hn, w, hw, rest, hr =>
    arr_eats (p := lazy fun _ => fixN (valueOf K (arrayByte K)) (n + 1)) hw hr
      (listOf_eats (by simp) (fun _ => ⟨_, fail_value_close (by simp)⟩)
        (elems_reads h (n + 1) (by simp at hn; omega)))
  | _, _, .obj (t := u) h, n + 2, hn, w, hw, rest, hr =>
    obj_eats (p := lazy fun _ => fixN (valueOf K (arrayByte K)) (n + 1)) hw hr
      (listOf_eats (by simp) (fun _ => ⟨_, fail_member_close (by simp)⟩)
        (members_reads h (n + 1) (by simp at hn; omega)))
  | _, _, .arrEmpty h, 1, hn, _, _, _, _ => by simp at hn
  | _, _, .objEmpty h, 1, hn, _, _, _, _ => by simp at hn
  | _, _, .arr h, 1, hn, _, _, _, _ => by simp at hn
  | _, _, .obj h, 1, hn, _, _, _, _ => by simp at hn

theorem elems_reads : ∀ {vs : List (Value I F)} {t : List I}, Elems K lax vs t → ∀ n, t.length < n →
    Reads K (fixN (valueOf K (arrayByte K)) n) vs t
  | _, _, .one ha h hb, n, hn =>
    reads_one ha (fun rest => by rw [List.append_assoc]; exact text_noWs h)
      (fun rest hr => value_eats h n (by simp at hn; omega) _ hb rest hr)
  | _, _, .trailing (b := b) _ ha h hb hc, n, hn => by
    rw [← List.append_assoc _ b]
    exact reads_trailing ha (fun rest => by rw [List.append_assoc]; exact text_noWs h)
      (fun rest hr => value_eats h n (by simp at hn; omega) _ hb rest hr) hc
  | _, _, .cons (b := b) ha h hb hr, n, hn => by
    rw [← List.append_assoc _ b]
    exact reads_cons ha (fun rest => by rw [List.append_assoc]; exact text_noWs h)
      (fun rest hr => value_eats h n (by simp at hn; omega) _ hb rest hr)
      (elems_reads hr n (by simp at hn; omega))

theorem members_reads : ∀ {ms : List (List I × Value I F)} {t : List I}, Members K lax ms t → ∀ n, t.length < n →
    Reads K (member K (fixN (valueOf K (arrayByte K)) n)) ms t
  | _, _, .one ha hs hb hc h hd, n, hn =>
    reads_one ha (fun rest => by rw [List.append_assoc]; exact str_noWs hs)
      (fun rest hr => member_eats hs hb hc (by rw [List.append_assoc]; exact text_noWs h)
        (value_eats h n (by simp at hn; omega) _ hd rest hr))
  | _, _, .trailing (s := s) (b := b) (c := c) (t := t) (d := d) (e := e) _ ha hs hb hc h hd he, n, hn => by
    have := reads_trailing (p := member K (fixN (valueOf K (arrayByte K)) n)) ha
      (t := s ++ (b ++ K.lit ':' :: (c ++ (t ++ d))))
      (fun rest => by rw [List.append_assoc]; exact str_noWs hs)
      (fun rest hr => member_eats hs hb hc (by rw [List.append_assoc]; exact text_noWs h)
        (value_eats h n (by simp at hn; omega) _ hd rest hr)) he
    simpa using this
  | _, _, .cons (s := s) (b := b) (c := c) (t := t) (d := d) (r := r) ha hs hb hc h hd hr, n, hn => by
    have := reads_cons (p := member K (fixN (valueOf K (arrayByte K)) n)) ha
      (t := s ++ (b ++ K.lit ':' :: (c ++ (t ++ d))))
      (fun rest => by rw [List.append_assoc]; exact str_noWs hs)
      (fun rest hr => member_eats hs hb hc (by rw [List.append_assoc]; exact text_noWs h)
        (value_eats h n (by simp at hn; omega) _ hd rest hr))
      (members_reads hr n (by simp at hn; omega))
    simpa using this

end

/-! ### Reading ends -/

theorem ret_valueOf (h : ∀ r', r'.length < r.length → Ret p r') : Ret (valueOf K (arrayByte K) p) r := by
  have hm : ∀ r', r'.length < r.length → Ret (member K p) r' := by
    intro r' hr'
    unfold member
    refine ret_andThen.2 ⟨Halts.out _, fun t1 v1 rest1 e1 _ => h _ ?_⟩
    have := congrArg List.length e1
    simp at this
    omega
  unfold valueOf
  refine ret_skipRight.2 ⟨?_, fun _ _ _ _ _ => Halts.out _⟩
  refine ret_or.2 ⟨ret_or.2 ⟨Halts.out _, fun _ => ret_map.2 (ret_listOf h)⟩, fun _ => ?_⟩
  exact ret_map.2 (ret_map.2 (ret_listOf hm))

theorem ret_value (n : Nat) : ∀ r : List I, r.length < n → Ret (fixN (valueOf K (arrayByte K)) n) r := by
  induction n with
  | zero => intro r h; simp at h
  | succ n ih =>
    intro r h
    exact ret_valueOf (p := lazy fun _ => fixN (valueOf K (arrayByte K)) n) fun r' hr' => ih r' (by omega)

/-! ### Documents -/

/-- The grammar reads exactly the JSON texts. -/
theorem eats_doc {n : Nat} {v : Value I F} (hn : t.length < n) :
    Eats (skipLeft (space K) (fixN (valueOf K (arrayByte K)) n)) t v [] ↔ Doc K true v t := by
  constructor
  · intro h
    obtain ⟨a, u, x, rfl, h1, h2⟩ := eats_skipLeft.1 h
    obtain ⟨u, b, rfl, h3, h4⟩ := sound_value n h2
    exact ⟨a, u, b, rfl, (eats_space.1 h1).1, h3, h4⟩
  · rintro ⟨a, u, b, rfl, ha, h, hb⟩
    simp only [List.length_append] at hn
    refine Eats.skipLeft (v := ()) (eats_space.2 ⟨ha, ?_⟩) (value_eats h n (by omega) b hb [] (.inl rfl))
    rw [List.append_assoc]
    exact text_noWs h

theorem eats_strict {n : Nat} {v : Value I F} (hn : t.length < n) (h : Doc K lax v t) :
    Eats (skipLeft (space K) (fixN (valueOf K (arrayByte K)) n)) t v [] := by
  obtain ⟨a, u, b, rfl, ha, h, hb⟩ := h
  simp only [List.length_append] at hn
  refine Eats.skipLeft (v := ()) (eats_space.2 ⟨ha, ?_⟩) (value_eats h n (by omega) b hb [] (.inl rfl))
  rw [List.append_assoc]
  exact text_noWs h

theorem ret_doc {n : Nat} (hn : r.length < n) : Ret (skipLeft (space K) (fixN (valueOf K (arrayByte K)) n)) r :=
  ret_skipLeft.2 ⟨Halts.out _, fun t1 v1 rest1 e1 _ => ret_value n _ (by
    have := congrArg List.length e1
    simp at this
    omega)⟩

end
end OniComb.Json
