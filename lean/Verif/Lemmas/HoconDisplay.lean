import Verif.Model.HoconDisplay
import Verif.Spec.HoconDisplay
import Verif.Lemmas.HoconJson
import Verif.Lemmas.HoconMisread

/-! # Printed configuration values in the layout grammar -/

namespace OniComb.Hocon
open OniComb OniComb.Hocon.Spec OniComb.Hocon.Spec.Layout
open OniComb.Uri (Bytes byte bytes)

variable {dec : Bytes → Option Decimal} {fmt : Decimal → Bytes}

theorem unit_display (u : TimeUnit) : (u.display, u) ∈ shortUnits ∧ ∀ b ∈ u.display, ¬ Special b := by
  cases u <;> exact ⟨by decide, by decide⟩

theorem gap_space' : Gap (bytes " ") := Blanks.gap (by decide)

/-! ### What comes behind objects -/

theorem path_safe {p r : Bytes} (hp : PathText p) (h : Safe r) : Safe (p ++ r) :=
  safe_append (fun b hb => path_noSpecial (pathText_bytes hp b hb)) h

theorem displayEntries_cons (f : Bool) (k : Bytes) (v : Value) (es : Entries) :
    displayEntries fmt f ((k, v) :: es) = (if f then [] else bytes ", ") ++ (k ++ (bytes " = " ++ (display fmt v ++
      displayEntries fmt false es))) := by
  rw [displayEntries, displayEntry]; simp

theorem entries_safe {es : Entries} {f : Bool} {r : Bytes} (hk : ∀ e ∈ es, PathText e.1)
    (h : ∀ e ∈ es, ∀ r, Safe r → Safe (display fmt e.2 ++ r)) (hr : Safe r) : Safe (displayEntries fmt f es ++ r) := by
  induction es generalizing f with
  | nil => rw [displayEntries]; exact hr
  | cons e es ih =>
    obtain ⟨k, v⟩ := e
    rw [displayEntries_cons]
    simp only [List.append_assoc]
    refine safe_append ?_ (path_safe (hk (k, v) (by simp)) (safe_append (by decide) (h (k, v) (by simp) _
      (ih (fun e he => hk e (by simp [he])) fun e he => h e (by simp [he])))))
    cases f <;> decide

theorem display_safe {v : Value} (h : Printable dec fmt v) : ∀ r, Safe r → Safe (display fmt v ++ r) := by
  induction h with
  | null => exact fun r hr => safe_append (t := bytes "null") (by decide) hr
  | bool b =>
    intro r hr
    cases b
    · exact safe_append (t := bytes "false") (by decide) hr
    · exact safe_append (t := bytes "true") (by decide) hr
  | str _ => intro r hr; rw [display]; exact safe_quote
  | num h _ => intro r hr; rw [display]; exact safe_append (decimal_noSpecial h) hr
  | @dur _ u h _ =>
    intro r hr
    rw [display]
    simp only [List.append_assoc]
    exact safe_append (decimal_noSpecial h) (safe_append (by decide) (safe_append (unit_display u).2 hr))
  | @ref _ _ m hp =>
    intro r hr
    rw [display]
    simp only [List.append_assoc]
    refine safe_append (by decide) (safe_append ?_ (path_safe hp (safe_append (by decide) hr)))
    cases m <;> decide
  | link _ ih => intro r hr; rw [display]; exact ih r hr
  | obj _ hk _ ih =>
    intro r hr
    rw [display]
    simp only [List.append_assoc]
    exact safe_append (by decide) (entries_safe hk ih (safe_append (by decide) hr))

/-! ### The texts -/

theorem current_key (es : Entries) : keys (currentEntries es) = es.map Prod.fst := by
  induction es with
  | nil => rfl
  | cons e es ih =>
    obtain ⟨k, v⟩ := e
    rw [currentEntries, currentEntry]
    show k :: keys (currentEntries es) = _
    rw [ih]; rfl

/-- What may come behind a printed value: a gap and then one of `,`, `]`, `}`. -/
def Closes (g r : Bytes) : Prop := (g = [] ∨ g = bytes " ") ∧ ∃ b x, b ∈ bytes ",]}" ∧ r = b :: x

theorem Closes.gap {g r : Bytes} (h : Closes g r) : Gap g := by
  rcases h.1 with rfl | rfl
  · exact gap_nil
  · exact gap_space'

theorem Closes.noHead {g r : Bytes} {P : UInt8 → Prop} (h : Closes g r) (hP : ∀ b ∈ bytes " ,]}", ¬ P b) : NoHead P (g ++ r) := by
  obtain ⟨h1, b, x, hb, rfl⟩ := h
  rcases h1 with rfl | rfl
  · exact noHead_cons.2 (hP b ((by decide : ∀ b ∈ bytes ",]}", b ∈ bytes " ,]}") b hb))
  · exact noHead_cons.2 (hP _ (by decide))

theorem Closes.tail {g r : Bytes} {P : UInt8 → Prop} (h : Closes g r) (hP : ∀ b ∈ bytes ",]}", ¬ P b) : NoHead P r := by
  obtain ⟨-, b, x, hb, rfl⟩ := h
  exact noHead_cons.2 (hP b hb)

theorem entries_doc {es : Entries} {x : Bytes}
    (ih : ∀ e ∈ es, ∀ g r, Closes g r → Safe (g ++ r) → Val dec (current e.2) (display fmt e.2) g r)
    (hk : ∀ e ∈ es, PathText e.1) (hsafe : ∀ e ∈ es, ∀ r, Safe r → Safe (display fmt e.2 ++ r)) (hx : Safe x) (hne : es ≠ []) :
    Members dec true (currentEntries es) (displayEntries fmt true es ++ bytes " ") (byte '}' :: x) := by
  induction es with
  | nil => exact absurd rfl hne
  | cons e es ih' =>
    obtain ⟨k, v⟩ := e
    have hkey : KeyText k k := .inl ⟨hk (k, v) (by simp), rfl⟩
    have hs : Safe (displayEntries fmt false es ++ (bytes " " ++ byte '}' :: x)) :=
      entries_safe (fun e he => hk e (by simp [he])) (fun e he => hsafe e (by simp [he]))
        (safe_append (by decide) (safe_cons (by decide) hx))
    rw [currentEntries, currentEntry, displayEntries_cons]
    cases es with
    | nil =>
      rw [currentEntries, displayEntries]
      rw [displayEntries] at hs
      have := Members.assign (c := true) (g1 := bytes " ") (g2 := bytes " ") (g := bytes " ") (s := []) (b := byte '=')
        (t' := []) hkey gap_space' (.inl rfl) gap_space' gap_space' (.inl rfl)
        (ih (k, v) (by simp) (bytes " ") (byte '}' :: x) ⟨.inr rfl, byte '}', x, by decide, rfl⟩ (by simpa using hs)) .nil
      simpa [show bytes " = " = bytes " " ++ byte '=' :: bytes " " from rfl] using this
    | cons e es =>
      have hrest := ih' (fun e he => ih e (by simp [he])) (fun e he => hk e (by simp [he]))
        (fun e he => hsafe e (by simp [he])) (by simp)
      have he : displayEntries fmt false (e :: es) = bytes ", " ++ displayEntries fmt true (e :: es) := by
        rw [displayEntries, displayEntries]; simp
      rw [he] at hs ⊢
      have := Members.assign (c := true) (g1 := bytes " ") (g2 := bytes " ") (g := []) (s := bytes ", ") (b := byte '=')
        hkey gap_space' (.inl rfl) gap_space' gap_nil (.inr ⟨rfl, bytes " ", gap_space', rfl⟩)
        (ih (k, v) (by simp) [] _ ⟨.inl rfl, byte ',', _, by decide, rfl⟩ (by simpa using hs)) hrest
      simpa [show bytes " = " = bytes " " ++ byte '=' :: bytes " " from rfl] using this

theorem display_val {v : Value} (h : Printable dec fmt v) :
    ∀ g r, Closes g r → Safe (g ++ r) → Val dec (current v) (display fmt v) g r := by
  induction h with
  | null => intro g r _ _; exact .null
  | bool b => intro g r _ _; cases b <;> rw [current, display] <;> constructor
  | str h => intro g r _ _; rw [current, display]; exact .quoted (quoted_plain (.inl rfl) h)
  | num h1 h2 =>
    intro g r hr _
    rw [current, display]
    exact .num h1 h2 ⟨hr.noHead (by unfold NumByte Digit; decide), hr.tail (by unfold UnitStart; decide)⟩
  | @dur _ u h1 h2 =>
    intro g r hr _
    rw [current, display]
    exact .dur h1 h2 gap_space' (unit_display u).1 (hr.noHead (by unfold Letter; decide))
  | @ref _ path m hp =>
    intro g r _ _
    rw [current, display]
    obtain ⟨ss, -, -, rfl⟩ := id hp
    have := Val.ref (dec := dec) (p := ss) (o := m) (g1 := []) (g2 := []) (g := g) (r := r) hp gap_nil gap_nil
    simpa using this
  | link _ ih => intro g r hr hs; rw [current, display]; exact ih g r hr hs
  | @obj es hn hk hv ih =>
    intro g r hr hs
    rw [current, display]
    cases es with
    | nil =>
      rw [currentEntries, displayEntries]
      exact .obj (g1 := bytes "  ") (t := []) (Blanks.gap (by decide)) .nil .nil (safe_guarded hs)
    | cons e es =>
      have hm := entries_doc (x := g ++ r) ih hk (fun e he => display_safe (hv e he)) hs (by simp)
      have := Val.obj (g1 := bytes " ") gap_space' hm (gathered_self (by rw [current_key]; exact hn)) (safe_guarded hs)
      simpa [show bytes "{ " = byte '{' :: bytes " " from rfl, show bytes " }" = bytes " " ++ [byte '}'] from rfl] using this

theorem displayElems_cons (f : Bool) (v : Value) (vs : List Value) :
    displayElems fmt f (v :: vs) = (if f then [] else bytes ", ") ++ (display fmt v ++ displayElems fmt false vs) := by
  rw [displayElems]

theorem elems_display {vs : List Value} {x : Bytes} (h : ∀ v ∈ vs, Printable dec fmt v) :
    Elems dec (currentList vs) (displayElems fmt true vs) (byte ']' :: x) := by
  have hsafe : ∀ f (vs : List Value), (∀ v ∈ vs, Printable dec fmt v) → Safe (displayElems fmt f vs ++ byte ']' :: x) := by
    intro f vs
    induction vs generalizing f with
    | nil => intro _; rw [displayElems]; exact safe_close
    | cons v vs ih =>
      intro h
      rw [displayElems_cons]
      simp only [List.append_assoc]
      refine safe_append ?_ (display_safe (h v (by simp)) _ (ih false fun w hw => h w (by simp [hw])))
      cases f <;> decide
  induction vs with
  | nil => rw [currentList, displayElems]; exact .nil
  | cons v vs ih =>
    have hrest := ih fun w hw => h w (by simp [hw])
    have hs := hsafe false vs fun w hw => h w (by simp [hw])
    rw [currentList, displayElems_cons]
    cases vs with
    | nil =>
      rw [currentList, displayElems]
      rw [displayElems] at hs
      have := Elems.one (dec := dec) (x := byte ']' :: x) gap_nil
        (display_val (h v (by simp)) [] _ ⟨.inl rfl, byte ']', x, by decide, rfl⟩ (by simpa using hs))
      simpa using this
    | cons w vs =>
      have he : displayElems fmt false (w :: vs) = bytes ", " ++ displayElems fmt true (w :: vs) := by
        rw [displayElems, displayElems]; simp
      rw [he] at hs ⊢
      have := Elems.cons (g := []) (g1 := bytes " ") gap_nil gap_space'
        (display_val (h v (by simp)) [] _ ⟨.inl rfl, byte ',', _, by decide, rfl⟩ (by
          simpa [show bytes ", " = byte ',' :: bytes " " from rfl] using hs)) hrest
      simpa [show bytes ", " = byte ',' :: bytes " " from rfl] using this

/-- The printed text of an object is a document. -/
theorem display_doc {es : Entries} (h : Printable dec fmt (.obj es)) :
    Doc dec [.obj (currentEntries es)] (display fmt (.obj es)) := by
  have hval : Val dec (.obj (currentEntries es)) (display fmt (.obj es)) [] [] := by
    have hs : Safe ([] : Bytes) := safe_nil
    cases h with
    | obj hn hk hv =>
    rw [display]
    cases es with
    | nil =>
      rw [currentEntries, displayEntries]
      exact .obj (g1 := bytes "  ") (t := []) (Blanks.gap (by decide)) .nil .nil (safe_guarded hs)
    | cons e es =>
      have hm := entries_doc (x := []) (fun e he => display_val (hv e he)) hk (fun e he => display_safe (hv e he)) hs (by simp)
      have := Val.obj (g1 := bytes " ") (g := []) (r := []) gap_space' hm (gathered_self (by rw [current_key]; exact hn)) (safe_guarded hs)
      simpa [show bytes "{ " = byte '{' :: bytes " " from rfl, show bytes " }" = bytes " " ++ [byte '}'] from rfl] using this
  have h1 := Items.cons (g := []) (.inl (by exact trivial)) gap_nil hval Items.nil
  have h2 := Doc.items (g := []) gap_nil h1 (by
    intro x hx
    rw [List.append_nil, List.append_nil, display] at hx
    cases h with
    | obj hn hk hv =>
    injection hx with _ hx
    subst hx
    exact safe_guarded (safe_append (t := bytes " ") (by decide) (entries_safe hk (fun e he => display_safe (hv e he))
      (safe_append (t := bytes " }") (r := []) (by decide) safe_nil) |> (by simpa using ·))))
  simpa using h2

/-- The printed text of an array is a document. -/
theorem display_array_doc {vs : List Value} (h : ∀ v ∈ vs, Printable dec fmt v) :
    Doc dec [.arr (currentList vs)] (display fmt (.arr vs)) := by
  have hval : Val dec (.arr (currentList vs)) (display fmt (.arr vs)) [] [] := by
    rw [display]
    exact .arr (g1 := []) gap_nil (elems_display h)
  have h1 := Items.cons (g := []) (.inr (by exact trivial)) gap_nil hval Items.nil
  have h2 := Doc.items (g := []) gap_nil h1 (by
    intro x hx
    rw [List.append_nil, List.append_nil, display] at hx
    cases hx)
  simpa using h2

/-- An object whose first entry is an array: the brace is read as part of a key. -/
theorem brace_array_err {S : Std} {k : Bytes} {vs : List Value} {es : Entries} (hk : PathText k)
    (hv : ∀ v ∈ vs, Printable S.parseDecimal fmt v) (hke : ∀ e ∈ es, PathText e.1)
    (hes : ∀ e ∈ es, Printable S.parseDecimal fmt e.2) :
    ∃ N, ∀ n, N ≤ n → ∃ e, parse (hocon S n) (display fmt (.obj ((k, .arr vs) :: es))) = .err e := by
  obtain ⟨g, b, x, hx, hg, hb, hsafe⟩ : ∃ g b x, displayEntries fmt false es ++ bytes " }" = g ++ b :: x ∧ Gap g ∧
      (b = byte ',' ∨ b = byte '}') ∧ Safe x := by
    cases es with
    | nil => exact ⟨bytes " ", byte '}', [], by rw [displayEntries]; rfl, gap_space', .inr rfl, safe_nil⟩
    | cons e es =>
      obtain ⟨k', v'⟩ := e
      refine ⟨[], byte ',', bytes " " ++ (displayEntries fmt true ((k', v') :: es) ++ bytes " }"), ?_, gap_nil, .inl rfl, ?_⟩
      · rw [displayEntries_cons, displayEntries_cons]; rfl
      · exact safe_append (by decide) (entries_safe hke (fun e he => display_safe (hes e he)) (by
          simpa using safe_append (t := bytes " }") (r := []) (by decide) safe_nil))
  have hq : Quiet (b :: x) := noHead_cons.2 (by rcases hb with rfl | rfl <;> decide)
  have hval : Val S.parseDecimal (.arr (currentList vs)) (display fmt (.arr vs)) g (b :: x) := by
    rw [display]
    exact .arr (g1 := []) gap_nil (elems_display hv)
  obtain ⟨N, hN⟩ := val_reads hval hg hq
  refine ⟨N + 1, fun n hn => ?_⟩
  obtain ⟨m, rfl⟩ : ∃ m, n = m + 1 := ⟨n - 1, by omega⟩
  have hr := hN m (by omega)
  obtain ⟨y, hy⟩ := val_arr hval trivial
  have hkey : Eats key (bytes "{ " ++ (k ++ bytes " = ")) (bytes "{ " ++ (k ++ bytes " = "))
      ((display fmt (.arr vs) ++ g) ++ b :: x) := by
    have := eats_spaced' (p := or (attempt path) string) (b2 := []) (t := bytes "{ " ++ (k ++ bytes " = "))
      (v := bytes "{ " ++ (k ++ bytes " = ")) (rest := (display fmt (.arr vs) ++ g) ++ b :: x) gap_nil
      (noHead_cons.2 (by decide)) (by rw [hy]; exact noHead_cons.2 (by decide))
      (.or_right (fail_path (noHead_cons.2 (by decide))) (eats_unquoted (noHead_cons.2 (by decide)) (by simp [show bytes "{ " = [byte '{', byte ' '] from rfl])
        (Uri.validUtf8_ascii _ ?_) ?_ (by rw [hy]; exact noHead_cons.2 (by decide))))
    · unfold key; simpa using this
    · intro b hb
      simp only [List.mem_append] at hb
      rcases hb with hb | hb | hb
      · exact (by decide : ∀ b ∈ bytes "{ ", b.toNat < 128) b hb
      · rcases pathText_bytes hk b hb with h | rfl
        · exact segByte_ascii h
        · decide
      · exact (by decide : ∀ b ∈ bytes " = ", b.toNat < 128) b hb
    · intro b hb
      simp only [List.mem_append] at hb
      rcases hb with hb | hb | hb
      · exact (by decide : ∀ b ∈ bytes "{ ", ¬ Special b) b hb
      · exact path_noSpecial (pathText_bytes hk b hb)
      · exact (by decide : ∀ b ∈ bytes " = ", ¬ Special b) b hb
  have he : Eats (softGrammar S (m + 1)).2 ((bytes "{ " ++ (k ++ bytes " = ")) ++ (display fmt (.arr vs) ++ g))
      (bytes "{ " ++ (k ++ bytes " = "), .arr (currentList vs)) (b :: x) := by
    show Eats (property (lazy fun _ => (softGrammar S m).1) (lazy fun _ => (softGrammar S m).2)) _ _ _
    unfold property
    refine Eats.andThen hkey ?_
    have hd : display fmt (.arr vs) ++ g ++ b :: x = byte '[' :: (y ++ g ++ b :: x) := by rw [hy]; simp
    refine .or_right ?_ (hr.arr trivial)
    rw [hd]
    exact .or (fail_kv (noHead_cons.2 (by decide)))
        (fail_attempt_of (fail_object (noHead_cons.2 (by decide)) (noHead_cons.2 (by decide))))
  have hstop := props_stop (S := S) (n := m + 1) (ps := [(bytes "{ " ++ (k ++ bytes " = "), .arr (currentList vs))])
    (t := (bytes "{ " ++ (k ++ bytes " = ")) ++ (display fmt (.arr vs) ++ g)) (x := b :: x) (by simp)
    (noHead_cons.2 (by decide)) (by
      have := Many.cons (t' := []) (rest := b :: x) (by simpa using he) (.nil _)
      simpa using this)
    ⟨.uncommitted, by
      show Fail (property _ _) (b :: x) _
      rcases hb with rfl | rfl <;> exact fail_run (by decide) (by decide) (by decide) (safe_guarded hsafe)⟩ (by simp)
  have e1 : display fmt (.obj ((k, .arr vs) :: es)) =
      (bytes "{ " ++ (k ++ bytes " = ")) ++ (display fmt (.arr vs) ++ g) ++ b :: x := by
    have e2 : display fmt (.obj ((k, .arr vs) :: es)) = bytes "{ " ++ (displayEntries fmt true ((k, .arr vs) :: es) ++ bytes " }") := by
      rw [display]
    rw [e2, displayEntries_cons]
    simp only [List.append_assoc, List.nil_append, if_true, hx]
  rw [e1]
  exact hstop

/-- The printed text of an object with one string. -/
theorem display_string_doc {k t : Bytes} {items : List StrItem} (hk : PathText k) (ht : t = itemsText items) (hne : items ≠ [])
    (h : ItemsOk items) (hf : FirstOk items) :
    Doc dec [.obj [(k, .str (denoted items))]] (display fmt (.obj [(k, .str t)])) := by
  subst ht
  have hq : QuotedText (denoted items) (byte '"' :: itemsText items ++ [byte '"']) :=
    ⟨'"', items, .inl rfl, hne, h, hf, rfl, rfl⟩
  have hm := Members.assign (dec := dec) (c := true) (x := [byte '}']) (k := k) (kt := k) (g1 := bytes " ") (g2 := bytes " ")
    (g := bytes " ") (s := []) (b := byte '=') (t' := []) (.inl ⟨hk, rfl⟩) gap_space' (.inl rfl) gap_space' gap_space'
    (.inl rfl) (.quoted hq) .nil
  have hval := Val.obj (g1 := bytes " ") (g := []) (r := []) gap_space' hm (gathered_self (by simp [keys])) (safe_guarded safe_nil)
  have h1 := Items.cons (g := []) (.inl (by exact trivial)) gap_nil hval Items.nil
  have h2 := Doc.items (g := []) gap_nil h1 (by
    intro x hx
    simp only [List.cons_append] at hx
    injection hx with _ hx
    subst hx
    simp only [List.append_assoc]
    exact safe_guarded (safe_append (t := bytes " ") (by decide) (path_safe hk (safe_append (t := bytes " ") (by decide)
      (safe_cons (by decide) (safe_append (t := bytes " ") (by decide) safe_quote))))))
  have e : display fmt (.obj [(k, .str (itemsText items))]) =
      bytes "{ " ++ (k ++ (bytes " = " ++ ((byte '"' :: itemsText items ++ [byte '"']) ++ bytes " }"))) := by
    rw [display, displayEntries_cons, display, displayEntries]; simp
  rw [e]
  simpa [show bytes "{ " = byte '{' :: bytes " " from rfl, show bytes " }" = bytes " " ++ [byte '}'] from rfl,
    show bytes " = " = bytes " " ++ byte '=' :: bytes " " from rfl] using h2

end OniComb.Hocon
