import Verif.Props.Built
import Verif.Lemmas.BuiltError

/-!
# What errors say about the text (C32, C102)

`BuiltWith P obs E p` (Spec/Built.lean): `p` is any grammar assembled from the library, recursive ones
included; the errors given to `failed` satisfy `E`.
-/

namespace OniComb
variable {I A : Type}

/-- The errors a caller may give to `failed` here: they say nothing about the text. -/
def OwnError (e : PError I) : Prop := e = .incomplete ∨ ∃ l, e = .custom 0 l

theorem ownError_located {e : PError I} (h : OwnError e) (t : List I) : Located t e := by
  rcases h with rfl | ⟨l, rfl⟩
  · trivial
  · exact Nat.zero_le _

theorem textPrim_loc (A : Type) (p : Parser Char A) (h : TextPrim A p) : Safe p ∧ Loc p := by
  cases h with
  | tag lit => exact ⟨safe_seqLike _ lit, loc_seqLike _ lit⟩
  | tagNoCase lit => exact ⟨safe_seqLike _ lit, loc_seqLike _ lit⟩

theorem parse_located {p : Parser I A} (h : Loc p) {t : List I} {e : PError I} (he : parse p t = .err e) :
    Located t e := by
  have := h ⟨t, 0⟩ (Nat.zero_le _)
  unfold parse at he
  cases hr : p ⟨t, 0⟩ <;> rw [hr] at he this <;> cases he
  exact this

theorem text_located {obs : Bool} {p : Parser Char A} (h : BuiltWith TextPrim obs OwnError p) {t : List Char}
    {e : PError Char} (he : parse p t = .err e) : Located t e :=
  parse_located (built_loc textPrim_loc (fun _ h t => ownError_located h t) h).2 he

theorem any_located {obs : Bool} {p : Parser I A} (h : BuiltWith NoPrim obs OwnError p) {t : List I}
    {e : PError I} (he : parse p t = .err e) : Located t e :=
  parse_located (built_loc (fun _ _ h => h.elim) (fun _ h t => ownError_located h t) h).2 he

theorem located_site {t : List I} : ∀ {e : PError I} {inp : List I} {off len : Nat}, Located t e →
    e.site = some (inp, off, len) → ∃ o ≤ t.length, inp = t.drop o ∧ o ≤ off + 1 ∧ off ≤ o + len := by
  intro e
  induction e with
  | mismatch i o l => intro inp off len h hs; cases hs; obtain ⟨o, h1, h2, h3, h4, -⟩ := h; exact ⟨o, h1, h2, h3, h4⟩
  | conversion i o l => intro inp off len h hs; cases hs; obtain ⟨o, h1, h2, h3, h4, -⟩ := h; exact ⟨o, h1, h2, h3, h4⟩
  | incomplete => intro inp off len h hs; cases hs
  | expect o i l ih => intro inp off len h hs; exact ih h.2 hs
  | custom o l => intro inp off len h hs; cases hs
  | customInner o i l ih => intro inp off len h hs; exact ih h.2 hs

theorem located_offsets {t : List I} : ∀ {e : PError I}, Located t e →
    ∀ l ∈ e.layers, ∀ off, l.offset? = some off → off ≤ t.length + 1 := by
  intro e
  induction e with
  | mismatch i o l =>
    intro h l hl off ho
    rw [List.mem_singleton.1 hl] at ho
    cases ho
    obtain ⟨_, _, _, _, _, h⟩ := h
    exact h
  | conversion i o l =>
    intro h l hl off ho
    rw [List.mem_singleton.1 hl] at ho
    cases ho
    obtain ⟨_, _, _, _, _, h⟩ := h
    exact h
  | incomplete =>
    intro h l hl off ho
    rw [List.mem_singleton.1 hl] at ho
    cases ho
  | expect o i l ih =>
    intro h l hl off ho
    rcases List.mem_cons.1 hl with rfl | hl
    · cases ho; exact Nat.le_succ_of_le h.1
    · exact ih h.2 l hl off ho
  | custom o l =>
    intro h l hl off ho
    rw [List.mem_singleton.1 hl] at ho
    cases ho
    exact Nat.le_succ_of_le h
  | customInner o i l ih =>
    intro h l hl off ho
    rcases List.mem_cons.1 hl with rfl | hl
    · cases ho; exact Nat.le_succ_of_le h.1
    · exact ih h.2 l hl off ho

theorem excerpt_site (e : PError I) : e.inputExcerpt = match e.site with
    | some (inp, off, len) => if off + len ≤ inp.length then some (some ((inp.drop off).take len)) else none
    | none => some none := by
  induction e with
  | expect o i l ih => exact ih
  | customInner o i l ih => exact ih
  | _ => rfl

/-! ## C102 positions -/

/-- The text that an error carries is the rest of the input from some place on; the offset of the innermost
error is at most one before that place and at most `len` behind it; and every offset mentioned is inside
the input or one behind its end. -/
theorem c102_text {obs : Bool} {p : Parser Char A} (h : BuiltWith TextPrim obs OwnError p) (t : List Char)
    (e : PError Char) (he : parse p t = .err e) :
    (∀ inp off len, e.site = some (inp, off, len) → inp <:+ t ∧
      t.length ≤ inp.length + off + 1 ∧ inp.length + off ≤ t.length + len) ∧
    ∀ l ∈ e.layers, ∀ off, l.offset? = some off → off ≤ t.length + 1 := by
  have hl := text_located h he
  refine ⟨fun inp off len hs => ?_, located_offsets hl⟩
  obtain ⟨o, h1, rfl, h2⟩ := located_site hl hs
  exact ⟨List.drop_suffix _ _, by rw [List.length_drop]; omega, by rw [List.length_drop]; omega⟩

/-- The same for any type of elements, bytes for example. -/
theorem c102_any {obs : Bool} {p : Parser I A} (h : BuiltWith NoPrim obs OwnError p) (t : List I)
    (e : PError I) (he : parse p t = .err e) :
    (∀ inp off len, e.site = some (inp, off, len) → inp <:+ t ∧
      t.length ≤ inp.length + off + 1 ∧ inp.length + off ≤ t.length + len) ∧
    ∀ l ∈ e.layers, ∀ off, l.offset? = some off → off ≤ t.length + 1 := by
  have hl := any_located h he
  refine ⟨fun inp off len hs => ?_, located_offsets hl⟩
  obtain ⟨o, h1, rfl, h2⟩ := located_site hl hs
  exact ⟨List.drop_suffix _ _, by rw [List.length_drop]; omega, by rw [List.length_drop]; omega⟩

theorem nest_error (n : Nat) : BuiltWith NoPrim false OwnError (fixN nestF n) := by
  induction n with
  | zero => exact .diverging
  | succ n ih => exact .or _ _ (.elmPred _) (.skipRight _ _ (.skipLeft _ _ (.elmPred _) (.lazy _ ih)) (.elmPred _))

/-- An error behind the end of the text, wrapped in a label. -/
example : parse (expect (fixN nestF 9) "number") "((7".toList =
      .err (.expect 0 (.mismatch [] 4 1) (.expect "number")) ∧
    BuiltWith NoPrim false OwnError (expect (fixN nestF 9) "number") := ⟨by decide, .expect _ _ (nest_error 9)⟩

/-! ## C32 excerpts -/

/-- Whatever the grammar: if less than half of the text is left where the parser failed, asking for the
excerpt panics. -/
theorem c32_second_half_violated {obs : Bool} {p : Parser Char A} (h : BuiltWith TextPrim obs OwnError p)
    (t : List Char) (e : PError Char) (he : parse p t = .err e) (inp : List Char) (off len : Nat)
    (hs : e.site = some (inp, off, len)) (hfar : 2 * inp.length + 1 < t.length) : e.inputExcerpt = none := by
  have := ((c102_text h t e he).1 inp off len hs).2.1
  rw [excerpt_site, hs]
  exact if_neg (by omega)

/-- The text of `c102`: nothing is left where the parser failed. -/
example : (PError.mismatch ([] : List Char) 4 1).inputExcerpt = none ∧
    parse (fixN nestF 9) "((7".toList = .err (.mismatch [] 4 1) := by decide

/-- The same for any type of elements. -/
theorem c32_second_half_any_violated {obs : Bool} {p : Parser I A} (h : BuiltWith NoPrim obs OwnError p)
    (t : List I) (e : PError I) (he : parse p t = .err e) (inp : List I) (off len : Nat)
    (hs : e.site = some (inp, off, len)) (hfar : 2 * inp.length + 1 < t.length) : e.inputExcerpt = none := by
  have := ((c102_any h t e he).1 inp off len hs).2.1
  rw [excerpt_site, hs]
  exact if_neg (by omega)

/-- If there is an excerpt, it is text of the input, but `k` elements behind the offset that the error
displays, `k` being how much had been read. -/
theorem c32_shown_partial {obs : Bool} {p : Parser Char A} (h : BuiltWith TextPrim obs OwnError p)
    (t : List Char) (e : PError Char) (he : parse p t = .err e) (x : List Char)
    (hx : e.inputExcerpt = some (some x)) :
    ∃ k off len, k ≤ t.length ∧ e.site = some (t.drop k, off, len) ∧ x = (t.drop (k + off)).take len := by
  rw [excerpt_site] at hx
  cases hs : e.site with
  | none => rw [hs] at hx; cases hx
  | some v =>
    obtain ⟨inp, off, len⟩ := v
    rw [hs] at hx
    obtain ⟨o, h1, rfl, h2⟩ := located_site (text_located h he) hs
    simp only at hx
    split at hx
    · cases hx
      exact ⟨o, off, len, h1, rfl, by rw [List.drop_drop]⟩
    · cases hx

/-- `x` at offset 1 is in the way, the error displays 2, and the excerpt is `?`, at offset 3. -/
example : parse (fixN nestF 9) "(x!?.".toList = .err (.mismatch "x!?.".toList 2 1) ∧
    (PError.mismatch "x!?.".toList 2 1).inputExcerpt = some (some ['?']) := by decide

/-- An error without text yields no excerpt, and no panic. -/
theorem c32_no_text (e : PError I) : e.inputExcerpt = some none ↔ e.site = none := by
  rw [excerpt_site]
  cases hs : e.site with
  | none => simp
  | some v =>
    simp only [reduceCtorEq, iff_false]
    split <;> simp

end OniComb
