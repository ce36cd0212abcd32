import Verif.Lemmas.Recoded
import Verif.Lemmas.Utf8
import Verif.Spec.Errors
import Verif.Props.Elements

/-!
# C141: the same grammar for bytes and for characters
-/

namespace OniComb
variable {I J A A' : Type} {φ : I → J} {R : A → A' → Prop}

/-! ## Any two types of elements -/

theorem recast_toOut {r : Res I A} {r' : Res J A'} (h : Recast φ R r r') : RecastOut φ R r.toOut r'.toOut := by
  rcases h.elim with ⟨_, _, _, rfl, rfl, h⟩ | ⟨_, _, _, rfl, rfl, h⟩ | ⟨rfl, rfl⟩ | ⟨rfl, rfl⟩
  · exact h.1
  · exact h.1
  · trivial
  · trivial

/-- C141: at every place of every text. -/
theorem c141_anywhere {p : Parser I A} {p' : Parser J A'} (h : Recoded φ R p p') (s : State I) :
    Recast φ R (p s) (p' (s.recode φ)) := h.recast s

/-- C141: a whole text. -/
theorem c141_parse {p : Parser I A} {p' : Parser J A'} (h : Recoded φ R p p') (t : List I) :
    RecastOut φ R (parse p t) (parse p' (t.map φ)) := recast_toOut (h.recast ⟨t, 0⟩)

/-- C141: recursive grammars. -/
theorem c141_recursive (F : Parser I A → Parser I A) (F' : Parser J A' → Parser J A')
    (h : ∀ p p', Recoded φ R p p' → Recoded φ R (F p) (F' p')) (n : Nat) : Recoded φ R (fixN F n) (fixN F' n) := by
  induction n with
  | zero => exact .diverging R
  | succ n ih => exact h _ _ (.lazy ih)

/-- C141: an error about the one text and the same error about the other name the same place, and show the same elements. -/
theorem c141_errors (e : PError I) : (e.recode φ).offset? = e.offset? ∧
    (e.recode φ).inputExcerpt = e.inputExcerpt.map (Option.map (List.map φ)) := by
  refine ⟨by cases e <;> rfl, ?_⟩
  induction e with
  | mismatch input o l =>
    simp only [PError.recode, PError.inputExcerpt, List.length_map, ← List.map_drop, ← List.map_take]
    split <;> rfl
  | conversion input o l =>
    simp only [PError.recode, PError.inputExcerpt, List.length_map, ← List.map_drop, ← List.map_take]
    split <;> rfl
  | incomplete => rfl
  | expect o inner l ih => exact ih
  | custom o l => rfl
  | customInner o inner l ih => exact ih

/-! ## Bytes and characters -/

theorem latin1_toNat (b : UInt8) : (latin1 b).toNat = b.toNat :=
  Uri.char_ofNat_toNat (.inl (Nat.lt_of_lt_of_le b.toNat_lt (by decide)))

theorem latin1_inj (a b : UInt8) (h : latin1 a = latin1 b) : a = b := by
  apply UInt8.toNat_inj.1
  rw [← latin1_toNat, h, latin1_toNat]

/-- C141: the parsers for one element of a class, of a range, or of a list. -/
theorem c141_elements (a b : UInt8) (l : List UInt8) :
    Recoded latin1 (fun x y => latin1 x = y) elmAny elmAny ∧
    Recoded latin1 (fun x y => latin1 x = y) (elm a) (elm (latin1 a)) ∧
    Recoded latin1 (fun x y => latin1 x = y) elmSpace elmSpace ∧
    Recoded latin1 (fun x y => latin1 x = y) elmMultiSpace elmMultiSpace ∧
    Recoded latin1 (fun x y => latin1 x = y) elmAlpha elmAlpha ∧
    Recoded latin1 (fun x y => latin1 x = y) elmAlphaDigit elmAlphaDigit ∧
    Recoded latin1 (fun x y => latin1 x = y) elmDigit elmDigit ∧
    Recoded latin1 (fun x y => latin1 x = y) elmDigit19 elmDigit19 ∧
    Recoded latin1 (fun x y => latin1 x = y) elmHexDigit elmHexDigit ∧
    Recoded latin1 (fun x y => latin1 x = y) elmOctDigit elmOctDigit ∧
    Recoded latin1 (fun x y => latin1 x = y) (elmIn a b) (elmIn (latin1 a) (latin1 b)) ∧
    Recoded latin1 (fun x y => latin1 x = y) (elmFromUntil a b) (elmFromUntil (latin1 a) (latin1 b)) ∧
    Recoded latin1 (fun x y => latin1 x = y) (elmOf l) (elmOf (l.map latin1)) ∧
    Recoded latin1 (fun x y => latin1 x = y) (noneOf l) (noneOf (l.map latin1)) ∧
    Recoded latin1 (fun x y => x.map latin1 = y) (seq l) (tag (l.map latin1)) := by
  have cls := fun x => c26_byte_char_agree x (latin1 x) (latin1_toNat x).symm
  have hin : ∀ x, setOfList l x = setOfList (l.map latin1) (latin1 x) := by
    intro x
    simp only [setOfList, List.mem_map]
    congr 1
    refine propext ⟨fun h => ⟨x, h, rfl⟩, ?_⟩
    rintro ⟨y, hy, h⟩
    rwa [← latin1_inj _ _ h]
  refine ⟨.elmPred fun _ => rfl, .elmPred fun x => ?_, .elmPred fun x => (cls x).1, .elmPred fun x => (cls x).2.1,
    .elmPred fun x => (cls x).2.2.2.2.2.1, .elmPred fun x => (cls x).2.2.2.2.2.2.2.2.1,
    .elmPred fun x => (cls x).2.2.2.2.2.2.1, ?_, .elmPred fun x => (cls x).2.2.2.2.2.2.2.2.2.1,
    .elmPred fun x => (cls x).2.2.2.2.2.2.2.2.2.2.1, .elmOfSet fun x => ?_, .elmOfSet fun x => ?_, .elmOfSet hin,
    .noneOfSet hin, .seq l latin1_inj⟩
  · exact decide_eq_decide.2 ⟨congrArg _, latin1_inj _ _⟩
  · refine .filter (fun x y h => ?_) (.elmPred fun x => (cls x).2.2.2.2.2.2.1)
    subst h
    exact congrArg (! ·) (cls x).2.2.2.2.2.2.2.1
  · simp only [setIncl, Element.code, latin1_toNat]
  · simp only [setExcl, Element.code, latin1_toNat]

theorem latin1_utf8 : ∀ (t : List Char), (∀ c ∈ t, c.toNat < 128) → (Uri.utf8 t).map latin1 = t
  | [], _ => rfl
  | c :: t, h => by
    have hc : c.val.toNat < 128 := h c List.mem_cons_self
    rw [Uri.utf8_cons, List.map_append, latin1_utf8 t fun d hd => h d (List.mem_cons_of_mem _ hd)]
    have : String.utf8EncodeChar c = [UInt8.ofNat c.val.toNat] := by
      unfold String.utf8EncodeChar
      dsimp only
      rw [if_pos (by omega)]
    rw [this]
    simp only [List.map_cons, List.map_nil, List.singleton_append, List.cons.injEq, and_true]
    unfold latin1
    rw [UInt8.toNat_ofNat', Nat.mod_eq_of_lt (by omega)]
    exact Char.ofNat_toNat c

/-- C141: the bytes of an ASCII text, and its characters. -/
theorem c141_ascii {p : Parser UInt8 A} {p' : Parser Char A'} (h : Recoded latin1 R p p') (t : List Char)
    (ht : ∀ c ∈ t, c.toNat < 128) : RecastOut latin1 R (parse p (Uri.utf8 t)) (parse p' t) := by
  have := c141_parse h (Uri.utf8 t)
  rwa [latin1_utf8 t ht] at this

/-- C141: other texts have more bytes than characters, and a grammar can see it. -/
theorem c141_ascii_needed (c : Char) (hc : 128 ≤ c.toNat) :
    parse (skipRight elmAny end_) [c] = .ok c ∧ ∃ e, parse (skipRight elmAny end_) (Uri.utf8 [c]) = .err e := by
  refine ⟨rfl, ?_⟩
  obtain ⟨a, b, l, h⟩ : ∃ a b l, Uri.utf8 [c] = a :: b :: l := by
    have hc : 128 ≤ c.val.toNat := hc
    rw [Uri.utf8_cons, Uri.utf8_nil, List.append_nil]
    unfold String.utf8EncodeChar
    dsimp only
    rw [if_neg (by omega)]
    split
    · exact ⟨_, _, _, rfl⟩
    · split
      · exact ⟨_, _, _, rfl⟩
      · exact ⟨_, _, _, rfl⟩
  rw [h]
  exact ⟨_, rfl⟩

/-! ## An example -/

/-- A list of numbers in brackets, for any elements. -/
def numbersOf [Element I] [DecidableEq I] (left comma right : I) : Parser I (List (List I)) :=
  skipRight (surround (seq [left]) (many0Sep (expect (many1 elmDigit) "number") (elm comma)) (elm right)) end_

theorem eachRel_latin1 {l : List UInt8} {l' : List Char} (h : EachRel (fun x y => latin1 x = y) l l') : l.map latin1 = l' := by
  induction h with
  | nil => rfl
  | cons h _ ih => rw [List.map_cons, h, ih]

example : Recoded latin1 (EachRel fun x y => x.map latin1 = y) (numbersOf 91 44 93) (numbersOf '[' ',' ']') := by
  have e := c141_elements 44 44 [91]
  have e' := c141_elements 93 93 []
  exact .skipRight (.skipLeft e.2.2.2.2.2.2.2.2.2.2.2.2.2.2
    (.skipRight (.repeatSep _ (.expect _ (.weaken (fun _ _ h => eachRel_latin1 h) (.repeat_ _ e.2.2.2.2.2.2.1))) e.2.1)
      e'.2.1)) .end_

example : parse (numbersOf '[' ',' ']') "[12,3]".toList = .ok ["12".toList, "3".toList] ∧
    parse (numbersOf 91 44 93) (Uri.utf8 "[12,3]".toList) = .ok [[49, 50], [51]] := by
  constructor <;> decide +kernel

example : 128 ≤ 'é'.toNat := by decide

end OniComb
