import Verif.Lemmas.BuiltTame
import Verif.Lemmas.BuiltPos
import Verif.Props.Termination
import Verif.Props.Repeat
import Mathlib.Tactic.ByContra

/-!
# Helper lemmas: parsers as relations on texts

For parsers that stay in bounds, do not panic and only look at the text in front of them, running at a
position is the same as running on the remaining text.  The lemmas of this file describe every
combinator by the texts it reads (`Eats`) and by the texts it fails on (`Fail`).
-/

namespace OniComb
variable {I A B C : Type}

/-- What all parsers assembled from the library satisfy. -/
class Good (p : Parser I A) : Prop where
  nice : Nice p
  tame : Tame p

/-- `p` reads `t` in front of `rest` with value `v`. -/
def Eats (p : Parser I A) (t : List I) (v : A) (rest : List I) : Prop :=
  p ⟨t ++ rest, 0⟩ = .success v t.length

/-- `p` fails on the text `r`. -/
def Fail (p : Parser I A) (r : List I) (c : Committed) : Prop := ∃ e, p ⟨r, 0⟩ = .failure e c

/-- `p` returns on the text `r`. -/
def Ret (p : Parser I A) (r : List I) : Prop := p ⟨r, 0⟩ ≠ .diverge

/-! ### Every library parser is good -/

theorem built_good {p : Parser I A} (h : Built (fun _ p => Good p) false p) : Good p :=
  ⟨built_nice (fun _ _ h => h.nice) h, built_tame (fun _ _ h => h.tame) h⟩

section instances
variable {p : Parser I A} {q : Parser I B}
private abbrev pr {A : Type} {p : Parser I A} (h : Good p) : Built (fun _ p => Good p) false p := .prim _ h

instance (a : A) : Good (successful a : Parser I A) := built_good (.successful a)
instance : Good (unit : Parser I Unit) := built_good (.successful ())
instance (e : PError I) (c : Committed) : Good (failed e c : Parser I A) := built_good (.failed e c trivial)
instance [h : Good p] (f : A → Bool) : Good (filter p f) := built_good (.filter _ _ (pr h))
instance [h : Good p] (f : A → Bool) : Good (filterNot p f) := built_good (.filter _ _ (pr h))
instance [h : Good p] (f : A → Parser I B) [h' : ∀ a, Good (f a)] : Good (flatMap p f) :=
  built_good (.flatMap _ _ (pr h) fun a => pr (h' a))
instance [h : Good p] (f : A → B) : Good (map p f) := built_good (.map _ _ (pr h))
instance [h : Good p] : Good (exists_ p) := built_good (.exists_ _ (pr h))
instance [h : Good p] : Good (not_ p) := built_good (.not_ _ (pr h))
instance {p' : Parser I A} [h : Good p] [h' : Good p'] : Good (or p p') :=
  built_good (.or _ _ (pr h) (pr h'))
instance [h : Good p] [h' : Good q] : Good (andThen p q) := built_good (.andThen _ _ (pr h) (pr h'))
instance [h : Good p] [h' : Good q] : Good (skipLeft p q) := built_good (.skipLeft _ _ (pr h) (pr h'))
instance [h : Good p] [h' : Good q] : Good (skipRight p q) :=
  built_good (.skipRight _ _ (pr h) (pr h'))
instance {r : Parser I C} [h : Good p] [h' : Good q] [h'' : Good r] : Good (surround p q r) :=
  built_good (.skipLeft _ _ (pr h) (.skipRight _ _ (pr h') (pr h'')))
instance [h : Good p] : Good (attempt p) := built_good (.attempt _ (pr h))
instance [h : Good p] : Good (opt p) :=
  built_good (.or _ _ (.map _ _ (.attempt _ (pr h))) (.successful none))
instance (n : Nat) : Good (skip n : Parser I Unit) := built_good (.skip n)
instance [h : Good p] (f : A → Option B) : Good (mapRes p f) := built_good (.mapRes _ _ (pr h))
instance [h : Good p] (f : A → Option B) : Good (mapOpt p f) := built_good (.mapRes _ _ (pr h))
instance [h : Good p] : Good (peek p) := built_good (.peek _ (pr h))
instance [h : Good p] (l : String) : Good (logMap p l) := built_good (.logMap _ _ (pr h))
instance [h : Good p] (l : String) : Good (name p l) := built_good (.name _ _ (pr h))
instance [h : Good p] (l : String) : Good (expect p l) := built_good (.expect _ _ (pr h))
instance [h : Good p] : Good (collect p) := built_good (.collect _ (pr h))
instance [h : Good p] : Good (discard p) := built_good (.discard _ (pr h))
instance : Good (end_ : Parser I Unit) := built_good .end_
instance (f : Unit → Parser I A) [h : Good (f ())] : Good (lazy f) := built_good (.lazy _ (pr h))
instance : Good (diverging : Parser I A) := built_good .diverging
instance (f : I → Bool) : Good (elmPred f) := built_good (.elmPred f)
instance : Good (elmAny : Parser I I) := built_good (.elmPred _)
instance [DecidableEq I] (x : I) : Good (elm x) := built_good (.elmPred _)
instance [Element I] : Good (elmSpace : Parser I I) := built_good (.elmPred _)
instance [Element I] : Good (elmMultiSpace : Parser I I) := built_good (.elmPred _)
instance [Element I] : Good (elmAlpha : Parser I I) := built_good (.elmPred _)
instance [Element I] : Good (elmAlphaDigit : Parser I I) := built_good (.elmPred _)
instance [Element I] : Good (elmDigit : Parser I I) := built_good (.elmPred _)
instance [Element I] : Good (elmHexDigit : Parser I I) := built_good (.elmPred _)
instance [Element I] : Good (elmOctDigit : Parser I I) := built_good (.elmPred _)
instance [Element I] : Good (elmDigit19 : Parser I I) := built_good (.filter _ _ (.elmPred _))
instance (f : I → Bool) : Good (elmOfSet f) := built_good (.elmOfSet f)
instance [DecidableEq I] (l : List I) : Good (elmOf l) := built_good (.elmOfSet _)
instance [Element I] (a b : I) : Good (elmIn a b) := built_good (.elmOfSet _)
instance [Element I] (a b : I) : Good (elmFromUntil a b) := built_good (.elmOfSet _)
instance (f : I → Bool) : Good (noneOfSet f) := built_good (.noneOfSet f)
instance [DecidableEq I] (l : List I) : Good (noneOf l) := built_good (.noneOfSet _)
instance [DecidableEq I] (l : List I) : Good (seq l) := built_good (.seq l)
instance (l : List Char) : Good (tag l) := built_good (.seq l)
instance (l : List Char) : Good (tagNoCase l) where
  nice := ⟨safe_seqLike _ l, pos_seqLike _ l⟩
  tame := tame_withInput fun s inp => seqLoop eqIgnoreAsciiCase s inp l 0 l inp
instance (n : Nat) : Good (take n : Parser I (List I)) := built_good (.take n)
instance (f : I → Bool) : Good (takeWhile0 f) := built_good (.takeWhile0 f)
instance (f : I → Bool) : Good (takeWhile1 f) := built_good (.takeWhile1 f)
instance (n m : Nat) (f : I → Bool) : Good (takeWhileNM n m f) := built_good (.takeWhileNM n m f)
instance (f : I → Bool) : Good (takeTill0 f) := built_good (.takeTill0 f)
instance (f : I → Bool) : Good (takeTill1 f) := built_good (.takeTill1 f)
instance [h : Good p] (r : Range) : Good (repeat_ p r) := built_good (.repeat_ _ _ (pr h))
instance [h : Good p] : Good (many0 p) := built_good (.repeat_ _ _ (pr h))
instance [h : Good p] : Good (many1 p) := built_good (.repeat_ _ _ (pr h))
instance [h : Good p] (n : Nat) : Good (count p n) := built_good (.repeat_ _ _ (pr h))
instance [h : Good p] (n m : Nat) : Good (manyNM p n m) := built_good (.repeat_ _ _ (pr h))
instance [h : Good p] [h' : Good q] : Good (many0Sep p q) :=
  built_good (.repeatSep _ _ _ (pr h) (pr h'))
instance [h : Good p] [h' : Good q] : Good (many1Sep p q) :=
  built_good (.repeatSep _ _ _ (pr h) (pr h'))
instance [h : Good p] [h' : Good q] (n m : Nat) : Good (manyNMSep p n m q) :=
  built_good (.repeatSep _ _ _ (pr h) (pr h'))
instance [h : Good p] [h' : Good q] (n : Nat) : Good (countSep p n q) :=
  built_good (.repeatSep _ _ _ (pr h) (pr h'))
instance [h : Good p] (op : Parser I (A → A → A)) [h' : Good op] (x : A) : Good (restLeft1 p op x) :=
  built_good (.restLeft1 _ _ x (pr h) (pr h'))
instance [h : Good p] (op : Parser I (A → A → A)) [h' : Good op] : Good (chainLeft1 p op) :=
  built_good (.flatMap _ _ (pr h) fun x => .restLeft1 _ _ x (pr h) (pr h'))
end instances

/-! ### Running at a position -/

theorem Good.safe (p : Parser I A) [Good p] : Safe p := Good.nice.1

/-- Results at a position are those on the remaining text. -/
theorem at_success {p : Parser I A} [Good p] (pre r : List I) (v : A) (n : Nat) :
    p ⟨pre ++ r, pre.length⟩ = .success v n ↔ p ⟨r, 0⟩ = .success v n := by
  have h : Nice p := Good.nice
  rcases nice_cases h pre r 0 (Nat.zero_le _) with ⟨w, m, h1, h3, hn⟩ | ⟨e, e', c, h1, h3⟩ | ⟨h1, h3⟩ <;>
    simp only [Nat.add_zero] at h1 <;> rw [h1, h3]
  simp

theorem at_failure {p : Parser I A} [Good p] (pre r : List I) (c : Committed) :
    (∃ e, p ⟨pre ++ r, pre.length⟩ = .failure e c) ↔ Fail p r c := by
  have h : Nice p := Good.nice
  unfold Fail
  rcases nice_cases h pre r 0 (Nat.zero_le _) with ⟨w, m, h1, h3, hn⟩ | ⟨e, e', c, h1, h3⟩ | ⟨h1, h3⟩ <;>
    simp only [Nat.add_zero] at h1 <;> rw [h1, h3] <;> simp

theorem at_fails {p : Parser I A} [Good p] (pre r : List I) :
    Fails p ⟨pre ++ r, pre.length⟩ ↔ ∃ c, Fail p r c := by
  unfold Fails
  rw [exists_comm]
  simp only [at_failure]

theorem at_diverge {p : Parser I A} [Good p] (pre r : List I) :
    p ⟨pre ++ r, pre.length⟩ = .diverge ↔ p ⟨r, 0⟩ = .diverge := by
  have h : Nice p := Good.nice
  rcases nice_cases h pre r 0 (Nat.zero_le _) with ⟨w, m, h1, h3, hn⟩ | ⟨e, e', c, h1, h3⟩ | ⟨h1, h3⟩ <;>
    simp only [Nat.add_zero] at h1 <;> rw [h1, h3] <;> simp

/-- A success splits the text. -/
theorem success_split {p : Parser I A} [Good p] {r : List I} {v : A} {n : Nat}
    (h : p ⟨r, 0⟩ = .success v n) : ∃ t rest, r = t ++ rest ∧ n = t.length ∧ Eats p t v rest := by
  have hs := Good.safe p ⟨r, 0⟩ (Nat.zero_le _)
  rw [h] at hs
  have hn : n ≤ r.length := by simpa [SafeAt] using hs
  refine ⟨r.take n, r.drop n, (List.take_append_drop n r).symm, by simp [hn], ?_⟩
  unfold Eats
  rw [List.take_append_drop, List.length_take, Nat.min_eq_left hn, h]

/-- The possible outcomes. -/
theorem outcomes (p : Parser I A) [Good p] (r : List I) :
    (∃ t v rest, r = t ++ rest ∧ Eats p t v rest) ∨ (∃ c, Fail p r c) ∨ ¬ Ret p r := by
  have hs := Good.safe p ⟨r, 0⟩ (Nat.zero_le _)
  cases h : p ⟨r, 0⟩ with
  | success v n =>
    obtain ⟨t, rest, h1, -, h2⟩ := success_split h
    exact .inl ⟨t, v, rest, h1, h2⟩
  | failure e c => exact .inr (.inl ⟨c, e, h⟩)
  | panic => rw [h] at hs; exact hs.elim
  | diverge => exact .inr (.inr (by simp [Ret, h]))

theorem eats_unique {p : Parser I A} {t t' rest rest' : List I} {v v' : A} (h : Eats p t v rest)
    (h' : Eats p t' v' rest') (he : t ++ rest = t' ++ rest') : t = t' ∧ v = v' ∧ rest = rest' := by
  unfold Eats at *
  rw [he, h'] at h
  simp only [Res.success.injEq] at h
  obtain ⟨rfl, h⟩ := h
  obtain ⟨h1, h2⟩ := List.append_inj he h.symm
  exact ⟨h1, rfl, h2⟩

theorem not_eats_fail {p : Parser I A} {t rest : List I} {v : A} {c : Committed} (h : Eats p t v rest)
    (h' : Fail p (t ++ rest) c) : False := by
  obtain ⟨e, h'⟩ := h'
  unfold Eats at h
  rw [h] at h'; cases h'

theorem fail_unique {p : Parser I A} {r : List I} {c c' : Committed} (h : Fail p r c)
    (h' : Fail p r c') : c = c' := by
  obtain ⟨e, h⟩ := h
  obtain ⟨e', h'⟩ := h'
  rw [h] at h'; cases h'; rfl

theorem Eats.ret {p : Parser I A} {t rest : List I} {v : A} (h : Eats p t v rest) :
    Ret p (t ++ rest) := by unfold Ret Eats at *; rw [h]; simp

theorem Fail.ret {p : Parser I A} {r : List I} {c : Committed} (h : Fail p r c) : Ret p r := by
  obtain ⟨e, h⟩ := h; unfold Ret; rw [h]; simp

/-- A sequence of two parsers, seen as a relation on texts. -/
theorem seq_success {p : Parser I A} {q : Parser I B} [Good p] [Good q] (t rest : List I) (v : A) (w : B) :
    (∃ n m, p ⟨t ++ rest, 0⟩ = .success v n ∧ q ⟨t ++ rest, n⟩ = .success w m ∧ t.length = n + m) ↔
      ∃ t1 t2, t = t1 ++ t2 ∧ Eats p t1 v (t2 ++ rest) ∧ Eats q t2 w rest := by
  constructor
  · rintro ⟨n, m, h1, h2, h3⟩
    obtain ⟨t1, r1, h4, rfl, h5⟩ := success_split h1
    have h2' := h2
    rw [h4, at_success] at h2'
    obtain ⟨t2, r2, rfl, rfl, h6⟩ := success_split h2'
    rw [← List.append_assoc] at h4
    obtain ⟨h7, h8⟩ := List.append_inj h4 (by simpa using h3)
    subst h7 h8
    exact ⟨t1, t2, rfl, h5, h6⟩
  · rintro ⟨t1, t2, rfl, h1, h2⟩
    refine ⟨t1.length, t2.length, ?_, ?_, by simp⟩
    · rw [List.append_assoc]; exact h1
    · rw [List.append_assoc, at_success]; exact h2

theorem seq_failure {p : Parser I A} {q : Parser I B} [Good p] [Good q] (r : List I) (c : Committed) :
    (∃ v n e, p ⟨r, 0⟩ = .success v n ∧ q ⟨r, n⟩ = .failure e c) ↔
      ∃ t v rest, r = t ++ rest ∧ Eats p t v rest ∧ Fail q rest c := by
  constructor
  · rintro ⟨v, n, e, h1, h2⟩
    obtain ⟨t, rest, rfl, rfl, h3⟩ := success_split h1
    exact ⟨t, v, rest, rfl, h3, (at_failure t rest c).1 ⟨e, h2⟩⟩
  · rintro ⟨t, v, rest, rfl, h1, h2⟩
    obtain ⟨e, h⟩ := (at_failure (p := q) t rest c).2 h2
    exact ⟨v, t.length, e, h1, h⟩

theorem seq_diverge {p : Parser I A} {q : Parser I B} [Good p] [Good q] (r : List I) :
    (∃ v n, p ⟨r, 0⟩ = .success v n ∧ q ⟨r, n⟩ = .diverge) ↔
      ∃ t v rest, r = t ++ rest ∧ Eats p t v rest ∧ ¬ Ret q rest := by
  constructor
  · rintro ⟨v, n, h1, h2⟩
    obtain ⟨t, rest, rfl, rfl, h3⟩ := success_split h1
    exact ⟨t, v, rest, rfl, h3, by simpa [Ret] using (at_diverge t rest).1 h2⟩
  · rintro ⟨t, v, rest, rfl, h1, h2⟩
    exact ⟨v, t.length, h1, (at_diverge t rest).2 (by simpa [Ret] using h2)⟩

/-! ### The combinators -/

section rules
variable {p : Parser I A} {q : Parser I B} {t r rest : List I} {c : Committed}

theorem eats_successful {a v : A} : Eats (successful a) t v rest ↔ t = [] ∧ v = a := by
  unfold Eats successful
  simp only [Res.success.injEq]
  constructor
  · rintro ⟨rfl, h⟩; exact ⟨List.length_eq_zero_iff.1 h.symm, rfl⟩
  · rintro ⟨rfl, rfl⟩; exact ⟨rfl, rfl⟩

theorem fail_successful {a : A} : ¬ Fail (successful a) r c := by
  rintro ⟨e, h⟩; cases h

theorem eats_map {f : A → B} {w : B} : Eats (map p f) t w rest ↔ ∃ v, Eats p t v rest ∧ w = f v := by
  unfold Eats map
  cases h : p ⟨t ++ rest, 0⟩ <;> simp
  constructor
  · rintro ⟨rfl, rfl⟩; exact ⟨_, ⟨rfl, rfl⟩, rfl⟩
  · rintro ⟨v, ⟨rfl, rfl⟩, rfl⟩; exact ⟨rfl, rfl⟩

theorem fail_map {f : A → B} : Fail (map p f) r c ↔ Fail p r c := by
  unfold Fail map
  cases h : p ⟨r, 0⟩ <;> simp

theorem ret_map {f : A → B} : Ret (map p f) r ↔ Ret p r := by
  unfold Ret map
  cases h : p ⟨r, 0⟩ <;> simp

theorem eats_andThen [Good p] [Good q] {v : A} {w : B} : Eats (andThen p q) t (v, w) rest ↔
    ∃ t1 t2, t = t1 ++ t2 ∧ Eats p t1 v (t2 ++ rest) ∧ Eats q t2 w rest := by
  rw [← seq_success]
  unfold Eats andThen
  cases h : p ⟨t ++ rest, 0⟩ with
  | success a n =>
    simp only [State.advanceBy, Nat.zero_add]
    cases h' : q ⟨t ++ rest, n⟩ with
    | success b m =>
      simp only [Res.success.injEq, Prod.mk.injEq]
      constructor
      · rintro ⟨⟨rfl, rfl⟩, h3⟩; exact ⟨n, m, ⟨rfl, rfl⟩, by simp [h', h3]⟩
      · rintro ⟨n', m', ⟨rfl, rfl⟩, h3, h4⟩
        rw [h'] at h3; cases h3; exact ⟨⟨rfl, rfl⟩, h4.symm⟩
    | _ =>
      simp only [reduceCtorEq, false_iff]
      rintro ⟨n', m', h2, h3, -⟩; cases h2; rw [h'] at h3; cases h3
  | _ => simp

theorem fail_andThen [Good p] [Good q] : Fail (andThen p q) r c ↔
    Fail p r c ∨ ∃ t v rest, r = t ++ rest ∧ Eats p t v rest ∧ Fail q rest c := by
  rw [← seq_failure]
  unfold Fail andThen
  cases h : p ⟨r, 0⟩ with
  | success a n =>
    simp only [State.advanceBy, Nat.zero_add]
    constructor
    · rintro ⟨e, h2⟩
      cases h' : q ⟨r, n⟩ <;> simp only [h', reduceCtorEq] at h2
      obtain ⟨rfl, rfl⟩ := Res.failure.inj h2
      exact .inr ⟨a, n, _, rfl, h'⟩
    · rintro (⟨e, h2⟩ | ⟨v, n', e, h2, h3⟩)
      · cases h2
      · cases h2; exact ⟨e, by rw [h3]⟩
  | _ => simp

theorem ret_andThen [Good p] [Good q] : Ret (andThen p q) r ↔
    Ret p r ∧ ∀ t v rest, r = t ++ rest → Eats p t v rest → Ret q rest := by
  have := seq_diverge (p := p) (q := q) r
  have key : ¬ Ret (andThen p q) r ↔ ¬ Ret p r ∨ ∃ v n, p ⟨r, 0⟩ = .success v n ∧ q ⟨r, n⟩ = .diverge := by
    unfold Ret andThen
    cases h : p ⟨r, 0⟩ with
    | success a n =>
      simp only [State.advanceBy, Nat.zero_add]
      constructor
      · intro h2
        cases h' : q ⟨r, n⟩ <;> simp [h'] at h2
        exact .inr ⟨a, n, rfl, h'⟩
      · rintro (h2 | ⟨v, n', h2, h3⟩)
        · simp at h2
        · cases h2; simp [h3]
    | _ => simp
  rw [this] at key
  constructor
  · intro h
    refine ⟨by_contra fun h' => key.2 (.inl h') h, fun t v rest h1 h2 => by_contra fun h' => ?_⟩
    exact key.2 (.inr ⟨t, v, rest, h1, h2, h'⟩) h
  · rintro ⟨h1, h2⟩
    by_contra h
    rcases key.1 h with h | ⟨t, v, rest, h3, h4, h5⟩
    · exact h h1
    · exact h5 (h2 t v rest h3 h4)

private theorem skipLeft_map : skipLeft p q = map (andThen p q) Prod.snd := by
  funext s
  unfold skipLeft andThen map
  cases h : p s with
  | success a n => simp only [h]; cases h' : q (s.advanceBy n) <;> rfl
  | _ => simp only [h]

private theorem skipRight_map : skipRight p q = map (andThen p q) Prod.fst := by
  funext s
  unfold skipRight andThen map
  cases h : p s with
  | success a n => simp only [h]; cases h' : q (s.advanceBy n) <;> rfl
  | _ => simp only [h]

theorem eats_skipLeft [Good p] [Good q] {w : B} : Eats (skipLeft p q) t w rest ↔
    ∃ t1 t2 v, t = t1 ++ t2 ∧ Eats p t1 v (t2 ++ rest) ∧ Eats q t2 w rest := by
  rw [skipLeft_map, eats_map]
  constructor
  · rintro ⟨⟨v, w'⟩, h, rfl⟩
    obtain ⟨t1, t2, h1, h2, h3⟩ := eats_andThen.1 h
    exact ⟨t1, t2, v, h1, h2, h3⟩
  · rintro ⟨t1, t2, v, h1, h2, h3⟩
    exact ⟨(v, w), eats_andThen.2 ⟨t1, t2, h1, h2, h3⟩, rfl⟩

theorem eats_skipRight [Good p] [Good q] {v : A} : Eats (skipRight p q) t v rest ↔
    ∃ t1 t2 w, t = t1 ++ t2 ∧ Eats p t1 v (t2 ++ rest) ∧ Eats q t2 w rest := by
  rw [skipRight_map, eats_map]
  constructor
  · rintro ⟨⟨v', w⟩, h, rfl⟩
    obtain ⟨t1, t2, h1, h2, h3⟩ := eats_andThen.1 h
    exact ⟨t1, t2, w, h1, h2, h3⟩
  · rintro ⟨t1, t2, w, h1, h2, h3⟩
    exact ⟨(v, w), eats_andThen.2 ⟨t1, t2, h1, h2, h3⟩, rfl⟩

theorem fail_skipLeft [Good p] [Good q] : Fail (skipLeft p q) r c ↔
    Fail p r c ∨ ∃ t v rest, r = t ++ rest ∧ Eats p t v rest ∧ Fail q rest c := by
  rw [skipLeft_map, fail_map, fail_andThen]

theorem fail_skipRight [Good p] [Good q] : Fail (skipRight p q) r c ↔
    Fail p r c ∨ ∃ t v rest, r = t ++ rest ∧ Eats p t v rest ∧ Fail q rest c := by
  rw [skipRight_map, fail_map, fail_andThen]

theorem ret_skipLeft [Good p] [Good q] : Ret (skipLeft p q) r ↔
    Ret p r ∧ ∀ t v rest, r = t ++ rest → Eats p t v rest → Ret q rest := by
  rw [skipLeft_map, ret_map, ret_andThen]

theorem ret_skipRight [Good p] [Good q] : Ret (skipRight p q) r ↔
    Ret p r ∧ ∀ t v rest, r = t ++ rest → Eats p t v rest → Ret q rest := by
  rw [skipRight_map, ret_map, ret_andThen]

theorem eats_or {p q : Parser I A} {v : A} : Eats (or p q) t v rest ↔
    Eats p t v rest ∨ (Fail p (t ++ rest) .uncommitted ∧ Eats q t v rest) := by
  unfold Eats or Fail
  cases h : p ⟨t ++ rest, 0⟩ with
  | failure e c => cases c <;> simp
  | _ => simp

theorem fail_or {p q : Parser I A} : Fail (or p q) r c ↔
    (c = .committed ∧ Fail p r .committed) ∨ (Fail p r .uncommitted ∧ Fail q r c) := by
  unfold Fail or
  cases h : p ⟨r, 0⟩ with
  | failure e c' => cases c' <;> cases c <;> simp
  | _ => simp

theorem ret_or {p q : Parser I A} : Ret (or p q) r ↔
    Ret p r ∧ (Fail p r .uncommitted → Ret q r) := by
  unfold Ret or Fail
  cases h : p ⟨r, 0⟩ with
  | failure e c' => cases c' <;> simp
  | _ => simp

theorem eats_attempt {v : A} : Eats (attempt p) t v rest ↔ Eats p t v rest := by
  unfold Eats attempt
  cases h : p ⟨t ++ rest, 0⟩ with
  | failure e c' => cases c' <;> simp [Res.withUncommitted]
  | _ => simp [Res.withUncommitted]

theorem fail_attempt : Fail (attempt p) r c ↔ c = .uncommitted ∧ ∃ c', Fail p r c' := by
  unfold Fail attempt
  cases h : p ⟨r, 0⟩ with
  | failure e c' => cases c' <;> cases c <;> simp [Res.withUncommitted]
  | _ => simp [Res.withUncommitted]

theorem ret_attempt : Ret (attempt p) r ↔ Ret p r := by
  unfold Ret attempt
  cases h : p ⟨r, 0⟩ with
  | failure e c' => cases c' <;> simp [Res.withUncommitted]
  | _ => simp [Res.withUncommitted]

theorem eats_opt {v : Option A} : Eats (opt p) t v rest ↔
    (∃ a, v = some a ∧ Eats p t a rest) ∨ (t = [] ∧ v = none ∧ ∃ c, Fail p rest c) := by
  unfold opt
  rw [eats_or, eats_map, fail_map, fail_attempt, eats_successful]
  simp only [eats_attempt]
  constructor
  · rintro (⟨a, h, rfl⟩ | ⟨⟨-, h⟩, rfl, rfl⟩)
    · exact .inl ⟨a, rfl, h⟩
    · exact .inr ⟨rfl, rfl, h⟩
  · rintro (⟨a, rfl, h⟩ | ⟨rfl, rfl, h⟩)
    · exact .inl ⟨a, h, rfl⟩
    · exact .inr ⟨⟨trivial, h⟩, rfl, rfl⟩

theorem fail_opt : ¬ Fail (opt p) r c := by
  unfold opt
  rw [fail_or, fail_map, fail_attempt]
  rintro (⟨-, h, -⟩ | ⟨-, h⟩)
  · cases h
  · exact fail_successful h

theorem ret_opt : Ret (opt p) r ↔ Ret p r := by
  unfold opt
  rw [ret_or, ret_map, ret_attempt]
  exact ⟨fun h => h.1, fun h => ⟨h, fun _ => by simp [Ret, successful]⟩⟩

theorem eats_filter {f : A → Bool} {v : A} : Eats (filter p f) t v rest ↔ Eats p t v rest ∧ f v = true := by
  unfold Eats filter
  cases h : p ⟨t ++ rest, 0⟩ with
  | success a n =>
    dsimp only
    by_cases hf : f a
    · simp only [hf, if_true, Res.success.injEq]
      constructor
      · rintro ⟨rfl, rfl⟩; exact ⟨⟨rfl, rfl⟩, hf⟩
      · exact fun h => h.1
    · simp only [hf, if_false, Bool.false_eq_true, reduceCtorEq, false_iff, Res.success.injEq]
      rintro ⟨⟨rfl, -⟩, h⟩; exact hf h
  | _ => simp

theorem fail_filter [Good p] {f : A → Bool} : Fail (filter p f) r c ↔
    Fail p r c ∨ (c = .uncommitted ∧ ∃ t v rest, r = t ++ rest ∧ Eats p t v rest ∧ f v = false) := by
  cases h : p ⟨r, 0⟩ with
  | success a n =>
    have h1 : ¬ Fail p r c := by rintro ⟨e, h'⟩; rw [h] at h'; cases h'
    obtain ⟨t', rest', h3, -, h4⟩ := success_split h
    have h2 : (∃ t v rest, r = t ++ rest ∧ Eats p t v rest ∧ f v = false) ↔ f a = false := by
      constructor
      · rintro ⟨t, v, rest, h5, h6, h7⟩
        obtain ⟨-, rfl, -⟩ := eats_unique h6 h4 (by rw [← h5, ← h3])
        exact h7
      · intro h; exact ⟨t', a, rest', h3, h4, h⟩
    simp only [h1, h2, false_or]
    unfold Fail filter
    simp only [h]
    cases f a <;> cases c <;> simp
  | failure e c' =>
    have h2 : ¬ ∃ t v rest, r = t ++ rest ∧ Eats p t v rest ∧ f v = false := by
      rintro ⟨t, v, rest, rfl, h5, -⟩; exact not_eats_fail h5 ⟨e, h⟩
    simp only [h2, and_false, or_false]
    unfold Fail filter; simp [h]
  | panic =>
    have h2 : ¬ ∃ t v rest, r = t ++ rest ∧ Eats p t v rest ∧ f v = false := by
      rintro ⟨t, v, rest, rfl, h5, -⟩; unfold Eats at h5; rw [h] at h5; cases h5
    simp only [h2, and_false, or_false]
    unfold Fail filter; simp [h]
  | diverge =>
    have h2 : ¬ ∃ t v rest, r = t ++ rest ∧ Eats p t v rest ∧ f v = false := by
      rintro ⟨t, v, rest, rfl, h5, -⟩; unfold Eats at h5; rw [h] at h5; cases h5
    simp only [h2, and_false, or_false]
    unfold Fail filter; simp [h]

theorem ret_filter {f : A → Bool} : Ret (filter p f) r ↔ Ret p r := by
  unfold Ret filter
  cases h : p ⟨r, 0⟩ with
  | success a n => dsimp only; split <;> simp
  | _ => simp

theorem eats_mapRes {f : A → Option B} {w : B} : Eats (mapRes p f) t w rest ↔
    ∃ v, Eats p t v rest ∧ f v = some w := by
  unfold Eats mapRes
  cases h : p ⟨t ++ rest, 0⟩ with
  | success a n =>
    dsimp only
    cases hf : f a with
    | none =>
      simp only [State.withInput, Nat.zero_le, if_true, reduceCtorEq, Res.success.injEq, false_iff]
      rintro ⟨v, ⟨rfl, -⟩, h⟩; rw [hf] at h; cases h
    | some b =>
      simp only [Res.success.injEq]
      constructor
      · rintro ⟨rfl, rfl⟩; exact ⟨_, ⟨rfl, rfl⟩, hf⟩
      · rintro ⟨v, ⟨rfl, rfl⟩, h6⟩; rw [hf] at h6; cases h6; exact ⟨rfl, rfl⟩
  | _ => simp

theorem fail_mapRes [Good p] {f : A → Option B} : Fail (mapRes p f) r c ↔
    Fail p r c ∨ (c = .uncommitted ∧ ∃ t v rest, r = t ++ rest ∧ Eats p t v rest ∧ f v = none) := by
  cases h : p ⟨r, 0⟩ with
  | success a n =>
    have h1 : ¬ Fail p r c := by rintro ⟨e, h'⟩; rw [h] at h'; cases h'
    obtain ⟨t', rest', h3, -, h4⟩ := success_split h
    have h2 : (∃ t v rest, r = t ++ rest ∧ Eats p t v rest ∧ f v = none) ↔ f a = none := by
      constructor
      · rintro ⟨t, v, rest, h5, h6, h7⟩
        obtain ⟨-, rfl, -⟩ := eats_unique h6 h4 (by rw [← h5, ← h3])
        exact h7
      · intro h; exact ⟨t', a, rest', h3, h4, h⟩
    simp only [h1, h2, false_or]
    unfold Fail mapRes
    simp only [h]
    cases f a <;> cases c <;> simp [State.withInput]
  | failure e c' =>
    have h2 : ¬ ∃ t v rest, r = t ++ rest ∧ Eats p t v rest ∧ f v = none := by
      rintro ⟨t, v, rest, rfl, h5, -⟩; exact not_eats_fail h5 ⟨e, h⟩
    simp only [h2, and_false, or_false]
    unfold Fail mapRes; simp [h]
  | panic =>
    have h2 : ¬ ∃ t v rest, r = t ++ rest ∧ Eats p t v rest ∧ f v = none := by
      rintro ⟨t, v, rest, rfl, h5, -⟩; unfold Eats at h5; rw [h] at h5; cases h5
    simp only [h2, and_false, or_false]
    unfold Fail mapRes; simp [h]
  | diverge =>
    have h2 : ¬ ∃ t v rest, r = t ++ rest ∧ Eats p t v rest ∧ f v = none := by
      rintro ⟨t, v, rest, rfl, h5, -⟩; unfold Eats at h5; rw [h] at h5; cases h5
    simp only [h2, and_false, or_false]
    unfold Fail mapRes; simp [h]

theorem ret_mapRes {f : A → Option B} : Ret (mapRes p f) r ↔ Ret p r := by
  unfold Ret mapRes
  cases h : p ⟨r, 0⟩ with
  | success a n => dsimp only; cases f a <;> simp [State.withInput]
  | _ => simp

theorem eats_collect {v : List I} : Eats (collect p) t v rest ↔ v = t ∧ ∃ a, Eats p t a rest := by
  unfold Eats collect
  cases h : p ⟨t ++ rest, 0⟩ with
  | success a n =>
    simp only [State.withSlice, Nat.zero_add, List.length_append, List.drop_zero, Res.success.injEq]
    constructor
    · intro h
      split at h
      · simp only [Res.success.injEq] at h
        obtain ⟨rfl, rfl⟩ := h
        exact ⟨by simp, a, rfl, rfl⟩
      · cases h
    · rintro ⟨rfl, a', rfl, rfl⟩
      simp
  | _ => simp

theorem fail_collect [Good p] : Fail (collect p) r c ↔ Fail p r c := by
  have hs := Good.safe p ⟨r, 0⟩ (Nat.zero_le _)
  unfold Fail collect
  cases h : p ⟨r, 0⟩ with
  | success a n =>
    rw [h] at hs
    have hn : n ≤ r.length := by simpa [SafeAt] using hs
    simp [State.withSlice, hn]
  | _ => simp

theorem ret_collect : Ret (collect p) r ↔ Ret p r := by
  unfold Ret collect
  cases h : p ⟨r, 0⟩ with
  | success a n => simp only [State.withSlice]; split <;> simp
  | _ => simp

theorem eats_discard {v : Unit} : Eats (discard p) t v rest ↔ ∃ a, Eats p t a rest := by
  unfold Eats discard
  cases h : p ⟨t ++ rest, 0⟩ <;> simp

theorem fail_discard : Fail (discard p) r c ↔ Fail p r c := by
  unfold Fail discard
  cases h : p ⟨r, 0⟩ <;> simp

theorem ret_discard : Ret (discard p) r ↔ Ret p r := by
  unfold Ret discard
  cases h : p ⟨r, 0⟩ <;> simp

theorem eats_peek {v : A} [Good p] : Eats (peek p) t v rest ↔
    t = [] ∧ ∃ t' rest', rest = t' ++ rest' ∧ Eats p t' v rest' := by
  have key : (∃ n, p ⟨t ++ rest, 0⟩ = .success v n) ∧ t = [] ↔
      t = [] ∧ ∃ t' rest', rest = t' ++ rest' ∧ Eats p t' v rest' := by
    constructor
    · rintro ⟨⟨n, h⟩, rfl⟩
      obtain ⟨t', rest', h1, -, h2⟩ := success_split h
      exact ⟨rfl, t', rest', h1, h2⟩
    · rintro ⟨rfl, t', rest', rfl, h⟩
      exact ⟨⟨t'.length, h⟩, rfl⟩
  rw [← key]
  unfold Eats peek
  cases h : p ⟨t ++ rest, 0⟩ with
  | success a n =>
    simp only [Res.success.injEq]
    constructor
    · rintro ⟨rfl, h⟩; exact ⟨⟨n, rfl, rfl⟩, List.length_eq_zero_iff.1 h.symm⟩
    · rintro ⟨⟨n, rfl, -⟩, rfl⟩; exact ⟨rfl, rfl⟩
  | _ => simp

theorem fail_peek : Fail (peek p) r c ↔ Fail p r c := by
  unfold Fail peek
  cases h : p ⟨r, 0⟩ <;> simp

theorem ret_peek : Ret (peek p) r ↔ Ret p r := by
  unfold Ret peek
  cases h : p ⟨r, 0⟩ <;> simp

theorem eats_not {v : Unit} : Eats (not_ p) t v rest ↔ t = [] ∧ ∃ c, Fail p rest c := by
  unfold Eats not_ Fail
  constructor
  · intro h
    cases h' : p ⟨t ++ rest, 0⟩ with
    | success a n =>
      simp only [h', State.withInput, State.advanceBy, Nat.add_zero, Nat.zero_le, if_true, reduceCtorEq] at h
    | failure e c =>
      simp only [h', Res.success.injEq] at h
      have : t = [] := List.length_eq_zero_iff.1 h.2.symm
      subst this
      exact ⟨rfl, c, e, h'⟩
    | _ => simp [h'] at h
  · rintro ⟨rfl, c, e, h⟩
    simp only [List.nil_append] at *
    simp [h]

theorem fail_not [Good p] : Fail (not_ p) r c ↔
    c = .uncommitted ∧ ∃ t v rest, r = t ++ rest ∧ Eats p t v rest := by
  unfold Fail not_
  constructor
  · rintro ⟨e, h⟩
    cases h' : p ⟨r, 0⟩ with
    | success a n =>
      simp only [h', State.withInput, State.advanceBy, Nat.add_zero, Nat.zero_le, if_true,
        Res.failure.injEq] at h
      obtain ⟨t, rest, h1, -, h2⟩ := success_split h'
      exact ⟨h.2.symm, t, a, rest, h1, h2⟩
    | _ => simp [h'] at h
  · rintro ⟨rfl, t, v, rest, rfl, h⟩
    unfold Eats at h
    simp [h, State.withInput, State.advanceBy]

theorem ret_not : Ret (not_ p) r ↔ Ret p r := by
  unfold Ret not_
  cases h : p ⟨r, 0⟩ <;> simp [State.withInput, State.advanceBy]

theorem eats_name {v : A} {l : String} : Eats (name p l) t v rest ↔ Eats p t v rest := by
  unfold Eats name
  cases h : p ⟨t ++ rest, 0⟩ with
  | failure e c => dsimp only; split <;> simp
  | _ => simp

theorem fail_name {l : String} : Fail (name p l) r c ↔ Fail p r c := by
  unfold Fail name
  cases h : p ⟨r, 0⟩ with
  | failure e c => dsimp only; split <;> simp
  | _ => simp

theorem ret_name {l : String} : Ret (name p l) r ↔ Ret p r := by
  unfold Ret name
  cases h : p ⟨r, 0⟩ with
  | failure e c => dsimp only; split <;> simp
  | _ => simp

theorem eats_expect {v : A} {l : String} : Eats (expect p l) t v rest ↔ Eats p t v rest := by
  unfold Eats expect
  cases h : p ⟨t ++ rest, 0⟩ <;> simp

theorem fail_expect {l : String} : Fail (expect p l) r c ↔ Fail p r c := by
  unfold Fail expect
  cases h : p ⟨r, 0⟩ <;> simp

theorem ret_expect {l : String} : Ret (expect p l) r ↔ Ret p r := by
  unfold Ret expect
  cases h : p ⟨r, 0⟩ <;> simp

theorem eats_end {v : Unit} : Eats (end_ : Parser I Unit) t v rest ↔ t = [] ∧ rest = [] := by
  unfold Eats end_
  simp only [State.withInput, Nat.zero_le, if_true, List.drop_zero]
  cases t <;> cases rest <;> simp

theorem fail_end : Fail (end_ : Parser I Unit) r c ↔ c = .uncommitted ∧ r ≠ [] := by
  unfold Fail end_
  simp only [State.withInput, Nat.zero_le, if_true, List.drop_zero]
  cases r <;> cases c <;> simp

theorem ret_end : Ret (end_ : Parser I Unit) r := by
  unfold Ret end_
  simp only [State.withInput, Nat.zero_le, if_true, List.drop_zero]
  cases r <;> simp

theorem eats_elmPred {f : I → Bool} {v : I} : Eats (elmPred f) t v rest ↔ t = [v] ∧ f v = true := by
  unfold Eats elmPred
  simp only [State.withInput, Nat.zero_le, if_true, List.drop_zero]
  cases t with
  | nil =>
    cases rest with
    | nil => simp
    | cons x rest => dsimp only [List.nil_append]; split <;> simp
  | cons x t =>
    simp only [List.cons_append]
    by_cases hf : f x
    · simp only [hf, if_true, Res.success.injEq, List.length_cons]
      constructor
      · rintro ⟨rfl, h⟩
        have : t = [] := List.length_eq_zero_iff.1 (by omega)
        subst this; exact ⟨rfl, hf⟩
      · rintro ⟨h, -⟩; cases h; exact ⟨rfl, rfl⟩
    · simp only [hf, Bool.false_eq_true, if_false, reduceCtorEq, false_iff]
      rintro ⟨h, h'⟩; cases h; exact hf h'

theorem fail_elmPred {f : I → Bool} : Fail (elmPred f) r c ↔
    c = .uncommitted ∧ ∀ x rest, r = x :: rest → f x = false := by
  unfold Fail elmPred
  simp only [State.withInput, Nat.zero_le, if_true, List.drop_zero]
  cases r with
  | nil => cases c <;> simp
  | cons x r =>
    dsimp only
    by_cases hf : f x <;> cases c <;> simp [hf]

theorem ret_elmPred {f : I → Bool} : Ret (elmPred f) r := by
  unfold Ret elmPred
  simp only [State.withInput, Nat.zero_le, if_true, List.drop_zero]
  cases r with
  | nil => simp
  | cons x r => dsimp only; split <;> simp

theorem eats_elmOfSet {f : I → Bool} {v : I} : Eats (elmOfSet f) t v rest ↔ t = [v] ∧ f v = true := by
  rw [← eats_elmPred (rest := rest)]
  unfold Eats elmPred elmOfSet
  simp only [State.withInput, Nat.zero_le, if_true, List.drop_zero]
  cases t ++ rest <;> simp

theorem fail_elmOfSet {f : I → Bool} : Fail (elmOfSet f) r c ↔
    c = .uncommitted ∧ ∀ x rest, r = x :: rest → f x = false := by
  rw [← fail_elmPred]
  unfold Fail elmPred elmOfSet
  simp only [State.withInput, Nat.zero_le, if_true, List.drop_zero]
  cases r <;> cases c <;> simp

theorem ret_elmOfSet {f : I → Bool} : Ret (elmOfSet f) r := by
  unfold Ret elmOfSet
  simp only [State.withInput, Nat.zero_le, if_true, List.drop_zero]
  cases r with
  | nil => simp
  | cons x r => dsimp only; split <;> simp

theorem noneOfSet_eq (f : I → Bool) : noneOfSet f = elmOfSet fun x => !f x := rfl

theorem eats_noneOfSet {f : I → Bool} {v : I} : Eats (noneOfSet f) t v rest ↔ t = [v] ∧ f v = false := by
  rw [noneOfSet_eq, eats_elmOfSet]; simp

theorem fail_noneOfSet {f : I → Bool} : Fail (noneOfSet f) r c ↔
    c = .uncommitted ∧ ∀ x rest, r = x :: rest → f x = true := by
  rw [noneOfSet_eq, fail_elmOfSet]; simp

theorem ret_noneOfSet {f : I → Bool} : Ret (noneOfSet f) r := ret_elmOfSet

theorem eats_elm [DecidableEq I] {x v : I} : Eats (elm x) t v rest ↔ t = [x] ∧ v = x := by
  unfold elm
  rw [eats_elmPred]
  simp only [decide_eq_true_eq]
  constructor
  · rintro ⟨rfl, rfl⟩; exact ⟨rfl, rfl⟩
  · rintro ⟨rfl, rfl⟩; exact ⟨rfl, rfl⟩

theorem fail_elm [DecidableEq I] {x : I} : Fail (elm x) r c ↔
    c = .uncommitted ∧ ∀ rest, r ≠ x :: rest := by
  unfold elm
  rw [fail_elmPred]
  simp only [decide_eq_false_iff_not]
  refine and_congr_right fun _ => ⟨fun h rest hr => h x rest hr rfl, fun h y rest hr hy => ?_⟩
  subst hy; exact h rest hr

theorem ret_elm [DecidableEq I] {x : I} : Ret (elm x) r := ret_elmPred

end rules

/-! ### Literals -/

private theorem seqLoop_text [DecidableEq I] (s : State I) (inp lit : List I) :
    ∀ (pat rest : List I) (index : Nat),
      seqLoop (fun c x => decide (c = x)) s inp lit index pat rest =
        (if pat <+: rest then .success lit (index + pat.length)
         else if rest <+: pat then .failure .incomplete .uncommitted
         else seqLoop (fun c x => decide (c = x)) s inp lit index pat rest) ∧
      (¬ pat <+: rest → ∃ e c, seqLoop (fun c x => decide (c = x)) s inp lit index pat rest =
        .failure e c) := by
  intro pat
  induction pat with
  | nil => intro rest index; simp [seqLoop]
  | cons a pat ih =>
    intro rest index
    cases rest with
    | nil => simp [seqLoop]
    | cons x rest =>
      by_cases hax : a = x
      · subst hax
        have := ih rest (index + 1)
        simp only [seqLoop, List.cons_prefix_cons, true_and, List.length_cons, decide_true, if_true]
        refine ⟨?_, this.2⟩
        rw [show index + (pat.length + 1) = index + 1 + pat.length by omega]
        exact this.1
      · simp [seqLoop, hax, List.cons_prefix_cons, Ne.symm hax]

theorem eats_seq [DecidableEq I] {lit t v rest : List I} :
    Eats (seq lit) t v rest ↔ t = lit ∧ v = lit := by
  unfold Eats seq
  simp only [State.withInput, Nat.zero_le, if_true, List.drop_zero]
  have h := seqLoop_text ⟨t ++ rest, 0⟩ (t ++ rest) lit lit (t ++ rest) 0
  by_cases hp : lit <+: t ++ rest
  · rw [h.1, if_pos hp]
    simp only [Res.success.injEq, Nat.zero_add]
    constructor
    · rintro ⟨rfl, hl⟩
      exact ⟨((List.prefix_iff_eq_take.1 hp).trans (by rw [hl]; simp)).symm, rfl⟩
    · rintro ⟨rfl, rfl⟩; exact ⟨rfl, rfl⟩
  · obtain ⟨e, c, h2⟩ := h.2 hp
    rw [h2]
    simp only [reduceCtorEq, false_iff]
    rintro ⟨rfl, -⟩; exact hp (List.prefix_append _ _)

theorem fail_seq [DecidableEq I] {lit r : List I} :
    (∃ c, Fail (seq lit) r c) ↔ ¬ lit <+: r := by
  unfold Fail seq
  simp only [State.withInput, Nat.zero_le, if_true, List.drop_zero]
  have h := seqLoop_text ⟨r, 0⟩ r lit lit r 0
  by_cases hp : lit <+: r
  · rw [h.1, if_pos hp]; simp [hp]
  · obtain ⟨e, c, h2⟩ := h.2 hp
    rw [h2]; simp [hp]

theorem ret_seq [DecidableEq I] {lit r : List I} : Ret (seq lit) r := by
  unfold Ret seq
  simp only [State.withInput, Nat.zero_le, if_true, List.drop_zero]
  have h := seqLoop_text ⟨r, 0⟩ r lit lit r 0
  by_cases hp : lit <+: r
  · rw [h.1, if_pos hp]; simp
  · obtain ⟨e, c, h2⟩ := h.2 hp
    rw [h2]; simp

/-- A literal fails uncommitted exactly if already its first element does not match, or the text ends
inside the literal. -/
theorem fail_seq_soft [DecidableEq I] {a : I} {lit r : List I}
    (h : ∀ rest, r ≠ a :: rest) : Fail (seq (a :: lit)) r .uncommitted := by
  unfold Fail seq
  simp only [State.withInput, Nat.zero_le, if_true, List.drop_zero]
  cases r with
  | nil => exact ⟨_, rfl⟩
  | cons x r =>
    have : ¬ a = x := by rintro rfl; exact h r rfl
    simp [seqLoop, this, Committed.ofBool]

/-! ### Repetition -/

/-- Consecutive texts read by `p`. -/
inductive Many (p : Parser I A) : List I → List A → List I → Prop where
  | nil (rest : List I) : Many p [] [] rest
  | cons {t t' rest : List I} {v : A} {vs : List A} :
      Eats p t v (t' ++ rest) → Many p t' vs rest → Many p (t ++ t') (v :: vs) rest

/-- `(separator item)*` as a relation on texts. -/
inductive SepMany (p : Parser I A) (q : Parser I B) : List I → List A → List I → Prop where
  | nil (rest : List I) : SepMany p q [] [] rest
  | cons {s t t' rest : List I} {b : B} {v : A} {vs : List A} :
      Eats q s b (t ++ (t' ++ rest)) → Eats p t v (t' ++ rest) → SepMany p q t' vs rest →
      SepMany p q (s ++ (t ++ t')) (v :: vs) rest

theorem run_many {p : Parser I A} [Good p] (pre r : List I) (vs : List A) (n : Nat) :
    Run p ⟨pre ++ r, pre.length⟩ vs n ↔ ∃ t rest, r = t ++ rest ∧ n = t.length ∧ Many p t vs rest := by
  induction vs generalizing pre r n with
  | nil =>
    constructor
    · intro h; cases h; exact ⟨[], r, rfl, rfl, .nil r⟩
    · rintro ⟨t, rest, rfl, rfl, h⟩; cases h; exact .nil _
  | cons v vs ih =>
    constructor
    · intro h
      cases h with
      | @cons _ n m _ _ h1 h2 =>
        obtain ⟨t, rest, rfl, rfl, h3⟩ := success_split ((at_success pre r v n).1 h1)
        have h2' : Run p ⟨(pre ++ t) ++ rest, (pre ++ t).length⟩ vs m := by simpa using h2
        obtain ⟨t', rest', rfl, rfl, h4⟩ := (ih _ _ _).1 h2'
        exact ⟨t ++ t', rest', by simp, by simp, .cons h3 h4⟩
    · rintro ⟨t, rest, rfl, rfl, h⟩
      cases h with
      | @cons t t' _ _ _ h1 h2 =>
        rw [List.length_append]
        refine .cons ((at_success pre _ v _).2 (by rw [List.append_assoc]; exact h1)) ?_
        have := (ih (pre ++ t) (t' ++ rest) t'.length).2 ⟨t', rest, rfl, rfl, h2⟩
        simpa using this

theorem sepRun_many {p : Parser I A} {q : Parser I B} [Good p] [Good q] (pre r : List I) (vs : List A)
    (n : Nat) : SepRun p (some q) ⟨pre ++ r, pre.length⟩ vs n ↔
      ∃ t rest, r = t ++ rest ∧ n = t.length ∧ SepMany p q t vs rest := by
  induction vs generalizing pre r n with
  | nil =>
    constructor
    · intro h; cases h; exact ⟨[], r, rfl, rfl, .nil r⟩
    · rintro ⟨t, rest, rfl, rfl, h⟩; cases h; exact .nil _
  | cons v vs ih =>
    constructor
    · intro h
      cases h with
      | @cons _ k n m _ _ h1 h2 h3 =>
        obtain ⟨b, h1⟩ := h1
        obtain ⟨s, rest, rfl, rfl, h4⟩ := success_split ((at_success pre r b k).1 h1)
        have h2' : p ⟨(pre ++ s) ++ rest, (pre ++ s).length⟩ = .success v n := by simpa using h2
        obtain ⟨t, rest', rfl, rfl, h5⟩ := success_split ((at_success _ _ v n).1 h2')
        have h3' : SepRun p (some q) ⟨(pre ++ s ++ t) ++ rest', (pre ++ s ++ t).length⟩ vs m := by
          simpa [Nat.add_assoc] using h3
        obtain ⟨t', rest'', rfl, rfl, h6⟩ := (ih _ _ _).1 h3'
        exact ⟨s ++ (t ++ t'), rest'', by simp, by simp [Nat.add_assoc], .cons h4 h5 h6⟩
    · rintro ⟨t, rest, rfl, rfl, h⟩
      cases h with
      | @cons s t t' _ b _ _ h1 h2 h3 =>
        have e1 := (at_success pre _ b _).2 h1
        have e2 := (at_success (pre ++ s) _ v _).2 h2
        have e3 := (ih (pre ++ s ++ t) (t' ++ rest) t'.length).2 ⟨t', rest, rfl, rfl, h3⟩
        have : (s ++ (t ++ t')).length = s.length + t.length + t'.length := by simp [Nat.add_assoc]
        rw [this]
        refine .cons ⟨b, ?_⟩ (n := t.length) ?_ ?_
        · simpa using e1
        · simpa using e2
        · simpa [Nat.add_assoc] using e3

section rules
variable {p : Parser I A} {q : Parser I B} {t r rest : List I} {c : Committed}

theorem eats_many0 [Good p] {vs : List A} : Eats (many0 p) t vs rest ↔
    Many p t vs rest ∧ ∃ c, Fail p rest c := by
  constructor
  · intro h
    obtain ⟨h1, h2⟩ := c12_many0_sound _ _ _ _ h
    obtain ⟨t', rest', h3, h4, h5⟩ := (run_many [] (t ++ rest) vs _).1 (by simpa using h1)
    obtain ⟨rfl, rfl⟩ := List.append_inj h3 h4
    exact ⟨h5, (at_fails t rest).1 (by simpa using h2)⟩
  · rintro ⟨h1, h2⟩
    refine c12_many0_complete p Good.tame _ _ _ ?_ ?_
    · have := (run_many [] (t ++ rest) vs _).2 ⟨t, rest, rfl, rfl, h1⟩
      simpa using this
    · simpa using (at_fails t rest).2 h2

theorem fail_many0 : ¬ Fail (many0 p) r c := by
  rintro ⟨e, h⟩; exact c12_many0_never_fails _ _ _ _ h

theorem eats_many1 [Good p] {vs : List A} : Eats (many1 p) t vs rest ↔
    vs ≠ [] ∧ Many p t vs rest ∧ ∃ c, Fail p rest c := by
  unfold Eats
  rw [c13_many1_eq p Good.tame]
  constructor
  · rintro ⟨v, l, ws, m, h1, h2, rfl, h3⟩
    obtain ⟨t1, r1, h4, rfl, h5⟩ := success_split h1
    have h2' : many0 p ⟨t1 ++ r1, t1.length⟩ = .success ws m := by simpa [h4] using h2
    obtain ⟨t2, r2, rfl, rfl, h6⟩ := success_split ((at_success t1 r1 ws m).1 h2')
    rw [← List.append_assoc] at h4
    obtain ⟨rfl, rfl⟩ := List.append_inj h4 (by simpa using h3)
    obtain ⟨h7, h8⟩ := eats_many0.1 h6
    exact ⟨by simp, .cons h5 h7, h8⟩
  · rintro ⟨hne, h1, h2⟩
    cases h1 with
    | nil => exact absurd rfl hne
    | @cons t t' _ v vs h3 h4 =>
      refine ⟨v, t.length, vs, t'.length, ?_, ?_, rfl, by simp⟩
      · rw [List.append_assoc]; exact h3
      · have := (at_success (p := many0 p) t (t' ++ rest) vs t'.length).2 (eats_many0.2 ⟨h4, h2⟩)
        simpa using this

theorem fail_many1 : Fail (many1 p) r c ↔ c = .uncommitted ∧ ∃ c', Fail p r c' := by
  unfold Fail
  constructor
  · rintro ⟨e, h⟩
    obtain ⟨⟨e', c', h1⟩, h2, -⟩ := (c13_many1_fails_iff p _ (Nat.zero_le _) e c).1 h
    exact ⟨h2, c', e', h1⟩
  · rintro ⟨rfl, c', e', h⟩
    exact ⟨_, (c13_many1_fails_iff p ⟨r, 0⟩ (Nat.zero_le _) _ _).2 ⟨⟨e', c', h⟩, rfl, rfl⟩⟩

/-- Items and separators, plus a separator without a following item. -/
theorem eats_many1Sep [Good p] [Good q] {vs : List A} : Eats (many1Sep p q) t vs rest ↔
    ∃ t1 t2 t3 v ws, t = t1 ++ (t2 ++ t3) ∧ vs = v :: ws ∧ Eats p t1 v (t2 ++ (t3 ++ rest)) ∧
      SepMany p q t2 ws (t3 ++ rest) ∧
      ((t3 = [] ∧ ∃ c, Fail q rest c) ∨ ((∃ b, Eats q t3 b rest) ∧ ∃ c, Fail p rest c)) := by
  have hend : ∀ (pre t3 rest : List I),
      NoMore p (some q) ⟨pre ++ (t3 ++ rest), pre.length⟩ t3.length ↔
        ((t3 = [] ∧ ∃ c, Fail q rest c) ∨ ((∃ b, Eats q t3 b rest) ∧ ∃ c, Fail p rest c)) := by
    intro pre t3 rest
    unfold NoMore SepAt
    refine or_congr ?_ (and_congr ?_ ?_)
    · constructor
      · rintro ⟨h1, q', hq, h2⟩
        cases hq
        have := List.length_eq_zero_iff.1 h1
        subst this
        exact ⟨rfl, (at_fails pre rest).1 h2⟩
      · rintro ⟨rfl, h⟩
        exact ⟨rfl, q, rfl, (at_fails pre rest).2 h⟩
    · simp only [at_success]; rfl
    · have := at_fails (p := p) (pre ++ t3) rest
      rw [← this]; simp
  constructor
  · intro h
    obtain ⟨hne, h⟩ := (c16_many1Sep_iff _ _ _ _ _).1 h
    obtain ⟨m, k, h1, h2, h3⟩ := c16_many0Sep_partial _ _ _ _ _ h
    cases vs with
    | nil => exact absurd rfl hne
    | cons v ws =>
      obtain ⟨l, r, h4, h5, rfl⟩ := h1
      obtain ⟨t1, r1, h6, rfl, h7⟩ := success_split h4
      have h5' : SepRun p (some q) ⟨t1 ++ r1, t1.length⟩ ws r := by simpa [h6] using h5
      obtain ⟨t2, r2, rfl, rfl, h8⟩ := (sepRun_many _ _ _ _).1 h5'
      rcases h3 with ⟨h, -⟩ | ⟨-, h3⟩
      · cases h
      have hk : t.length = t1.length + t2.length + k := h2
      have h3' : NoMore p (some q) ⟨(t1 ++ t2) ++ r2, (t1 ++ t2).length⟩ k := by
        simpa [h6] using h3
      have hlen : (t1 ++ (t2 ++ r2)).length = t.length + rest.length := by rw [← h6]; simp
      have hkr : k ≤ r2.length := by simp at hlen; omega
      have e2 : t ++ rest = (t1 ++ (t2 ++ r2.take k)) ++ r2.drop k := by
        rw [h6]; simp
      obtain ⟨rfl, rfl⟩ := List.append_inj e2 (by simp; omega)
      refine ⟨t1, t2, r2.take k, v, ws, rfl, rfl, ?_, ?_, ?_⟩
      · simpa using h7
      · simpa using h8
      · refine (hend (t1 ++ t2) _ _).1 ?_
        rw [List.take_append_drop, List.length_take, Nat.min_eq_left hkr]
        exact h3'
  · rintro ⟨t1, t2, t3, v, ws, rfl, rfl, h1, h2, h3⟩
    refine (c16_many1Sep_iff _ _ _ _ _).2 ⟨by simp, ?_⟩
    have := c16_many0Sep_complete p q Good.tame Good.tame ⟨(t1 ++ (t2 ++ t3)) ++ rest, 0⟩ (v :: ws)
      (t1.length + t2.length) t3.length ⟨t1.length, t2.length, ?_, ?_, rfl⟩ (.inr ⟨by simp, ?_⟩)
    · rw [this]; simp [Nat.add_assoc]
    · simp only [List.append_assoc]; exact h1
    · have := (sepRun_many t1 (t2 ++ (t3 ++ rest)) ws t2.length).2 ⟨t2, _, rfl, rfl, h2⟩
      simpa using this
    · have := (hend (t1 ++ t2) t3 rest).2 h3
      simpa using this

theorem eats_many0Sep [Good p] [Good q] {vs : List A} : Eats (many0Sep p q) t vs rest ↔
    (t = [] ∧ vs = [] ∧ ∃ c, Fail p rest c) ∨ Eats (many1Sep p q) t vs rest := by
  have h1 : Eats (many1Sep p q) t vs rest ↔ vs ≠ [] ∧ Eats (many0Sep p q) t vs rest :=
    c16_many1Sep_iff _ _ _ _ _
  rw [h1]
  constructor
  · intro h
    by_cases hv : vs = []
    · subst hv
      obtain ⟨m, k, h2, h3, h4⟩ := c16_many0Sep_partial _ _ _ _ _ h
      rcases h4 with ⟨-, rfl, h5⟩ | ⟨h5, -⟩
      · have h2 : m = 0 := h2
        have : t = [] := List.length_eq_zero_iff.1 (by omega)
        subst this
        exact .inl ⟨rfl, rfl, (at_fails [] rest).1 (by simpa using h5)⟩
      · exact absurd rfl h5
    · exact .inr ⟨hv, h⟩
  · rintro (⟨rfl, rfl, h⟩ | ⟨-, h⟩)
    · exact c16_many0Sep_complete p q Good.tame Good.tame ⟨rest, 0⟩ [] 0 0 rfl
        (.inl ⟨rfl, rfl, by simpa using (at_fails (p := p) [] rest).2 h⟩)
    · exact h

theorem fail_many1Sep : Fail (many1Sep p q) r c ↔ c = .uncommitted ∧ ∃ c', Fail p r c' := by
  constructor
  · rintro ⟨e, h⟩
    have := c15_failure p (.from_ 1) ⟨1, by simp [Range.Contains, Range.from_]⟩ (some q) ⟨r, 0⟩ e c h
    obtain ⟨rfl, m, vs, l, k, hm, hlt, hi, he⟩ := this
    simp only [Range.from_, Bound.included.injEq] at hm
    subst hm
    have : vs = [] := List.length_eq_zero_iff.1 (by omega)
    subst this
    rcases he with ⟨-, -, e', c', h'⟩ | ⟨h, -⟩
    · exact ⟨rfl, c', e', h'⟩
    · exact absurd rfl h
  · rintro ⟨rfl, c', e', h⟩
    unfold Fail many1Sep repeatSep
    simp [h, repFinish, Range.from_, State.withInput, State.advanceBy]

theorem fail_many0Sep : ¬ Fail (many0Sep p q) r c := by
  rintro ⟨e, h⟩
  have := c15_failure p (.from_ 0) ⟨1, by simp [Range.Contains, Range.from_]⟩ (some q) ⟨r, 0⟩ e c h
  obtain ⟨-, m, vs, l, k, hm, hlt, -, -⟩ := this
  cases hm
  exact Nat.not_lt_zero _ hlt

theorem eats_flatMap [Good p] {f : A → Parser I B} [∀ a, Good (f a)] {w : B} :
    Eats (flatMap p f) t w rest ↔
      ∃ t1 t2 v, t = t1 ++ t2 ∧ Eats p t1 v (t2 ++ rest) ∧ Eats (f v) t2 w rest := by
  have key : Eats (flatMap p f) t w rest ↔ ∃ v n m, p ⟨t ++ rest, 0⟩ = .success v n ∧
      f v ⟨t ++ rest, n⟩ = .success w m ∧ t.length = n + m := by
    unfold Eats flatMap
    cases h : p ⟨t ++ rest, 0⟩ with
    | success a n =>
      simp only [State.advanceBy, Nat.zero_add]
      constructor
      · intro h2
        cases h' : f a ⟨t ++ rest, n⟩ with
        | success b m =>
          simp only [h', Res.addCommit, Res.advanceSuccess, Res.success.injEq] at h2
          obtain ⟨rfl, h2⟩ := h2
          exact ⟨a, n, m, rfl, h', by omega⟩
        | _ => simp [h', Res.addCommit, Res.advanceSuccess] at h2
      · rintro ⟨v, n', m, h2, h3, h4⟩
        cases h2
        simp only [h3, Res.addCommit, Res.advanceSuccess, Res.success.injEq]
        exact ⟨trivial, by omega⟩
    | _ => simp
  rw [key]
  constructor
  · rintro ⟨v, n, m, h⟩
    obtain ⟨t1, t2, h1, h2, h3⟩ := (seq_success (q := f v) t rest v w).1 ⟨n, m, h⟩
    exact ⟨t1, t2, v, h1, h2, h3⟩
  · rintro ⟨t1, t2, v, h1, h2, h3⟩
    obtain ⟨n, m, h⟩ := (seq_success (q := f v) t rest v w).2 ⟨t1, t2, h1, h2, h3⟩
    exact ⟨v, n, m, h⟩

theorem fail_flatMap [Good p] {f : A → Parser I B} [∀ a, Good (f a)] :
    Fail (flatMap p f) r c ↔ Fail p r c ∨
      ∃ t v rest c', r = t ++ rest ∧ Eats p t v rest ∧ Fail (f v) rest c' ∧
        c = if t = [] then c' else .committed := by
  constructor
  · rintro ⟨e, h⟩
    unfold flatMap at h
    cases h1 : p ⟨r, 0⟩ with
    | success a n =>
      obtain ⟨t, rest, rfl, rfl, h2⟩ := success_split h1
      simp only [h1, State.advanceBy, Nat.zero_add] at h
      cases h3 : f a ⟨t ++ rest, t.length⟩ with
      | failure e' c' =>
        simp only [h3, Res.addCommit, Res.advanceSuccess, Res.failure.injEq] at h
        refine .inr ⟨t, a, rest, c', rfl, h2, (at_failure t rest c').1 ⟨e', h3⟩, ?_⟩
        rw [← h.2]
        cases t <;> cases c' <;> simp [Committed.or, Committed.ofBool]
      | _ => simp [h3, Res.addCommit, Res.advanceSuccess] at h
    | failure e' c' => rw [h1] at h; cases h; exact .inl ⟨e, h1⟩
    | _ => rw [h1] at h; cases h
  · rintro (⟨e, h⟩ | ⟨t, v, rest, c', rfl, h1, h2, rfl⟩)
    · exact ⟨e, by unfold flatMap; rw [h]⟩
    · obtain ⟨e, h⟩ := (at_failure (p := f v) t rest c').2 h2
      unfold Eats at h1
      refine ⟨e, ?_⟩
      unfold flatMap
      simp only [h1, State.advanceBy, Nat.zero_add, h, Res.addCommit, Res.advanceSuccess,
        Res.failure.injEq, true_and]
      cases t <;> cases c' <;> simp [Committed.or, Committed.ofBool]

theorem ret_flatMap [Good p] {f : A → Parser I B} [∀ a, Good (f a)] : Ret (flatMap p f) r ↔
    Ret p r ∧ ∀ t v rest, r = t ++ rest → Eats p t v rest → Ret (f v) rest := by
  constructor
  · intro h
    refine ⟨fun h' => h (by unfold flatMap; rw [h']), ?_⟩
    rintro t v rest rfl h1 h2
    refine h ?_
    have := (at_diverge (p := f v) t rest).2 h2
    unfold Eats at h1
    unfold flatMap
    simp only [h1, State.advanceBy, Nat.zero_add, this, Res.addCommit, Res.advanceSuccess]
  · rintro ⟨h1, h2⟩ h
    unfold flatMap at h
    cases h3 : p ⟨r, 0⟩ with
    | success a n =>
      obtain ⟨t, rest, rfl, rfl, h4⟩ := success_split h3
      simp only [h3, State.advanceBy, Nat.zero_add] at h
      refine h2 t a rest rfl h4 ((at_diverge t rest).1 ?_)
      cases h5 : f a ⟨t ++ rest, t.length⟩ <;> simp [h5, Res.addCommit, Res.advanceSuccess] at h ⊢
    | diverge => exact h1 h3
    | _ => rw [h3] at h; cases h

/-- Running a repetition in bounds, with the number of items bounded by the text. -/
private theorem sepRun_pos [Good p] {sep : Option (Parser I B)} (hg : ∀ q, sep = some q → Good q)
    (hprog : (∀ t v rest, t ++ rest <:+ r → Eats p t v rest → t ≠ []) ∨
      ∃ q, sep = some q ∧ ∀ t b rest, t ++ rest <:+ r → Eats q t b rest → t ≠ [])
    {s : State I} {vs : List A} {m : Nat} (h : SepRun p sep s vs m) :
    ∀ pre r', s = ⟨pre ++ r', pre.length⟩ → r' <:+ r →
      ∃ t rest, r' = t ++ rest ∧ m = t.length ∧ vs.length ≤ t.length := by
  induction h with
  | nil s => intro pre r' hs hr; exact ⟨[], r', rfl, rfl, by simp⟩
  | @cons s k n m v vs h1 h2 h3 ih =>
    rintro pre r' rfl hr
    have hsep : ∃ t1 r1, r' = t1 ++ r1 ∧ k = t1.length ∧
        ((∃ q, sep = some q ∧ ∀ t b rest, t ++ rest <:+ r → Eats q t b rest → t ≠ []) →
          t1 ≠ []) := by
      cases sep with
      | none =>
        have h1 : k = 0 := h1
        exact ⟨[], r', rfl, h1, by rintro ⟨q, hq, -⟩; cases hq⟩
      | some q =>
        obtain ⟨b, h1⟩ := h1
        have := hg q rfl
        obtain ⟨t1, r1, h4, h5, h6⟩ := success_split ((at_success pre r' b k).1 h1)
        refine ⟨t1, r1, h4, h5, ?_⟩
        rintro ⟨q', hq, h7⟩
        cases hq
        exact h7 _ _ _ (h4 ▸ hr) h6
    obtain ⟨t1, r1, rfl, rfl, h4⟩ := hsep
    have h2' : p ⟨(pre ++ t1) ++ r1, (pre ++ t1).length⟩ = .success v n := by simpa using h2
    obtain ⟨t2, r2, rfl, rfl, h5⟩ := success_split ((at_success _ _ v n).1 h2')
    have hr2 : t2 ++ r2 <:+ r := (List.suffix_append t1 _).trans hr
    obtain ⟨t3, r3, rfl, rfl, h6⟩ := ih (pre ++ t1 ++ t2) r2 (by simp [Nat.add_assoc])
      ((List.suffix_append t2 _).trans hr2)
    refine ⟨t1 ++ t2 ++ t3, r3, by simp, by simp [Nat.add_assoc], ?_⟩
    have hpos : 0 < t1.length + t2.length := by
      rcases hprog with h | h
      · have := List.length_pos_iff.2 (h _ _ _ hr2 h5); omega
      · have := List.length_pos_iff.2 (h4 h); omega
    simp only [List.length_cons, List.length_append]; omega

/-- An unbounded repetition returns on `r` if its parsers return on all suffixes of `r` and make
progress there. -/
theorem ret_repeatSep [Good p] {sep : Option (Parser I B)} (hg : ∀ q, sep = some q → Good q)
    (range : Range) (hr : range.stop = .unbounded)
    (hp : ∀ r', r' <:+ r → Ret p r') (hq : ∀ q, sep = some q → ∀ r', r' <:+ r → Ret q r')
    (hprog : (∀ t v rest, t ++ rest <:+ r → Eats p t v rest → t ≠ []) ∨
      ∃ q, sep = some q ∧ ∀ t b rest, t ++ rest <:+ r → Eats q t b rest → t ≠ []) :
    Ret (repeatSep p range sep) r := by
  have htame : TameSep sep := by
    intro q hq'; have := hg q hq'; exact Good.tame
  intro h
  rw [c14_diverge_iff p sep Good.tame htame range hr] at h
  rcases h with h | ⟨v, l, h1, h2⟩
  · exact hp r (List.suffix_refl r) h
  · obtain ⟨t, rest, rfl, rfl, h3⟩ := success_split h1
    have hsuf : rest <:+ t ++ rest := List.suffix_append _ _
    simp only [Nat.zero_add] at h2
    rcases h2 with h2 | ⟨vs, m, h2, h4⟩
    · obtain ⟨vs, m, h5, h6⟩ := h2 (rest.length + 1)
      obtain ⟨t', rest', h7, -, h8⟩ := sepRun_pos hg hprog h5 t rest rfl hsuf
      have := congrArg List.length h7
      simp only [List.length_append] at this
      omega
    · obtain ⟨t', rest', rfl, rfl, -⟩ := sepRun_pos hg hprog h2 t rest rfl hsuf
      have hsuf' : rest' <:+ t ++ (t' ++ rest') := (List.suffix_append t' _).trans hsuf
      rcases h4 with ⟨q, hq', h4⟩ | ⟨k, h4, h5⟩
      · have := hg q hq'
        refine hq q hq' rest' hsuf' ((at_diverge (t ++ t') rest').1 ?_)
        simpa using h4
      · cases sep with
        | none =>
          have h4 : k = 0 := h4
          subst h4
          refine hp rest' hsuf' ((at_diverge (t ++ t') rest').1 ?_)
          simpa using h5
        | some q =>
          have := hg q rfl
          obtain ⟨b, h4⟩ := h4
          have h4' : q ⟨(t ++ t') ++ rest', (t ++ t').length⟩ = .success b k := by simpa using h4
          obtain ⟨t2, r2, rfl, rfl, -⟩ := success_split ((at_success _ _ _ _).1 h4')
          refine hp r2 ((List.suffix_append t2 _).trans hsuf')
            ((at_diverge (t ++ t' ++ t2) r2).1 ?_)
          simpa [Nat.add_assoc] using h5

theorem ret_many0 [Good p] (hp : ∀ r', r' <:+ r → Ret p r')
    (hprog : ∀ t v rest, t ++ rest <:+ r → Eats p t v rest → t ≠ []) : Ret (many0 p) r :=
  ret_repeatSep (by rintro q ⟨⟩) _ rfl hp (by rintro q ⟨⟩) (.inl hprog)

theorem ret_many1 [Good p] (hp : ∀ r', r' <:+ r → Ret p r')
    (hprog : ∀ t v rest, t ++ rest <:+ r → Eats p t v rest → t ≠ []) : Ret (many1 p) r :=
  ret_repeatSep (by rintro q ⟨⟩) _ rfl hp (by rintro q ⟨⟩) (.inl hprog)

theorem ret_many1Sep [Good p] [Good q] (hp : ∀ r', r' <:+ r → Ret p r')
    (hq : ∀ r', r' <:+ r → Ret q r')
    (hprog : (∀ t v rest, t ++ rest <:+ r → Eats p t v rest → t ≠ []) ∨
      ∀ t b rest, t ++ rest <:+ r → Eats q t b rest → t ≠ []) : Ret (many1Sep p q) r :=
  ret_repeatSep (by rintro q' ⟨⟩; infer_instance) _ rfl hp (by rintro q' ⟨⟩; exact hq)
    (hprog.imp id fun h => ⟨q, rfl, h⟩)

theorem ret_many0Sep [Good p] [Good q] (hp : ∀ r', r' <:+ r → Ret p r')
    (hq : ∀ r', r' <:+ r → Ret q r')
    (hprog : (∀ t v rest, t ++ rest <:+ r → Eats p t v rest → t ≠ []) ∨
      ∀ t b rest, t ++ rest <:+ r → Eats q t b rest → t ≠ []) : Ret (many0Sep p q) r :=
  ret_repeatSep (by rintro q' ⟨⟩; infer_instance) _ rfl hp (by rintro q' ⟨⟩; exact hq)
    (hprog.imp id fun h => ⟨q, rfl, h⟩)

/-- What `parse` returns, for a good parser followed by the end of the input. -/
theorem parse_end_ok [Good p] {v : A} :
    parse (skipRight p end_) r = .ok v ↔ Eats p r v [] := by
  have key : parse (skipRight p end_) r = .ok v ↔ ∃ n, skipRight p end_ ⟨r, 0⟩ = .success v n := by
    unfold parse
    cases skipRight p end_ ⟨r, 0⟩ <;> simp [Res.toOut]
  rw [key]
  constructor
  · rintro ⟨n, h⟩
    obtain ⟨t, rest, rfl, -, h⟩ := success_split h
    obtain ⟨t1, t2, w, rfl, h1, h2⟩ := eats_skipRight.1 h
    obtain ⟨rfl, rfl⟩ := eats_end.1 h2
    simpa using h1
  · intro h
    refine ⟨r.length, ?_⟩
    have : Eats (skipRight p end_) r v [] :=
      eats_skipRight.2 ⟨r, [], (), by simp, by simpa using h, eats_end.2 ⟨rfl, rfl⟩⟩
    simpa [Eats] using this

end rules
end OniComb
