import Verif.Spec.Twins

/-!
# The same grammar over two types of elements
-/

namespace OniComb
variable {I J : Type}

/-- An error about the text written with the other elements. -/
def PError.recode (φ : I → J) : PError I → PError J
  | .mismatch input offset length => .mismatch (input.map φ) offset length
  | .conversion input offset length => .conversion (input.map φ) offset length
  | .incomplete => .incomplete
  | .expect offset inner label => .expect offset (inner.recode φ) label
  | .custom offset label => .custom offset label
  | .customInner offset inner label => .customInner offset (inner.recode φ) label

/-- The same place in the text written with the other elements. -/
def State.recode (φ : I → J) (s : State I) : State J := ⟨s.input.map φ, s.offset⟩

/-- The same outcome: successes with related values and the same length, failures with the same commitment and the same
error about the other text, panics, runs without end. -/
def Recast (φ : I → J) {A A' : Type} (R : A → A' → Prop) : Res I A → Res J A' → Prop
  | .success v n, .success v' n' => R v v' ∧ n = n'
  | .failure e c, .failure e' c' => e.recode φ = e' ∧ c = c'
  | .panic, .panic => True
  | .diverge, .diverge => True
  | _, _ => False

/-- The same as a caller of `parse` sees it. -/
def RecastOut (φ : I → J) {A A' : Type} (R : A → A' → Prop) : Res.Out I A → Res.Out J A' → Prop
  | .ok v, .ok v' => R v v'
  | .err e, .err e' => e.recode φ = e'
  | .panic, .panic => True
  | .diverge, .diverge => True
  | _, _ => False

/-- Two parsers assembled in the same way, the first for elements of one type, the second for those of another: literals
are translated, predicates agree on an element and its translation, functions in between take related values to related
values. -/
inductive Recoded (φ : I → J) : {A A' : Type} → (A → A' → Prop) → Parser I A → Parser J A' → Prop where
  | weaken {A A'} {R S : A → A' → Prop} {p : Parser I A} {p' : Parser J A'} (h : ∀ a a', R a a' → S a a') :
      Recoded φ R p p' → Recoded φ S p p'
  | successful {A A'} {R : A → A' → Prop} {a : A} {a' : A'} (h : R a a') :
      Recoded φ R (successful a) (successful a')
  | failed {A A'} (R : A → A' → Prop) (e : PError I) (c : Committed) : Recoded φ R (failed e c) (failed (e.recode φ) c)
  | filter {A A'} {R : A → A' → Prop} {p : Parser I A} {p' : Parser J A'} {f : A → Bool} {f' : A' → Bool}
      (hf : ∀ a a', R a a' → f a = f' a') : Recoded φ R p p' → Recoded φ R (filter p f) (filter p' f')
  | flatMap {A A' B B'} {R : A → A' → Prop} {S : B → B' → Prop} {p : Parser I A} {p' : Parser J A'}
      {f : A → Parser I B} {f' : A' → Parser J B'} :
      Recoded φ R p p' → (∀ a a', R a a' → Recoded φ S (f a) (f' a')) →
      Recoded φ S (flatMap p f) (flatMap p' f')
  | map {A A' B B'} {R : A → A' → Prop} {S : B → B' → Prop} {p : Parser I A} {p' : Parser J A'} {f : A → B}
      {f' : A' → B'} (hf : ∀ a a', R a a' → S (f a) (f' a')) :
      Recoded φ R p p' → Recoded φ S (map p f) (map p' f')
  | exists_ {A A'} {R : A → A' → Prop} {p : Parser I A} {p' : Parser J A'} :
      Recoded φ R p p' → Recoded φ Eq (exists_ p) (exists_ p')
  | not_ {A A'} {R : A → A' → Prop} {p : Parser I A} {p' : Parser J A'} :
      Recoded φ R p p' → Recoded φ Eq (not_ p) (not_ p')
  | or {A A'} {R : A → A' → Prop} {p q : Parser I A} {p' q' : Parser J A'} :
      Recoded φ R p p' → Recoded φ R q q' → Recoded φ R (or p q) (or p' q')
  | andThen {A A' B B'} {R : A → A' → Prop} {S : B → B' → Prop} {p : Parser I A} {p' : Parser J A'}
      {q : Parser I B} {q' : Parser J B'} : Recoded φ R p p' → Recoded φ S q q' →
      Recoded φ (fun x y => R x.1 y.1 ∧ S x.2 y.2) (andThen p q) (andThen p' q')
  | attempt {A A'} {R : A → A' → Prop} {p : Parser I A} {p' : Parser J A'} :
      Recoded φ R p p' → Recoded φ R (attempt p) (attempt p')
  | skip (n : Nat) : Recoded φ Eq (skip n) (skip n)
  | skipLeft {A A' B B'} {R : A → A' → Prop} {S : B → B' → Prop} {p : Parser I A} {p' : Parser J A'}
      {q : Parser I B} {q' : Parser J B'} : Recoded φ R p p' → Recoded φ S q q' →
      Recoded φ S (skipLeft p q) (skipLeft p' q')
  | skipRight {A A' B B'} {R : A → A' → Prop} {S : B → B' → Prop} {p : Parser I A} {p' : Parser J A'}
      {q : Parser I B} {q' : Parser J B'} : Recoded φ R p p' → Recoded φ S q q' →
      Recoded φ R (skipRight p q) (skipRight p' q')
  | mapRes {A A' B B'} {R : A → A' → Prop} {S : B → B' → Prop} {p : Parser I A} {p' : Parser J A'}
      {f : A → Option B} {f' : A' → Option B'} (hf : ∀ a a', R a a' → OptRel S (f a) (f' a')) :
      Recoded φ R p p' → Recoded φ S (mapRes p f) (mapRes p' f')
  | peek {A A'} {R : A → A' → Prop} {p : Parser I A} {p' : Parser J A'} :
      Recoded φ R p p' → Recoded φ R (peek p) (peek p')
  | logMap {A A'} {R : A → A' → Prop} {p : Parser I A} {p' : Parser J A'} (l l' : String) :
      Recoded φ R p p' → Recoded φ R (logMap p l) (logMap p' l')
  | name {A A'} {R : A → A' → Prop} {p : Parser I A} {p' : Parser J A'} (l : String) :
      Recoded φ R p p' → Recoded φ R (name p l) (name p' l)
  | expect {A A'} {R : A → A' → Prop} {p : Parser I A} {p' : Parser J A'} (l : String) :
      Recoded φ R p p' → Recoded φ R (expect p l) (expect p' l)
  | lastOffset {A A'} {R : A → A' → Prop} {p : Parser I A} {p' : Parser J A'} :
      Recoded φ R p p' → Recoded φ Eq (lastOffset p) (lastOffset p')
  | nextOffset {A A'} {R : A → A' → Prop} {p : Parser I A} {p' : Parser J A'} :
      Recoded φ R p p' → Recoded φ Eq (nextOffset p) (nextOffset p')
  | collect {A A'} {R : A → A' → Prop} {p : Parser I A} {p' : Parser J A'} :
      Recoded φ R p p' → Recoded φ (fun l l' => l.map φ = l') (collect p) (collect p')
  | discard {A A'} {R : A → A' → Prop} {p : Parser I A} {p' : Parser J A'} :
      Recoded φ R p p' → Recoded φ Eq (discard p) (discard p')
  | end_ : Recoded φ Eq end_ end_
  | lazy {A A'} {R : A → A' → Prop} {f : Unit → Parser I A} {f' : Unit → Parser J A'} :
      Recoded φ R (f ()) (f' ()) → Recoded φ R (lazy f) (lazy f')
  | diverging {A A'} (R : A → A' → Prop) : Recoded φ R diverging diverging
  | elmPred {f : I → Bool} {f' : J → Bool} (hf : ∀ x, f x = f' (φ x)) :
      Recoded φ (fun x y => φ x = y) (elmPred f) (elmPred f')
  | elmOfSet {f : I → Bool} {f' : J → Bool} (hf : ∀ x, f x = f' (φ x)) :
      Recoded φ (fun x y => φ x = y) (elmOfSet f) (elmOfSet f')
  | noneOfSet {f : I → Bool} {f' : J → Bool} (hf : ∀ x, f x = f' (φ x)) :
      Recoded φ (fun x y => φ x = y) (noneOfSet f) (noneOfSet f')
  | seq [DecidableEq I] [DecidableEq J] (lit : List I) (hφ : ∀ x y, φ x = φ y → x = y) :
      Recoded φ (fun l l' => l.map φ = l') (seq lit) (seq (lit.map φ))
  | take (n : Nat) : Recoded φ (fun l l' => l.map φ = l') (take n) (take n)
  | takeWhile0 {f : I → Bool} {f' : J → Bool} (hf : ∀ x, f x = f' (φ x)) :
      Recoded φ (fun l l' => l.map φ = l') (takeWhile0 f) (takeWhile0 f')
  | takeWhile1 {f : I → Bool} {f' : J → Bool} (hf : ∀ x, f x = f' (φ x)) :
      Recoded φ (fun l l' => l.map φ = l') (takeWhile1 f) (takeWhile1 f')
  | takeWhileNM (n m : Nat) {f : I → Bool} {f' : J → Bool} (hf : ∀ x, f x = f' (φ x)) :
      Recoded φ (fun l l' => l.map φ = l') (takeWhileNM n m f) (takeWhileNM n m f')
  | takeTill0 {f : I → Bool} {f' : J → Bool} (hf : ∀ x, f x = f' (φ x)) :
      Recoded φ (fun l l' => l.map φ = l') (takeTill0 f) (takeTill0 f')
  | takeTill1 {f : I → Bool} {f' : J → Bool} (hf : ∀ x, f x = f' (φ x)) :
      Recoded φ (fun l l' => l.map φ = l') (takeTill1 f) (takeTill1 f')
  | repeat_ {A A'} {R : A → A' → Prop} {p : Parser I A} {p' : Parser J A'} (r : Range) :
      Recoded φ R p p' →
      Recoded φ (EachRel R) (repeatSep p r (none : Option (Parser I Unit)))
        (repeatSep p' r (none : Option (Parser J Unit)))
  | repeatSep {A A' B B'} {R : A → A' → Prop} {S : B → B' → Prop} {p : Parser I A} {p' : Parser J A'}
      {q : Parser I B} {q' : Parser J B'} (r : Range) : Recoded φ R p p' → Recoded φ S q q' →
      Recoded φ (EachRel R) (OniComb.repeatSep p r (some q)) (OniComb.repeatSep p' r (some q'))
  | restLeft1 {A A'} {R : A → A' → Prop} {p : Parser I A} {p' : Parser J A'} {op : Parser I (A → A → A)}
      {op' : Parser J (A' → A' → A')} {x : A} {x' : A'} (hx : R x x') : Recoded φ R p p' →
      Recoded φ (fun f f' => ∀ x x' y y', R x x' → R y y' → R (f x y) (f' x' y')) op op' →
      Recoded φ R (restLeft1 p op x) (restLeft1 p' op' x')

/-- The character with the code of a byte. -/
def latin1 (b : UInt8) : Char := Char.ofNat b.toNat

end OniComb
