import Verif.Spec.Built

/-!
# Two parsers that differ in what they do with the values
-/

namespace OniComb
variable {I : Type}

/-- Related values of repetitions: as many, and one by one. -/
inductive EachRel {A A' : Type} (R : A → A' → Prop) : List A → List A' → Prop where
  | nil : EachRel R [] []
  | cons {a : A} {a' : A'} {l : List A} {l' : List A'} (h : R a a') (t : EachRel R l l') :
      EachRel R (a :: l) (a' :: l')

/-- Related results of conversions. -/
def OptRel {A A' : Type} (R : A → A' → Prop) : Option A → Option A' → Prop
  | some a, some a' => R a a'
  | none, none => True
  | _, _ => False

/-- The same outcome: successes with related values and the same length, failures with the same commitment (and, if
`exact`, the same error), panics, runs without end. -/
def Alike (exact : Bool) {A A' : Type} (R : A → A' → Prop) : Res I A → Res I A' → Prop
  | .success v n, .success v' n' => R v v' ∧ n = n'
  | .failure e c, .failure e' c' => (exact = true → e = e') ∧ c = c'
  | .panic, .panic => True
  | .diverge, .diverge => True
  | _, _ => False

/-- Two parsers assembled in the same way, with functions in between that take related values to related values.  If
not `exact`, one of them may have names, expectations and errors of its own. -/
inductive Twins (exact : Bool) : {A A' : Type} → (A → A' → Prop) → Parser I A → Parser I A' → Prop where
  | same {A} (p : Parser I A) : Twins exact Eq p p
  | weaken {A A'} {R S : A → A' → Prop} {p : Parser I A} {p' : Parser I A'} (h : ∀ a a', R a a' → S a a') :
      Twins exact R p p' → Twins exact S p p'
  | successful {A A'} {R : A → A' → Prop} {a : A} {a' : A'} (h : R a a') :
      Twins exact R (successful a) (successful a')
  | failed {A A'} (R : A → A' → Prop) (e e' : PError I) (c : Committed) (h : exact = true → e = e') :
      Twins exact R (failed e c) (failed e' c)
  | filter {A A'} {R : A → A' → Prop} {p : Parser I A} {p' : Parser I A'} {f : A → Bool} {f' : A' → Bool}
      (hf : ∀ a a', R a a' → f a = f' a') : Twins exact R p p' → Twins exact R (filter p f) (filter p' f')
  | flatMap {A A' B B'} {R : A → A' → Prop} {S : B → B' → Prop} {p : Parser I A} {p' : Parser I A'}
      {f : A → Parser I B} {f' : A' → Parser I B'} :
      Twins exact R p p' → (∀ a a', R a a' → Twins exact S (f a) (f' a')) →
      Twins exact S (flatMap p f) (flatMap p' f')
  | map {A A' B B'} {R : A → A' → Prop} {S : B → B' → Prop} {p : Parser I A} {p' : Parser I A'} {f : A → B}
      {f' : A' → B'} (hf : ∀ a a', R a a' → S (f a) (f' a')) :
      Twins exact R p p' → Twins exact S (map p f) (map p' f')
  | exists_ {A A'} {R : A → A' → Prop} {p : Parser I A} {p' : Parser I A'} :
      Twins exact R p p' → Twins exact Eq (exists_ p) (exists_ p')
  | not_ {A A'} {R : A → A' → Prop} {p : Parser I A} {p' : Parser I A'} :
      Twins exact R p p' → Twins exact Eq (not_ p) (not_ p')
  | or {A A'} {R : A → A' → Prop} {p q : Parser I A} {p' q' : Parser I A'} :
      Twins exact R p p' → Twins exact R q q' → Twins exact R (or p q) (or p' q')
  | andThen {A A' B B'} {R : A → A' → Prop} {S : B → B' → Prop} {p : Parser I A} {p' : Parser I A'}
      {q : Parser I B} {q' : Parser I B'} : Twins exact R p p' → Twins exact S q q' →
      Twins exact (fun x y => R x.1 y.1 ∧ S x.2 y.2) (andThen p q) (andThen p' q')
  | attempt {A A'} {R : A → A' → Prop} {p : Parser I A} {p' : Parser I A'} :
      Twins exact R p p' → Twins exact R (attempt p) (attempt p')
  | skipLeft {A A' B B'} {R : A → A' → Prop} {S : B → B' → Prop} {p : Parser I A} {p' : Parser I A'}
      {q : Parser I B} {q' : Parser I B'} : Twins exact R p p' → Twins exact S q q' →
      Twins exact S (skipLeft p q) (skipLeft p' q')
  | skipRight {A A' B B'} {R : A → A' → Prop} {S : B → B' → Prop} {p : Parser I A} {p' : Parser I A'}
      {q : Parser I B} {q' : Parser I B'} : Twins exact R p p' → Twins exact S q q' →
      Twins exact R (skipRight p q) (skipRight p' q')
  | mapRes {A A' B B'} {R : A → A' → Prop} {S : B → B' → Prop} {p : Parser I A} {p' : Parser I A'}
      {f : A → Option B} {f' : A' → Option B'} (hf : ∀ a a', R a a' → OptRel S (f a) (f' a')) :
      Twins exact R p p' → Twins exact S (mapRes p f) (mapRes p' f')
  | peek {A A'} {R : A → A' → Prop} {p : Parser I A} {p' : Parser I A'} :
      Twins exact R p p' → Twins exact R (peek p) (peek p')
  | name {A A'} {R : A → A' → Prop} {p : Parser I A} {p' : Parser I A'} (l : String) :
      Twins exact R p p' → Twins exact R (name p l) (name p' l)
  | expect {A A'} {R : A → A' → Prop} {p : Parser I A} {p' : Parser I A'} (l : String) :
      Twins exact R p p' → Twins exact R (expect p l) (expect p' l)
  | nameLeft {A A'} {R : A → A' → Prop} {p : Parser I A} {p' : Parser I A'} (l : String) (h : exact = false) :
      Twins exact R p p' → Twins exact R (OniComb.name p l) p'
  | nameRight {A A'} {R : A → A' → Prop} {p : Parser I A} {p' : Parser I A'} (l : String) (h : exact = false) :
      Twins exact R p p' → Twins exact R p (OniComb.name p' l)
  | expectLeft {A A'} {R : A → A' → Prop} {p : Parser I A} {p' : Parser I A'} (l : String) (h : exact = false) :
      Twins exact R p p' → Twins exact R (OniComb.expect p l) p'
  | expectRight {A A'} {R : A → A' → Prop} {p : Parser I A} {p' : Parser I A'} (l : String) (h : exact = false) :
      Twins exact R p p' → Twins exact R p (OniComb.expect p' l)
  | lastOffset {A A'} {R : A → A' → Prop} {p : Parser I A} {p' : Parser I A'} :
      Twins exact R p p' → Twins exact Eq (lastOffset p) (lastOffset p')
  | nextOffset {A A'} {R : A → A' → Prop} {p : Parser I A} {p' : Parser I A'} :
      Twins exact R p p' → Twins exact Eq (nextOffset p) (nextOffset p')
  | collect {A A'} {R : A → A' → Prop} {p : Parser I A} {p' : Parser I A'} :
      Twins exact R p p' → Twins exact Eq (collect p) (collect p')
  | discard {A A'} {R : A → A' → Prop} {p : Parser I A} {p' : Parser I A'} :
      Twins exact R p p' → Twins exact Eq (discard p) (discard p')
  | lazy {A A'} {R : A → A' → Prop} {f : Unit → Parser I A} {f' : Unit → Parser I A'} :
      Twins exact R (f ()) (f' ()) → Twins exact R (lazy f) (lazy f')
  | diverging {A A'} (R : A → A' → Prop) : Twins exact R diverging diverging
  | repeat_ {A A'} {R : A → A' → Prop} {p : Parser I A} {p' : Parser I A'} (r : Range) :
      Twins exact R p p' →
      Twins exact (EachRel R) (repeatSep p r (none : Option (Parser I Unit)))
        (repeatSep p' r (none : Option (Parser I Unit)))
  | repeatSep {A A' B B'} {R : A → A' → Prop} {S : B → B' → Prop} {p : Parser I A} {p' : Parser I A'}
      {q : Parser I B} {q' : Parser I B'} (r : Range) : Twins exact R p p' → Twins exact S q q' →
      Twins exact (EachRel R) (OniComb.repeatSep p r (some q)) (OniComb.repeatSep p' r (some q'))
  | restLeft1 {A A'} {R : A → A' → Prop} {p : Parser I A} {p' : Parser I A'} {op : Parser I (A → A → A)}
      {op' : Parser I (A' → A' → A')} {x : A} {x' : A'} (hx : R x x') : Twins exact R p p' →
      Twins exact (fun f f' => ∀ x x' y y', R x x' → R y y' → R (f x y) (f' x' y')) op op' →
      Twins exact R (restLeft1 p op x) (restLeft1 p' op' x')

end OniComb
