import Verif.Model.Elements
import Verif.Model.Repeat
import Verif.Model.Chain
import Verif.Spec.Repeat

/-!
# Parsers assembled from the library, and what is claimed about them
-/

namespace OniComb
variable {I : Type}

/-- Parsers assembled from the primitives and combinators of the library, with arbitrary pure closures
and arbitrary values of any type in between.  `P` is a family of additional primitives (for instance
`tag_no_case`, which only exists for characters, or hand written `Parser::new` parsers); `obs` says
whether `last_offset`/`next_offset` may be used; `E` says which errors may be given to `failed`.  `diverging` stands for the part of a recursive
grammar (through `lazy`) that is not unrolled yet, so every finite unrolling `fixN F n` of a recursive
grammar is covered, hence every run that returns. -/
inductive BuiltWith (P : (A : Type) → Parser I A → Prop) (obs : Bool) (E : PError I → Prop) :
    {A : Type} → Parser I A → Prop where
  | prim {A} (p : Parser I A) : P A p → BuiltWith P obs E p
  | successful {A} (a : A) : BuiltWith P obs E (successful a)
  | failed {A} (e : PError I) (c : Committed) : E e → BuiltWith P obs E (failed (A := A) e c)
  | filter {A} (p : Parser I A) (f : A → Bool) : BuiltWith P obs E p → BuiltWith P obs E (filter p f)
  | flatMap {A B} (p : Parser I A) (f : A → Parser I B) :
      BuiltWith P obs E p → (∀ a, BuiltWith P obs E (f a)) → BuiltWith P obs E (flatMap p f)
  | map {A B} (p : Parser I A) (f : A → B) : BuiltWith P obs E p → BuiltWith P obs E (map p f)
  | exists_ {A} (p : Parser I A) : BuiltWith P obs E p → BuiltWith P obs E (exists_ p)
  | not_ {A} (p : Parser I A) : BuiltWith P obs E p → BuiltWith P obs E (not_ p)
  | or {A} (p q : Parser I A) : BuiltWith P obs E p → BuiltWith P obs E q → BuiltWith P obs E (or p q)
  | andThen {A B} (p : Parser I A) (q : Parser I B) :
      BuiltWith P obs E p → BuiltWith P obs E q → BuiltWith P obs E (andThen p q)
  | attempt {A} (p : Parser I A) : BuiltWith P obs E p → BuiltWith P obs E (attempt p)
  | skip (n : Nat) : BuiltWith P obs E (skip n)
  | skipLeft {A B} (p : Parser I A) (q : Parser I B) :
      BuiltWith P obs E p → BuiltWith P obs E q → BuiltWith P obs E (skipLeft p q)
  | skipRight {A B} (p : Parser I A) (q : Parser I B) :
      BuiltWith P obs E p → BuiltWith P obs E q → BuiltWith P obs E (skipRight p q)
  | mapRes {A B} (p : Parser I A) (f : A → Option B) : BuiltWith P obs E p → BuiltWith P obs E (mapRes p f)
  | peek {A} (p : Parser I A) : BuiltWith P obs E p → BuiltWith P obs E (peek p)
  | logMap {A} (p : Parser I A) (l : String) : BuiltWith P obs E p → BuiltWith P obs E (logMap p l)
  | name {A} (p : Parser I A) (l : String) : BuiltWith P obs E p → BuiltWith P obs E (name p l)
  | expect {A} (p : Parser I A) (l : String) : BuiltWith P obs E p → BuiltWith P obs E (expect p l)
  | lastOffset {A} (p : Parser I A) : obs = true → BuiltWith P obs E p → BuiltWith P obs E (lastOffset p)
  | nextOffset {A} (p : Parser I A) : obs = true → BuiltWith P obs E p → BuiltWith P obs E (nextOffset p)
  | collect {A} (p : Parser I A) : BuiltWith P obs E p → BuiltWith P obs E (collect p)
  | discard {A} (p : Parser I A) : BuiltWith P obs E p → BuiltWith P obs E (discard p)
  | end_ : BuiltWith P obs E end_
  | lazy {A} (f : Unit → Parser I A) : BuiltWith P obs E (f ()) → BuiltWith P obs E (lazy f)
  | diverging {A} : BuiltWith P obs E (diverging (A := A))
  | elmPred (f : I → Bool) : BuiltWith P obs E (elmPred f)
  | elmOfSet (f : I → Bool) : BuiltWith P obs E (elmOfSet f)
  | noneOfSet (f : I → Bool) : BuiltWith P obs E (noneOfSet f)
  | seq [DecidableEq I] (lit : List I) : BuiltWith P obs E (seq lit)
  | take (n : Nat) : BuiltWith P obs E (take n)
  | takeWhile0 (f : I → Bool) : BuiltWith P obs E (takeWhile0 f)
  | takeWhile1 (f : I → Bool) : BuiltWith P obs E (takeWhile1 f)
  | takeWhileNM (n m : Nat) (f : I → Bool) : BuiltWith P obs E (takeWhileNM n m f)
  | takeTill0 (f : I → Bool) : BuiltWith P obs E (takeTill0 f)
  | takeTill1 (f : I → Bool) : BuiltWith P obs E (takeTill1 f)
  | repeat_ {A} (p : Parser I A) (r : Range) :
      BuiltWith P obs E p → BuiltWith P obs E (repeatSep p r (none : Option (Parser I Unit)))
  | repeatSep {A B} (p : Parser I A) (r : Range) (q : Parser I B) :
      BuiltWith P obs E p → BuiltWith P obs E q → BuiltWith P obs E (repeatSep p r (some q))
  | restLeft1 {A} (p : Parser I A) (op : Parser I (A → A → A)) (x : A) :
      BuiltWith P obs E p → BuiltWith P obs E op → BuiltWith P obs E (restLeft1 p op x)

/-- The same with arbitrary errors. -/
abbrev Built (P : (A : Type) → Parser I A → Prop) (obs : Bool) {A : Type} (p : Parser I A) : Prop :=
  BuiltWith P obs (fun _ => True) p

/-- Started inside the input, a success stays inside the input. -/
def InBounds {A : Type} (p : Parser I A) : Prop :=
  ∀ s v n, s.offset ≤ s.input.length → p s = .success v n → s.offset + n ≤ s.input.length

/-- Started inside the input, the parser does not panic. -/
def NoPanic {A : Type} (p : Parser I A) : Prop := ∀ s, s.offset ≤ s.input.length → p s ≠ .panic

/-- Same outcome up to the error payload. -/
def SameOutcome {A : Type} : Res I A → Res I A → Prop
  | .success v n, .success v' n' => v = v' ∧ n = n'
  | .failure _ c, .failure _ c' => c = c'
  | .panic, .panic => True
  | .diverge, .diverge => True
  | _, _ => False

/-- The outcome at a position depends only on the text from that position on: text in front of it does
not matter. -/
def PosIndep {A : Type} (p : Parser I A) : Prop :=
  ∀ (pre inp : List I) (k : Nat), k ≤ inp.length →
    SameOutcome (p ⟨pre ++ inp, pre.length + k⟩) (p ⟨inp, k⟩)

/-- Primitives that exist for characters only. -/
inductive TextPrim : (A : Type) → Parser Char A → Prop where
  | tag (lit : List Char) : TextPrim (List Char) (tag lit)
  | tagNoCase (lit : List Char) : TextPrim (List Char) (tagNoCase lit)

end OniComb
