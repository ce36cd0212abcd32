import Verif.Model.CacheGrammar

/-!
# Specification: grammars with caches and what they stand for

`Caches Γ sp g p`: the grammar `sp`, in which the cached parsers `Γ` are used, is the grammar `p` with some `cache`
calls added.  `g` is `p` too, except that it never returns when a cached parser is asked outside of the places `D` that
have been chosen for it; the places must not contain both 0 and 1.
-/

namespace OniComb.Stateful
variable {I : Type}

/-- The parser, asked only at the places `D`. -/
def only {A : Type} (D : Nat → Bool) (p : Parser I A) : Parser I A := fun s => if D s.offset then p s else .diverge

/-- A cached parser: the type of its results, the parser inside, the places where it is asked. -/
structure Cell (I : Type) where
  A : Type
  inner : Parser I A
  D : Nat → Bool
  apart : D 0 = false ∨ D 1 = false

/-- The store of a grammar with cached parsers. -/
def Store : List (Cell I) → Type
  | [] => Unit
  | c :: Γ => CacheMap I c.A × Store Γ

/-- A combinator that depends on its argument only through the result on its own state. -/
structure Unary {A B : Type} (C : Parser I A → Parser I B) : Prop where
  once : ∀ p s, C p s = C (fun _ => p s) s
  strict : ∀ s, C (fun _ => .diverge) s = .diverge

/-- The grammar `sp` is `p` with caches. -/
inductive Caches : (Γ : List (Cell I)) → {A : Type} → SParser (Store Γ) I A → Parser I A → Parser I A → Prop where
  | plain {Γ : List (Cell I)} {A : Type} (p : Parser I A) : Caches Γ (ofParser p) p p
  | unary {Γ : List (Cell I)} {A B : Type} {C : Parser I A → Parser I B} {sp : SParser (Store Γ) I A} {g p : Parser I A} :
      Unary C → Caches Γ sp g p → Caches Γ (Stateful.unary C sp) (C g) (C p)
  | or {Γ : List (Cell I)} {A : Type} {sp sp' : SParser (Store Γ) I A} {g g' p p' : Parser I A} :
      Caches Γ sp g p → Caches Γ sp' g' p' → Caches Γ (Stateful.or sp sp') (OniComb.or g g') (OniComb.or p p')
  | andThen {Γ : List (Cell I)} {A B : Type} {sp : SParser (Store Γ) I A} {sp' : SParser (Store Γ) I B}
      {g p : Parser I A} {g' p' : Parser I B} : Caches Γ sp g p → Caches Γ sp' g' p' →
      Caches Γ (Stateful.andThen sp sp') (OniComb.andThen g g') (OniComb.andThen p p')
  | skipLeft {Γ : List (Cell I)} {A B : Type} {sp : SParser (Store Γ) I A} {sp' : SParser (Store Γ) I B}
      {g p : Parser I A} {g' p' : Parser I B} : Caches Γ sp g p → Caches Γ sp' g' p' →
      Caches Γ (Stateful.skipLeft sp sp') (OniComb.skipLeft g g') (OniComb.skipLeft p p')
  | skipRight {Γ : List (Cell I)} {A B : Type} {sp : SParser (Store Γ) I A} {sp' : SParser (Store Γ) I B}
      {g p : Parser I A} {g' p' : Parser I B} : Caches Γ sp g p → Caches Γ sp' g' p' →
      Caches Γ (Stateful.skipRight sp sp') (OniComb.skipRight g g') (OniComb.skipRight p p')
  | flatMap {Γ : List (Cell I)} {A B : Type} {sp : SParser (Store Γ) I A} {f : A → SParser (Store Γ) I B}
      {g p : Parser I A} {g' p' : A → Parser I B} : Caches Γ sp g p → (∀ a, Caches Γ (f a) (g' a) (p' a)) →
      Caches Γ (Stateful.flatMap sp f) (OniComb.flatMap g g') (OniComb.flatMap p p')
  | repeat_ {Γ : List (Cell I)} {A : Type} {sp : SParser (Store Γ) I A} {g p : Parser I A} (range : Range) :
      Caches Γ sp g p →
      Caches Γ (Stateful.repeatSep sp range (none : Option (SParser (Store Γ) I Unit))) (OniComb.repeat_ g range)
        (OniComb.repeat_ p range)
  | repeatSep {Γ : List (Cell I)} {A B : Type} {sp : SParser (Store Γ) I A} {sp' : SParser (Store Γ) I B}
      {g p : Parser I A} {g' p' : Parser I B} (range : Range) : Caches Γ sp g p → Caches Γ sp' g' p' →
      Caches Γ (Stateful.repeatSep sp range (some sp')) (OniComb.repeatSep g range (some g'))
        (OniComb.repeatSep p range (some p'))
  | restLeft1 {Γ : List (Cell I)} {A : Type} {sp : SParser (Store Γ) I A} {sp' : SParser (Store Γ) I (A → A → A)}
      {g p : Parser I A} {g' p' : Parser I (A → A → A)} (x : A) : Caches Γ sp g p → Caches Γ sp' g' p' →
      Caches Γ (Stateful.restLeft1 sp sp' x) (OniComb.restLeft1 g g' x) (OniComb.restLeft1 p p' x)
  | cache {Γ : List (Cell I)} {A : Type} {sp : SParser (Store Γ) I A} {g p : Parser I A} (D : Nat → Bool)
      (hD : D 0 = false ∨ D 1 = false) : Caches Γ sp g p → Caches (⟨A, g, D, hD⟩ :: Γ) (Stateful.cache sp) (only D g) p
  | lift {Γ : List (Cell I)} {A : Type} (c : Cell I) {sp : SParser (Store Γ) I A} {g p : Parser I A} :
      Caches Γ sp g p → Caches (c :: Γ) (Stateful.lift sp) g p
  | fresh {Γ : List (Cell I)} {A B : Type} {sp : SParser (CacheMap I B × Store Γ) I A} {p : Parser I A}
      (inner : Nat → Parser I B) (D : Nat → Nat → Bool) (hD : ∀ o, D o 0 = false ∨ D o 1 = false)
      (g : Nat → Parser I A) : (∀ o, Caches (⟨B, inner o, D o, hD o⟩ :: Γ) sp (g o) p) →
      Caches Γ (Stateful.fresh sp) (fun s => g s.offset s) p

end OniComb.Stateful
