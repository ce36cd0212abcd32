import Verif.Spec.CacheGrammar
import Verif.Spec.CacheTicks
import Verif.Model.Steps

/-!
# Specification: grammars with caches, their steps counted

`Timed Γ sp c`: the grammar `sp` with a clock, in which the cached parsers `Γ` are used, is the counted grammar `c` with some `cache`
calls added. What is cached takes at least one step.
-/

namespace OniComb.Stateful.Ticking
open OniComb
variable {I : Type}

/-- A cached parser that is not asked at the beginning of the text. -/
def cell {A : Type} (p : Parser I A) : Cell I := ⟨A, p, fun o => decide (1 ≤ o), .inl rfl⟩

/-- The caches are empty. -/
def emptyStore : (Γ : List (Cell I)) → Store Γ
  | [] => ()
  | _ :: Γ => ([], emptyStore Γ)

/-- The grammar `sp` is `c` with caches. -/
inductive Timed : (Γ : List (Cell I)) → {A : Type} → SParser (Nat × Store Γ) I A → Counted I A → Prop where
  | prim {Γ : List (Cell I)} {A : Type} (p : Parser I A) : Timed Γ (tick 1 p) (.prim p)
  | seq [DecidableEq I] {Γ : List (Cell I)} (w : List I) : Timed Γ (tick (w.length + 1) (OniComb.seq w)) (.seq w)
  | unary {Γ : List (Cell I)} {A B : Type} {C : Parser I A → Parser I B} {sp : SParser (Nat × Store Γ) I A} {c : Counted I A} :
      Unary C → Timed Γ sp c → Timed Γ (Stateful.unary C sp) (.unary C c)
  | or {Γ : List (Cell I)} {A : Type} {sp sp' : SParser (Nat × Store Γ) I A} {c c' : Counted I A} :
      Timed Γ sp c → Timed Γ sp' c' → Timed Γ (Stateful.or sp sp') (.or c c')
  | andThen {Γ : List (Cell I)} {A B : Type} {sp : SParser (Nat × Store Γ) I A} {sp' : SParser (Nat × Store Γ) I B}
      {c : Counted I A} {c' : Counted I B} : Timed Γ sp c → Timed Γ sp' c' → Timed Γ (Stateful.andThen sp sp') (.andThen c c')
  | skipLeft {Γ : List (Cell I)} {A B : Type} {sp : SParser (Nat × Store Γ) I A} {sp' : SParser (Nat × Store Γ) I B}
      {c : Counted I A} {c' : Counted I B} : Timed Γ sp c → Timed Γ sp' c' → Timed Γ (Stateful.skipLeft sp sp') (.skipLeft c c')
  | skipRight {Γ : List (Cell I)} {A B : Type} {sp : SParser (Nat × Store Γ) I A} {sp' : SParser (Nat × Store Γ) I B}
      {c : Counted I A} {c' : Counted I B} : Timed Γ sp c → Timed Γ sp' c' → Timed Γ (Stateful.skipRight sp sp') (.skipRight c c')
  | flatMap {Γ : List (Cell I)} {A B : Type} {sp : SParser (Nat × Store Γ) I A} {f : A → SParser (Nat × Store Γ) I B}
      {c : Counted I A} {c' : A → Counted I B} : Timed Γ sp c → (∀ a, Timed Γ (f a) (c' a)) →
      Timed Γ (Stateful.flatMap sp f) (.flatMap c c')
  | repeat_ {Γ : List (Cell I)} {A : Type} {sp : SParser (Nat × Store Γ) I A} {c : Counted I A} (range : Range) : Timed Γ sp c →
      Timed Γ (Stateful.repeatSep sp range (none : Option (SParser (Nat × Store Γ) I Unit)))
        (.repeatSep c range (none : Option (Counted I Unit)))
  | repeatSep {Γ : List (Cell I)} {A B : Type} {sp : SParser (Nat × Store Γ) I A} {sp' : SParser (Nat × Store Γ) I B}
      {c : Counted I A} {c' : Counted I B} (range : Range) : Timed Γ sp c → Timed Γ sp' c' →
      Timed Γ (Stateful.repeatSep sp range (some sp')) (.repeatSep c range (some c'))
  | restLeft1 {Γ : List (Cell I)} {A : Type} {sp : SParser (Nat × Store Γ) I A} {sp' : SParser (Nat × Store Γ) I (A → A → A)}
      {c : Counted I A} {c' : Counted I (A → A → A)} (x : A) : Timed Γ sp c → Timed Γ sp' c' →
      Timed Γ (Stateful.restLeft1 sp sp' x) (.restLeft1 c c' x)
  | cache {Γ : List (Cell I)} {A : Type} {sp : SParser (Nat × Store Γ) I A} {c : Counted I A} : (∀ s, 1 ≤ c.steps s) →
      Timed Γ sp c → Timed (cell c.run :: Γ) (cache sp) c
  | lift {Γ : List (Cell I)} {A : Type} (d : Cell I) {sp : SParser (Nat × Store Γ) I A} {c : Counted I A} : Timed Γ sp c →
      Timed (d :: Γ) (right sp) c
  | fresh {Γ : List (Cell I)} {A B : Type} {inner : Parser I B} {sp : SParser (Nat × CacheMap I B × Store Γ) I A} {c : Counted I A} :
      Timed (cell inner :: Γ) sp c → Timed Γ (fresh sp) c

end OniComb.Stateful.Ticking
