import Verif.Spec.Built
import Verif.Spec.PegTicks

/-!
# Specification: parsers without recursion

`Plain d m p`: `p` is put together without recursion, and repetitions without an upper bound are nested at most `d` deep in it. `m` is
`p` with a clock, which every parser without parts advances.
-/

namespace OniComb.Plain
open OniComb OniComb.Stateful
open OniComb.Peg (tick)
variable {I : Type}

/-- A success consumes something. -/
def Consumes {A : Type} (p : Parser I A) : Prop := ∀ s v n, p s = .success v n → 0 < n

/-- The combinator runs its argument once, where it stands itself, and consumes what the argument consumes or nothing. -/
structure Asks {A B : Type} (C : Parser I A → Parser I B) : Prop where
  once : ∀ p s, C (fun _ => p s) s = C p s
  less : ∀ s r v n, C (fun _ => r) s = .success v n → n = 0 ∨ ∃ w, r = .success w n
  ends : ∀ s r, C (fun _ => r) s = .diverge → r = .diverge

/-- Parsers without recursion. -/
inductive Plain : Nat → {A : Type} → SParser Nat I A → Parser I A → Prop where
  /-- a parser without parts that looks at a fixed number `c` of elements at most -/
  | prim {d : Nat} {A : Type} (c : Nat) {p : Parser I A} : InBounds p → (∀ s, p s ≠ .diverge) → Plain d (tick c p) p
  /-- a parser without parts that may look at all that is left -/
  | scan {d : Nat} {A : Type} (f : State I → Nat) {p : Parser I A} : InBounds p → (∀ s, p s ≠ .diverge) →
      (∀ s, f s ≤ s.input.length - s.offset + 1) → Plain (d + 1) (fun s => tick (f s) p s) p
  | more {d : Nat} {A : Type} {m : SParser Nat I A} {p : Parser I A} : Plain d m p → Plain (d + 1) m p
  | unary {d : Nat} {A B : Type} {C : Parser I A → Parser I B} {m : SParser Nat I A} {p : Parser I A} :
      Asks C → Plain d m p → Plain d (Stateful.unary C m) (C p)
  | or {d : Nat} {A : Type} {m m' : SParser Nat I A} {p p' : Parser I A} : Plain d m p → Plain d m' p' →
      Plain d (Stateful.or m m') (OniComb.or p p')
  | andThen {d : Nat} {A B : Type} {m : SParser Nat I A} {m' : SParser Nat I B} {p : Parser I A} {p' : Parser I B} :
      Plain d m p → Plain d m' p' → Plain d (Stateful.andThen m m') (OniComb.andThen p p')
  | skipLeft {d : Nat} {A B : Type} {m : SParser Nat I A} {m' : SParser Nat I B} {p : Parser I A} {p' : Parser I B} :
      Plain d m p → Plain d m' p' → Plain d (Stateful.skipLeft m m') (OniComb.skipLeft p p')
  | skipRight {d : Nat} {A B : Type} {m : SParser Nat I A} {m' : SParser Nat I B} {p : Parser I A} {p' : Parser I B} :
      Plain d m p → Plain d m' p' → Plain d (Stateful.skipRight m m') (OniComb.skipRight p p')
  /-- `flat_map` with a function that chooses among finitely many parsers -/
  | flatMap {d : Nat} {A B : Type} {j : Nat} {m : SParser Nat I A} {p : Parser I A} {m' : Fin j → SParser Nat I B}
      {p' : Fin j → Parser I B} (f : A → Fin j) : Plain d m p → (∀ i, Plain d (m' i) (p' i)) →
      Plain d (Stateful.flatMap m fun a => m' (f a)) (OniComb.flatMap p fun a => p' (f a))
  /-- `count`, `many_n_m`, … -/
  | times {d : Nat} {A : Type} {m : SParser Nat I A} {p : Parser I A} (range : Range) : range.stop ≠ .unbounded → Plain d m p →
      Plain d (Stateful.repeatSep m range (none : Option (SParser Nat I Unit))) (repeatSep p range (none : Option (Parser I Unit)))
  | timesSep {d : Nat} {A B : Type} {m : SParser Nat I A} {m' : SParser Nat I B} {p : Parser I A} {p' : Parser I B} (range : Range) :
      range.stop ≠ .unbounded → Plain d m p → Plain d m' p' →
      Plain d (Stateful.repeatSep m range (some m')) (repeatSep p range (some p'))
  /-- `many0`, `many1`, … -/
  | many {d : Nat} {A : Type} {m : SParser Nat I A} {p : Parser I A} (start : Bound) : Consumes p → Plain d m p →
      Plain (d + 1) (Stateful.repeatSep m ⟨start, .unbounded⟩ (none : Option (SParser Nat I Unit)))
        (repeatSep p ⟨start, .unbounded⟩ (none : Option (Parser I Unit)))
  /-- `many0_sep`, `many1_sep`, … -/
  | manySep {d : Nat} {A B : Type} {m : SParser Nat I A} {m' : SParser Nat I B} {p : Parser I A} {p' : Parser I B} (start : Bound) :
      Consumes p ∨ Consumes p' → Plain d m p → Plain d m' p' →
      Plain (d + 1) (Stateful.repeatSep m ⟨start, .unbounded⟩ (some m')) (repeatSep p ⟨start, .unbounded⟩ (some p'))
  | chainLeft1 {d : Nat} {A : Type} {m : SParser Nat I A} {m' : SParser Nat I (A → A → A)} {p : Parser I A}
      {p' : Parser I (A → A → A)} : Consumes p ∨ Consumes p' → Plain d m p → Plain d m' p' →
      Plain (d + 1) (Stateful.chainLeft1 m m') (OniComb.chainLeft1 p p')

/-! Repetitions inside each other: `many0(elm_any >> peek(many0(elm_any >> peek(…))))`. -/

/-- One repetition around `p`. -/
def around (p : Parser I Unit) : Parser I Unit := discard (many0 (skipRight elmAny (peek p)))

/-- `d` repetitions. -/
def nested : Nat → Parser I Unit
  | 0 => unit
  | d + 1 => around (nested d)

/-- The same with a clock. -/
def nestedTicked : Nat → SParser Nat I Unit
  | 0 => tick 1 unit
  | d + 1 => Stateful.unary discard (Stateful.repeatSep (Stateful.skipRight (tick 1 elmAny) (Stateful.unary peek (nestedTicked d)))
      (.from_ 0) (none : Option (SParser Nat I Unit)))

end OniComb.Plain
