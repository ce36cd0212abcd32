import Verif.Spec.OperatorTable
import Verif.Spec.PegTicks

/-!
# Operator tables with a clock

The parsers of `Spec/OperatorTable` with the combinators of `Model/CacheGrammar`; the store is a clock, which every parser without
parts and every run of `lazy(..)` advances by one.
-/

namespace OniComb.Operators
open OniComb OniComb.Stateful
open OniComb.Peg (tick)
variable {I A : Type} [DecidableEq I]

/-- `lazy`, lazy_parsers_impl.rs:5-22. -/
def later (p : SParser Nat I A) : SParser Nat I A := fun s => .bind (tick 1 unit s) fun _ => p s

/-- The operators of a rank. -/
def Table.opTicked (T : Table I A) (k : Nat) : SParser Nat I (A → A → A) :=
  Stateful.unary (fun p => map p T.apply) (tick 1 (elmPred fun c => T.rank c == some k))

/-- The levels, given the parser of the operands. -/
def Table.levelTicked (T : Table I A) (atom : SParser Nat I A) (self : Nat → SParser Nat I A) : Nat → SParser Nat I A
  | 0 => Stateful.or atom (Stateful.surround (tick 1 (elm T.lp)) (later (self T.height)) (tick 1 (elm T.rp)))
  | k + 1 =>
    if T.right k then Stateful.flatMap (T.levelTicked atom self k) fun x =>
      Stateful.or (Stateful.flatMap (T.opTicked k) fun f => Stateful.unary (fun p => map p fun y => f x y) (later (self (k + 1))))
        (tick 1 (successful x))
    else Stateful.chainLeft1 (T.levelTicked atom self k) (T.opTicked k)

/-- The levels, unrolled `n` times. -/
def Table.towerTicked (T : Table I A) (atom : SParser Nat I A) : Nat → Nat → SParser Nat I A
  | 0, _ => tick 1 diverging
  | n + 1, k => T.levelTicked atom (T.towerTicked atom n) k

omit [DecidableEq I] in
/-- What the parser of the operands takes: `f s` at the place `s`. For an operand of `n` elements that is at most `g * (n + 1)`, where
there is no operand at most `g`, and in front of a wrong one at most `g * (l + 1)` if `l` elements are left. -/
structure Operand (g : Nat) (p : Parser I A) (m : SParser Nat I A) (f : State I → Nat) : Prop where
  clock : ∀ s σ r σ', m s σ r σ' ↔ r = p s ∧ σ' = σ + f s
  bounds : InBounds p
  read : ∀ s v n, p s = .success v n → f s ≤ g * (n + 1)
  none : ∀ s e, p s = .failure e .uncommitted → f s ≤ g
  all : ∀ s, f s ≤ g * (s.input.length - s.offset + 1)

/-! The operators of rank 0 as a textbook writes them, `E ::= T op E | T` and `T ::= atom | ( E )`. Both alternatives begin with `T`, so
that the first one needs `attempt`. -/

/-- `T`, given `E`. -/
def Table.bookOperand (T : Table I A) (self : Parser I A) : Parser I A :=
  OniComb.or T.atom (OniComb.surround (elm T.lp) (lazy fun _ => self) (elm T.rp))

/-- `E`, given `E`. -/
def Table.bookLevel (T : Table I A) (self : Parser I A) : Parser I A :=
  OniComb.or (attempt (map (OniComb.andThen (OniComb.andThen (T.bookOperand self) (T.op 0)) (lazy fun _ => self))
    fun x => x.1.2 x.1.1 x.2)) (T.bookOperand self)

/-- `E`, unrolled `n` times. -/
def Table.book (T : Table I A) : Nat → Parser I A
  | 0 => diverging
  | n + 1 => T.bookLevel (T.book n)

/-- `T` with a clock. -/
def Table.bookOperandTicked (T : Table I A) (atom self : SParser Nat I A) : SParser Nat I A :=
  Stateful.or atom (Stateful.surround (tick 1 (elm T.lp)) (later self) (tick 1 (elm T.rp)))

/-- `E` with a clock. -/
def Table.bookLevelTicked (T : Table I A) (atom self : SParser Nat I A) : SParser Nat I A :=
  Stateful.or (Stateful.unary attempt (Stateful.unary (fun p => map p fun x => x.1.2 x.1.1 x.2)
    (Stateful.andThen (Stateful.andThen (T.bookOperandTicked atom self) (T.opTicked 0)) (later self))))
    (T.bookOperandTicked atom self)

/-- `E` with a clock, unrolled `n` times. -/
def Table.bookTicked (T : Table I A) (atom : SParser Nat I A) : Nat → SParser Nat I A
  | 0 => tick 1 diverging
  | n + 1 => T.bookLevelTicked atom (T.bookTicked atom n)

/-- An operand in `d` pairs of brackets. -/
def bracketed (T : Table I A) (w : List I) : Nat → List I
  | 0 => w
  | d + 1 => T.lp :: (bracketed T w d ++ [T.rp])

end OniComb.Operators
