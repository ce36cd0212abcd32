import Verif.Model.Chain
import Verif.Model.Elements
import Verif.Spec.Built

/-!
# Operator tables

Expressions with binary operators of any number of ranks, as one writes their parser with the library, and their
grammar as in a textbook.
-/

namespace OniComb.Operators
open OniComb
variable {I A : Type}

/-- Operators with their ranks (0 binds tightest) and how they associate, brackets, and a parser of the operands. -/
structure Table (I A : Type) where
  height : Nat
  rank : I → Option Nat
  right : Nat → Bool
  apply : I → A → A → A
  lp : I
  rp : I
  atom : Parser I A

variable [DecidableEq I]

/-- The operators of a rank: `elm_pred(…).map(|c| |a, b| …)`. -/
def Table.op (T : Table I A) (k : Nat) : Parser I (A → A → A) := map (elmPred fun c => T.rank c == some k) T.apply

/-- Expressions with operators of ranks below `k`. Operators that associate to the left are read by `chain_left1`, those
that associate to the right by `next.flat_map(|x| rest_right1(lazy(level), op, x))`: `chain_right1` would apply them from
the left (C18). `self` are the levels themselves, for the recursive calls. -/
def Table.level (T : Table I A) (self : Nat → Parser I A) : Nat → Parser I A
  | 0 => or T.atom (surround (elm T.lp) (lazy fun _ => self T.height) (elm T.rp))
  | k + 1 =>
    if T.right k then flatMap (T.level self k) fun x => restRight1 (lazy fun _ => self (k + 1)) (T.op k) x
    else chainLeft1 (T.level self k) (T.op k)

/-- The levels, unrolled `n` times. -/
def Table.tower (T : Table I A) : Nat → Nat → Parser I A
  | 0, _ => diverging
  | n + 1, k => T.level (T.tower n) k

omit [DecidableEq I] in
/-- The grammar: `Text k v w` if `w` is an expression with the value `v` whose operators outside of brackets have ranks
below `k`. -/
inductive Text (T : Table I A) (Atom : A → List I → Prop) : Nat → A → List I → Prop where
  | atom {a : A} {w : List I} (h : Atom a w) : Text T Atom 0 a w
  | brackets {v : A} {w : List I} (h : Text T Atom T.height v w) : Text T Atom 0 v (T.lp :: (w ++ [T.rp]))
  | up {k : Nat} {v : A} {w : List I} (h : Text T Atom k v w) : Text T Atom (k + 1) v w
  | left {k : Nat} {c : I} {x y : A} {v w : List I} (hc : T.rank c = some k) (hk : T.right k = false)
      (hx : Text T Atom (k + 1) x v) (hy : Text T Atom k y w) : Text T Atom (k + 1) (T.apply c x y) (v ++ c :: w)
  | right {k : Nat} {c : I} {x y : A} {v w : List I} (hc : T.rank c = some k) (hk : T.right k = true)
      (hx : Text T Atom k x v) (hy : Text T Atom (k + 1) y w) : Text T Atom (k + 1) (T.apply c x y) (v ++ c :: w)

/-- The parser of operands reads the operands, up to an operator, a closing bracket or the end, and does not take an
opening bracket for one. A closing bracket is not an operator. -/
structure Table.Ok (T : Table I A) (Atom : A → List I → Prop) : Prop where
  built : Built (fun _ _ => False) false T.atom
  reads : ∀ a w r, Atom a w → (∀ c u, r = c :: u → c = T.rp ∨ ∃ k, T.rank c = some k) →
    T.atom ⟨w ++ r, 0⟩ = .success a w.length
  only : ∀ a w r, T.atom ⟨w ++ r, 0⟩ = .success a w.length → Atom a w
  returns : ∀ r, T.atom ⟨r, 0⟩ ≠ .diverge
  bracket : ∀ r, ∃ e, T.atom ⟨T.lp :: r, 0⟩ = .failure e .uncommitted
  closing : T.rank T.rp = none

/-- Expressions as trees; a leaf carries its text. -/
inductive Tree (I A : Type) where
  | leaf (a : A) (w : List I)
  | node (c : I) (l r : Tree I A)

/-- The value. -/
def Tree.value (T : Table I A) : Tree I A → A
  | .leaf a _ => a
  | .node c l r => T.apply c (l.value T) (r.value T)

/-- Made of operands and of operators of the table. -/
def Tree.Valid (T : Table I A) (Atom : A → List I → Prop) : Tree I A → Prop
  | .leaf a w => Atom a w
  | .node c l r => (∃ k, k < T.height ∧ T.rank c = some k) ∧ l.Valid T Atom ∧ r.Valid T Atom

/-- The tree printed with brackets only where they are needed, in a place where operators of ranks below `k` may
stand. -/
def Tree.print (T : Table I A) : Nat → Tree I A → List I
  | _, .leaf _ w => w
  | k, .node c l r =>
    let j := (T.rank c).getD 0
    let body := if T.right j then l.print T j ++ c :: r.print T (j + 1) else l.print T (j + 1) ++ c :: r.print T j
    if j < k then body else T.lp :: (body ++ [T.rp])

end OniComb.Operators
