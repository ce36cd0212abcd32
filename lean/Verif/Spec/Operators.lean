import Verif.Model.Operators

/-!
# Terms of `+`, `-` and `*`

What such a term means, without regard to how it is grouped: the parsers run from left to right, each from where the one
before ended, and the values of those that no operator drops are kept.
-/

namespace OniComb.Spec
variable {I V : Type}

/-- The nested pairs that `+` builds. -/
inductive Tree (V : Type) where
  | leaf (v : V)
  | pair (l r : Tree V)

/-- The values in nested pairs from left to right. -/
def Tree.values : Tree V → List V
  | .leaf v => [v]
  | .pair l r => l.values ++ r.values

/-- An expression with the operators `+`, `-` and `*`, in any grouping. -/
inductive Term (I V : Type) where
  | leaf (p : Parser I V)
  | add (l r : Term I V)
  | sub (l r : Term I V)
  | mul (l r : Term I V)

/-- The parser that the expression makes. -/
def Term.parser : Term I V → Parser I (Tree V)
  | .leaf p => map p .leaf
  | .add l r => map (opAdd l.parser r.parser) fun x => .pair x.1 x.2
  | .sub l r => opSub l.parser r.parser
  | .mul l r => opMul l.parser r.parser

/-- All values dropped. -/
def dropped (l : List (Parser I V × Bool)) : List (Parser I V × Bool) := l.map fun x => (x.1, false)

/-- The parsers of an expression from left to right, with a mark for those whose value is kept. -/
def Term.parsers : Term I V → List (Parser I V × Bool)
  | .leaf p => [(p, true)]
  | .add l r => l.parsers ++ r.parsers
  | .sub l r => l.parsers ++ dropped r.parsers
  | .mul l r => dropped l.parsers ++ r.parsers

/-- One parser after the other; the first that does not succeed gives the result. -/
def inOrder : List (Parser I V × Bool) → State I → Res I (List V)
  | [], _ => .success [] 0
  | (p, keep) :: l, s =>
    match p s with
    | .success v n =>
      match inOrder l ⟨s.input, s.offset + n⟩ with
      | .success vs m => .success (if keep then v :: vs else vs) (n + m)
      | .failure e c => .failure e c
      | .panic => .panic
      | .diverge => .diverge
    | .failure e c => .failure e c
    | .panic => .panic
    | .diverge => .diverge

end OniComb.Spec
