import Verif.Model.Core

/-!
# Specification of repetition, without loops or fuel
-/

namespace OniComb
variable {I A B : Type}

/-- The separator part before an item: nothing for a repetition without separator, otherwise one
success of the separator. `k` is its length. -/
def SepAt (sep : Option (Parser I B)) (s : State I) (k : Nat) : Prop :=
  match sep with
  | none => k = 0
  | some q => ∃ b, q s = .success b k

/-- `(separator item)*` read from `s`: the items and the total length. -/
inductive SepRun (p : Parser I A) (sep : Option (Parser I B)) : State I → List A → Nat → Prop where
  | nil (s : State I) : SepRun p sep s [] 0
  | cons {s : State I} {k n m : Nat} {v : A} {vs : List A} :
      SepAt sep s k → p ⟨s.input, s.offset + k⟩ = .success v n →
      SepRun p sep ⟨s.input, s.offset + k + n⟩ vs m →
      SepRun p sep s (v :: vs) (k + n + m)

/-- Consecutive successes of `p` from `s`: their values and the total length. -/
inductive Run (p : Parser I A) : State I → List A → Nat → Prop where
  | nil (s : State I) : Run p s [] 0
  | cons {s : State I} {n m : Nat} {v : A} {vs : List A} :
      p s = .success v n → Run p ⟨s.input, s.offset + n⟩ vs m → Run p s (v :: vs) (n + m)

/-- `p` fails at `s`. -/
def Fails (p : Parser I A) (s : State I) : Prop := ∃ e c, p s = .failure e c

/-- No further `separator item` pair can be read at `s`: the separator fails (`k = 0`), or it succeeds
with length `k` (zero without separator) and the item fails after it. -/
def NoMore (p : Parser I A) (sep : Option (Parser I B)) (s : State I) (k : Nat) : Prop :=
  (k = 0 ∧ ∃ q, sep = some q ∧ Fails q s) ∨ (SepAt sep s k ∧ Fails p ⟨s.input, s.offset + k⟩)

/-- A parser that consumes nothing when started behind the end of the input. (All parsers of the
library, including `regex`, are tame, see `Props/Built.lean`; only a hand written `Parser::new` is
not.) -/
def Tame (p : Parser I A) : Prop :=
  ∀ s v n, s.input.length < s.offset → p s = .success v n → n = 0

/-- A parser whose successes always consume something. -/
def Progress (p : Parser I A) : Prop := ∀ s v n, p s = .success v n → 0 < n

/-- One of the parsers called at `s` for the next `separator item` pair does not return. -/
def DivergesAt (p : Parser I A) (sep : Option (Parser I B)) (s : State I) : Prop :=
  (∃ q, sep = some q ∧ q s = .diverge) ∨ ∃ k, SepAt sep s k ∧ p ⟨s.input, s.offset + k⟩ = .diverge

/-- From `s` one can read arbitrarily many `separator item` pairs. -/
def Endless (p : Parser I A) (sep : Option (Parser I B)) (s : State I) : Prop :=
  ∀ n, ∃ vs m, SepRun p sep s vs m ∧ vs.length = n

end OniComb
