import Verif.Model.CacheGrammar

/-!
# How deep the calls are nested

A parser is a closure that calls the closures of its parts (parser/src/core/parser.rs, `method`). Here the store is the stack: how many of them have
been called and not returned, and how many there have been at most. The combinators are those of `Model/CacheGrammar`, with `frame`
around each.
-/

namespace OniComb.Depth
open OniComb OniComb.Stateful

/-- The closures that are running, and the most that have been running at the same time. -/
structure Stack where
  now : Nat
  deepest : Nat

/-- A call of the closure of a parser, `run` in parser_impl/parser_runner_impl.rs, and the return from it. -/
def frame {I A : Type} (m : SParser Stack I A) : SParser Stack I A := fun s σ r σ' =>
  ∃ τ, m s ⟨σ.now + 1, max σ.deepest (σ.now + 1)⟩ r τ ∧ σ' = ⟨σ.now, τ.deepest⟩

section
variable {I A B : Type}

/-- The closure in `rest_left1`, operator_parsers_impl.rs:125-150: an operator, an operand, and what follows. -/
def restTurn (p : SParser Stack I A) (op : SParser Stack I (A → A → A)) (rest : A → SParser Stack I A) (x : A) : SParser Stack I A :=
  fun s => .bind (op (s.advanceBy 0)) fun r => match r with
    | .success f n1 =>
      .bind (p ((s.advanceBy 0).advanceBy n1)) fun r' => match r' with
      | .success y n2 =>
        .bind (rest (f x y) (((s.advanceBy 0).advanceBy n1).advanceBy n2)) fun r'' =>
          .pure (((r''.advanceSuccess n2).addCommit (n1 != 0)).advanceSuccess n1)
      | .failure e c => .pure (((Res.failure e c).addCommit (n1 != 0)).advanceSuccess n1)
      | .panic => .pure .panic
      | .diverge => .pure .diverge
    | .failure e c => .pure (.failure e c)
    | .panic => .pure .panic
    | .diverge => .pure .diverge

/-- `rest_left1`, operator_parsers_impl.rs:117-153: the closure of `or`, in it that of `restTurn`, in it the closure of the next
`rest_left1`; otherwise `successful`. The number is that of the recursive calls, as in `Model/Chain`. -/
def restLeft1N (p : SParser Stack I A) (op : SParser Stack I (A → A → A)) : Nat → A → SParser Stack I A
  | 0, _ => fun _ => .pure .diverge
  | k + 1, x => frame (Stateful.or (frame (restTurn p op (restLeft1N p op k) x)) (frame (ofParser (successful x))))

/-- `chain_left1`, operator_parsers_impl.rs:94-99. -/
def chainLeft1 (p : SParser Stack I A) (op : SParser Stack I (A → A → A)) : SParser Stack I A :=
  frame (Stateful.flatMap p fun x s => restLeft1N p op (s.input.length - s.offset + 2) x s)

/-- From `s` on, `k` operators with an operand behind each. -/
inductive Links (p : Parser I A) (op : Parser I (A → A → A)) : Nat → State I → Prop where
  | zero (s : State I) : Links p op 0 s
  | succ {k : Nat} {s : State I} {f : A → A → A} {y : A} {n1 n2 : Nat} : op s = .success f n1 → p (s.advanceBy n1) = .success y n2 →
      0 < n1 + n2 → s.offset + n1 + n2 ≤ s.input.length → Links p op k ((s.advanceBy n1).advanceBy n2) → Links p op (k + 1) s

/-- Parsers without recursion, with the calls that they make; `d` is how often combinators have been applied to each other. With or
without `chain_left1`. -/
inductive Made (chains : Bool) : Nat → {A : Type} → SParser Stack I A → Parser I A → Prop where
  /-- a parser without parts -/
  | prim {A : Type} (p : Parser I A) : Made chains 1 (frame (ofParser p)) p
  | more {d : Nat} {A : Type} {m : SParser Stack I A} {p : Parser I A} : Made chains d m p → Made chains (d + 1) m p
  /-- a combinator that runs its argument once: `map`, `attempt`, `collect`, … -/
  | unary {d : Nat} {A B : Type} {C : Parser I A → Parser I B} {m : SParser Stack I A} {p : Parser I A} :
      (∀ p s, C (fun _ => p s) s = C p s) → Made chains d m p → Made chains (d + 1) (frame (Stateful.unary C m)) (C p)
  | or {d : Nat} {A : Type} {m m' : SParser Stack I A} {p p' : Parser I A} : Made chains d m p → Made chains d m' p' →
      Made chains (d + 1) (frame (Stateful.or m m')) (OniComb.or p p')
  | andThen {d : Nat} {A B : Type} {m : SParser Stack I A} {m' : SParser Stack I B} {p : Parser I A} {p' : Parser I B} :
      Made chains d m p → Made chains d m' p' → Made chains (d + 1) (frame (Stateful.andThen m m')) (OniComb.andThen p p')
  | skipLeft {d : Nat} {A B : Type} {m : SParser Stack I A} {m' : SParser Stack I B} {p : Parser I A} {p' : Parser I B} :
      Made chains d m p → Made chains d m' p' → Made chains (d + 1) (frame (Stateful.skipLeft m m')) (OniComb.skipLeft p p')
  | skipRight {d : Nat} {A B : Type} {m : SParser Stack I A} {m' : SParser Stack I B} {p : Parser I A} {p' : Parser I B} :
      Made chains d m p → Made chains d m' p' → Made chains (d + 1) (frame (Stateful.skipRight m m')) (OniComb.skipRight p p')
  | flatMap {d : Nat} {A B : Type} {m : SParser Stack I A} {p : Parser I A} {m' : A → SParser Stack I B} {p' : A → Parser I B} :
      Made chains d m p → (∀ a, Made chains d (m' a) (p' a)) → Made chains (d + 1) (frame (Stateful.flatMap m m')) (OniComb.flatMap p p')
  /-- `many0`, `many1`, `count`, `many_n_m`, … -/
  | times {d : Nat} {A : Type} {m : SParser Stack I A} {p : Parser I A} (range : Range) : Made chains d m p →
      Made chains (d + 1) (frame (Stateful.repeatSep m range (none : Option (SParser Stack I Unit))))
        (repeatSep p range (none : Option (Parser I Unit)))
  /-- `many0_sep`, `many1_sep`, … -/
  | timesSep {d : Nat} {A B : Type} {m : SParser Stack I A} {m' : SParser Stack I B} {p : Parser I A} {p' : Parser I B} (range : Range) :
      Made chains d m p → Made chains d m' p' → Made chains (d + 1) (frame (Stateful.repeatSep m range (some m'))) (repeatSep p range (some p'))
  /-- `lazy` around a parser that has been built before -/
  | lazy {d : Nat} {A : Type} {m : SParser Stack I A} {p : Parser I A} : Made chains d m p → Made chains (d + 1) (frame m) (OniComb.lazy fun _ => p)
  | chainLeft1 {d : Nat} {A : Type} {m : SParser Stack I A} {m' : SParser Stack I (A → A → A)} {p : Parser I A}
      {p' : Parser I (A → A → A)} : chains = true → Made chains d m p → Made chains d m' p' →
      Made chains (d + 1) (chainLeft1 m m') (OniComb.chainLeft1 p p')

end

end OniComb.Depth
