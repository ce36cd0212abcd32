import Verif.Model.Repeat
import Verif.Model.Elements
import Verif.Model.Chain

/-!
# How much work a parser does

The combinators once more, each with the number of steps that it takes: one step for every run of a parser without
parts and of a `lazy` parser, and one for every element of a literal. `run` is the parser of the model, `steps` follows
the calls that the combinator makes in the cited lines.
-/

namespace OniComb
variable {I A B : Type}

/-- A parser (core/parser.rs:10-20) and the number of steps that a run takes. -/
structure Counted (I A : Type) where
  run : Parser I A
  steps : State I → Nat

/-- The steps that follow a success. -/
def Res.onSuccess (r : Res I A) (k : A → Nat → Nat) : Nat :=
  match r with
  | .success v n => k v n
  | _ => 0

/-- The steps that follow an uncommitted failure. -/
def Res.onUncommitted (r : Res I A) (k : Nat) : Nat :=
  match r with
  | .failure _ .uncommitted => k
  | _ => 0

namespace Counted

/-- A parser without parts: `successful`, `elm_pred` (element_parsers_impl.rs:7-23), `end`, … -/
def prim (p : Parser I A) : Counted I A := ⟨p, fun _ => 1⟩

/-- `seq`, elements_parsers_impl.rs:10-34; at most all elements of the literal are compared. -/
def seq [DecidableEq I] (w : List I) : Counted I (List I) := ⟨OniComb.seq w, fun _ => w.length + 1⟩

/-- A combinator with one argument that it runs once, on its own state: `attempt` (operator_parsers_impl.rs:79-83), `map`
(parsers_impl.rs:108-120), `discard`, `peek`, `not`, … -/
def unary (C : Parser I A → Parser I B) (p : Counted I A) : Counted I B := ⟨C p.run, p.steps⟩

/-- `or`, operator_parsers_impl.rs:39-51. -/
def or (p q : Counted I A) : Counted I A :=
  ⟨OniComb.or p.run q.run, fun s => p.steps s + (p.run s).onUncommitted (q.steps s)⟩

/-- `flat_map`, parsers_impl.rs:90-106. -/
def flatMap (p : Counted I A) (f : A → Counted I B) : Counted I B :=
  ⟨OniComb.flatMap p.run fun v => (f v).run, fun s => p.steps s + (p.run s).onSuccess fun v n => (f v).steps (s.advanceBy n)⟩

/-- `and_then`, operator_parsers_impl.rs:54-76. -/
def andThen (p : Counted I A) (q : Counted I B) : Counted I (A × B) :=
  ⟨OniComb.andThen p.run q.run, fun s => p.steps s + (p.run s).onSuccess fun _ n => q.steps (s.advanceBy n)⟩

/-- `skip_right`, skip_parser_impl.rs:46-69. -/
def skipRight (p : Counted I A) (q : Counted I B) : Counted I A :=
  ⟨OniComb.skipRight p.run q.run, fun s => p.steps s + (p.run s).onSuccess fun _ n => q.steps (s.advanceBy n)⟩

/-- `opt`, extension/parsers/operator_parsers.rs:14-18. -/
def opt (p : Counted I A) : Counted I (Option A) := or (unary (fun p => map (attempt p) some) p) (prim (successful none))

/-- The steps of the loop of `repeat_sep` without a separator, repeat_parsers_impl.rs:81-111, and without upper
bound; `repItem` goes on in the same state. -/
def loopSteps (p : Counted I A) : Nat → LoopState I A → Nat
  | 0, _ => 0
  | k + 1, st => p.steps st.cur + (p.run st.cur).onSuccess fun v n =>
      loopSteps p k ⟨st.cur.advanceBy n, st.items ++ [v], st.length + n⟩

/-- `repeat_sep` with range `a..` and without separator, repeat_parsers_impl.rs:60-132. -/
def repeatFrom (a : Nat) (p : Counted I A) : Counted I (List A) :=
  ⟨repeatSep p.run (.from_ a) (none : Option (Parser I Unit)), fun s => p.steps s +
    (p.run s).onSuccess fun v n => loopSteps p (repFuel .unbounded s) ⟨s.advanceBy n, [v], n⟩⟩

/-- `of_many0`, repeat_parsers_impl.rs:18-23. -/
def many0 (p : Counted I A) : Counted I (List A) := repeatFrom 0 p

/-- `of_many1`, repeat_parsers_impl.rs:26-31. -/
def many1 (p : Counted I A) : Counted I (List A) := repeatFrom 1 p

/-- `lazy`, lazy_parsers_impl.rs:8-16: the parser is built and run. -/
def lazy (f : Unit → Counted I A) : Counted I A := ⟨OniComb.lazy fun u => (f u).run, fun s => 1 + (f ()).steps s⟩

/-- `skip_left`, skip_parser_impl.rs:21-43. -/
def skipLeft (p : Counted I A) (q : Counted I B) : Counted I B :=
  ⟨OniComb.skipLeft p.run q.run, fun s => p.steps s + (p.run s).onSuccess fun _ n => q.steps (s.advanceBy n)⟩

/-- `surround`, skip_parser_impl.rs:71-81. -/
def surround {C : Type} (l : Counted I A) (p : Counted I B) (r : Counted I C) : Counted I B := skipLeft l (skipRight p r)

/-- The steps of the item part of one turn of the loop of `repeat_sep`, repeat_parsers_impl.rs:104-110, and of `again`, the
turns that follow. -/
def itemSteps (p : Counted I A) (again : LoopState I A → Nat) (st : LoopState I A) : Nat :=
  p.steps st.cur + (p.run st.cur).onSuccess fun v n => again ⟨st.cur.advanceBy n, st.items ++ [v], st.length + n⟩

/-- The steps of the loop of `repeat_sep`, repeat_parsers_impl.rs:81-111, with a separator and an upper bound. -/
def repSteps (p : Counted I A) (sep : Option (Counted I B)) (stop : Bound) : Nat → LoopState I A → Nat
  | 0, _ => 0
  | k + 1, st =>
    if boundReached stop st.items.length then 0
    else
      match sep with
      | none => itemSteps p (repSteps p sep stop k) st
      | some q => q.steps st.cur + (q.run st.cur).onSuccess fun _ n =>
          itemSteps p (repSteps p sep stop k) ⟨st.cur.advanceBy n, st.items, st.length + n⟩

/-- `repeat_sep`, repeat_parsers_impl.rs:60-132. -/
def repeatSep (p : Counted I A) (range : Range) (sep : Option (Counted I B)) : Counted I (List A) :=
  ⟨OniComb.repeatSep p.run range (sep.map Counted.run), fun s => p.steps s +
    (p.run s).onSuccess fun v n => repSteps p sep range.stop (repFuel range.stop s) ⟨s.advanceBy n, [v], n⟩⟩

/-- `of_count`, repeat_parsers_impl.rs:34-39. -/
def count (p : Counted I A) (n : Nat) : Counted I (List A) := repeatSep p (.closed n n) (none : Option (Counted I Unit))

/-- `of_many_n_m`, repeat_parser_impl.rs:31-36. -/
def manyNM (p : Counted I A) (n m : Nat) : Counted I (List A) := repeatSep p (.closed n m) (none : Option (Counted I Unit))

/-- `of_many0_sep`, repeat_parsers_impl.rs:42-48. -/
def many0Sep (p : Counted I A) (sep : Counted I B) : Counted I (List A) := repeatSep p (.from_ 0) (some sep)

/-- `of_many1_sep`, repeat_parsers_impl.rs:51-57. -/
def many1Sep (p : Counted I A) (sep : Counted I B) : Counted I (List A) := repeatSep p (.from_ 1) (some sep)

/-- `fixN`, counted: a grammar `p = F(lazy(|| p))` unrolled `n` times. -/
def fixN (F : Counted I A → Counted I A) : Nat → Counted I A
  | 0 => prim diverging
  | n + 1 => F (lazy fun _ => fixN F n)

/-- `regex`, elements_parsers_impl.rs:83-107: the rest of the text is copied (`String::from_iter(input)`, line 93), one step for
every element; what the search takes is not counted. -/
def regex (m : List Char → Option Nat) : Counted Char (List Char) := ⟨OniComb.regex m, fun s => s.input.length - s.offset + 1⟩

/-- The steps of `rest_left1`, operator_parsers_impl.rs:117-153; the parser `successful(x)` at the end is not counted. -/
def restSteps (p : Counted I A) (op : Counted I (A → A → A)) : Nat → A → State I → Nat
  | 0, _, _ => 0
  | k + 1, x, s => op.steps s + (op.run s).onSuccess fun f n1 => p.steps (s.advanceBy n1) +
      (p.run (s.advanceBy n1)).onSuccess fun y n2 => restSteps p op k (f x y) ((s.advanceBy n1).advanceBy n2)

/-- `rest_left1`, operator_parsers_impl.rs:117-153. -/
def restLeft1 (p : Counted I A) (op : Counted I (A → A → A)) (x : A) : Counted I A :=
  ⟨OniComb.restLeft1 p.run op.run x, fun s => restSteps p op (s.input.length - s.offset + 2) x s⟩

/-- `chain_left1`, operator_parsers_impl.rs:94-99. -/
def chainLeft1 (p : Counted I A) (op : Counted I (A → A → A)) : Counted I A := flatMap p fun x => restLeft1 p op x

end Counted
end OniComb
