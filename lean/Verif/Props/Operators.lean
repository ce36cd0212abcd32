import Verif.Spec.Operators
import Verif.Model.Elements

/-!
# Grouping of operators (C117) and the beginning of the input (C118)

Rust groups `a * b - c + d | e` by its own precedence of `*`, `+`, `-` and `|`.  The theorems say that another grouping
gives the same parser: same values, same consumption, same errors, same commitment.
-/

namespace OniComb
variable {I A B C : Type}

local macro "laws" a:ident b:ident c:ident : tactic => `(tactic| (
  funext s
  simp only [opAdd, opSub, opMul, opOr, map, andThen, skipLeft, skipRight, or, State.advanceBy, Res.advanceSuccess]
  cases ha : $a s with
  | failure e c => cases c <;> simp [ha]
  | panic => simp [ha]
  | diverge => simp [ha]
  | success v n =>
    simp only []
    cases hb : $b ⟨s.input, s.offset + n⟩ with
    | failure e c => cases c <;> simp [ha, hb]
    | panic => simp [ha, hb]
    | diverge => simp [ha, hb]
    | success w m =>
      try simp only [Nat.add_assoc]
      try (cases hc : $c ⟨s.input, s.offset + (n + m)⟩ <;> simp [hc])))

/-! ## C117 Grouping of operators -/

/-- `(a + b) + c` is `a + (b + c)`, up to the nesting of the pairs. -/
theorem c117_add_add (a : Parser I A) (b : Parser I B) (c : Parser I C) :
    opAdd a (opAdd b c) = map (opAdd (opAdd a b) c) fun x => (x.1.1, x.1.2, x.2) := by laws a b c

/-- `(a * b) * c = a * (b * c)`. -/
theorem c117_mul_mul (a : Parser I A) (b : Parser I B) (c : Parser I C) :
    opMul (opMul a b) c = opMul a (opMul b c) := by laws a b c

/-- `(a - b) - c = a - (b - c)`: nothing is subtracted, the values of `b` and `c` are dropped. -/
theorem c117_sub_sub (a : Parser I A) (b : Parser I B) (c : Parser I C) :
    opSub (opSub a b) c = opSub a (opSub b c) := by laws a b c

/-- `a - b * c`, where `*` binds tighter, is `a - b - c`. -/
theorem c117_sub_mul (a : Parser I A) (b : Parser I B) (c : Parser I C) :
    opSub a (opMul b c) = opSub (opSub a b) c := by laws a b c

/-- `(a - b) * c = a * b * c`. -/
theorem c117_mul_drop (a : Parser I A) (b : Parser I B) (c : Parser I C) :
    opMul (opSub a b) c = opMul (opMul a b) c := by laws a b c

/-- `a * b - c`, as in `l * p - r`, can be read either way. -/
theorem c117_mul_sub (a : Parser I A) (b : Parser I B) (c : Parser I C) :
    opSub (opMul a b) c = opMul a (opSub b c) := by laws a b c

/-- `a + b - c` drops only the value of `c`. -/
theorem c117_add_sub (a : Parser I A) (b : Parser I B) (c : Parser I C) :
    opSub (opAdd a b) c = opAdd a (opSub b c) := by laws a b c

/-- `a * (b + c) = a * b + c`. -/
theorem c117_mul_add (a : Parser I A) (b : Parser I B) (c : Parser I C) :
    opMul a (opAdd b c) = opAdd (opMul a b) c := by laws a b c

/-- `a - b + c`, where `-` comes first, is `a + b * c`. -/
theorem c117_sub_add (a : Parser I A) (b : Parser I B) (c : Parser I C) :
    opAdd (opSub a b) c = opAdd a (opMul b c) := by laws a b c

/-- The method `p.surround(l, r)` is `l * p - r`. -/
theorem c117_surround (l : Parser I A) (p : Parser I B) (r : Parser I C) :
    surroundMethod p l r = opSub (opMul l p) r := by
  rw [c117_mul_sub]; rfl

open Spec in
private theorem inOrder_append {V : Type} (l l' : List (Parser I V × Bool)) :
    inOrder (l ++ l') = map (andThen (inOrder l) (inOrder l')) fun x => x.1 ++ x.2 := by
  induction l with
  | nil =>
    funext s
    simp only [List.nil_append, map, andThen, inOrder, State.advanceBy, Nat.add_zero, Nat.zero_add]
    cases inOrder l' s <;> rfl
  | cons x l ih =>
    obtain ⟨p, k⟩ := x
    funext s
    simp only [List.cons_append, inOrder, ih, map, andThen, State.advanceBy]
    cases p s with
    | success v n =>
      simp only []
      cases inOrder l ⟨s.input, s.offset + n⟩ with
      | success vs m =>
        simp only [Nat.add_assoc]
        cases inOrder l' ⟨s.input, s.offset + (n + m)⟩ with
        | success ws o => cases k <;> simp
        | _ => rfl
      | _ => rfl
    | _ => rfl

open Spec in
private theorem inOrder_dropped {V : Type} (l : List (Parser I V × Bool)) :
    inOrder (dropped l) = map (inOrder l) fun _ => [] := by
  induction l with
  | nil => rfl
  | cons x l ih =>
    obtain ⟨p, k⟩ := x
    funext s
    have h : dropped ((p, k) :: l) = (p, false) :: dropped l := rfl
    rw [h]
    simp only [inOrder, ih, map]
    cases p s with
    | success v n =>
      simp only []
      cases inOrder l ⟨s.input, s.offset + n⟩ <;> simp
    | _ => rfl

open Spec in
/-- Whatever the grouping: the parsers run from left to right, each from where the one before ended; the first that does
not succeed gives the result; the values that no operator drops are kept, in order. -/
theorem c117_terms {V : Type} (t : Term I V) : map t.parser Tree.values = inOrder t.parsers := by
  induction t with
  | leaf p =>
    funext s
    simp only [Term.parser, Term.parsers, map, inOrder]
    cases p s <;> simp [Tree.values]
  | add l r hl hr =>
    rw [Term.parsers, inOrder_append, ← hl, ← hr]
    funext s
    simp only [Term.parser, opAdd, map, andThen]
    cases l.parser s with
    | success v n => simp only []; cases r.parser (s.advanceBy n) <;> simp [Tree.values]
    | _ => rfl
  | sub l r hl hr =>
    rw [Term.parsers, inOrder_append, inOrder_dropped, ← hl, ← hr]
    funext s
    simp only [Term.parser, opSub, map, andThen, skipRight, Res.advanceSuccess]
    cases l.parser s with
    | success v n => simp only []; cases r.parser (s.advanceBy n) <;> simp
    | _ => rfl
  | mul l r hl hr =>
    rw [Term.parsers, inOrder_append, inOrder_dropped, ← hl, ← hr]
    funext s
    simp only [Term.parser, opMul, map, andThen, skipLeft]
    cases l.parser s with
    | success v n => simp only []; cases r.parser (s.advanceBy n) <;> simp
    | _ => rfl

open Spec in
/-- Expressions with the same parsers in the same order that keep the same values are the same parser, up to the nesting
of pairs. -/
theorem c117_regroup {V : Type} (t u : Term I V) (h : t.parsers = u.parsers) :
    map t.parser Tree.values = map u.parser Tree.values := by
  rw [c117_terms, c117_terms, h]

open Spec in
example (a b c d : Parser I Char) :
    Term.parsers (.sub (.add (.mul (.leaf a) (.leaf b)) (.leaf c)) (.leaf d)) =
      Term.parsers (.mul (.leaf a) (.add (.leaf b) (.sub (.leaf c) (.leaf d)))) := rfl

/-- A common beginning of two alternatives can be factored out: `a + b | a + c = a + (b | c)`. -/
theorem c117_factor_add (a : Parser I A) (b c : Parser I B) :
    opOr (opAdd a b) (opAdd a c) = opAdd a (opOr b c) := by laws a b c

theorem c117_factor_mul (a : Parser I A) (b c : Parser I B) :
    opOr (opMul a b) (opMul a c) = opMul a (opOr b c) := by laws a b c

theorem c117_factor_sub (a : Parser I A) (b c : Parser I B) :
    opOr (opSub a b) (opSub a c) = opSub a (opOr b c) := by laws a b c

/-- A common end cannot be factored out: in `(a | b) * c` the choice is made before `c` is tried. -/
theorem c117_factor_right_fails :
    opMul (opOr (opSub (elm 'a') empty) (opSub (elm 'a') (elm 'b'))) (elm 'c') ⟨['a', 'b', 'c'], 0⟩ =
      .failure (.mismatch ['b', 'c'] 2 1) .uncommitted ∧
    opOr (opMul (opSub (elm 'a') empty) (elm 'c')) (opMul (opSub (elm 'a') (elm 'b')) (elm 'c')) ⟨['a', 'b', 'c'], 0⟩ =
      .success 'c' 3 := by decide

/-- `!p` succeeds, without consuming, exactly if `p` fails. -/
theorem c117_not (p : Parser I A) (s : State I) (n : Nat) :
    opNot p s = .success () n ↔ n = 0 ∧ ∃ e c, p s = .failure e c := by
  unfold opNot not_ State.withInput
  cases h : p s with
  | success v m => dsimp only; split <;> simp
  | failure e c => simp; exact eq_comm
  | panic => simp
  | diverge => simp

example : opSub (opMul (elm '(') (elm 'x')) (elm ')') ⟨"(x)".toList, 0⟩ = .success 'x' 3 ∧
    opMul (elm '(') (opSub (elm 'x') (elm ')')) ⟨"(x)".toList, 0⟩ = .success 'x' 3 := by decide

example : opOr (opMul (elm 'a') (elm 'b')) (opMul (elm 'a') (elm 'c')) ⟨['a', 'c'], 0⟩ = .success 'c' 2 ∧
    opMul (elm 'a') (opOr (elm 'b') (elm 'c')) ⟨['a', 'c'], 0⟩ = .success 'c' 2 := by decide

/-! ## C118 The beginning of the input -/

/-- `begin` does not ask for the beginning: it succeeds everywhere. -/
theorem c118_begin_violated (s : State I) : begin s = .success () 0 := rfl

/-- In particular behind any parser, where `p - begin()` is `p`. -/
theorem c118_begin_behind_violated (p : Parser I A) : opSub p begin = p := by
  funext s
  simp only [opSub, skipRight, begin, empty, unit, successful]
  cases p s <;> rfl

/-- In front of a parser it changes nothing, so that `begin() * p - end()` is `p - end()`. -/
theorem c118_begin_partial (p : Parser I A) : opMul begin p = p := by
  funext s
  simp only [opMul, skipLeft, begin, empty, unit, successful, State.advanceBy]
  cases p s <;> simp

/-- `empty` is neutral on both sides. -/
theorem c118_empty (p : Parser I A) : opMul empty p = p ∧ opSub p empty = p :=
  ⟨c118_begin_partial p, c118_begin_behind_violated p⟩

example : opSub (elm 'a') begin ⟨['a', 'b'], 0⟩ = .success 'a' 1 := by decide

end OniComb
