import Verif.Spec.Repeat

/-!
# Specification of operator chains
-/

namespace OniComb
variable {I A : Type}

/-- `(op p)*` read from `s`: the operators with their right operands and the total length. -/
inductive OpRun (p : Parser I A) (op : Parser I (A → A → A)) :
    State I → List ((A → A → A) × A) → Nat → Prop where
  | nil (s : State I) : OpRun p op s [] 0
  | cons {s : State I} {n1 n2 m : Nat} {f : A → A → A} {y : A} {ops : List ((A → A → A) × A)} :
      op s = .success f n1 → p ⟨s.input, s.offset + n1⟩ = .success y n2 →
      OpRun p op ⟨s.input, s.offset + n1 + n2⟩ ops m → OpRun p op s ((f, y) :: ops) (n1 + n2 + m)

/-- `((x op1 y1) op2 y2) …`: operators applied from the left. -/
def applyLeft (x : A) : List ((A → A → A) × A) → A
  | [] => x
  | (f, y) :: ops => applyLeft (f x y) ops

/-- `x op1 (y1 op2 (y2 …))`: operators applied from the right. -/
def applyRight (x : A) : List ((A → A → A) × A) → A
  | [] => x
  | (f, y) :: ops => f x (applyRight y ops)

/-- The chain ends at `s` without error: no operator (uncommitted failure), or an operator that
consumed nothing followed by an uncommitted failure of the operand. -/
def ChainEnd (p : Parser I A) (op : Parser I (A → A → A)) (s : State I) : Prop :=
  (∃ e, op s = .failure e .uncommitted) ∨
  (∃ f e, op s = .success f 0 ∧ p s = .failure e .uncommitted)

/-- The chain is broken at `s` with error `e`: the operator fails committed, or an operator was read
but its operand fails, and the operator consumed something or the operand failed committed. -/
def ChainBreak (p : Parser I A) (op : Parser I (A → A → A)) (s : State I) (e : PError I) : Prop :=
  op s = .failure e .committed ∨
  (∃ f n c, op s = .success f n ∧ p ⟨s.input, s.offset + n⟩ = .failure e c ∧ (c = .committed ∨ n ≠ 0))

end OniComb
