import Verif.Model.Combinators

/-!
# Operator chains

Models the `chain_*`/`rest_*` functions of
`/repo/parser/src/internal/parsers_impl/operator_parsers_impl.rs` and
`extension/parsers/operator_parsers.rs`.
-/

namespace OniComb
variable {I A : Type}

/-- `rest_left1`, operator_parsers_impl.rs:117-153, with recursion depth as fuel; out of fuel is
`diverge` (in Rust: unbounded recursion).  `Props/Termination.lean` proves the fuel used in `restLeft1`
exact. -/
def restLeft1N (p : Parser I A) (op : Parser I (A → A → A)) : Nat → A → Parser I A
  | 0, _ => fun _ => .diverge
  | k + 1, x =>
    or
      (fun s =>
        let ps := s.advanceBy 0
        match op ps with
        | .success f n1 =>
          let ps := ps.advanceBy n1
          (((match p ps with
            | .success y n2 =>
              ((restLeft1N p op k (f x y)) (ps.advanceBy n2)).advanceSuccess n2
            | .failure e c => .failure e c
            | .panic => .panic
            | .diverge => .diverge) : Res I A).addCommit (n1 != 0)).advanceSuccess n1
        | .failure e c => .failure e c
        | .panic => .panic
        | .diverge => .diverge)
      (successful x)

/-- `rest_left1`, operator_parsers_impl.rs:117-153. -/
def restLeft1 (p : Parser I A) (op : Parser I (A → A → A)) (x : A) : Parser I A := fun s =>
  restLeft1N p op (s.input.length - s.offset + 2) x s

/-- `rest_right1`, operator_parsers_impl.rs:102-114. -/
def restRight1 (p : Parser I A) (op : Parser I (A → A → A)) (x : A) : Parser I A :=
  or (flatMap op fun f => map p fun y => f x y) (successful x)

/-- `chain_left1`, operator_parsers_impl.rs:94-99 (also `scan_left1`). -/
def chainLeft1 (p : Parser I A) (op : Parser I (A → A → A)) : Parser I A :=
  flatMap p fun x => restLeft1 p op x

/-- `chain_right1`, operator_parsers_impl.rs:86-91 (also `scan_right1`): the source really calls
`rest_left1`. -/
def chainRight1 (p : Parser I A) (op : Parser I (A → A → A)) : Parser I A :=
  flatMap p fun x => restLeft1 p op x

/-- `chain_right0`, extension/parsers/operator_parsers.rs:38-43. -/
def chainRight0 (p : Parser I A) (op : Parser I (A → A → A)) (x : A) : Parser I A :=
  or (chainRight1 p op) (successful x)

/-- `chain_left0`, extension/parsers/operator_parsers.rs:45-50. -/
def chainLeft0 (p : Parser I A) (op : Parser I (A → A → A)) (x : A) : Parser I A :=
  or (chainLeft1 p op) (successful x)

end OniComb
