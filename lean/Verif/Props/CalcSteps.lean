import Verif.Lemmas.CalcSteps
import Verif.Props.Calculator

/-!
# C145: what the calculator example takes on a text

`Counting.calculatorRuns` counts the runs of parsers without parts, of `lazy(primary)` and of `lazy(expr)`;
`Counting.calculator` counts also the characters that `regex` copies whenever it is run. What the search for the expression and
`Decimal::from_str` take is not counted. `n` is how often the grammar is unrolled.
-/

namespace OniComb.Calc.Counting
open OniComb OniComb.Calc OniComb.Calc.Spec OniComb.Steps
open OniComb.Counted (prim)

variable {D : Type} (S : Std D)

/-! ### The parsers are those of the file -/

theorem primary_run (numeral : Counted Char (List Char)) (h : numeral.run = regex (matchNumber S)) : ∀ n,
    (primary (value S numeral) n).run = fixN (primaryStep S) n
  | 0 => rfl
  | n + 1 => by
    have ih := primary_run numeral h n
    have hv : (value S numeral).run = Calc.value S := by
      show map (mapRes numeral.run S.dec) Expr.value = _
      rw [h]
      rfl
    show or (map (andThen (or (elm '+') (elm '-')) (lazy fun _ => (primary (value S numeral) n).run)) fun x => Calc.unary x.1 x.2)
      (or (map (surround (andThen (andThen Calc.space (elm '(')) Calc.space)
        (lazy fun _ => Calc.additive (primary (value S numeral) n).run) (andThen (andThen Calc.space (elm ')')) Calc.space))
        .parenthesized) (value S numeral).run) = _
    rw [ih, hv]
    rfl

theorem calculator_run (numeral : Counted Char (List Char)) (h : numeral.run = regex (matchNumber S)) (n : Nat) :
    (calculatorOf S numeral n).run = Calc.calculator S n := by
  show skipRight (Calc.additive (primary (value S numeral) n).run) end_ = _
  rw [primary_run S numeral h n]
  rfl

/-- The counted parsers return what the parsers of the file return. -/
theorem c145_counts (n : Nat) :
    (calculator S n).run = Calc.calculator S n ∧ (calculatorRuns S n).run = Calc.calculator S n :=
  ⟨calculator_run S _ rfl n, calculator_run S _ rfl n⟩

/-! ### Upper bounds -/

variable [L : Lawful S]

theorem value_ok {s : State Char} {e : Expr D} {n : Nat} (hs : s.offset ≤ s.input.length) (h : Calc.value S s = .success e n) :
    1 ≤ n ∧ n ≤ left s ∧ ∃ x, next s = some x ∧ x ∉ " \t\r\n".toList ∧ x ≠ '+' ∧ x ≠ '-' ∧ x ≠ '(' := by
  obtain ⟨inp, k⟩ := s
  dsimp only at hs
  rw [value_at _ _ hs] at h
  cases hm : matchNumber S (inp.drop k) with
  | none => rw [hm] at h; cases h
  | some m =>
    rw [hm] at h
    dsimp only at h
    cases hd : S.dec ((inp.drop k).take m) with
    | none => rw [hd] at h; cases h
    | some d =>
      rw [hd] at h
      simp only [Res.success.injEq] at h
      obtain ⟨-, rfl⟩ := h
      have hl := matchNumber_le _ hm
      obtain ⟨c, r, hcr, hc⟩ := numeral_head (matchNumber_shape hm (L.ascii _ _ hd))
      have hne := digit_ne hc
      have hlen := congrArg List.length hcr
      simp only [List.length_take, List.length_cons, List.length_drop] at hlen hl
      refine ⟨by omega, hl, c, ?_, ?_, hne.2.1, hne.2.2.1, hne.2.2.2.2.2.1⟩
      · show (inp.drop k).head? = _
        cases hd' : inp.drop k with
        | nil => rw [hd'] at hcr; simp at hcr
        | cons y l =>
          rw [hd'] at hcr
          cases m with
          | zero => cases hcr
          | succ m => simp only [List.take_succ_cons, List.cons.injEq] at hcr; simp [hcr.1]
      · have := hne.1
        unfold BlankC at this
        simpa using this

theorem numeral_runs (N : Nat) : Counting.Numeral N 1 (value S (prim (regex (matchNumber S)))) where
  ok _ _ _ hs h := value_ok S hs.1 h
  steps _ _ := Nat.le_refl _

theorem numeral_copies (N : Nat) : Counting.Numeral N (N + 1) (value S (.regex (matchNumber S))) where
  ok _ _ _ hs h := value_ok S hs.1 h
  steps s hs := by
    show s.input.length - s.offset + 1 ≤ N + 1
    have := hs.2
    omega

/-- The number of runs of parsers is at most proportional to the length of the text, whatever the text. -/
theorem c145_runs_linear_partial (n : Nat) (t : List Char) : (calculatorRuns S n).steps ⟨t, 0⟩ ≤ 10 * (t.length + 1) :=
  calculator_bound (numeral_runs S _) (Nat.le_refl _)

/-- What is copied as well, the time is at most quadratic, whatever the text. -/
theorem c145_quadratic_partial (n : Nat) (t : List Char) : (calculator S n).steps ⟨t, 0⟩ ≤ (t.length + 10) * (t.length + 1) := by
  have := calculator_bound (n := n) (numeral_copies S t.length) (by omega)
  have e : 9 + (t.length + 1) = t.length + 10 := by omega
  rw [e] at this
  exact this

/-! ### The time is not linear -/

/-- The text `+1+1…+1`, `k` times. -/
def plusOnes : Nat → List Char
  | 0 => []
  | k + 1 => '+' :: '1' :: plusOnes k

theorem length_plusOnes : ∀ k, (plusOnes k).length = 2 * k
  | 0 => rfl
  | k + 1 => by simp only [plusOnes, List.length_cons, length_plusOnes k]; omega

theorem noHead_plusOnes {P : Char → Prop} (h : ¬P '+') : ∀ k, NoHead P (plusOnes k)
  | 0 => fun _ _ h => nomatch h
  | _ + 1 => noHead_cons.2 h

theorem numeral_one : Spec.Numeral ['1'] := .whole ⟨by simp, by simp⟩

variable {d : D}

/-- One operand. -/
theorem eats_primary (hd : S.dec ['1'] = some d) (n k : Nat) :
    Eats (fixN (primaryStep S) (n + 2)) ['1'] (.value d) (plusOnes k) := by
  obtain ⟨w, r, e, hw, h⟩ := primary_reads (S := S) (n + 2) (.value d) ['1'] (plusOnes k) (.num numeral_one hd) (by simp)
    ⟨[], plusOnes k, rfl, blank_nil, by
      intro c r hr
      cases k with
      | zero => cases hr
      | succ k => injection hr with hr _; exact .inl hr.symm⟩
  cases w with
  | nil => rw [e]; exact h
  | cons c w =>
    have hc := hw c (by simp)
    cases k with
    | zero => cases e
    | succ k =>
      injection e with e _
      subst e
      exact absurd hc (by decide)

theorem eats_multitive (hd : S.dec ['1'] = some d) (n k : Nat) :
    Eats (Calc.multitive (fixN (primaryStep S) (n + 2))) ['1'] (.value d) (plusOnes k) := by
  unfold Calc.multitive
  rw [mulOp_eq]
  refine eats_chainLeft1.2 ⟨['1'], .value d, [], [], rfl, eats_primary S hd n k, .nil _, rfl, .inl ?_⟩
  exact fail_op (a := []) blank_nil (noHead_plusOnes (by unfold BlankC; decide) k)

instance good_multitive {p : Parser Char (Expr D)} [Good p] : Good (Calc.multitive p) := by
  unfold Calc.multitive
  rw [mulOp_eq]
  infer_instance

instance good_addOp : Good (Calc.addOp : Parser Char (Expr D → Expr D → Expr D)) := by
  rw [addOp_eq]
  infer_instance

theorem or_fail {A : Type} {p q : Counted Char A} {s : State Char} {e : PError Char} (h : p.run s = .failure e .uncommitted) :
    (Counted.or p q).steps s = p.steps s + q.steps s := by
  show p.steps s + (p.run s).onUncommitted (q.steps s) = _
  rw [h]
  rfl

/-- The steps of one operand: what follows is copied. -/
theorem primary_copies (n : Nat) (pre r : List Char) :
    r.length + 2 ≤ (primary (value S (.regex (matchNumber S))) (n + 1)).steps ⟨pre ++ '1' :: r, pre.length⟩ := by
  have h1 : ∃ e, (Counted.unary (fun p => map p fun x => Calc.unary x.1 x.2) (.andThen (.or (prim (elm '+')) (prim (elm '-')))
      (.lazy fun _ => primary (value S (.regex (matchNumber S))) n))).run ⟨pre ++ '1' :: r, pre.length⟩ = .failure e .uncommitted := by
    have := (at_failure (p := map (andThen (or (elm '+') (elm '-')) (lazy fun _ => fixN (primaryStep S) n)) fun x => Calc.unary x.1 x.2)
      pre ('1' :: r) .uncommitted).2 (fail_sign (noHead_cons.2 (by decide)))
    rw [← primary_run S (.regex (matchNumber S)) rfl n] at this
    exact this
  have h2 : ∃ e, (Counted.unary (fun p => map p Expr.parenthesized) (.surround (bracket '(')
      (.lazy fun _ => additive (primary (value S (.regex (matchNumber S))) n)) (bracket ')'))).run ⟨pre ++ '1' :: r, pre.length⟩ =
      .failure e .uncommitted := by
    have := (at_failure (p := map (surround (andThen (andThen Calc.space (elm '(')) Calc.space)
      (lazy fun _ => Calc.additive (fixN (primaryStep S) n)) (andThen (andThen Calc.space (elm ')')) Calc.space)) Expr.parenthesized)
      pre ('1' :: r) .uncommitted).2 (fail_map.2 (Fail.surround (Fail.andThen (Eats.andThen_fail (v := ()) (t1 := [])
        (t2 := '1' :: r) (eats_space.2 ⟨blank_nil, noHead_cons.2 (by unfold BlankC; decide)⟩)
        (fail_elm.2 ⟨rfl, by intro r'; simp⟩)))))
    rw [← primary_run S (.regex (matchNumber S)) rfl n] at this
    exact this
  obtain ⟨e1, h1⟩ := h1
  obtain ⟨e2, h2⟩ := h2
  have h3 : (value S (.regex (matchNumber S))).steps ⟨pre ++ '1' :: r, pre.length⟩ = r.length + 2 := by
    show (pre ++ '1' :: r).length - pre.length + 1 = _
    simp only [List.length_append, List.length_cons]
    omega
  show _ ≤ (Counted.or _ (Counted.or _ _)).steps _
  rw [or_fail h1, or_fail h2, h3]
  omega

theorem rest_copies (hd : S.dec ['1'] = some d) (n : Nat) : ∀ (k fuel : Nat) (x : Expr D) (pre : List Char), k < fuel →
    k * k ≤ Counted.restSteps (multitive (primary (value S (.regex (matchNumber S))) (n + 2))) addOp fuel x
      ⟨pre ++ plusOnes k, pre.length⟩
  | 0, _, _, _, _ => by simp
  | k + 1, 0, _, _, h => absurd h (Nat.not_lt_zero _)
  | k + 1, fuel + 1, x, pre, h => by
    have h1 : (addOp : Counted Char (Expr D → Expr D → Expr D)).run ⟨pre ++ '+' :: '1' :: plusOnes k, pre.length⟩ = .success .add 1 := by
      refine (at_success (p := Calc.addOp) pre _ _ _).2 ?_
      rw [addOp_eq]
      exact (eats_op (t := ['+']) (rest := '1' :: plusOnes k) (by decide)).2
        ⟨[], '+', [], rfl, blank_nil, noHead_cons.2 (by unfold BlankC; decide), blank_nil, .inl ⟨rfl, rfl⟩,
          noHead_cons.2 (by unfold BlankC; decide)⟩
    have e1 : (State.advanceBy ⟨pre ++ '+' :: '1' :: plusOnes k, pre.length⟩ 1 : State Char) =
        ⟨(pre ++ ['+']) ++ '1' :: plusOnes k, (pre ++ ['+']).length⟩ := by simp [State.advanceBy]
    have h2 : (multitive (primary (value S (.regex (matchNumber S))) (n + 2))).run
        ⟨(pre ++ ['+']) ++ '1' :: plusOnes k, (pre ++ ['+']).length⟩ = .success (.value d) 1 := by
      show Calc.multitive (primary (value S (.regex (matchNumber S))) (n + 2)).run _ = _
      rw [primary_run S (.regex (matchNumber S)) rfl (n + 2)]
      exact (at_success _ _ _ _).2 (eats_multitive S hd n k)
    have e2 : (State.advanceBy ⟨(pre ++ ['+']) ++ '1' :: plusOnes k, (pre ++ ['+']).length⟩ 1 : State Char) =
        ⟨(pre ++ ['+'] ++ ['1']) ++ plusOnes k, (pre ++ ['+'] ++ ['1']).length⟩ := by simp [State.advanceBy]
    have h3 := rest_copies hd n k fuel (.add x (.value d)) (pre ++ ['+'] ++ ['1']) (by omega)
    have h4 : _ ≤ (primary (value S (.regex (matchNumber S))) (n + 2)).steps _ := primary_copies S (n + 1) (pre ++ ['+']) (plusOnes k)
    have h5 : (primary (value S (.regex (matchNumber S))) (n + 2)).steps ⟨(pre ++ ['+']) ++ '1' :: plusOnes k, (pre ++ ['+']).length⟩ ≤
        (multitive (primary (value S (.regex (matchNumber S))) (n + 2))).steps
          ⟨(pre ++ ['+']) ++ '1' :: plusOnes k, (pre ++ ['+']).length⟩ := Nat.le_add_right _ _
    rw [length_plusOnes] at h4
    simp only [plusOnes, Counted.restSteps]
    rw [h1]
    simp only [Res.onSuccess]
    rw [e1, h2]
    simp only [Res.onSuccess]
    rw [e2]
    have e3 : (k + 1) * (k + 1) = k * k + 2 * k + 1 := by rw [Nat.mul_add, Nat.add_mul]; omega
    omega

/-- `1+1+…+1` with `k` additions takes at least `k * k` steps. -/
theorem c145_ones_violated (hd : S.dec ['1'] = some d) (n k : Nat) : k * k ≤ (calculator S (n + 2)).steps ⟨'1' :: plusOnes k, 0⟩ := by
  have h2 : (multitive (primary (value S (.regex (matchNumber S))) (n + 2))).run ⟨'1' :: plusOnes k, 0⟩ = .success (.value d) 1 := by
    show Calc.multitive (primary (value S (.regex (matchNumber S))) (n + 2)).run _ = _
    rw [primary_run S (.regex (matchNumber S)) rfl (n + 2)]
    exact eats_multitive S hd n k
  have h3 := rest_copies S hd n k (('1' :: plusOnes k).length - 1 + 2) (.value d) ['1']
    (by simp only [List.length_cons, length_plusOnes]; omega)
  have h4 : (additive (primary (value S (.regex (matchNumber S))) (n + 2))).steps ⟨'1' :: plusOnes k, 0⟩ ≤
      (calculator S (n + 2)).steps ⟨'1' :: plusOnes k, 0⟩ := Nat.le_add_right _ _
  have h5 : (additive (primary (value S (.regex (matchNumber S))) (n + 2))).steps ⟨'1' :: plusOnes k, 0⟩ =
      (multitive (primary (value S (.regex (matchNumber S))) (n + 2))).steps ⟨'1' :: plusOnes k, 0⟩ +
      ((multitive (primary (value S (.regex (matchNumber S))) (n + 2))).run ⟨'1' :: plusOnes k, 0⟩).onSuccess fun x m =>
        (Counted.restLeft1 (multitive (primary (value S (.regex (matchNumber S))) (n + 2))) addOp x).steps
          (State.advanceBy ⟨'1' :: plusOnes k, 0⟩ m) := rfl
  rw [h2] at h5
  simp only [Res.onSuccess] at h5
  have h6 : (Counted.restLeft1 (multitive (primary (value S (.regex (matchNumber S))) (n + 2))) addOp (.value d)).steps
      (State.advanceBy ⟨'1' :: plusOnes k, 0⟩ 1) =
      Counted.restSteps (multitive (primary (value S (.regex (matchNumber S))) (n + 2))) addOp (('1' :: plusOnes k).length - 1 + 2)
        (.value d) ⟨['1'] ++ plusOnes k, ['1'].length⟩ := rfl
  rw [h6] at h5
  exact Nat.le_trans h3 (Nat.le_trans (by omega) h4)

/-- The time is not proportional to the length of the text: for every factor there is a sum of ones, read as an expression, that
takes more. Each addend is read after all that follows it has been copied. -/
theorem c145_linear_violated (hd : S.dec ['1'] = some d) (C : Nat) : ∃ (t : List Char) (e : Expr D),
    parse (Calc.calculator S (t.length + 1)) t = .ok e ∧ C * (t.length + 1) < (calculator S (t.length + 1)).steps ⟨t, 0⟩ := by
  have hsum : ∀ k (pre : List Char) (e : Expr D), Sum S e pre → ∃ e', Sum S e' (pre ++ plusOnes k) := by
    intro k
    induction k with
    | zero => intro pre e h; exact ⟨e, by simpa [plusOnes] using h⟩
    | succ k ih =>
      intro pre e h
      obtain ⟨e', h'⟩ := ih (pre ++ ['+', '1']) (.add e (.value d)) (by
        have := Sum.add (a := []) (b := []) h blank_nil blank_nil (.one (.num numeral_one hd))
        simpa using this)
      exact ⟨e', by simpa [plusOnes] using h'⟩
  obtain ⟨e, he⟩ := hsum (2 * C + 3) ['1'] (.value d) (.one (.one (.num numeral_one hd)))
  refine ⟨'1' :: plusOnes (2 * C + 3), e, (c63_language S _ _ (Nat.lt_succ_self _) e).2 he, ?_⟩
  have h1 := c145_ones_violated S hd (plusOnes (2 * C + 3)).length (2 * C + 3)
  have h2 : ∀ m, m = 2 * C + 3 → C * (2 * m + 1 + 1) < m * m := by
    intro m hm
    have e1 : m * m = 2 * (C * m) + 3 * m := by
      conv => lhs; lhs; rw [hm]
      rw [Nat.add_mul, Nat.mul_assoc]
    have e2 : C * (2 * m + 1 + 1) = 2 * (C * m) + 2 * C := by
      rw [Nat.mul_add, Nat.mul_add, Nat.mul_left_comm]
      omega
    omega
  refine Nat.lt_of_lt_of_le ?_ h1
  rw [List.length_cons, length_plusOnes]
  exact h2 _ rfl

example : intStd.dec ['1'] = some 1 := by decide

/-- `1+1+1`: 34 runs, and 43 steps with what is copied. -/
example : (calculatorRuns intStd 6).steps ⟨"1+1+1".toList, 0⟩ = 34 ∧ (calculator intStd 6).steps ⟨"1+1+1".toList, 0⟩ = 43 := by
  decide +kernel

end OniComb.Calc.Counting
