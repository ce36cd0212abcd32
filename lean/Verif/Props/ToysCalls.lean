import Verif.Spec.ToysTicks
import Verif.Lemmas.ToysProgram
import Verif.Props.OperatorSteps
import Verif.Props.ToysParse

/-!
# C152: how often the toys parser reads the same statement

The `else` behind two `if`s is tried for the inner one. If its statement turns out to be wrong, the inner `if` has no `else`, and the
same text is tried for the outer one.
-/

namespace OniComb.Toys.Calls
open OniComb OniComb.Stateful OniComb.Toys.Parse OniComb.Toys.Text
open OniComb.Calc.Spec (Blank)
open OniComb.Calc (BlankC blank_nil)
open OniComb.Operators (later clocked_later)
open OniComb.Peg (Clocked clocked_unary clocked_or clocked_andThen clocked_skipRight clocked_repeat)
open OniComb.Json.Ticking (clocked_skipLeft clocked_surround)
variable {A B : Type}

/-! ### The parsers, counted -/

/-- A parser that is not counted. -/
def free (p : Parser Char A) : Counted Char A := ⟨p, fun _ => 0⟩

def spacedK (p : Counted Char A) : Counted Char A := .skipRight (.skipLeft (free space) p) (free space)

section
variable (ex : Parser Char Expr) (ln : Counted Char Expr)

def whileK : Counted Char Expr :=
  .unary (fun p => name p "while") (.unary attempt (spacedK (.unary (fun p => map p fun x => .while x.1 x.2)
    (.andThen (free (skipLeft (word "while") (surround (punct '(') ex (punct ')')))) ln))))

def forK : Counted Char Expr :=
  .unary (fun p => name p "for") (.unary attempt (spacedK (.unary (fun p => map p fun x => forLoop x.1.1.1 x.1.1.2 x.1.2 x.2)
    (.andThen (free (skipLeft (skipRight (tag "for".toList) space) (forParams ex))) ln))))

def cond : Parser Char Expr := skipRight (skipLeft (skipLeft (skipRight (tag "if".toList) space) (punct '(')) ex) (punct ')')

def ifK : Counted Char Expr :=
  .unary (fun p => name p "if") (.unary attempt (spacedK (.unary (fun p => map p fun x => .if x.1.1 x.1.2 x.2)
    (.andThen (.andThen (free (cond ex)) ln) (.unary opt (.skipLeft (free (word "else")) ln))))))

def blockK : Counted Char Expr :=
  .unary (fun p => name p "block") (spacedK (.unary (fun p => map p .block)
    (.surround (free (punct '{')) (.repeatFrom 0 ln) (free (punct '}')))))

def firstK : Counted Char Expr := .or (free (println ex)) (whileK ex ln)

def upToIf : Counted Char Expr := .or (firstK ex ln) (.lazy fun _ => ifK ex ln)

def upToExpr : Counted Char Expr :=
  .or (.or (.or (upToIf ex ln) (forK ex ln)) (free (assignment ex))) (free (expressionLine ex))

def lineStepK : Counted Char Expr := .unary (fun p => name p "line") (spacedK (.or (upToExpr ex ln) (blockK ln)))

end

def lineK (S : Std) (n : Nat) : Nat → Counted Char Expr
  | 0 => free diverging
  | k + 1 => lineStepK (expression S n) (lineK S n k)

theorem lineK_run (S : Std) (n : Nat) : ∀ k, (lineK S n k).run = fixN (Parse.lineStep (expression S n)) k
  | 0 => rfl
  | k + 1 => by
    show Parse.lineStep (expression S n) (lineK S n k).run = _
    rw [lineK_run S n k]
    rfl

theorem clocked_free (p : Parser Char A) : Clocked (ofParser p) (free p) := fun _ _ _ _ => Iff.rfl

theorem clocked_spaced {m : SParser Nat Char A} {c : Counted Char A} (h : Clocked m c) : Clocked (spacedC m) (spacedK c) :=
  clocked_skipRight (clocked_skipLeft (clocked_free _) h) (clocked_free _)

theorem clocked_lineStep (ex : Parser Char Expr) {m : SParser Nat Char Expr} {c : Counted Char Expr} (h : Clocked m c) :
    Clocked (lineStep ex m) (lineStepK ex c) := by
  have hw : Clocked (whileLine ex m) (whileK ex c) := clocked_unary (clocked_unary (clocked_spaced (clocked_unary
    (clocked_andThen (clocked_free _) h) _ fun _ _ => rfl)) _ fun _ _ => rfl) _ fun _ _ => rfl
  have hf : Clocked (forLine ex m) (forK ex c) := clocked_unary (clocked_unary (clocked_spaced (clocked_unary
    (clocked_andThen (clocked_free _) h) _ fun _ _ => rfl)) _ fun _ _ => rfl) _ fun _ _ => rfl
  have hi : Clocked (ifLine ex m) (ifK ex c) := clocked_unary (clocked_unary (clocked_spaced (clocked_unary
    (clocked_andThen (clocked_andThen (clocked_free _) h) (clocked_unary (clocked_skipLeft (clocked_free _) h) _ fun _ _ => rfl))
    _ fun _ _ => rfl)) _ fun _ _ => rfl) _ fun _ _ => rfl
  have hb : Clocked (block m) (blockK c) := clocked_unary (clocked_spaced (clocked_unary (clocked_surround (clocked_free _)
    (clocked_repeat h 0) (clocked_free _)) _ fun _ _ => rfl)) _ fun _ _ => rfl
  exact clocked_unary (clocked_spaced (clocked_or (clocked_or (clocked_or (clocked_or (clocked_or (clocked_or (clocked_free _) hw)
    (clocked_later hi)) hf) (clocked_free _)) (clocked_free _)) hb)) _ fun _ _ => rfl

theorem clocked_line (S : Std) (n : Nat) : ∀ k, Clocked (line S n k) (lineK S n k)
  | 0 => clocked_free _
  | k + 1 => clocked_lineStep _ (clocked_line S n k)

/-! ### From below -/

/-- Behind `pre`, in front of `r`. -/
def at_ (pre r : List Char) : State Char := ⟨pre ++ r, pre.length⟩

theorem at_advance (pre t r : List Char) : (at_ pre (t ++ r)).advanceBy t.length = at_ (pre ++ t) r := by
  simp [at_, State.advanceBy]

theorem at_eats {p : Parser Char A} [Good p] {t r : List Char} {v : A} (pre : List Char) (h : Eats p t v r) :
    p (at_ pre (t ++ r)) = .success v t.length := (at_success pre _ _ _).2 h

theorem andThen_ge (c : Counted Char A) (c' : Counted Char B) [Good c.run] {t r : List Char} {v : A} (pre : List Char)
    (h : Eats c.run t v r) : c.steps (at_ pre (t ++ r)) + c'.steps (at_ (pre ++ t) r) ≤ (Counted.andThen c c').steps (at_ pre (t ++ r)) := by
  show _ ≤ _ + (c.run _).onSuccess _
  rw [at_eats pre h, ← at_advance]
  exact Nat.le_refl _

theorem skipLeft_ge (c : Counted Char A) (c' : Counted Char B) [Good c.run] {t r : List Char} {v : A} (pre : List Char)
    (h : Eats c.run t v r) : c'.steps (at_ (pre ++ t) r) ≤ (Counted.skipLeft c c').steps (at_ pre (t ++ r)) :=
  Nat.le_trans (Nat.le_add_left _ _) (andThen_ge c c' pre h)

theorem or_ge (c c' : Counted Char A) [Good c.run] {r : List Char} (pre : List Char) (h : Fail c.run r .uncommitted) :
    c'.steps (at_ pre r) ≤ (Counted.or c c').steps (at_ pre r) := by
  obtain ⟨e, h⟩ := (at_failure pre r .uncommitted).2 h
  show _ ≤ _ + (c.run _).onUncommitted _
  rw [show c.run (at_ pre r) = _ from h]
  exact Nat.le_add_left _ _

theorem spaced_ge (c : Counted Char A) {r : List Char} (pre : List Char) (h : NoHead BlankC r) :
    c.steps (at_ pre r) ≤ (spacedK c).steps (at_ pre r) := by
  have : Good (free space).run := inferInstanceAs (Good space)
  have h1 := skipLeft_ge (free space) c (t := []) (r := r) (v := ()) pre (eats_space.2 ⟨blank_nil, h⟩)
  rw [List.append_nil, List.nil_append] at h1
  exact Nat.le_trans h1 (Nat.le_add_right _ _)

theorem repeat_ge (c : Counted Char A) (s : State Char) : c.steps s ≤ (Counted.repeatFrom 0 c).steps s := Nat.le_add_right _ _

/-! ### The statements -/

section
variable {S : Std} {m k : Nat} {pre t u r x : List Char} {e b : Expr}

theorem good_run : Good (lineK S m k).run := by rw [lineK_run]; infer_instance

instance : Good (cond (expression S m)) := by unfold cond; infer_instance

theorem eats_cond (ht : Ex false e t) (hm : t.length < m) (h2 : 2 ≤ m) (hr : NoHead BlankC r) :
    Eats (cond (expression S m)) ("if(".toList ++ (t ++ ")".toList)) e r := by
  have h0 : Eats (skipRight (tag "if".toList) space) "if".toList "if".toList ('(' :: (t ++ ')' :: r)) :=
    (Eats.skipRight (w := ()) (eats_tag.2 ⟨rfl, rfl⟩) (eats_space.2 ⟨blank_nil, noHead_cons.2 (by decide)⟩) : Eats _ ("if".toList ++ []) _ _)
  have h1 := paren_reads (ex := expression S m) (N := m - 2) (fun e t rest h hl => expression_reads m e t rest h (by omega))
    (X := r) blank_nil blank_nil ht (by omega) blank_nil blank_nil hr
  refine eats_left_right.2 (eats_left_left.2 ?_)
  have := Eats.skipLeft' h0 h1 (by simp)
  exact this.text (by simp)

theorem fail_upToExpr : Fail (upToExpr (expression S (m + 1)) (lineK S (m + 1) k)).run ('{' :: r) .uncommitted := by
  have hb : NoHead BlankC ('{' :: r) := noHead_cons.2 (by decide)
  have := good_run (S := S) (m := m + 1) (k := k)
  have hs : NoHead Start ('{' :: r) := noHead_cons.2 (by unfold Start; decide)
  have hO : NoHead (Opener S) ('{' :: r) := noHead_cons.2 (by
      unfold Opener
      rw [isDigit_ascii (by decide)]
      unfold Start
      decide)
  exact Fail.or (Fail.or (fail_keywords hb (not_reserved hs)) (fail_assignment_start hb hs))
      (fail_name.2 (fail_attempt_of (fail_expression hO).skipRight))

/-- A statement in an open brace is wrong. -/
theorem fail_open (hr : '}' ∉ r) (hk : k ≤ m) (hl : r.length + 1 < k) : ∃ c, Fail (fixN (Parse.lineStep (expression S m)) k) ('{' :: r) c := by
  have h1 := fixLine_ret (S := S) m k ('{' :: r) hk (by simpa using hl)
  have h2 := Good.safe (fixN (Parse.lineStep (expression S m)) k) ⟨'{' :: r, 0⟩ (Nat.zero_le _)
  have hb : NoHead BlankC ('{' :: r) := noHead_cons.2 (by decide)
  have h3 : ∀ v w rest, '{' :: r = w ++ rest → ¬ Eats (fixN (Parse.lineStep (expression S m)) k) w v rest := by
    intro v w rest he h
    obtain ⟨m, rfl⟩ : ∃ m', m = m' + 1 := ⟨m - 1, by omega⟩
    obtain ⟨k, rfl⟩ : ∃ k', k = k' + 1 := ⟨k - 1, by omega⟩
    have hd : Fail (upToExpr (expression S (m + 1)) (lineK S (m + 1) k)).run ('{' :: r) .uncommitted := fail_upToExpr
    have h : Eats (Parse.lineStep (expression S (m + 1)) (lineK S (m + 1) k).run) w v rest := by rw [lineK_run]; exact h
    have := good_run (S := S) (m := m + 1) (k := k)
    obtain ⟨a, y, b, rfl, ha, -, h5, -, -⟩ := eats_spaced.1 (eats_name.1 h)
    rcases a with _ | ⟨c, a⟩
    · have e1 : y ++ (b ++ rest) = '{' :: r := by simpa using he.symm
      rcases eats_or.1 h5 with h6 | ⟨-, h6⟩
      · obtain ⟨_, hd⟩ := hd
        rw [← e1] at hd
        exact nomatch h6.symm.trans hd
      · obtain ⟨a, z, b', rfl, -, -, es, u, -, rfl, -⟩ := block_sound (fun e t rest h => fixLine_sound (S := S) (m + 1) k e t rest (by rw [← lineK_run]; exact h)) h6
        have : '}' ∈ '{' :: r := by rw [← e1]; simp
        rcases List.mem_cons.1 this with h | h
        · cases h
        · exact hr h
    · have : c = '{' := by simpa using (congrArg List.head? he).symm
      subst this
      exact absurd (ha '{' (by simp)) (by decide)
  cases h : fixN (Parse.lineStep (expression S m)) k ⟨'{' :: r, 0⟩ with
  | success v n =>
    rw [h] at h2
    have hn : n ≤ ('{' :: r).length := by simpa [SafeAt] using h2
    refine absurd ?_ (h3 v (('{' :: r).take n) (('{' :: r).drop n) (List.take_append_drop _ _).symm)
    unfold Eats
    rw [List.take_append_drop, h, List.length_take, Nat.min_eq_left hn]
  | failure e c => exact ⟨c, e, h⟩
  | panic => rw [h] at h2; exact h2.elim
  | diverge => exact absurd h h1

theorem line_if_ge (hk : 0 < k) : 1 + (ifK (expression S m) (lineK S m k)).steps (at_ pre ('i' :: r)) ≤ (lineK S m (k + 1)).steps (at_ pre ('i' :: r)) := by
  have hb : NoHead BlankC ('i' :: r) := noHead_cons.2 (by decide)
  have := good_run (S := S) (m := m) (k := k)
  refine Nat.le_trans ?_ (spaced_ge (.or (upToExpr (expression S m) (lineK S m k)) (blockK (lineK S m k))) pre hb)
  have h1 : Fail (firstK (expression S m) (lineK S m k)).run ('i' :: r) .uncommitted :=
    Fail.or (fail_println hb (not_keyword rfl (noHead_cons.2 (by decide)))) (fail_whileLine hb (not_keyword rfl (noHead_cons.2 (by decide))))
  have h0 : Good (firstK (expression S m) (lineK S m k)).run :=
    inferInstanceAs (Good (or (println (expression S m)) (Parse.whileLine (expression S m) (lineK S m k).run)))
  have h2 := or_ge (firstK (expression S m) (lineK S m k)) (.lazy fun _ => ifK (expression S m) (lineK S m k)) pre h1
  exact Nat.le_trans h2 (Nat.le_trans (Nat.le_trans (Nat.le_trans (Nat.le_add_right _ _) (Nat.le_add_right _ _)) (Nat.le_add_right _ _)) (Nat.le_add_right _ _))

theorem block_ge {c : Counted Char Expr} (hr : NoHead BlankC r) : c.steps (at_ (pre ++ ['{']) r) ≤ (blockK c).steps (at_ pre ('{' :: r)) := by
  have hb : NoHead BlankC ('{' :: r) := noHead_cons.2 (by decide)
  refine Nat.le_trans ?_ (spaced_ge (.unary (fun p => map p Expr.block) (.surround (free (punct '{')) (.repeatFrom 0 (c)) (free (punct '}')))) pre hb)
  have h3 : Good (free (punct '{')).run := inferInstanceAs (Good (punct '{'))
  have h4 : Eats (punct '{') ['{'] ['{'] r := by
    simpa using punct_takes (c := '{') (rest := r) (by decide) [] [] r rfl blank_nil blank_nil hr
  refine Nat.le_trans ?_ (skipLeft_ge (free (punct '{')) (.skipRight (.repeatFrom 0 (c)) (free (punct '}'))) (t := ['{']) pre h4)
  exact Nat.le_trans (repeat_ge _ _) (Nat.le_add_right _ _)

theorem line_block_ge (hm : 0 < m) (hr : NoHead BlankC r) :
    (lineK S m k).steps (at_ (pre ++ ['{']) r) ≤ (lineK S m (k + 1)).steps (at_ pre ('{' :: r)) := by
  have hb : NoHead BlankC ('{' :: r) := noHead_cons.2 (by decide)
  have := good_run (S := S) (m := m) (k := k)
  obtain ⟨m, rfl⟩ : ∃ m', m = m' + 1 := ⟨m - 1, by omega⟩
  refine Nat.le_trans ?_ (spaced_ge (.or (upToExpr (expression S (m + 1)) (lineK S (m + 1) k)) (blockK (lineK S (m + 1) k))) pre hb)
  have h1 : Fail (upToExpr (expression S (m + 1)) (lineK S (m + 1) k)).run ('{' :: r) .uncommitted :=
    fail_upToExpr
  have h0 : Good (upToExpr (expression S (m + 1)) (lineK S (m + 1) k)).run :=
    inferInstanceAs (Good (or (or (or (or (or (println (expression S (m + 1))) (Parse.whileLine (expression S (m + 1)) (lineK S (m + 1) k).run))
      (Parse.ifLine (expression S (m + 1)) (lineK S (m + 1) k).run)) (Parse.forLine (expression S (m + 1)) (lineK S (m + 1) k).run))
      (assignment (expression S (m + 1)))) (expressionLine (expression S (m + 1)))))
  refine Nat.le_trans ?_ (or_ge (upToExpr (expression S (m + 1)) (lineK S (m + 1) k)) (blockK (lineK S (m + 1) k)) pre h1)
  exact block_ge hr

/-- The statement, and the one behind `else`. -/
theorem if_ge (ht : Ex false e t) (hm : t.length < m) (h2 : 2 ≤ m) (hx : Eats (fixN (Parse.lineStep (expression S m)) k) x b ("else".toList ++ '{' :: r))
    (hb : NoHead BlankC (x ++ ("else".toList ++ '{' :: r))) :
    ∃ p1 p2, (lineK S m k).steps (at_ p1 (x ++ ("else".toList ++ '{' :: r))) + (lineK S m k).steps (at_ p2 ('{' :: r)) ≤
      (ifK (expression S m) (lineK S m k)).steps (at_ pre ("if(".toList ++ (t ++ (")".toList ++ (x ++ ("else".toList ++ '{' :: r)))))) := by
  have hk := good_run (S := S) (m := m) (k := k)
  have h1 := eats_cond (S := S) ht hm h2 hb
  have g1 : Good (free (cond (expression S m))).run := inferInstanceAs (Good (cond (expression S m)))
  have g2 : Good (free (word "else")).run := inferInstanceAs (Good (word "else"))
  rw [← lineK_run] at hx
  have h3 := h1.andThen hx
  have g3 : Good (Counted.andThen (free (cond (expression S m))) (lineK S m k)).run :=
    inferInstanceAs (Good (OniComb.andThen (free (cond (expression S m))).run (lineK S m k).run))
  have h4 : Eats (word "else") "else".toList "else".toList ('{' :: r) := by
    have := word_takes (k := "else".toList) (rest := '{' :: r) (solid_cons (by decide)) [] [] _ rfl blank_nil blank_nil (noHead_cons.2 (by decide))
    simpa [word] using this
  have e1 : "if(".toList ++ (t ++ (")".toList ++ (x ++ ("else".toList ++ '{' :: r)))) =
      (("if(".toList ++ (t ++ ")".toList)) ++ x) ++ ("else".toList ++ '{' :: r) := by simp
  have e2 : (("if(".toList ++ (t ++ ")".toList)) ++ x) ++ ("else".toList ++ '{' :: r) =
      ("if(".toList ++ (t ++ ")".toList)) ++ (x ++ ("else".toList ++ '{' :: r)) := by simp
  have h5 := andThen_ge (.andThen (free (cond (expression S m))) (lineK S m k))
    (.unary opt (.skipLeft (free (word "else")) (lineK S m k))) pre h3
  have h6 := andThen_ge (free (cond (expression S m))) (lineK S m k) pre h1
  have h7 := skipLeft_ge (free (word "else")) (lineK S m k) (pre ++ (("if(".toList ++ (t ++ ")".toList)) ++ x)) h4
  have h8 := spaced_ge (.unary (fun p => map p fun x => Expr.if x.1.1 x.1.2 x.2)
    (.andThen (.andThen (free (cond (expression S m))) (lineK S m k)) (.unary opt (.skipLeft (free (word "else")) (lineK S m k)))))
    (r := (("if(".toList ++ (t ++ ")".toList)) ++ x) ++ ("else".toList ++ '{' :: r)) pre (noHead_cons.2 (by decide))
  rw [e1]
  rw [← e2] at h6
  refine ⟨pre ++ ("if(".toList ++ (t ++ ")".toList)), (pre ++ (("if(".toList ++ (t ++ ")".toList)) ++ x)) ++ "else".toList, Nat.le_trans ?_ h8⟩
  refine Nat.le_trans (Nat.add_le_add ?_ h7) h5
  exact Nat.le_trans (Nat.le_add_left _ _) h6

/-- Without the statement behind `else`, which is wrong, the `if` is read. -/
theorem line_if_eats (ht : Ex false e t) (hm : t.length < m) (h2 : 2 ≤ m)
    (hx : Eats (fixN (Parse.lineStep (expression S m)) k) x b ("else".toList ++ '{' :: r))
    (hb : NoHead BlankC (x ++ ("else".toList ++ '{' :: r))) {c : Committed} (hf : Fail (fixN (Parse.lineStep (expression S m)) k) ('{' :: r) c) :
    Eats (fixN (Parse.lineStep (expression S m)) (k + 1)) ("if(".toList ++ (t ++ (")".toList ++ x))) (.if e b none) ("else".toList ++ '{' :: r) := by
  have h4 : Eats (word "else") "else".toList "else".toList ('{' :: r) := by
    have := word_takes (k := "else".toList) (rest := '{' :: r) (solid_cons (by decide)) [] [] _ rfl blank_nil blank_nil (noHead_cons.2 (by decide))
    simpa [word] using this
  have h5 : Eats (opt (skipLeft (word "else") (fixN (Parse.lineStep (expression S m)) k))) [] none ("else".toList ++ '{' :: r) :=
    eats_opt.2 (.inr ⟨rfl, rfl, _, Eats.skipLeft_fail h4 hf⟩)
  have h6 := (((eats_cond (S := S) ht hm h2 hb).andThen hx).andThen' h5 rfl).map fun x : (Expr × Expr) × Option Expr => Expr.if x.1.1 x.1.2 x.2
  have hsp : ∀ {p : Parser Char Expr} [Good p] {y : List Char} {v : Expr}, Eats p ('i' :: y) v ("else".toList ++ '{' :: r) →
      Eats (spaced p) ('i' :: y) v ("else".toList ++ '{' :: r) := fun h =>
    eats_spaced.2 ⟨[], _, [], by simp, blank_nil, noHead_cons.2 (by decide), h, blank_nil, noHead_cons.2 (by decide)⟩
  have h7 : Eats (Parse.ifLine (expression S m) (fixN (Parse.lineStep (expression S m)) k)) ("if(".toList ++ (t ++ (")".toList ++ x))) (.if e b none)
      ("else".toList ++ '{' :: r) := by
    have h6' : Eats _ ("if(".toList ++ (t ++ (")".toList ++ x))) _ _ := h6.text (by simp only [List.append_assoc, List.append_nil])
    exact eats_name.2 (Eats.attempt (hsp h6'))
  refine eats_name.2 (hsp ?_)
  have hb : NoHead BlankC (("if(".toList ++ (t ++ (")".toList ++ x))) ++ ("else".toList ++ '{' :: r)) := noHead_cons.2 (by decide)
  refine Eats.or_left (Eats.or_left (Eats.or_left (Eats.or_left (Eats.or_right ?_ h7))))
  exact Fail.or (fail_println hb (not_keyword rfl (noHead_cons.2 (by decide))))
      (fail_whileLine hb (not_keyword rfl (noHead_cons.2 (by decide))))

end

/-! ### Open braces -/

section
variable {S : Std} {t t' u : List Char} {e e' s : Expr}

theorem opened_succ (d : Nat) : opened t t' u (d + 1) = "if(".toList ++ (t ++ (")".toList ++ (("if(".toList ++ (t' ++ (")".toList ++ u))) ++
    ("else".toList ++ '{' :: opened t t' u d)))) := by simp [opened]

theorem opened_start : ∀ d, NoHead BlankC (opened t t' u d)
  | 0 => noHead_nil'
  | _ + 1 => noHead_cons.2 (by decide)

theorem opened_open (h : '}' ∉ t) (h' : '}' ∉ t') (h'' : '}' ∉ u) : ∀ d, '}' ∉ opened t t' u d
  | 0 => by simp [opened]
  | d + 1 => by simp [opened, h, h', h'', opened_open h h' h'' d]

/-- Both the statement in front of `else` and the `if` around it read what is behind. -/
theorem opened_ge (he : Ex false e t) (he' : Ex false e' t') (hs : Line false false s u) (h : '}' ∉ t) (h' : '}' ∉ t') (h'' : '}' ∉ u)
    (m : Nat) : ∀ d k pre, k ≤ m → (opened t t' u d).length < k → 2 ^ d ≤ (lineK S m k).steps (at_ pre (opened t t' u d)) + 1
  | 0, _, _, _, _ => by simp
  | d + 1, k, pre, hk, hl => by
    rw [opened_succ] at hl ⊢
    have hu := (line_solid hs).append (r := "else".toList ++ '{' :: opened t t' u d)
    simp only [List.length_append, List.length_cons] at hl
    have l1 : "if(".toList.length = 3 := rfl
    have l2 : ")".toList.length = 1 := rfl
    have l3 : "else".toList.length = 4 := rfl
    obtain ⟨k, rfl⟩ : ∃ k', k = k' + 3 := ⟨k - 3, by omega⟩
    have hu1 : Eats (fixN (Parse.lineStep (expression S m)) (k + 1)) u s ("else".toList ++ '{' :: opened t t' u d) := by
      have := fixLine_reads (S := S) m (k + 1) false s u ("else".toList ++ '{' :: opened t t' u d) (by omega) hs (by omega) (fun h => nomatch h)
        [] [] ("else".toList ++ '{' :: opened t t' u d) rfl blank_nil blank_nil (noHead_cons.2 (by decide))
      simpa only [List.nil_append, List.append_nil] using this
    obtain ⟨c, hf⟩ := fail_open (S := S) (m := m) (k := k + 1) (opened_open h h' h'' d) (by omega) (by omega)
    have hx := line_if_eats he' (by omega) (by omega) hu1 hu hf
    obtain ⟨p1, p2, g1⟩ := if_ge (S := S) (m := m) (k := k + 2) (pre := pre) he (by omega) (by omega) hx (noHead_cons.2 (by decide))
    have g2 : _ ≤ (lineK S m (k + 3)).steps _ := line_if_ge (S := S) (m := m) (k := k + 2) (pre := pre) (by omega) (r := "f(".toList ++ (t ++ (")".toList ++
      (("if(".toList ++ (t' ++ (")".toList ++ u))) ++ ("else".toList ++ '{' :: opened t t' u d)))))
    obtain ⟨p3, p4, g3⟩ := if_ge (S := S) (m := m) (k := k + 1) (pre := p1) he' (by omega) (by omega) hu1 hu
    have g4 : _ ≤ (lineK S m (k + 2)).steps _ := line_if_ge (S := S) (m := m) (k := k + 1) (pre := p1) (by omega) (r := "f(".toList ++ (t' ++ (")".toList ++
      (u ++ ("else".toList ++ '{' :: opened t t' u d)))))
    have g5 : _ ≤ (lineK S m (k + 2)).steps _ := line_block_ge (S := S) (m := m) (k := k + 1) (pre := p2) (by omega) (opened_start (t := t) (t' := t') (u := u) d)
    have g6 := line_block_ge (S := S) (m := m) (k := k) (pre := p4) (by omega) (opened_start (t := t) (t' := t') (u := u) d)
    have i1 := opened_ge he he' hs h h' h'' m d (k + 1) (p2 ++ ['{']) (by omega) (by omega)
    have i2 := opened_ge he he' hs h h' h'' m d k (p4 ++ ['{']) (by omega) (by omega)
    have e1 : ("if(".toList ++ (t' ++ (")".toList ++ u))) ++ ("else".toList ++ '{' :: opened t t' u d) =
      'i' :: ("f(".toList ++ (t' ++ (")".toList ++ (u ++ ("else".toList ++ '{' :: opened t t' u d))))) := by simp
    have e2 : "if(".toList ++ (t ++ (")".toList ++ (("if(".toList ++ (t' ++ (")".toList ++ u))) ++ ("else".toList ++ '{' :: opened t t' u d)))) =
      'i' :: ("f(".toList ++ (t ++ (")".toList ++ (("if(".toList ++ (t' ++ (")".toList ++ u))) ++ ("else".toList ++ '{' :: opened t t' u d))))) := rfl
    have e3 : "if(".toList ++ (t' ++ (")".toList ++ (u ++ ("else".toList ++ '{' :: opened t t' u d)))) =
      'i' :: ("f(".toList ++ (t' ++ (")".toList ++ (u ++ ("else".toList ++ '{' :: opened t t' u d))))) := rfl
    rw [e2] at g1 ⊢
    rw [e1] at g1 g2 ⊢
    rw [e3] at g3
    rw [Nat.pow_succ]
    omega

/-! ### Programs -/

def functionK (S : Std) (n : Nat) : Counted Char Expr :=
  .unary (fun p => name p "function definition") (spacedK (.unary (fun p => map p fun x => .functionDefinition x.1.1 x.1.2 x.2)
    (.andThen (free (OniComb.andThen Parse.define (OniComb.surround (punct '(') (many0Sep ident (punct ',')) (punct ')'))))
      (blockK (lineK S n n)))))

def programK (S : Std) (n : Nat) : Counted Char Expr :=
  .skipLeft (free space) (.unary (fun p => map p .program) (.repeatFrom 0 (.unary (fun p => name p "top level definition")
    (.or (free (globalVariableDefinition S n)) (functionK S n)))))

theorem programK_run (S : Std) (n : Nat) : (programK S n).run = Parse.program S n := by
  show OniComb.skipLeft space (map (many0 (name (OniComb.or (globalVariableDefinition S n) (name (spaced (map (OniComb.andThen (OniComb.andThen Parse.define
    (OniComb.surround (punct '(') (many0Sep ident (punct ',')) (punct ')'))) (Parse.block (lineK S n n).run)) _)) _)) _)) _) = _
  rw [lineK_run]
  rfl

theorem clocked_block {c : Counted Char Expr} {m : SParser Nat Char Expr} (h : Clocked m c) : Clocked (block m) (blockK c) :=
  clocked_unary (clocked_spaced (clocked_unary (clocked_surround (clocked_free _) (clocked_repeat h 0) (clocked_free _))
    _ fun _ _ => rfl)) _ fun _ _ => rfl

theorem clocked_program (S : Std) (n : Nat) : Clocked (program S n) (programK S n) :=
  clocked_skipLeft (clocked_free _) (clocked_unary (clocked_repeat (clocked_unary (clocked_or (clocked_free _)
    (clocked_unary (clocked_spaced (clocked_unary (clocked_andThen (clocked_free _) (clocked_block (clocked_line S n n))) _ fun _ _ => rfl))
      _ fun _ _ => rfl)) _ fun _ _ => rfl) 0) _ fun _ _ => rfl)

theorem eats_header {x : Name} {r : List Char} (hx : Ident x) :
    Eats (OniComb.andThen Parse.define (OniComb.surround (punct '(') (many0Sep ident (punct ',')) (punct ')'))) ("fn ".toList ++ (x.toList ++ "()".toList)) (x, [])
      ('{' :: r) := by
  have k0 : Eats space [] () ("fn".toList ++ ([' '] ++ (x.toList ++ '(' :: ')' :: '{' :: r))) := eats_space.2 ⟨blank_nil, noHead_cons.2 (by decide)⟩
  have k1 : Eats (tag "fn".toList) "fn".toList "fn".toList ([' '] ++ (x.toList ++ '(' :: ')' :: '{' :: r)) := eats_tag.2 ⟨rfl, rfl⟩
  have k2 : Eats space [' '] () (x.toList ++ '(' :: ')' :: '{' :: r) := eats_space.2 ⟨by simp [Blank], (ident_starts hx).1.2⟩
  have k3 := ident_takes (rest := [] ++ '(' :: ')' :: '{' :: r) hx (noHead_blank_cons blank_nil (by unfold Part Start; decide)) [] [] _ rfl
      blank_nil blank_nil (noHead_cons.2 (by decide))
  have k4 : Eats space [] () ('(' :: ')' :: '{' :: r) := eats_space.2 ⟨blank_nil, noHead_cons.2 (by decide)⟩
  have k5 := brackets_takes (l := '(') (z := ')') (q := many0Sep ident (punct ',')) (rest := [] ++ '{' :: r)
      (by decide) (by decide) (u := []) (v := []) (fun X => listing0_reads (P := IsName) isName_solid (by
        rintro x t rest ⟨hx, rfl⟩ hf
        exact (ident_takes hx hf.2).reads) (by decide) (by unfold Part Start; decide) (by decide)
        (fun X => ⟨_, fail_ident (a := []) (r := ')' :: X) blank_nil (noHead_cons.2 (by unfold Start; decide))
          (noHead_cons.2 (by decide))⟩) (.empty blank_nil) X) [] [] _ rfl blank_nil blank_nil (noHead_cons.2 (by decide))
  have m1 := ((((k0.skipLeft' k1 (by simp)).skipLeft' k2 (by simp)).skipLeft' k3 (by simp)).skipRight' k4 (by simp))
  exact (Eats.andThen' (p := Parse.define) m1 k5 (by simp)).text (by simp)

theorem opened_length : ∀ d, (opened t t' u d).length = d * (t.length + t'.length + u.length + 13)
  | 0 => by simp [opened]
  | d + 1 => by
    have l1 : "if(".toList.length = 3 := rfl
    have l2 : ")".toList.length = 1 := rfl
    have l3 : ")if(".toList.length = 4 := rfl
    have l4 : "else{".toList.length = 5 := rfl
    rw [opened, Nat.succ_mul, ← opened_length d]
    simp only [List.length_append, l1, l2, l3, l4]
    omega

/-- "The parser of toys takes polynomially many steps." It does not: with `d` braces open behind `if(t)if(t')u else`, `program` calls
`r#if` at least `2 ^ d - 1` times, on a text whose length is `d` times that of one of them, and the function's header. Whatever the
conditions and the statement. -/
theorem c152_open_blocks_violated (S : Std) (x : Name) (hx : Ident x) (he : Ex false e t) (he' : Ex false e' t')
    (hs : Line false false s u) (h : '}' ∉ t) (h' : '}' ∉ t') (h'' : '}' ∉ u) (d n : Nat) (T : List Char)
    (hT : T = "fn ".toList ++ (x.toList ++ ("(){".toList ++ opened t t' u d))) (hn : T.length < n) (σ : Nat) :
    T.length = d * (t.length + t'.length + u.length + 13) + (x.toList.length + 6) ∧
    ∃ j, 2 ^ d ≤ j + 1 ∧ ∀ r σ', program S n ⟨T, 0⟩ σ r σ' ↔ r = Parse.program S n ⟨T, 0⟩ ∧ σ' = σ + j := by
  have hl : T.length = d * (t.length + t'.length + u.length + 13) + (x.toList.length + 6) := by
    have l1 : "fn ".toList.length = 3 := rfl
    have l2 : "(){".toList.length = 3 := rfl
    rw [hT, ← opened_length d]
    simp only [List.length_append, l1, l2]
    omega
  refine ⟨hl, (programK S n).steps ⟨T, 0⟩, ?_, fun r σ' => by rw [clocked_program S n, programK_run]⟩
  have hb : NoHead BlankC T := by rw [hT]; exact noHead_cons.2 (by decide)
  have hg : NoHead (· = 'g') T := by rw [hT]; exact noHead_cons.2 (by decide)
  have e1 : T = ("fn ".toList ++ (x.toList ++ "()".toList)) ++ '{' :: opened t t' u d := by rw [hT]; simp
  have g1 : Good (free space).run := inferInstanceAs (Good space)
  have g2 : Good (free (globalVariableDefinition S n)).run := inferInstanceAs (Good (globalVariableDefinition S n))
  have g3 : Good (free (OniComb.andThen Parse.define (OniComb.surround (punct '(') (many0Sep ident (punct ',')) (punct ')')))).run :=
    inferInstanceAs (Good (OniComb.andThen Parse.define (OniComb.surround (punct '(') (many0Sep ident (punct ',')) (punct ')'))))
  have i1 := skipLeft_ge (free space) (.unary (fun p => map p Expr.program) (.repeatFrom 0 (.unary (fun p => name p "top level definition")
    (.or (free (globalVariableDefinition S n)) (functionK S n))))) (t := []) (r := T) (v := ()) [] (eats_space.2 ⟨blank_nil, hb⟩)
  have i2 := repeat_ge (.unary (fun p => name p "top level definition") (.or (free (globalVariableDefinition S n)) (functionK S n))) (at_ [] T)
  have i3 := or_ge (free (globalVariableDefinition S n)) (functionK S n) (r := T) [] (fail_global (a := []) blank_nil hb hg)
  have i4 := spaced_ge (.unary (fun p => map p fun x => Expr.functionDefinition x.1.1 x.1.2 x.2)
    (.andThen (free (OniComb.andThen Parse.define (OniComb.surround (punct '(') (many0Sep ident (punct ',')) (punct ')'))))
      (blockK (lineK S n n)))) [] hb
  have i5 := andThen_ge (free (OniComb.andThen Parse.define (OniComb.surround (punct '(') (many0Sep ident (punct ',')) (punct ')'))))
      (blockK (lineK S n n)) [] (eats_header (r := opened t t' u d) hx)
  have i6 := block_ge (pre := [] ++ ("fn ".toList ++ (x.toList ++ "()".toList))) (c := lineK S n n) (opened_start (t := t) (t' := t') (u := u) d)
  have i7 := opened_ge (S := S) he he' hs h h' h'' n d n (([] ++ ("fn ".toList ++ (x.toList ++ "()".toList))) ++ ['{']) (Nat.le_refl _)
    (by rw [opened_length]; omega)
  rw [← e1] at i5
  refine Nat.le_trans i7 (Nat.succ_le_succ (Nat.le_trans i6 ?_))
  exact Nat.le_trans (Nat.le_trans (Nat.le_add_left _ _) i5) (Nat.le_trans i4 (Nat.le_trans i3 (Nat.le_trans i2 i1)))

/-- `fn main(){if(1)if(1)println(1);else{…`: with forty open braces, 1050 characters, more than 10^12 calls. -/
example (S : Std) (T : List Char) (hT : T = "fn main(){".toList ++ opened ['1'] ['1'] "println(1);".toList 40) (σ : Nat) :
    T.length = 1050 ∧ ∃ j, 10 ^ 12 < j ∧ ∀ r σ', program S 1100 ⟨T, 0⟩ σ r σ' ↔ r = Parse.program S 1100 ⟨T, 0⟩ ∧ σ' = σ + j := by
  have h1 : Ex false _ ['1'] := .one (.one (.one (.one (digit_ex '1' (by decide)))))
  have h2 : Line false false _ "println(1);".toList := println_line h1
  obtain ⟨h3, j, h4, h5⟩ := c152_open_blocks_violated S "main" ⟨'m', "ain".toList, by decide, by unfold Start; decide, by unfold Part Start; decide⟩
    h1 h1 h2 (by decide) (by decide) (by decide) 40 1100 T (by rw [hT]; rfl) (by
      rw [hT, List.length_append, opened_length]; decide) σ
  exact ⟨h3, j, by omega, h5⟩

end

end OniComb.Toys.Calls
