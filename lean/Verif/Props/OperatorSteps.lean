import Verif.Lemmas.OperatorSteps
import Verif.Props.OperatorTable
import Verif.Props.CalcTicks

/-!
# C151: operator tables are read in linear time

`Table.towerTicked` is the parser that C136 is about, with a clock.
-/

namespace OniComb.Operators
open OniComb OniComb.Stateful
open OniComb.Peg (tick Clocked clocked_prim clocked_unary clocked_or clocked_flatMap clocked_skipRight clocked_bind)
open OniComb.Json.Ticking (clocked_surround)
open OniComb.Calc.Ticking (clocked_chainLeft1)
variable {I A : Type} [DecidableEq I] {T : Table I A} {g : Nat}

omit [DecidableEq I] in
theorem clocked_later {m : SParser Nat I A} {c : Counted I A} (h : Clocked m c) : Clocked (later m) (.lazy fun _ => c) := by
  intro s σ r σ'
  refine (clocked_bind (clocked_prim unit) _ s σ r σ').trans ((h _ _ _ _).trans ?_)
  rw [Nat.add_assoc]
  rfl

omit [DecidableEq I] in
theorem clocked_op (k : Nat) : Clocked (T.opTicked k) (T.opCounted k) := clocked_unary (clocked_prim _) _ fun _ _ => rfl

theorem clocked_level {m : SParser Nat I A} {c : Counted I A} (h : Clocked m c) {self : Nat → SParser Nat I A} {self' : Nat → Counted I A}
    (hs : ∀ k, Clocked (self k) (self' k)) : ∀ k, Clocked (T.levelTicked m self k) (T.levelCounted c self' k)
  | 0 => clocked_or h (clocked_surround (clocked_prim _) (clocked_later (hs _)) (clocked_prim _))
  | k + 1 => by
    have ih := clocked_level h hs k
    rw [Table.levelTicked, Table.levelCounted]
    split
    · exact clocked_flatMap ih fun x => clocked_or (clocked_flatMap (clocked_op k) fun f =>
        clocked_unary (clocked_later (hs (k + 1))) _ fun _ _ => rfl) (clocked_prim _)
    · exact clocked_chainLeft1 ih (clocked_op k)

theorem clocked_tower {m : SParser Nat I A} {c : Counted I A} (h : Clocked m c) : ∀ n k, Clocked (T.towerTicked m n k) (T.towerCounted c n k)
  | 0, _ => clocked_prim _
  | n + 1, k => clocked_level h (clocked_tower h n) k

/-- The parser written after an operator table takes at most `2 * (ranks + g) + 3` steps for each element of the text, whatever the
text: `g` is what the operands take for one. -/
theorem c151_linear (T : Table I A) (g : Nat) (m : SParser Nat I A) (f : State I → Nat) (hg : Operand g T.atom m f) (n : Nat) (t : List I)
    (σ : Nat) : ∃ j, j ≤ (2 * (T.height + g) + 3) * (t.length + 1) ∧ ∀ r σ',
      Stateful.skipRight (T.towerTicked m n T.height) (tick 1 end_) ⟨t, 0⟩ σ r σ' ↔
        r = skipRight (T.tower n T.height) end_ ⟨t, 0⟩ ∧ σ' = σ + j := by
  have h1 := clocked_skipRight (clocked_tower (T := T) (c := ⟨T.atom, f⟩) hg.clock n T.height) (clocked_prim end_)
  have h2 := tower_bound (T := T) (atom := ⟨T.atom, f⟩) hg n T.height (Nat.le_refl _)
  have h3 := tower_run (T := T) (atom := ⟨T.atom, f⟩) rfl n T.height
  refine ⟨(Counted.skipRight (T.towerCounted ⟨T.atom, f⟩ n T.height) (Counted.prim end_)).steps ⟨t, 0⟩, ?_, fun r σ' => ?_⟩
  rotate_left
  · rw [h1, show (Counted.skipRight (T.towerCounted ⟨T.atom, f⟩ n T.height) (Counted.prim end_)).run = skipRight _ end_ from rfl, h3]
  · show Counted.steps _ _ + (Counted.run _ _).onSuccess _ ≤ _
    have e : (2 * (T.height + g) + 3) * (t.length + 1) = (2 * g + 2 * T.height + 3) * t.length + (2 * g + 2 * T.height + 3) := by
      rw [Nat.mul_add, Nat.mul_one, show 2 * (T.height + g) + 3 = 2 * g + 2 * T.height + 3 by omega]
    rw [e]
    by_cases h4 : ∃ v j, (T.towerCounted ⟨T.atom, f⟩ n T.height).run ⟨t, 0⟩ = .success v j
    · obtain ⟨v, j, h4⟩ := h4
      obtain ⟨h5, h6⟩ := h2.ok _ _ _ (Nat.zero_le _) h4
      have h7 := Nat.mul_le_mul_left (2 * g + 2 * T.height + 3) (show j ≤ t.length from h5)
      rw [h4]
      show _ + 1 ≤ _
      omega
    · have h4 : ∀ v j, (T.towerCounted ⟨T.atom, f⟩ n T.height).run ⟨t, 0⟩ ≠ .success v j := fun v j h => h4 ⟨v, j, h⟩
      have h5 := h2.other _ (Nat.zero_le _) h4
      rw [onSuccess_other h4]
      have h6 : Steps.left (⟨t, 0⟩ : State I) = t.length := rfl
      rw [h6] at h5
      omega

/-- With digits for operands: eleven steps for each character, accepted or rejected. -/
example (t : List Char) (σ : Nat) : ∃ j, j ≤ 11 * (t.length + 1) ∧ ∀ r σ',
    Stateful.skipRight (powers.towerTicked (tick 1 powers.atom) (t.length + 1) 3) (tick 1 end_) ⟨t, 0⟩ σ r σ' ↔
      r = skipRight (powers.tower (t.length + 1) 3) end_ ⟨t, 0⟩ ∧ σ' = σ + j := by
  refine c151_linear powers 1 (tick 1 powers.atom) (fun _ => 1) ⟨fun _ _ _ _ => Iff.rfl, fun s v n hs h => ?_, ?_, ?_, ?_⟩ _ t σ
  · obtain ⟨v', h'⟩ := (Steps.same_map _).ok _ _ _ _ (show map (elmPred Char.isDigit) _ s = _ from h)
    have := pred_ok hs h'
    unfold Steps.left at this
    omega
  · intro s v n _; omega
  · intro s e _; exact Nat.le_refl _
  · intro s; omega

/-! ### The grammar of the textbook -/

variable {Atom : A → List I → Prop} {m : SParser Nat I A} {f : State I → Nat}

/-- `Table.bookOperand`, counted. -/
def Table.bookOperandCounted (T : Table I A) (atom self : Counted I A) : Counted I A :=
  .or atom (.surround (.prim (elm T.lp)) (.lazy fun _ => self) (.prim (elm T.rp)))

/-- `Table.book`, counted. -/
def Table.bookCounted (T : Table I A) (atom : Counted I A) : Nat → Counted I A
  | 0 => .prim diverging
  | n + 1 => .or (.unary attempt (.unary (fun p => map p fun x => x.1.2 x.1.1 x.2) (.andThen (.andThen
      (T.bookOperandCounted atom (T.bookCounted atom n)) (T.opCounted 0)) (.lazy fun _ => T.bookCounted atom n))))
      (T.bookOperandCounted atom (T.bookCounted atom n))

theorem book_run {atom : Counted I A} (ha : atom.run = T.atom) : ∀ n, (T.bookCounted atom n).run = T.book n ∧
    (T.bookOperandCounted atom (T.bookCounted atom n)).run = T.bookOperand (T.book n)
  | 0 => ⟨rfl, by show OniComb.or atom.run _ = _; rw [ha]; rfl⟩
  | n + 1 => by
    obtain ⟨h1, h2⟩ := book_run ha n
    have h3 : (T.bookCounted atom (n + 1)).run = T.book (n + 1) := by
      show OniComb.or (attempt (map (OniComb.andThen (OniComb.andThen (T.bookOperandCounted atom (T.bookCounted atom n)).run
        (T.opCounted 0).run) (lazy fun _ => (T.bookCounted atom n).run)) _)) (T.bookOperandCounted atom (T.bookCounted atom n)).run = _
      rw [h1, h2]
      rfl
    refine ⟨h3, ?_⟩
    show OniComb.or atom.run (OniComb.surround (elm T.lp) (lazy fun _ => (T.bookCounted atom (n + 1)).run) (elm T.rp)) = _
    rw [ha, h3]
    rfl

theorem clocked_book {c : Counted I A} (h : Clocked m c) : ∀ n, Clocked (T.bookTicked m n) (T.bookCounted c n)
  | 0 => clocked_prim _
  | n + 1 => by
    have ih := clocked_book h n
    have ho : Clocked (T.bookOperandTicked m (T.bookTicked m n)) (T.bookOperandCounted c (T.bookCounted c n)) :=
      clocked_or h (clocked_surround (clocked_prim _) (clocked_later ih) (clocked_prim _))
    exact clocked_or (clocked_unary (clocked_unary (Peg.clocked_andThen (Peg.clocked_andThen ho (clocked_op 0)) (clocked_later ih)) _ fun _ _ => rfl)
      _ fun _ _ => rfl) ho

theorem good_book [Good T.atom] : ∀ n, Good (T.book n) ∧ Good (T.bookOperand (T.book n))
  | 0 => by
    have : Good (T.book 0) := by unfold Table.book; infer_instance
    refine ⟨this, ?_⟩
    unfold Table.bookOperand
    infer_instance
  | n + 1 => by
    obtain ⟨h1, h2⟩ := good_book n
    have : Good (T.book (n + 1)) := by unfold Table.book Table.bookLevel; infer_instance
    refine ⟨this, ?_⟩
    unfold Table.bookOperand
    infer_instance

/-- What follows: the end or a closing bracket. -/
def Closed (T : Table I A) (r : List I) : Prop := ∀ c u, r = c :: u → c = T.rp

theorem eats_bookLevel (hT : T.Ok Atom) [Good T.atom] {n : Nat} {w r : List I} {v : A} (hr : Closed T r)
    (h : Eats (T.bookOperand (T.book n)) w v r) :
    Fail (attempt (map (OniComb.andThen (OniComb.andThen (T.bookOperand (T.book n)) (T.op 0)) (lazy fun _ => T.book n))
      fun x => x.1.2 x.1.1 x.2)) (w ++ r) .uncommitted ∧ Eats (T.book (n + 1)) w v r := by
  obtain ⟨h1, h2⟩ := good_book (T := T) n
  have hf : Fail (T.op 0) r .uncommitted := fail_op fun c u hc => by rw [hr c u hc, hT.closing]; simp
  have := fail_attempt.2 ⟨rfl, .uncommitted, fail_map (f := fun x : (A × (A → A → A)) × A => x.1.2 x.1.1 x.2).2
    (fail_andThen (q := lazy fun _ => T.book n).2 (.inl (fail_andThen.2 (.inr ⟨w, v, r, rfl, h, hf⟩))))⟩
  exact ⟨this, eats_or.2 (.inr ⟨this, h⟩)⟩

theorem eats_book (hT : T.Ok Atom) {a : A} {w : List I} (ha : Atom a w) : ∀ d n r, d ≤ n → Closed T r →
    Eats (T.bookOperand (T.book n)) (bracketed T w d) a r
  | 0, n, r, _, hr => eats_or.2 (.inl (hT.reads a w r ha fun c u hc => .inl (hr c u hc)))
  | d + 1, n, r, hd, hr => by
    have := hT.good
    obtain ⟨k, rfl⟩ : ∃ k, n = k + 1 := ⟨n - 1, by omega⟩
    have hc : Closed T (T.rp :: r) := fun c u h => by cases h; rfl
    have h1 := (eats_bookLevel hT hc (eats_book hT ha d k (T.rp :: r) (by omega) hc)).2
    obtain ⟨h2, h3⟩ := good_book (T := T) (k + 1)
    exact eats_or.2 (.inr ⟨hT.bracket _, Eats.surround (t1 := [T.lp]) (t3 := [T.rp]) (eats_elm.2 ⟨rfl, rfl⟩) h1 (eats_elm.2 ⟨rfl, rfl⟩)⟩)

/-- The operand is read twice, and the operator behind it once. -/
theorem bookLevel_steps (hT : T.Ok Atom) {atom : Counted I A} (hr : atom.run = T.atom) {n : Nat} {w r : List I} {v : A} (pre : List I)
    (hc : Closed T r) (h : Eats (T.bookOperand (T.book n)) w v r) :
    2 * (T.bookOperandCounted atom (T.bookCounted atom n)).steps ⟨pre ++ (w ++ r), pre.length⟩ + 1 ≤
      (T.bookCounted atom (n + 1)).steps ⟨pre ++ (w ++ r), pre.length⟩ := by
  have := hT.good
  obtain ⟨h1, h2⟩ := good_book (T := T) n
  obtain ⟨r1, r2⟩ := book_run (T := T) hr n
  obtain ⟨e, h3⟩ := (at_failure pre (w ++ r) .uncommitted).2 (eats_bookLevel hT hc h).1
  have h4 := (at_success pre (w ++ r) v w.length).2 h
  rw [← r2, ← r1] at h3
  rw [← r2] at h4
  show _ ≤ (Counted.steps _ _ + (Counted.run _ _).onSuccess _ + (OniComb.andThen _ _ _).onSuccess _) + (Counted.run _ _).onUncommitted _
  have h5 : ∀ k : Nat, (attempt (map (OniComb.andThen (OniComb.andThen (T.bookOperandCounted atom (T.bookCounted atom n)).run (T.op 0))
      (lazy fun _ => (T.bookCounted atom n).run)) fun x => x.1.2 x.1.1 x.2) ⟨pre ++ (w ++ r), pre.length⟩).onUncommitted k = k := by
    intro k; rw [h3]; rfl
  refine Nat.le_trans ?_ (Nat.add_le_add (Nat.le_add_right _ _) (Nat.le_of_eq (h5 _).symm))
  rw [h4]
  show _ ≤ _ + 1 + _
  omega

/-- Each pair of brackets is read twice. -/
theorem book_steps (hT : T.Ok Atom) {a : A} {w : List I} (ha : Atom a w) {atom : Counted I A} (hr : atom.run = T.atom) :
    ∀ d n pre r, d ≤ n → Closed T r → 2 ^ d ≤ (T.bookCounted atom (n + 1)).steps ⟨pre ++ (bracketed T w d ++ r), pre.length⟩
  | 0, n, pre, r, hd, hc => by
    have := bookLevel_steps hT hr pre hc (eats_book hT ha 0 n r hd hc)
    omega
  | d + 1, n, pre, r, hd, hc => by
    have := hT.good
    have h1 := bookLevel_steps hT hr pre hc (eats_book hT ha (d + 1) n r hd hc)
    obtain ⟨k, rfl⟩ : ∃ k, n = k + 1 := ⟨n - 1, by omega⟩
    have ih := book_steps hT ha hr d k (pre ++ [T.lp]) (T.rp :: r) (by omega) fun c u h => by cases h; rfl
    obtain ⟨e, h2⟩ := (at_failure pre _ .uncommitted).2 (hT.bracket (bracketed T w d ++ T.rp :: r))
    have h3 := (at_success (p := elm T.lp) pre (T.lp :: (bracketed T w d ++ T.rp :: r)) T.lp 1).2
      (eats_elm (t := [T.lp]).2 ⟨rfl, rfl⟩)
    have e1 : pre ++ (bracketed T w (d + 1) ++ r) = pre ++ T.lp :: (bracketed T w d ++ T.rp :: r) := by
      simp [bracketed]
    have h4 : 2 ^ d ≤ (T.bookOperandCounted atom (T.bookCounted atom (k + 1))).steps ⟨pre ++ (bracketed T w (d + 1) ++ r), pre.length⟩ := by
      rw [e1]
      show _ ≤ Counted.steps _ _ + (atom.run _).onUncommitted (1 + (elm T.lp _).onSuccess _)
      rw [hr, h2, h3]
      show _ ≤ _ + (1 + ((1 + (T.bookCounted atom (k + 1)).steps _) + _))
      have e2 : (⟨pre ++ T.lp :: (bracketed T w d ++ T.rp :: r), pre.length⟩ : State I).advanceBy 1 =
          ⟨(pre ++ [T.lp]) ++ (bracketed T w d ++ T.rp :: r), (pre ++ [T.lp]).length⟩ := by
        simp [State.advanceBy]
      rw [e2]
      omega
    rw [Nat.pow_succ]
    omega

/-- The grammar of the textbook, with `attempt` around its first alternative: an operand in `d` pairs of brackets is read, in at least
`2 ^ d` steps. The parser of `c151_linear` takes linearly many for the same text. -/
theorem c151_textbook (T : Table I A) (Atom : A → List I → Prop) (hT : T.Ok Atom) (m : SParser Nat I A) (f : State I → Nat)
    (hm : ∀ s σ r σ', m s σ r σ' ↔ r = T.atom s ∧ σ' = σ + f s) (a : A) (w : List I) (ha : Atom a w) (d n : Nat) (hn : d < n) (σ : Nat) :
    ∃ j, 2 ^ d ≤ j ∧ ∀ r σ', T.bookTicked m n ⟨bracketed T w d, 0⟩ σ r σ' ↔
      r = .success a (bracketed T w d).length ∧ σ' = σ + j := by
  have := hT.good
  obtain ⟨k, rfl⟩ : ∃ k, n = k + 1 := ⟨n - 1, by omega⟩
  have hc : Closed T ([] : List I) := fun c u h => by cases h
  have h1 := clocked_book (T := T) (m := m) (c := ⟨T.atom, f⟩) hm (k + 1)
  have h2 := book_steps hT ha (atom := ⟨T.atom, f⟩) rfl d k [] [] (by omega) hc
  have h3 := (eats_bookLevel hT hc (eats_book hT ha d k [] (by omega) hc)).2
  have h4 := (book_run (T := T) (atom := ⟨T.atom, f⟩) rfl (k + 1)).1
  simp only [List.nil_append, List.append_nil, List.length_nil, Eats] at h2 h3
  exact ⟨_, h2, fun r σ' => by rw [h1, h4, h3]⟩

/-- A digit in forty pairs of brackets: more than a million million steps for 81 characters, where the parser of `c151_linear` takes at
most 902. -/
example (σ : Nat) : (bracketed powers ['1'] 40).length = 81 ∧ ∃ j, 1000000000000 ≤ j ∧ ∀ r σ',
    powers.bookTicked (tick 1 powers.atom) 41 ⟨bracketed powers ['1'] 40, 0⟩ σ r σ' ↔ r = .success 1 81 ∧ σ' = σ + j := by
  obtain ⟨j, h1, h2⟩ := c151_textbook powers digits powers_ok (tick 1 powers.atom) (fun _ => 1) (fun _ _ _ _ => Iff.rfl) 1 ['1']
    ⟨'1', rfl, rfl, by decide⟩ 40 41 (by omega) σ
  have e : (bracketed powers ['1'] 40).length = 81 := by decide +kernel
  rw [e] at h2
  exact ⟨e, j, by omega, h2⟩

end OniComb.Operators
