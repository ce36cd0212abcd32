import Verif.Props.Laws
import Verif.Props.Chain
import Verif.Props.Elements

/-!
# Further laws of the combinators

C01: units and zeros of choice among all parsers. C18, C19: the violations for all chains. C20, C23, C24, C28, C30: the
failing cases.
-/

namespace OniComb
variable {I A B : Type}

/-- A parser that fails uncommitted everywhere is a left unit of choice. -/
theorem c01_or_unit (p q : Parser I A) (h : ∀ s, ∃ e, p s = .failure e .uncommitted) : or p q = q := by
  funext s
  obtain ⟨e, h⟩ := h s
  exact c01_or_backtracks p q s e h

/-- A parser that never fails uncommitted is a left zero of choice, and there is no other. -/
theorem c01_or_zero (p : Parser I A) : (∀ q, or p q = p) ↔ ∀ s e, p s ≠ .failure e .uncommitted := by
  constructor
  · intro h s e hs
    have h1 := congrFun (h fun _ => .panic) s
    rw [c01_or_backtracks p _ s e hs, hs] at h1
    cases h1
  · intro h q
    funext s
    exact c01_or_keeps p q s (h s)

/-- `chain_right1` applies the operators from the left in every chain, so it gives the value that was asked for only
where the two ways of applying agree. -/
theorem c18_general_violated (p : Parser I A) (op : Parser I (A → A → A)) (hp : Tame p) (hop : Tame op) (s : State I)
    (x : A) (l : Nat) (ops : List ((A → A → A) × A)) (m : Nat) (h1 : p s = .success x l)
    (h2 : OpRun p op ⟨s.input, s.offset + l⟩ ops m) (h3 : ChainEnd p op ⟨s.input, s.offset + l + m⟩) :
    chainRight1 p op s = .success (applyLeft x ops) (l + m) ∧
      (chainRight1 p op s = .success (applyRight x ops) (l + m) ↔ applyLeft x ops = applyRight x ops) := by
  have h : chainRight1 p op s = .success (applyLeft x ops) (l + m) :=
    (c17_chainLeft1_success_iff p op hp hop s _ _).2 ⟨x, l, ops, m, h1, h2, rfl, rfl, h3⟩
  refine ⟨h, ?_⟩
  rw [h]
  simp

/-- Two subtractions: `a - b - c` is `(a - b) - c` and not `a - (b - c)`, whenever `c` is not zero. -/
theorem c18_subtraction_violated (p : Parser I Int) (op : Parser I (Int → Int → Int)) (hp : Tame p) (hop : Tame op)
    (s : State I) (a b c : Int) (l m : Nat) (h1 : p s = .success a l)
    (h2 : OpRun p op ⟨s.input, s.offset + l⟩ [((· - ·), b), ((· - ·), c)] m)
    (h3 : ChainEnd p op ⟨s.input, s.offset + l + m⟩) (hc : c ≠ 0) :
    chainRight1 p op s = .success (a - b - c) (l + m) ∧ a - b - c ≠ a - (b - c) :=
  ⟨(c18_general_violated p op hp hop s a l _ m h1 h2 h3).1, by omega⟩

/-- `rest_right1` stops behind the first operator and operand, whatever follows. -/
theorem c19_general_violated (p : Parser I A) (op : Parser I (A → A → A)) (x : A) (s : State I) (f : A → A → A) (y : A)
    (n m : Nat) (h1 : op s = .success f n) (h2 : p ⟨s.input, s.offset + n⟩ = .success y m) :
    restRight1 p op x s = .success (f x y) (n + m) :=
  (c19_restRight1_partial p op x _ s _).2 (.inl ⟨f, n, y, m, h1, h2, rfl, rfl⟩)

/-- A committed failure inside the chain is not replaced by the default, with `chain_right0` either; and these are the
only failures. -/
theorem c20_failure_iff (p : Parser I A) (op : Parser I (A → A → A)) (x : A) (s : State I) (e : PError I) (c : Committed) :
    (chainLeft0 p op x s = .failure e c ↔ c = .committed ∧ chainLeft1 p op s = .failure e .committed) ∧
    (chainRight0 p op x s = .failure e c ↔ c = .committed ∧ chainRight1 p op s = .failure e .committed) := by
  have key : ∀ q : Parser I A, or q (successful x) s = .failure e c ↔ c = .committed ∧ q s = .failure e .committed := by
    intro q
    unfold or
    cases hq : q s with
    | failure e' c' => cases c' <;> simp [successful, eq_comm, and_comm]
    | _ => simp
  exact ⟨key _, key _⟩

/-- `skip` fails uncommitted where fewer elements are left. -/
theorem c23_skip_incomplete (n : Nat) (s : State I) (hs : s.offset ≤ s.input.length)
    (h : (s.input.drop s.offset).length < n) : skip n s = .failure .incomplete .uncommitted := by
  unfold skip State.withInput
  rw [if_pos hs]
  exact if_neg (Nat.not_le.2 h)

/-- The comparison runs into an element that differs. -/
theorem seqLoop_differs (eq : I → I → Bool) (s : State I) (inp lit : List I) {pre m : List I}
    (h : List.Forall₂ (fun a b => eq a b = true) pre m) : ∀ (i : Nat) (c x : I) (post rest : List I), eq c x = false →
    seqLoop eq s inp lit i (pre ++ c :: post) (m ++ x :: rest) =
      .failure (.mismatch inp (s.offset + (i + pre.length)) (i + pre.length)) (Committed.ofBool (i + pre.length != 0)) := by
  induction h with
  | nil =>
    intro i c x post rest hx
    simp only [List.nil_append, seqLoop, hx, State.advanceBy]
    rfl
  | @cons a b l l' h1 _ ih =>
    intro i c x post rest hx
    simp only [List.cons_append, seqLoop, h1, if_true]
    rw [ih (i + 1) c x post rest hx, List.length_cons, show i + 1 + l.length = i + (l.length + 1) by omega]

/-- The comparison runs out of input. -/
theorem seqLoop_short (eq : I → I → Bool) (s : State I) (inp lit : List I) {pre m : List I}
    (h : List.Forall₂ (fun a b => eq a b = true) pre m) : ∀ (i : Nat) (c : I) (post : List I),
    seqLoop eq s inp lit i (pre ++ c :: post) m = .failure .incomplete .uncommitted := by
  induction h with
  | nil => intro i c post; rfl
  | cons h1 _ ih =>
    intro i c post
    simp only [List.cons_append, seqLoop, h1, if_true]
    exact ih (i + 1) c post

private theorem forall₂_same {R : I → I → Prop} (h : ∀ a, R a a) : ∀ l : List I, List.Forall₂ R l l
  | [] => .nil
  | a :: l => .cons (h a) (forall₂_same h l)

/-- A differing element: the error names the place, and the failure is committed if anything in front of it matched. -/
theorem c24_seq_mismatch [DecidableEq I] (pre post rest : List I) (c x : I) (s : State I) (hs : s.offset ≤ s.input.length)
    (h : s.input.drop s.offset = pre ++ x :: rest) (hx : c ≠ x) :
    seq (pre ++ c :: post) s =
      .failure (.mismatch (s.input.drop s.offset) (s.offset + pre.length) pre.length)
        (if pre = [] then .uncommitted else .committed) := by
  unfold seq State.withInput
  rw [if_pos hs]
  have := seqLoop_differs (fun c x => decide (c = x)) s (s.input.drop s.offset) (pre ++ c :: post)
    (forall₂_same (R := fun a b => decide (a = b) = true) (by simp) pre) 0 c x post rest (by simpa using hx)
  rw [← h] at this
  refine this.trans ?_
  cases pre <;> simp [Committed.ofBool]

/-- Running out of input is always an uncommitted `Incomplete`, however much matched. -/
theorem c24_seq_incomplete [DecidableEq I] (post : List I) (c : I) (s : State I) (hs : s.offset ≤ s.input.length) :
    seq (s.input.drop s.offset ++ c :: post) s = .failure .incomplete .uncommitted := by
  unfold seq State.withInput
  rw [if_pos hs]
  exact seqLoop_short (fun c x => decide (c = x)) s _ _
    (forall₂_same (R := fun a b => decide (a = b) = true) (by simp) _) 0 c post

/-- The same for `tag`. -/
theorem c24_tag_failure (pre post rest : List Char) (c x : Char) (s : State Char) (hs : s.offset ≤ s.input.length) :
    (s.input.drop s.offset = pre ++ x :: rest → c ≠ x → tag (pre ++ c :: post) s =
      .failure (.mismatch (s.input.drop s.offset) (s.offset + pre.length) pre.length)
        (if pre = [] then .uncommitted else .committed)) ∧
    tag (s.input.drop s.offset ++ c :: post) s = .failure .incomplete .uncommitted :=
  ⟨c24_seq_mismatch pre post rest c x s hs, c24_seq_incomplete post c s hs⟩

/-- The same for `tag_no_case`, up to letter case. -/
theorem c24_tagNoCase_failure (pre m post rest : List Char) (c x : Char) (s : State Char) (hs : s.offset ≤ s.input.length)
    (hm : List.Forall₂ SameLetter pre m) :
    (s.input.drop s.offset = m ++ x :: rest → ¬ SameLetter c x → tagNoCase (pre ++ c :: post) s =
      .failure (.mismatch (s.input.drop s.offset) (s.offset + pre.length) pre.length)
        (if pre = [] then .uncommitted else .committed)) ∧
    (s.input.drop s.offset = m → tagNoCase (pre ++ c :: post) s = .failure .incomplete .uncommitted) := by
  have hm' : List.Forall₂ (fun a b => eqIgnoreAsciiCase a b = true) pre m :=
    hm.imp fun a b h => (c24_eqIgnoreAsciiCase_iff a b).2 h
  unfold tagNoCase State.withInput
  rw [if_pos hs]
  refine ⟨fun h hx => ?_, fun h => ?_⟩
  · have := seqLoop_differs eqIgnoreAsciiCase s (s.input.drop s.offset) (pre ++ c :: post) hm' 0 c x post rest (by
      rw [← Bool.not_eq_true, c24_eqIgnoreAsciiCase_iff]; exact hx)
    rw [← h] at this
    refine this.trans ?_
    cases pre <;> simp [Committed.ofBool]
  · have := seqLoop_short eqIgnoreAsciiCase s (s.input.drop s.offset) (pre ++ c :: post) hm' 0 c post
    rw [← h] at this
    exact this

/-- Failures of the parser itself pass `map_opt` unchanged. -/
theorem c28_mapOpt_failure (p : Parser I A) (f : A → Option B) (s : State I) (e : PError I) (c : Committed)
    (h : p s = .failure e c) : mapOpt p f s = .failure e c := c28_mapRes_failure p f s e c h

/-- `log`, `debug` and `lazy` change nothing at all. -/
theorem c30_log (p : Parser I A) (l : String) : logMap p l = p ∧ lazy (fun _ => p) = p := ⟨rfl, rfl⟩

/-! ## Cases -/

example : or (elm 'a') (fun _ => .panic) ≠ elm 'a' := by
  intro h
  have := congrFun h ⟨['b'], 0⟩
  revert this
  decide

example : seq "null".toList ⟨"nul".toList, 0⟩ = .failure .incomplete .uncommitted :=
  c24_seq_incomplete [] 'l' ⟨"nul".toList, 0⟩ (by decide)

example : tagNoCase "NULL".toList ⟨"nuxx".toList, 0⟩ = .failure (.mismatch "nuxx".toList 2 2) .committed :=
  (c24_tagNoCase_failure "NU".toList "nu".toList "L".toList "x".toList 'L' 'x' ⟨"nuxx".toList, 0⟩ (by decide)
    (.cons (by unfold SameLetter; decide) (.cons (by unfold SameLetter; decide) .nil))).1 rfl (by unfold SameLetter; decide)

end OniComb
