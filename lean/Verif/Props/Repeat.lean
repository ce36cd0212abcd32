import Verif.Lemmas.Repeat
import Verif.Model.Elements

/-!
# C12, C13, C15, C16: what repetition returns
-/

namespace OniComb
variable {I A B : Type}

/-! ## Helpers -/

theorem sepRun_none_iff {p : Parser I A} {s : State I} {vs : List A} {m : Nat} :
    SepRun p (none : Option (Parser I B)) s vs m ↔ Run p s vs m := by
  constructor
  · intro h
    generalize hsep : (none : Option (Parser I B)) = sep at h
    induction h with
    | nil s => exact .nil s
    | @cons s k n m v vs h1 h2 hr ih =>
      subst hsep
      have hk : k = 0 := h1
      subst hk
      simp only [Nat.add_zero, Nat.zero_add] at *
      exact .cons h2 ih
  · intro h
    induction h with
    | nil s => exact .nil s
    | @cons s n m v vs h1 hr ih =>
      have := SepRun.cons (p := p) (sep := (none : Option (Parser I B))) (s := s) (k := 0) rfl h1 ih
      simpa using this

theorem noMore_none_iff {p : Parser I A} {s : State I} {k : Nat} :
    NoMore p (none : Option (Parser I B)) s k ↔ k = 0 ∧ Fails p s := by
  simp only [NoMore, SepAt, reduceCtorEq, false_and, exists_false, and_false, false_or]
  constructor
  · rintro ⟨rfl, h⟩; exact ⟨rfl, h⟩
  · rintro ⟨rfl, h⟩; exact ⟨rfl, h⟩

/-- The lower bound of a range, as `repeat_sep` reads it. -/
private def LowerOk (range : Range) (n : Nat) : Prop := ∀ m, range.start = .included m → m ≤ n

private theorem repFinish_success {range : Range} {s : State I} {items vs : List A} {len n : Nat} :
    repFinish range s items len = .success vs n ↔ LowerOk range items.length ∧ vs = items ∧ n = len := by
  unfold repFinish LowerOk
  cases hr : range.start with
  | included m =>
    by_cases h : items.length < m
    · simp only [h, if_true, State.withInput]
      constructor
      · intro h'; split at h' <;> cases h'
      · rintro ⟨h', -⟩; exact absurd (h' m rfl) (by omega)
    · simp only [h, if_false, Res.success.injEq]
      constructor
      · rintro ⟨rfl, rfl⟩
        refine ⟨?_, rfl, rfl⟩
        intro m' hm'; cases hm'; omega
      · rintro ⟨-, rfl, rfl⟩; exact ⟨rfl, rfl⟩
  | _ =>
    simp only [Res.success.injEq, reduceCtorEq, false_implies, implies_true, true_and]
    exact ⟨fun ⟨a, b⟩ => ⟨a.symm, b.symm⟩, fun ⟨a, b⟩ => ⟨a.symm, b.symm⟩⟩

theorem repeatSep_success (p : Parser I A) (range : Range) (sep : Option (Parser I B))
    (s : State I) (vs : List A) (n : Nat) :
    repeatSep p range sep s = .success vs n ↔
      LowerOk range vs.length ∧
      ((vs = [] ∧ n = 0 ∧ Fails p s) ∨
       ∃ v l ws m k, p s = .success v l ∧ vs = v :: ws ∧ n = l + m + k ∧
         SepRun p sep ⟨s.input, s.offset + l⟩ ws m ∧ ws.length < repFuel range.stop s ∧
         (∀ i < ws.length, boundReached range.stop (1 + i) = false) ∧
         StopsAt p sep range.stop (1 + ws.length) ⟨s.input, s.offset + l + m⟩ k) := by
  unfold repeatSep
  cases hp : p s with
  | success v l =>
    simp only []
    have hfails : ¬ Fails p s := by rintro ⟨e, c, h⟩; rw [hp] at h; cases h
    simp only [hfails, and_false, false_or]
    cases hl : repLoop p sep range.stop (repFuel range.stop s) ⟨s.advanceBy l, [v], l⟩ with
    | exit items len =>
      simp only [repFinish_success]
      obtain ⟨ws, m, k, h1, h2, rfl, rfl, h3, h4⟩ := (repLoop_exit_iff _ _ _ _ _ _ _).1 hl
      constructor
      · rintro ⟨hlow, rfl, rfl⟩
        exact ⟨hlow, v, l, ws, m, k, rfl, rfl, rfl, h1, h2, h3, h4⟩
      · rintro ⟨hlow, v', l', ws', m', k', hv, rfl, rfl, h1', h2', h3', h4'⟩
        cases hv
        have := (repLoop_exit_iff p sep range.stop (repFuel range.stop s) ⟨s.advanceBy l, [v], l⟩
          ([v] ++ ws') (l + m' + k')).2 ⟨ws', m', k', h1', h2', rfl, rfl, h3', h4'⟩
        rw [hl] at this
        simp only [LoopOut.exit.injEq] at this
        refine ⟨?_, this.1.symm, this.2.symm⟩
        rw [this.1]; exact hlow
    | _ =>
      simp only [reduceCtorEq, false_iff]
      rintro ⟨-, v', l', ws', m', k', hv, rfl, rfl, h1', h2', h3', h4'⟩
      cases hv
      have := (repLoop_exit_iff p sep range.stop (repFuel range.stop s) ⟨s.advanceBy l, [v], l⟩
        ([v] ++ ws') (l + m' + k')).2 ⟨ws', m', k', h1', h2', rfl, rfl, h3', h4'⟩
      rw [hl] at this; cases this
  | failure e c =>
    simp only [repFinish_success, reduceCtorEq, false_and, exists_false, or_false]
    constructor
    · rintro ⟨h, rfl, rfl⟩; exact ⟨h, rfl, rfl, e, c, hp⟩
    · rintro ⟨h, rfl, rfl, -⟩; exact ⟨h, rfl, rfl⟩
  | _ =>
    simp only [reduceCtorEq, false_iff, false_and, exists_false, or_false]
    rintro ⟨-, -, -, e, c, h⟩; rw [hp] at h; cases h

/-! ## C12: many0 -/

/-- Whatever `p.of_many0()` returns is the list of values of a run of consecutive successes of `p`,
it consumed the sum of their lengths, and `p` fails where it stopped (so the run is maximal). -/
theorem c12_many0_sound (p : Parser I A) (s : State I) (vs : List A) (n : Nat)
    (h : many0 p s = .success vs n) :
    Run p s vs n ∧ Fails p ⟨s.input, s.offset + n⟩ := by
  obtain ⟨-, h⟩ := (repeatSep_success _ _ _ _ _ _).1 h
  rcases h with ⟨rfl, rfl, hf⟩ | ⟨v, l, ws, m, k, hp, rfl, rfl, hr, -, -, hst⟩
  · exact ⟨.nil _, hf⟩
  · rcases hst with ⟨hb, -⟩ | ⟨-, hnm⟩
    · simp [Range.from_, boundReached] at hb
    · obtain ⟨rfl, hf⟩ := noMore_none_iff.1 hnm
      exact ⟨by simpa using Run.cons hp (sepRun_none_iff.1 hr), by simpa [Nat.add_assoc] using hf⟩

/-- Conversely a maximal run is what `p.of_many0()` returns. -/
theorem c12_many0_complete (p : Parser I A) (hp : Tame p) (s : State I) (vs : List A) (n : Nat)
    (hr : Run p s vs n) (hf : Fails p ⟨s.input, s.offset + n⟩) :
    many0 p s = .success vs n := by
  refine (repeatSep_success _ _ _ _ _ _).2 ⟨?_, ?_⟩
  · intro m hm; cases hm; exact Nat.zero_le _
  · cases hr with
    | nil => exact .inl ⟨rfl, rfl, hf⟩
    | @cons _ l m v ws h1 h2 =>
      refine .inr ⟨v, l, ws, m, 0, h1, rfl, rfl, sepRun_none_iff.2 h2, ?_, ?_, .inr ⟨rfl, ?_⟩⟩
      · have hlen := sepRun_length (sep := (none : Option (Parser I Unit))) hp (by intro q hq; cases hq)
          (SepRun.cons (k := 0) rfl h1 (sepRun_none_iff.2 h2))
          (noMore_none_iff.2 ⟨rfl, by simpa [Nat.add_assoc] using hf⟩)
        simp only [List.length_cons] at hlen
        simp only [Range.from_, repFuel]; omega
      · intro i _; rfl
      · exact noMore_none_iff.2 ⟨rfl, by simpa [Nat.add_assoc] using hf⟩

/-- `of_many0` never fails. -/
theorem c12_many0_never_fails (p : Parser I A) (s : State I) (e : PError I) (c : Committed) :
    many0 p s ≠ .failure e c := by
  unfold many0 repeatSep
  split
  · split <;> simp [repFinish, Range.from_]
  · simp [repFinish, Range.from_]
  · simp
  · simp

/-- The maximal run is unique: the two theorems above determine the result. -/
theorem c12_run_unique (p : Parser I A) (s : State I) (vs ws : List A) (n m : Nat)
    (h1 : Run p s vs n) (f1 : Fails p ⟨s.input, s.offset + n⟩)
    (h2 : Run p s ws m) (f2 : Fails p ⟨s.input, s.offset + m⟩) : vs = ws ∧ n = m := by
  induction h1 generalizing ws m with
  | nil s =>
    cases h2 with
    | nil => exact ⟨rfl, rfl⟩
    | cons h3 _ => obtain ⟨e, c, h⟩ := f1; simp only [Nat.add_zero, state_eta] at h; rw [h3] at h; cases h
  | @cons s l k v vs h3 hr ih =>
    cases h2 with
    | nil => obtain ⟨e, c, h⟩ := f2; simp only [Nat.add_zero, state_eta] at h; rw [h3] at h; cases h
    | @cons _ l' k' v' vs' h4 hr' =>
      rw [h3] at h4; cases h4
      obtain ⟨rfl, rfl⟩ := ih _ _ (by simpa [Nat.add_assoc] using f1) hr'
        (by simpa [Nat.add_assoc] using f2)
      exact ⟨rfl, rfl⟩

example : many0 (elmPred (I := Char) (fun c => c = 'a')) ⟨['b', 'a', 'a', 'c'], 1⟩
    = .success ['a', 'a'] 2 := by decide

/-- A case that meets the hypotheses of `c12_many0_complete`. -/
example : Tame (elm 'a') ∧ Run (elm 'a') ⟨['a', 'a', 'c'], 0⟩ ['a', 'a'] 2 ∧
    Fails (elm 'a') ⟨['a', 'a', 'c'], 2⟩ := by
  refine ⟨?_, .cons (n := 1) (m := 1) (by decide) (.cons (n := 1) (m := 0) (by decide) (.nil _)),
    ⟨_, _, by rfl⟩⟩
  intro s v n hs h
  have hd : ¬ s.offset ≤ s.input.length := by omega
  simp [elm, elmPred, State.withInput, hd] at h

/-! ## C13: many1 -/

/-- `p.of_many1()` fails, uncommitted, exactly if `p` fails at the start (inside the input). -/
theorem c13_many1_fails_iff (p : Parser I A) (s : State I) (hs : s.offset ≤ s.input.length)
    (e : PError I) (c : Committed) :
    many1 p s = .failure e c ↔
      Fails p s ∧ c = .uncommitted ∧ e = .mismatch (s.input.drop s.offset) s.lastOffset 0 := by
  unfold many1 repeatSep Fails
  cases hp : p s with
  | success v n =>
    simp only [reduceCtorEq, exists_false, false_and, iff_false]
    split
    · rename_i items len hl
      obtain ⟨ws, m, k, -, -, rfl, -, -⟩ := (repLoop_exit_iff _ _ _ _ _ _ _).1 hl
      simp [repFinish, Range.from_]
    · simp
    · simp
  | failure e' c' =>
    simp only [repFinish, Range.from_, List.length_nil, Nat.zero_lt_one, if_true, State.advanceBy,
      Nat.add_zero, State.withInput, hs, Res.failure.injEq, State.lastOffset]
    exact ⟨fun ⟨a, b⟩ => ⟨⟨_, _, rfl, rfl⟩, b.symm, a.symm⟩, fun ⟨_, a, b⟩ => ⟨b.symm, a.symm⟩⟩
  | _ => simp

/-- `p.of_many1()` succeeds exactly like `p` followed by `p.of_many0()`. -/
theorem c13_many1_eq (p : Parser I A) (hp : Tame p) (s : State I) (vs : List A) (n : Nat) :
    many1 p s = .success vs n ↔
      ∃ v l ws m, p s = .success v l ∧ many0 p ⟨s.input, s.offset + l⟩ = .success ws m ∧
        vs = v :: ws ∧ n = l + m := by
  constructor
  · intro h
    obtain ⟨hlow, h⟩ := (repeatSep_success _ _ _ _ _ _).1 h
    rcases h with ⟨rfl, -, -⟩ | ⟨v, l, ws, m, k, h1, rfl, rfl, hr, -, -, hst⟩
    · exact absurd (hlow 1 rfl) (by simp)
    · rcases hst with ⟨hb, -⟩ | ⟨-, hnm⟩
      · simp [Range.from_, boundReached] at hb
      · obtain ⟨rfl, hf⟩ := noMore_none_iff.1 hnm
        exact ⟨v, l, ws, m, h1, c12_many0_complete p hp _ _ _ (sepRun_none_iff.1 hr) hf, rfl, rfl⟩
  · rintro ⟨v, l, ws, m, h1, h2, rfl, rfl⟩
    obtain ⟨hr, hf⟩ := c12_many0_sound _ _ _ _ h2
    refine (repeatSep_success _ _ _ _ _ _).2 ⟨?_, .inr ⟨v, l, ws, m, 0, h1, rfl, rfl,
      sepRun_none_iff.2 hr, ?_, fun _ _ => rfl, .inr ⟨rfl, noMore_none_iff.2 ⟨rfl, hf⟩⟩⟩⟩
    · intro m hm; cases hm; simp
    · have hlen := sepRun_length (sep := (none : Option (Parser I Unit))) hp (by intro q hq; cases hq)
        (SepRun.cons (k := 0) rfl h1 (sepRun_none_iff.2 hr))
        (noMore_none_iff.2 ⟨rfl, by simpa [Nat.add_assoc] using hf⟩)
      simp only [List.length_cons] at hlen
      simp only [Range.from_, repFuel]; omega

example : many1 (elm 'a') ⟨['a', 'a', 'c'], 0⟩ = .success ['a', 'a'] 2 := by decide
example : many1 (elm 'a') ⟨['c', 'a'], 0⟩
    = .failure (.mismatch ['c', 'a'] 0 0) .uncommitted := by decide

/-! ## C15: counts respect the range -/

/-- `n` lies in the range, the bounds read as in Rust. -/
def Range.Contains (r : Range) (n : Nat) : Prop :=
  (match r.start with | .included m => m ≤ n | .excluded m => m < n | .unbounded => True) ∧
  (match r.stop with | .included m => n ≤ m | .excluded m => n < m | .unbounded => True)

/-- The ranges that can be written in Rust and passed to `repeat` (utils/range.rs:14-88). -/
inductive Range.Written : Range → Prop where
  | full : Written .full
  | halfOpen (a b) : Written (.halfOpen a b)
  | closed (a b) : Written (.closed a b)
  | from_ (a) : Written (.from_ a)
  | to (b) : Written (.to b)
  | toIncl (b) : Written (.toIncl b)
  | exactly (n) : Written (.exactly n)

/-- What the ranges contain, in the notation of Rust. -/
theorem c15_ranges (a b k : Nat) :
    Range.full.Contains k ∧ ((Range.halfOpen a b).Contains k ↔ a ≤ k ∧ k < b) ∧
    ((Range.closed a b).Contains k ↔ a ≤ k ∧ k ≤ b) ∧ ((Range.from_ a).Contains k ↔ a ≤ k) ∧
    ((Range.to b).Contains k ↔ k < b) ∧ ((Range.toIncl b).Contains k ↔ k ≤ b) ∧
    ((Range.exactly a).Contains k ↔ k = a) := by
  simp only [Range.Contains, Range.full, Range.halfOpen, Range.closed, Range.from_, Range.to, Range.toIncl,
    Range.exactly, true_and, and_true]
  omega

/-- A bound that admits one element, i.e. that does not forbid the element `repeat_sep` always tries. -/
def Bound.AdmitsOne : Bound → Prop
  | .included m => 1 ≤ m
  | .excluded m => 2 ≤ m
  | .unbounded => True

/-- The items of a repetition: nothing, or an item followed by `(separator item)*`. -/
def Items (p : Parser I A) (sep : Option (Parser I B)) (s : State I) : List A → Nat → Prop
  | [], n => n = 0
  | v :: vs, n => ∃ l m, p s = .success v l ∧ SepRun p sep ⟨s.input, s.offset + l⟩ vs m ∧ n = l + m

/-- Nothing more can be read after the items `vs` of length `m`; `k` is what a separator without a
following item consumes. -/
def ItemsEnd (p : Parser I A) (sep : Option (Parser I B)) (s : State I) (vs : List A) (m k : Nat) :
    Prop :=
  (vs = [] ∧ k = 0 ∧ Fails p s) ∨ (vs ≠ [] ∧ NoMore p sep ⟨s.input, s.offset + m⟩ k)

/-- The property as stated fails: ranges that exclude one element but not zero are not respected
(`of_count(0)`, `..=0`, `0..1`). -/
theorem c15_count_violated :
    ∃ (p : Parser Char Char) (s : State Char),
      (∃ vs n, count p 0 s = .success vs n ∧ ¬ (Range.closed 0 0).Contains vs.length) ∧
      (∃ vs n, repeat_ p (.toIncl 0) s = .success vs n ∧ ¬ (Range.toIncl 0).Contains vs.length) ∧
      (∃ vs n, repeat_ p (.halfOpen 0 1) s = .success vs n ∧
        ¬ (Range.halfOpen 0 1).Contains vs.length) := by
  refine ⟨elm 'a', ⟨['a'], 0⟩, ⟨['a'], 1, by decide, ?_⟩, ⟨['a'], 1, by decide, ?_⟩,
    ⟨['a'], 1, by decide, ?_⟩⟩ <;> simp [Range.Contains, Range.closed, Range.toIncl, Range.halfOpen]

/-- It is so for every parser, wherever it succeeds: a range without one element gives one element. -/
theorem c15_count_general_violated (p : Parser I A) (range : Range) (sep : Option (Parser I B)) (s : State I) (v : A)
    (l : Nat) (hp : p s = .success v l) (hu : ¬ range.stop.AdmitsOne)
    (hlow : ∀ m, range.start = .included m → m ≤ 1) : repeatSep p range sep s = .success [v] l := by
  refine (repeatSep_success _ _ _ _ _ _).2 ⟨fun m hm => hlow m hm, .inr ⟨v, l, [], 0, 0, hp, rfl, rfl, .nil _, ?_,
    fun i hi => absurd hi (Nat.not_lt_zero _), .inl ⟨?_, rfl⟩⟩⟩
  · cases hs : range.stop <;> simp [repFuel]
  · cases hs : range.stop with
    | included m => rw [hs] at hu; simp only [Bound.AdmitsOne] at hu; simp [boundReached]; omega
    | excluded m => rw [hs] at hu; simp only [Bound.AdmitsOne] at hu; simp [boundReached]; omega
    | unbounded => rw [hs] at hu; exact absurd trivial hu

/-- In particular `of_count(0)` reads an item wherever there is one. -/
theorem c15_count_zero_violated (p : Parser I A) (s : State I) (v : A) (l : Nat) (hp : p s = .success v l) :
    count p 0 s = .success [v] l :=
  c15_count_general_violated p (.closed 0 0) _ s v l hp (by simp [Range.closed, Bound.AdmitsOne])
    (by simp [Range.closed])

/-- If the upper bound admits one element the number of returned items lies in the range; in any case
it is at least the lower bound and a too small upper bound is exceeded only by a single item. -/
theorem c15_count_partial (p : Parser I A) (range : Range) (hw : range.Written)
    (sep : Option (Parser I B)) (s : State I) (vs : List A) (n : Nat)
    (h : repeatSep p range sep s = .success vs n) :
    (range.stop.AdmitsOne → range.Contains vs.length) ∧
    (¬ range.stop.AdmitsOne → vs.length ≤ 1 ∧ ∀ m, range.start = .included m → m ≤ vs.length) := by
  obtain ⟨hlow, h⟩ := (repeatSep_success _ _ _ _ _ _).1 h
  have hstart : (match range.start with
      | .included m => m ≤ vs.length | .excluded m => m < vs.length | .unbounded => True) := by
    cases hr : range.start with
    | included m => exact hlow m hr
    | excluded m => cases hw <;> cases hr
    | unbounded => trivial
  rcases h with ⟨rfl, -, -⟩ | ⟨v, l, ws, m, k, -, rfl, -, -, -, hb, -⟩
  · refine ⟨fun ha => ⟨hstart, ?_⟩, fun _ => ⟨by simp, hlow⟩⟩
    cases hs : range.stop with
    | included m => simp
    | excluded m => rw [hs] at ha; simp only [Bound.AdmitsOne, List.length_nil] at *; omega
    | unbounded => trivial
  · refine ⟨fun ha => ⟨hstart, ?_⟩, fun ha => ⟨?_, hlow⟩⟩
    · cases hs : range.stop with
      | included m =>
        rw [hs] at ha hb
        by_cases hw0 : ws.length = 0
        · simp only [Bound.AdmitsOne, List.length_cons] at *; omega
        · have := hb (ws.length - 1) (by omega)
          simp only [boundReached, decide_eq_false_iff_not, List.length_cons] at *; omega
      | excluded m =>
        rw [hs] at ha hb
        by_cases hw0 : ws.length = 0
        · simp only [Bound.AdmitsOne, List.length_cons] at *; omega
        · have := hb (ws.length - 1) (by omega)
          simp only [boundReached, decide_eq_false_iff_not, List.length_cons] at *; omega
      | unbounded => trivial
    · cases hw0 : ws with
      | nil => simp
      | cons w ws' =>
        exfalso
        have := hb 0 (by simp [hw0])
        cases hs : range.stop <;> rw [hs] at ha this <;>
          simp [boundReached, Bound.AdmitsOne] at ha this <;> omega

/-- Exact meaning of a bounded repetition whose upper bound `m` admits one element: the items read are
a run of at most `m`, at least `n` items, shorter than `m` only if nothing more can be read. -/
theorem c15_manyNM_iff (p : Parser I A) (n m : Nat) (hm : 1 ≤ m) (sep : Option (Parser I B))
    (s : State I) (vs : List A) (len : Nat) :
    repeatSep p (.closed n m) sep s = .success vs len ↔
      n ≤ vs.length ∧ vs.length ≤ m ∧
      ∃ l k, Items p sep s vs l ∧ len = l + k ∧
        (vs.length = m ∧ k = 0 ∨ vs.length < m ∧ ItemsEnd p sep s vs l k) := by
  rw [repeatSep_success]
  simp only [LowerOk, Range.closed, Bound.included.injEq, forall_eq', repFuel]
  constructor
  · rintro ⟨hlow, ⟨rfl, rfl, hf⟩ | ⟨v, l, ws, r, k, hp, rfl, rfl, hr, hfu, hb, hst⟩⟩
    · refine ⟨hlow, by simp, 0, 0, rfl, rfl, .inr ⟨hm, .inl ⟨rfl, rfl, hf⟩⟩⟩
    · have hle : ws.length + 1 ≤ m := by
        by_cases hw0 : ws.length = 0
        · omega
        · have := hb (ws.length - 1) (by omega)
          simp only [boundReached, decide_eq_false_iff_not] at this; omega
      refine ⟨hlow, by simpa using hle, l + r, k, ⟨l, r, hp, hr, rfl⟩, rfl, ?_⟩
      rcases hst with ⟨hb', rfl⟩ | ⟨hb', hnm⟩
      · simp only [boundReached, decide_eq_true_eq] at hb'
        exact .inl ⟨by simp only [List.length_cons]; omega, rfl⟩
      · simp only [boundReached, decide_eq_false_iff_not] at hb'
        exact .inr ⟨by simp only [List.length_cons]; omega,
          .inr ⟨by simp, by simpa [Nat.add_assoc] using hnm⟩⟩
  · rintro ⟨hlow, hup, l, k, hi, rfl, hend⟩
    refine ⟨hlow, ?_⟩
    cases vs with
    | nil =>
      rcases hend with ⟨h0, -⟩ | ⟨-, ⟨-, rfl, hf⟩ | ⟨hne, -⟩⟩
      · simp only [List.length_nil] at h0; omega
      · exact .inl ⟨rfl, hi, hf⟩
      · exact absurd rfl hne
    | cons v ws =>
      obtain ⟨l', r, hp, hr, rfl⟩ := hi
      simp only [List.length_cons] at hup hend
      refine .inr ⟨v, l', ws, r, k, hp, rfl, rfl, hr, by omega, ?_, ?_⟩
      · intro i hi; simp only [boundReached, decide_eq_false_iff_not]; omega
      · rcases hend with ⟨h1, rfl⟩ | ⟨h1, ⟨h2, -⟩ | ⟨-, hnm⟩⟩
        · exact .inl ⟨by simp only [boundReached, decide_eq_true_eq]; omega, rfl⟩
        · cases h2
        · exact .inr ⟨by simp only [boundReached, decide_eq_false_iff_not]; omega,
            by simpa [Nat.add_assoc] using hnm⟩

/-- `p.of_count(n)` for `n ≥ 1` succeeds exactly if `p` succeeds `n` times in a row. -/
theorem c15_count_iff (p : Parser I A) (n : Nat) (hn : 1 ≤ n) (s : State I) (vs : List A) (len : Nat) :
    count p n s = .success vs len ↔ vs.length = n ∧ Run p s vs len := by
  unfold count
  rw [c15_manyNM_iff p n n hn]
  constructor
  · rintro ⟨h1, h2, l, k, hi, rfl, ⟨h3, rfl⟩ | ⟨h3, -⟩⟩
    · refine ⟨h3, ?_⟩
      cases vs with
      | nil => simp only [List.length_nil] at h3; omega
      | cons v ws =>
        obtain ⟨l', r, hp, hr, rfl⟩ := hi
        simpa using Run.cons hp (sepRun_none_iff.1 hr)
    · omega
  · rintro ⟨h1, h2⟩
    refine ⟨by omega, by omega, len, 0, ?_, rfl, .inl ⟨h1, rfl⟩⟩
    cases h2 with
    | nil => rfl
    | @cons _ l r v ws h3 h4 => exact ⟨l, r, h3, sepRun_none_iff.2 h4, rfl⟩

/-- `p.of_many_n_m(n, m)` for `m ≥ 1` succeeds exactly with a run of `n` to `m` items, shorter than `m` only if `p` fails
behind it. -/
theorem c15_many_n_m (p : Parser I A) (n m : Nat) (hm : 1 ≤ m) (s : State I) (vs : List A) (len : Nat) :
    manyNM p n m s = .success vs len ↔
      n ≤ vs.length ∧ vs.length ≤ m ∧ Run p s vs len ∧ (vs.length = m ∨ Fails p ⟨s.input, s.offset + len⟩) := by
  unfold manyNM repeat_
  rw [c15_manyNM_iff p n m hm]
  have items : ∀ l, Items p (none : Option (Parser I Unit)) s vs l ↔ Run p s vs l := by
    intro l
    cases vs with
    | nil => exact ⟨by rintro rfl; exact .nil _, by intro h; cases h; rfl⟩
    | cons v ws =>
      constructor
      · rintro ⟨l', r, hp, hr, rfl⟩
        exact .cons hp (sepRun_none_iff.1 hr)
      · intro h
        cases h with
        | @cons _ l r v ws h3 h4 => exact ⟨l, r, h3, sepRun_none_iff.2 h4, rfl⟩
  constructor
  · rintro ⟨h1, h2, l, k, hi, rfl, ⟨h3, rfl⟩ | ⟨h3, h4⟩⟩
    · exact ⟨h1, h2, (items _).1 hi, .inl h3⟩
    · rcases h4 with ⟨rfl, rfl, hf⟩ | ⟨-, hnm⟩
      · obtain rfl : l = 0 := hi
        exact ⟨h1, h2, .nil _, .inr (by simpa using hf)⟩
      · obtain ⟨rfl, hf⟩ := noMore_none_iff.1 hnm
        exact ⟨h1, h2, (items _).1 hi, .inr hf⟩
  · rintro ⟨h1, h2, hr, h3⟩
    refine ⟨h1, h2, len, 0, (items _).2 hr, rfl, ?_⟩
    by_cases h4 : vs.length = m
    · exact .inl ⟨h4, rfl⟩
    · refine .inr ⟨by omega, ?_⟩
      have hf := h3.resolve_left h4
      cases hr with
      | nil => exact .inl ⟨rfl, rfl, by simpa using hf⟩
      | cons _ _ => exact .inr ⟨by simp, noMore_none_iff.2 ⟨rfl, hf⟩⟩

example : manyNM (elm 'a') 1 2 ⟨['a', 'a', 'a'], 0⟩ = .success ['a', 'a'] 2 := by decide

/-- A failure of a repetition is uncommitted and is reported only if fewer items than the lower bound
could be read (for a non-empty range). -/
theorem c15_failure (p : Parser I A) (range : Range) (hne : ∃ n, range.Contains n)
    (sep : Option (Parser I B)) (s : State I) (e : PError I) (c : Committed)
    (h : repeatSep p range sep s = .failure e c) :
    c = .uncommitted ∧ ∃ m vs l k, range.start = .included m ∧ vs.length < m ∧
      Items p sep s vs l ∧ ItemsEnd p sep s vs l k := by
  have key : ∀ (items : List A) (len : Nat), repFinish range s items len = .failure e c →
      c = .uncommitted ∧ ∃ m, range.start = .included m ∧ items.length < m := by
    intro items len hf
    unfold repFinish at hf
    cases hr : range.start with
    | included m =>
      rw [hr] at hf
      by_cases hlt : items.length < m
      · simp only [hlt, if_true, State.withInput] at hf
        split at hf
        · cases hf; exact ⟨rfl, m, rfl, hlt⟩
        · cases hf
      · simp [hlt] at hf
    | _ => rw [hr] at hf; simp at hf
  unfold repeatSep at h
  cases hp : p s with
  | success v l =>
    rw [hp] at h
    simp only [] at h
    cases hl : repLoop p sep range.stop (repFuel range.stop s) ⟨s.advanceBy l, [v], l⟩ with
    | exit items len =>
      rw [hl] at h
      obtain ⟨rfl, m, hm, hlt⟩ := key _ _ h
      obtain ⟨ws, r, k, h1, -, rfl, -, -, hst⟩ := (repLoop_exit_iff _ _ _ _ _ _ _).1 hl
      refine ⟨rfl, m, v :: ws, l + r, k, hm, by simpa using hlt, ⟨l, r, hp, h1, rfl⟩,
        .inr ⟨by simp, ?_⟩⟩
      rcases hst with ⟨hb, -⟩ | ⟨-, hnm⟩
      · exfalso
        obtain ⟨n, hn1, hn2⟩ := hne
        rw [hm] at hn1
        simp only [List.length_append, List.length_cons, List.length_nil] at hlt hb hn1
        cases hs : range.stop <;> rw [hs] at hb hn2 <;> simp [boundReached] at hb hn2 <;> omega
      · simpa [State.advanceBy, Nat.add_assoc] using hnm
    | _ => rw [hl] at h; cases h
  | failure e' c' =>
    rw [hp] at h
    obtain ⟨rfl, m, hm, hlt⟩ := key _ _ h
    exact ⟨rfl, m, [], 0, 0, hm, hlt, rfl, .inl ⟨rfl, rfl, e', c', hp⟩⟩
  | _ => rw [hp] at h; cases h

example : manyNM (elm 'a') 1 2 ⟨['a', 'a', 'a'], 0⟩ = .success ['a', 'a'] 2 := by decide
example : (Range.closed 1 2).stop.AdmitsOne ∧ (Range.closed 1 2).Written :=
  ⟨by simp [Range.closed, Bound.AdmitsOne], .closed 1 2⟩
example : repeat_ (elm 'a') (.halfOpen 2 4) ⟨['a', 'b'], 0⟩
    = .failure (.mismatch ['b'] 0 1) .uncommitted := by decide

/-! ## C16: separated repetition -/

/-- The property as stated fails: a trailing separator is consumed. -/
theorem c16_sep_violated :
    ∃ (s : State Char) (vs : List Char) (n : Nat),
      many0Sep (elm 'a') (elm ',') s = .success vs n ∧ ¬ Items (elm 'a') (some (elm ',')) s vs n := by
  refine ⟨⟨['a', ','], 0⟩, ['a'], 2, by decide, ?_⟩
  rintro ⟨l, m, hp, hr, hn⟩
  have : (elm 'a' : Parser Char Char) ⟨['a', ','], 0⟩ = .success 'a' 1 := by decide
  rw [this] at hp; cases hp
  cases hr; omega

/-- Exact meaning of `of_many0_sep`: an item followed by `(separator item)*`, as long as possible, plus
a separator that is not followed by an item, if present. -/
theorem c16_many0Sep_partial (p : Parser I A) (q : Parser I B) (s : State I) (vs : List A) (n : Nat)
    (h : many0Sep p q s = .success vs n) :
    ∃ m k, Items p (some q) s vs m ∧ n = m + k ∧ ItemsEnd p (some q) s vs m k := by
  obtain ⟨-, ⟨rfl, rfl, hf⟩ | ⟨v, l, ws, r, k, hp, rfl, rfl, hr, -, -, hst⟩⟩ :=
    (repeatSep_success _ _ _ _ _ _).1 h
  · exact ⟨0, 0, rfl, rfl, .inl ⟨rfl, rfl, hf⟩⟩
  · rcases hst with ⟨hb, -⟩ | ⟨-, hnm⟩
    · simp [Range.from_, boundReached] at hb
    · exact ⟨l + r, k, ⟨l, r, hp, hr, rfl⟩, rfl, .inr ⟨by simp, by simpa [Nat.add_assoc] using hnm⟩⟩

/-- The converse for parsers of the library. -/
theorem c16_many0Sep_complete (p : Parser I A) (q : Parser I B) (hp : Tame p) (hq : Tame q)
    (s : State I) (vs : List A) (m k : Nat) (hi : Items p (some q) s vs m)
    (he : ItemsEnd p (some q) s vs m k) : many0Sep p q s = .success vs (m + k) := by
  refine (repeatSep_success _ _ _ _ _ _).2 ⟨fun m hm => by cases hm; exact Nat.zero_le _, ?_⟩
  rcases he with ⟨rfl, rfl, hf⟩ | ⟨hne, hnm⟩
  · exact .inl ⟨rfl, by rw [show m = 0 from hi], hf⟩
  · cases vs with
    | nil => exact absurd rfl hne
    | cons v ws =>
      obtain ⟨l, r, h1, h2, rfl⟩ := hi
      refine .inr ⟨v, l, ws, r, k, h1, rfl, rfl, h2, ?_, fun _ _ => rfl,
        .inr ⟨rfl, by simpa [Nat.add_assoc] using hnm⟩⟩
      have ht : TameSep (some q) := by intro q' hq'; cases hq'; exact hq
      have hnm' : NoMore p (some q) ⟨s.input, s.offset + l + r⟩ k := by
        simpa [Nat.add_assoc] using hnm
      have := sepRun_length hp ht h2 hnm'
      simp only [Range.from_, repFuel]
      simp only at this
      omega

private theorem sepRun_unique {p : Parser I A} {sep : Option (Parser I B)} {s : State I} {vs : List A} {a b : Nat}
    (ha : SepRun p sep s vs a) (hb : SepRun p sep s vs b) : a = b := by
  induction ha generalizing b with
  | nil => cases hb; rfl
  | cons h1 h2 _ ih =>
    cases hb with
    | cons g1 g2 g3 =>
      have hk : ∀ {s : State I} {x y : Nat}, SepAt sep s x → SepAt sep s y → x = y := by
        intro s x y hx hy
        cases sep with
        | none => simp only [SepAt] at hx hy; omega
        | some q =>
          obtain ⟨b, hx⟩ := hx
          obtain ⟨b', hy⟩ := hy
          rw [hx] at hy
          cases hy; rfl
      obtain rfl := hk h1 g1
      rw [h2] at g2
      cases g2
      rw [ih g3]

private theorem items_unique {p : Parser I A} {sep : Option (Parser I B)} {s : State I} {vs : List A} {a b : Nat}
    (ha : Items p sep s vs a) (hb : Items p sep s vs b) : a = b := by
  cases vs with
  | nil => exact Eq.trans ha (Eq.symm hb)
  | cons v vs =>
    obtain ⟨l, m, h1, h2, rfl⟩ := ha
    obtain ⟨l', m', g1, g2, rfl⟩ := hb
    rw [h1] at g1
    cases g1
    rw [sepRun_unique h2 g2]

/-- It is so behind all items: a separator that follows them is consumed although no item comes behind, and the
text consumed is not a list of items and separators between them. -/
theorem c16_sep_general_violated (p : Parser I A) (q : Parser I B) (hp : Tame p) (hq : Tame q) (s : State I)
    (vs : List A) (m k : Nat) (b : B) (hi : Items p (some q) s vs m) (hne : vs ≠ [])
    (hs : q ⟨s.input, s.offset + m⟩ = .success b k) (hk : k ≠ 0)
    (hf : Fails p ⟨s.input, s.offset + m + k⟩) :
    many0Sep p q s = .success vs (m + k) ∧ many1Sep p q s = .success vs (m + k) ∧
      ¬ Items p (some q) s vs (m + k) := by
  have h := c16_many0Sep_complete p q hp hq s vs m k hi (.inr ⟨hne, .inr ⟨⟨b, hs⟩, hf⟩⟩)
  refine ⟨h, ?_, fun h' => ?_⟩
  · unfold many1Sep many0Sep at *
    rw [repeatSep_success] at *
    refine ⟨fun n hn => ?_, h.2⟩
    cases hn
    exact List.length_pos_iff.2 hne
  · have := items_unique hi h'
    omega

/-- No trailing separator is consumed if the separator never matches in front of a non-item. -/
theorem c16_no_trailing (p : Parser I A) (q : Parser I B) (s : State I) (vs : List A) (n : Nat)
    (h : many0Sep p q s = .success vs n)
    (hlook : ∀ s b k, q s = .success b k → ∃ v l, p ⟨s.input, s.offset + k⟩ = .success v l) :
    Items p (some q) s vs n := by
  obtain ⟨m, k, hi, rfl, he⟩ := c16_many0Sep_partial p q s vs n h
  rcases he with ⟨-, rfl, -⟩ | ⟨-, ⟨rfl, -⟩ | ⟨⟨b, hb⟩, e, c, hf⟩⟩
  · exact hi
  · exact hi
  · obtain ⟨v, l, hv⟩ := hlook _ _ _ hb
    rw [hv] at hf; cases hf

/-- `of_many1_sep` is `of_many0_sep` with at least one item. -/
theorem c16_many1Sep_iff (p : Parser I A) (q : Parser I B) (s : State I) (vs : List A) (n : Nat) :
    many1Sep p q s = .success vs n ↔ vs ≠ [] ∧ many0Sep p q s = .success vs n := by
  unfold many1Sep many0Sep
  rw [repeatSep_success, repeatSep_success]
  simp only [LowerOk, Range.from_, Bound.included.injEq, forall_eq', Nat.zero_le, true_and]
  constructor
  · rintro ⟨h1, h2⟩
    exact ⟨by rintro rfl; simp at h1, h2⟩
  · rintro ⟨h1, h2⟩
    exact ⟨List.length_pos_iff.2 h1, h2⟩

/-- `of_many_n_m_sep(n, m)` for `m ≥ 1` returns `n` to `m` items with separators between them; a separator behind the
last item is consumed only if there are fewer than `m`. -/
theorem c16_many_n_m_sep (p : Parser I A) (q : Parser I B) (n m : Nat) (hm : 1 ≤ m) (s : State I) (vs : List A) (len : Nat) :
    manyNMSep p n m q s = .success vs len ↔ n ≤ vs.length ∧ vs.length ≤ m ∧
      ∃ l k, Items p (some q) s vs l ∧ len = l + k ∧
        (vs.length = m ∧ k = 0 ∨ vs.length < m ∧ ItemsEnd p (some q) s vs l k) :=
  c15_manyNM_iff p n m hm (some q) s vs len

/-- `of_count_sep(n)` for `n ≥ 1` succeeds exactly if `n` items with separators between them can be read; no separator
behind the last one is consumed. -/
theorem c16_count_sep (p : Parser I A) (q : Parser I B) (n : Nat) (hn : 1 ≤ n) (s : State I) (vs : List A) (len : Nat) :
    countSep p n q s = .success vs len ↔ vs.length = n ∧ Items p (some q) s vs len := by
  unfold countSep
  rw [c15_manyNM_iff p n n hn]
  constructor
  · rintro ⟨h1, h2, l, k, hi, rfl, ⟨h3, rfl⟩ | ⟨h3, -⟩⟩
    · exact ⟨h3, hi⟩
    · omega
  · rintro ⟨h1, h2⟩
    exact ⟨by omega, by omega, len, 0, h2, rfl, .inl ⟨h1, rfl⟩⟩

example : countSep (elm 'a') 2 (elm ',') ⟨['a', ',', 'a', ','], 0⟩ = .success ['a', 'a'] 3 := by decide

example : many0Sep (elm 'a') (elm ',') ⟨['a', ',', 'a', ';'], 0⟩ = .success ['a', 'a'] 3 := by decide
/-- A separator with lookahead meets the hypothesis of `c16_no_trailing`. -/
example : ∀ s b k, attempt (skipRight (elm ',') (peek (elm 'a'))) s = .success b k →
    ∃ v l, elm 'a' ⟨s.input, s.offset + k⟩ = .success v l := by
  intro s b k h
  have h' : skipRight (elm ',') (peek (elm 'a')) s = .success b k := by
    unfold attempt Res.withUncommitted at h
    split at h
    · cases h
    · exact h
  simp only [skipRight, peek] at h'
  cases h1 : elm ',' s with
  | success a n =>
    simp only [h1] at h'
    cases h2 : elm 'a' (s.advanceBy n) with
    | success v l => simp only [h2] at h'; cases h'; exact ⟨v, l, h2⟩
    | _ => simp [h2, Res.advanceSuccess] at h'
  | _ => simp [h1] at h'

end OniComb
