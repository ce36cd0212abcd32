import Verif.Spec.PegSteps
import Verif.Props.PegLanguage
import Mathlib.Tactic.Ring
import Mathlib.Tactic.Linarith

/-!
# C139: LL(1) grammars are parsed in linear time
-/

namespace OniComb.Peg
open OniComb
variable {I N : Type} [DecidableEq I] {G : N → Exp I N} {follow : N → I → Prop} {wr : Writing}

/-! ## The counted parsers are the parsers -/

theorem counted_bare {flat : Bool} (rs : N → Counted I Unit) : ∀ e : Exp I N,
    (e.counted (if flat then .flat else .plain) rs).run = e.bare flat fun x => (rs x).run
  | .empty => rfl
  | .elem _ => rfl
  | .text _ => rfl
  | .seq a b => by
    have ha := counted_bare (flat := flat) rs a
    have hb := counted_bare (flat := flat) rs b
    cases flat with
    | true => simp_all [Exp.counted, Exp.bare, Counted.flatMap]
    | false => simp_all [Exp.counted, Exp.bare, Counted.unary, Counted.andThen]
  | .alt a b => by
    have ha := counted_bare (flat := flat) rs a
    have hb := counted_bare (flat := flat) rs b
    cases flat <;> simp_all [Exp.counted, Exp.bare, Counted.or]
  | .star a => by simp [Exp.counted, Exp.bare, Counted.unary, Counted.many0, Counted.repeatFrom, many0, counted_bare rs a]
  | .plus a => by simp [Exp.counted, Exp.bare, Counted.unary, Counted.many1, Counted.repeatFrom, many1, counted_bare rs a]
  | .opt a => by simp [Exp.counted, Exp.bare, Counted.unary, Counted.opt, Counted.or, Counted.prim, OniComb.opt, counted_bare rs a]
  | .not a => by simp [Exp.counted, Exp.bare, Counted.unary, counted_bare rs a]
  | .look a => by simp [Exp.counted, Exp.bare, Counted.unary, counted_bare rs a]
  | .rule _ => rfl

theorem counted_attempt (rs : N → Counted I Unit) : ∀ e : Exp I N, (e.counted .attempt rs).run = e.parser fun x => (rs x).run
  | .empty => rfl
  | .elem _ => rfl
  | .text _ => rfl
  | .seq a b => by simp [Exp.counted, Exp.parser, Counted.unary, Counted.andThen, counted_attempt rs a, counted_attempt rs b]
  | .alt a b => by simp [Exp.counted, Exp.parser, Counted.unary, Counted.or, counted_attempt rs a, counted_attempt rs b]
  | .star a => by simp [Exp.counted, Exp.parser, Counted.unary, Counted.many0, Counted.repeatFrom, many0, counted_attempt rs a]
  | .plus a => by simp [Exp.counted, Exp.parser, Counted.unary, Counted.many1, Counted.repeatFrom, many1, counted_attempt rs a]
  | .opt a => by simp [Exp.counted, Exp.parser, Counted.unary, Counted.opt, Counted.or, Counted.prim, OniComb.opt, counted_attempt rs a]
  | .not a => by simp [Exp.counted, Exp.parser, Counted.unary, counted_attempt rs a]
  | .look a => by simp [Exp.counted, Exp.parser, Counted.unary, counted_attempt rs a]
  | .rule _ => rfl

theorem rulesCounted_bare (flat : Bool) : ∀ n : Nat,
    (fun x => (rulesCounted (if flat then .flat else .plain) G n x).run) = bareRules flat G n
  | 0 => rfl
  | n + 1 => by
    funext x
    simp only [rulesCounted, Counted.lazy, counted_bare, rulesCounted_bare flat n, bareRules]

theorem rulesCounted_attempt : ∀ n : Nat, (fun x => (rulesCounted .attempt G n x).run) = rules G n
  | 0 => rfl
  | n + 1 => by
    funext x
    simp only [rulesCounted, Counted.lazy, counted_attempt, rulesCounted_attempt n, rules]

/-- C139: the counted parser is the parser. -/
theorem c139_counts (wr : Writing) (G : N → Exp I N) (n : Nat) (e : Exp I N) : (countedOf wr G n e).run = wr.parserOf G n e := by
  cases wr with
  | flat =>
    have h := counted_bare (flat := true) (rulesCounted .flat G n) e
    have h' := rulesCounted_bare (G := G) true n
    simp only [if_true] at h h'
    rw [countedOf, h, h', Writing.parserOf, bareOf]
  | plain =>
    have h := counted_bare (flat := false) (rulesCounted .plain G n) e
    have h' := rulesCounted_bare (G := G) false n
    simp only [Bool.false_eq_true, if_false] at h h'
    rw [countedOf, h, h', Writing.parserOf, bareOf]
  | attempt => rw [countedOf, counted_attempt, rulesCounted_attempt, Writing.parserOf, parserOf]

/-! ## What is known about the parsers -/

theorem run_bounds {n : Nat} {e : Exp I N} {s : State I} (hs : s.offset ≤ s.input.length) {m : Nat}
    (h : (countedOf wr G n e).run s = .success () m) : s.offset + m ≤ s.input.length := by
  rw [c139_counts] at h
  cases wr with
  | attempt => exact parserOf_bounds hs h
  | _ => exact bareOf_bounds hs h

theorem run_noPanic (n : Nat) (e : Exp I N) {s : State I} (hs : s.offset ≤ s.input.length) : (countedOf wr G n e).run s ≠ .panic := by
  rw [c139_counts]
  cases wr with
  | attempt => exact parserOf_noPanic n e hs
  | _ => exact bareOf_noPanic n e hs

theorem run_mayEmpty (hG : ∀ x, (G x).Blind) {e : Exp I N} (he : e.Blind) {s : State I} (hs : s.offset ≤ s.input.length)
    {n : Nat} (h : (countedOf wr G n e).run s = .success () 0) : MayEmpty G e := by
  rw [c139_counts] at h
  cases wr with
  | attempt => exact mayEmpty_of_lang (lang_of_reads hG ((c129_success G e s hs 0).1 ⟨n, h⟩) he rfl) (by simp)
  | _ => exact mayEmpty_of_bare hG he hs h

theorem run_star_none {n : Nat} {a : Exp I N} {s : State I} (ha : Fails (countedOf wr G n a).run s) :
    (countedOf wr G n (.star a)).run s = .success () 0 := by
  obtain ⟨er, c, ha⟩ := ha
  show discard (many0 (countedOf wr G n a).run) s = _
  simp [discard, many0, repeatSep, ha, repFinish, Range.from_]

theorem run_plus_fails {n : Nat} {a : Exp I N} {s : State I} (hs : s.offset ≤ s.input.length) (ha : Fails (countedOf wr G n a).run s) :
    ∃ er, (countedOf wr G n (.plus a)).run s = .failure er .uncommitted := by
  obtain ⟨er, c, ha⟩ := ha
  show ∃ er, discard (many1 (countedOf wr G n a).run) s = _
  simp [discard, many1, repeatSep, ha, repFinish, Range.from_, State.withInput, State.advanceBy, hs]

theorem run_opt_some {n : Nat} {a : Exp I N} {s : State I} {m : Nat} (ha : (countedOf wr G n a).run s = .success () m) :
    (countedOf wr G n (.opt a)).run s = .success () m := by
  have := (c10_opt_some_iff (countedOf wr G n a).run s () m).2 ha
  show discard (OniComb.opt (countedOf wr G n a).run) s = _
  simp [discard, this]

theorem run_opt_none {n : Nat} {a : Exp I N} {s : State I} (ha : Fails (countedOf wr G n a).run s) :
    (countedOf wr G n (.opt a)).run s = .success () 0 := by
  have := (c10_opt_none_iff (countedOf wr G n a).run s 0).2 ⟨rfl, ha⟩
  show discard (OniComb.opt (countedOf wr G n a).run) s = _
  simp [discard, this]

/-- Result and steps of an alternative. -/
def AltOut (r r1 r2 : Res I Unit) (k k1 k2 : Nat) : Prop :=
  match r1 with
  | .failure _ .uncommitted => r = r2 ∧ k = k1 + k2
  | .failure _ .committed => (r = r1 ∧ k = k1) ∨ (r = r2 ∧ k = k1 + k2)
  | r1 => r = r1 ∧ k = k1

theorem run_alt {n : Nat} {a b : Exp I N} {s : State I} {r : Res I Unit} (ha : (countedOf wr G n a).run s = r) :
    AltOut ((countedOf wr G n (.alt a b)).run s) r ((countedOf wr G n b).run s) ((countedOf wr G n (.alt a b)).steps s)
      ((countedOf wr G n a).steps s) ((countedOf wr G n b).steps s) := by
  subst ha
  have plain : AltOut (or (countedOf wr G n a).run (countedOf wr G n b).run s) ((countedOf wr G n a).run s) ((countedOf wr G n b).run s)
      ((countedOf wr G n a).steps s + ((countedOf wr G n a).run s).onUncommitted ((countedOf wr G n b).steps s))
      ((countedOf wr G n a).steps s) ((countedOf wr G n b).steps s) := by
    unfold or AltOut Res.onUncommitted
    rcases (countedOf wr G n a).run s with _ | ⟨e, _ | _⟩ | _ | _ <;> simp
  have tried : AltOut (or (attempt (countedOf wr G n a).run) (countedOf wr G n b).run s) ((countedOf wr G n a).run s)
      ((countedOf wr G n b).run s)
      ((countedOf wr G n a).steps s + (attempt (countedOf wr G n a).run s).onUncommitted ((countedOf wr G n b).steps s))
      ((countedOf wr G n a).steps s) ((countedOf wr G n b).steps s) := by
    unfold or attempt AltOut Res.onUncommitted Res.withUncommitted
    rcases (countedOf wr G n a).run s with _ | ⟨e, _ | _⟩ | _ | _ <;> simp
  cases wr with
  | attempt => exact tried
  | _ => exact plain

/-! ## Weights -/

open Classical in
/-- A number for every expression, in which only the rules count that are called before anything is read. `p` is added for
parts that read nothing. -/
noncomputable def Exp.weight (G : N → Exp I N) (p : Exp I N → Nat) (r : N → Nat) : Exp I N → Nat
  | .empty => 1
  | .elem _ => 1
  | .text w => w.length + 1
  | .seq a b => a.weight G p r + p a + p b + if MayEmpty G a then b.weight G p r else 0
  | .alt a b => a.weight G p r + b.weight G p r + p a + p b
  | .star a => 1 + a.weight G p r + p a
  | .plus a => 1 + a.weight G p r + p a
  | .opt a => 1 + a.weight G p r + p a
  | .not a => a.weight G p r
  | .look a => a.weight G p r
  | .rule x => r x

omit [DecidableEq I] in
theorem weight_congr {p : Exp I N → Nat} {r r' : N → Nat} : ∀ (e : Exp I N), (∀ x, e.CallsFirst G x → r x = r' x) →
    e.weight G p r = e.weight G p r'
  | .empty, _ => rfl
  | .elem _, _ => rfl
  | .text _, _ => rfl
  | .seq a b, h => by
    rw [Exp.weight, Exp.weight, weight_congr a fun x hx => h x (.inl hx)]
    by_cases hm : MayEmpty G a
    · rw [if_pos hm, if_pos hm, weight_congr b fun x hx => h x (.inr ⟨hm, hx⟩)]
    · rw [if_neg hm, if_neg hm]
  | .alt a b, h => by
    rw [Exp.weight, Exp.weight, weight_congr a fun x hx => h x (.inl hx), weight_congr b fun x hx => h x (.inr hx)]
  | .star a, h => by rw [Exp.weight, Exp.weight, weight_congr a h]
  | .plus a, h => by rw [Exp.weight, Exp.weight, weight_congr a h]
  | .opt a, h => by rw [Exp.weight, Exp.weight, weight_congr a h]
  | .not a, h => by rw [Exp.weight, Exp.weight, weight_congr a h]
  | .look a, h => by rw [Exp.weight, Exp.weight, weight_congr a h]
  | .rule x, h => h x rfl

omit [DecidableEq I] in
/-- Without left recursion there are weights for the rules. -/
theorem exists_weights (hG : NoLeftRecursion G) (p : Exp I N → Nat) : ∃ r : N → Nat, ∀ x, r x = 1 + (G x).weight G p r := by
  classical
  let F : ∀ x, (∀ y, (G x).CallsFirst G y → Nat) → Nat := fun x rec =>
    1 + (G x).weight G p fun y => if h : (G x).CallsFirst G y then rec y h else 0
  have hG : WellFounded fun x y => (G y).CallsFirst G x := hG
  refine ⟨hG.fix F, fun x => ?_⟩
  rw [WellFounded.fix_eq]
  show 1 + _ = _
  congr 1
  apply weight_congr
  intro y hy
  simp [hy]

/-- All parts weigh at most `A`. -/
def Exp.Within (w : Exp I N → Nat) (A : Nat) : Exp I N → Prop
  | .seq a b => a.Within w A ∧ b.Within w A ∧ w b ≤ A
  | .alt a b => a.Within w A ∧ b.Within w A
  | .star a => a.Within w A ∧ w a ≤ A
  | .plus a => a.Within w A ∧ w a ≤ A
  | .opt a => a.Within w A
  | _ => True

omit [DecidableEq I] in
theorem exists_within (w : Exp I N → Nat) : ∀ e : Exp I N, ∃ B, ∀ A, B ≤ A → e.Within w A
  | .empty => ⟨0, fun _ _ => trivial⟩
  | .elem _ => ⟨0, fun _ _ => trivial⟩
  | .text _ => ⟨0, fun _ _ => trivial⟩
  | .seq a b => by
    obtain ⟨x, hx⟩ := exists_within w a
    obtain ⟨y, hy⟩ := exists_within w b
    exact ⟨x + y + w b, fun A hA => ⟨hx A (by omega), hy A (by omega), by omega⟩⟩
  | .alt a b => by
    obtain ⟨x, hx⟩ := exists_within w a
    obtain ⟨y, hy⟩ := exists_within w b
    exact ⟨x + y, fun A hA => ⟨hx A (by omega), hy A (by omega)⟩⟩
  | .star a => by
    obtain ⟨x, hx⟩ := exists_within w a
    exact ⟨x + w a, fun A hA => ⟨hx A (by omega), by omega⟩⟩
  | .plus a => by
    obtain ⟨x, hx⟩ := exists_within w a
    exact ⟨x + w a, fun A hA => ⟨hx A (by omega), by omega⟩⟩
  | .opt a => by
    obtain ⟨x, hx⟩ := exists_within w a
    exact ⟨x, fun A hA => hx A hA⟩
  | .not _ => ⟨0, fun _ _ => trivial⟩
  | .look _ => ⟨0, fun _ _ => trivial⟩
  | .rule _ => ⟨0, fun _ _ => trivial⟩

omit [DecidableEq I] in
theorem exists_within_rules (w : Exp I N → Nat) : ∀ names : List N, ∃ B, ∀ A, B ≤ A → ∀ x ∈ names, (G x).Within w A
  | [] => ⟨0, fun _ _ => by simp⟩
  | x :: names => by
    obtain ⟨b, hb⟩ := exists_within_rules w names
    obtain ⟨c, hc⟩ := exists_within w (G x)
    refine ⟨b + c, fun A hA y hy => ?_⟩
    rcases List.mem_cons.1 hy with rfl | hy
    · exact hc A (by omega)
    · exact hb A (by omega) y hy

/-! ## Results and steps of the combinators -/

theorem seq_steps (rs : N → Counted I Unit) (a b : Exp I N) (s : State I) :
    ((Exp.seq a b).counted wr rs).steps s = (a.counted wr rs).steps s +
      ((a.counted wr rs).run s).onSuccess fun _ m => (b.counted wr rs).steps (s.advanceBy m) := by
  cases wr <;> rfl

theorem seq_run_success {n : Nat} {a b : Exp I N} {s : State I} {m : Nat} (ha : (countedOf wr G n a).run s = .success () m) :
    (∀ j, (countedOf wr G n b).run (s.advanceBy m) = .success () j → (countedOf wr G n (.seq a b)).run s = .success () (m + j)) ∧
    (∀ er c, (countedOf wr G n b).run (s.advanceBy m) = .failure er c → ∃ c', (countedOf wr G n (.seq a b)).run s = .failure er c' ∧
      (m = 0 → c' = c)) ∧
    ((countedOf wr G n b).run (s.advanceBy m) = .diverge → (countedOf wr G n (.seq a b)).run s = .diverge) ∧
    ((countedOf wr G n b).run (s.advanceBy m) = .panic → (countedOf wr G n (.seq a b)).run s = .panic) := by
  have plain : discard (andThen (countedOf wr G n a).run (countedOf wr G n b).run) s =
      match (countedOf wr G n b).run (s.advanceBy m) with
        | .success _ j => .success () (m + j)
        | .failure e c => .failure e c
        | .panic => .panic
        | .diverge => .diverge := by
    simp only [discard, andThen, ha]
    cases (countedOf wr G n b).run (s.advanceBy m) <;> rfl
  cases wr with
  | flat =>
    have hf : (countedOf .flat G n (.seq a b)).run s =
        (((countedOf .flat G n b).run (s.advanceBy m)).addCommit (m != 0)).advanceSuccess m := by
      show flatMap (countedOf .flat G n a).run (fun _ => (countedOf .flat G n b).run) s = _
      simp [flatMap, ha]
    rw [hf]
    refine ⟨fun j hj => ?_, fun er c hb => ?_, fun hb => ?_, fun hb => ?_⟩
    · rw [hj, Nat.add_comm]
      rfl
    · refine ⟨_, by rw [hb]; rfl, ?_⟩
      rintro rfl
      cases c <;> rfl
    · rw [hb]; rfl
    · rw [hb]; rfl
  | _ =>
    refine ⟨fun j hj => ?_, fun er c hb => ⟨c, ?_, fun _ => rfl⟩, fun hb => ?_, fun hb => ?_⟩
    · rw [hj] at plain; exact plain
    · rw [hb] at plain; exact plain
    · rw [hb] at plain; exact plain
    · rw [hb] at plain; exact plain

theorem seq_run_other {n : Nat} {a b : Exp I N} {s : State I} (ha : ∀ m, (countedOf wr G n a).run s ≠ .success () m) :
    (countedOf wr G n (.seq a b)).run s = (countedOf wr G n a).run s := by
  have plain : discard (andThen (countedOf wr G n a).run (countedOf wr G n b).run) s = (countedOf wr G n a).run s := by
    simp only [discard, andThen]
    cases h : (countedOf wr G n a).run s with
    | success v m => exact (ha m h).elim
    | _ => rfl
  cases wr with
  | flat =>
    show flatMap (countedOf .flat G n a).run (fun _ => (countedOf .flat G n b).run) s = _
    simp only [flatMap]
    cases h : (countedOf .flat G n a).run s with
    | success v m => exact (ha m h).elim
    | _ => rfl
  | _ => exact plain

/-! ## Parts that miss -/

/-- Nothing is read: the result of a part that cannot start with the next element. -/
def Passed (G : N → Exp I N) (e : Exp I N) (r : Res I Unit) : Prop :=
  r = .diverge ∨ (MayEmpty G e ∧ r = .success () 0) ∨ (¬MayEmpty G e ∧ ∃ er, r = .failure er .uncommitted)

/-- Result and steps of a part that misses. -/
def Quick (wr : Writing) (G : N → Exp I N) (p : Exp I N → Nat) (n : Nat) (e : Exp I N) (s : State I) : Prop :=
  Passed G e ((countedOf wr G n e).run s) ∧ (countedOf wr G n e).steps s ≤ p e

theorem quick_of_rules {r : N → Nat} (n : Nat)
    (hr : ∀ (x : N) (s : State I), s.offset ≤ s.input.length → Misses G (s.input.drop s.offset) (.rule x) →
      Quick wr G (Exp.weight G (fun _ => 0) r) n (.rule x) s) : ∀ (e : Exp I N) {F : I → Prop}, e.LL1 G follow F →
    ∀ s : State I, s.offset ≤ s.input.length → Misses G (s.input.drop s.offset) e →
      Quick wr G (Exp.weight G (fun _ => 0) r) n e s
  | .empty, _, _, s, _, _ => ⟨.inr (.inl ⟨.empty, rfl⟩), Nat.le_refl _⟩
  | .elem f, _, _, s, hs, hm => by
    refine ⟨.inr (.inr ⟨nofun, ?_⟩), Nat.le_refl _⟩
    show ∃ er, discard (elmPred f) s = _
    simp only [discard, elmPred, State.withInput, hs, if_true]
    cases hd : s.input.drop s.offset with
    | nil => exact ⟨_, rfl⟩
    | cons c u =>
      have hc : f c = false := by
        cases h : f c with
        | false => rfl
        | true => exact (hm c u hd (.elem h)).elim
      simp [hc]
  | .text w, _, _, s, hs, hm => by
    refine ⟨.inr ?_, Nat.le_refl _⟩
    show _ ∧ discard (OniComb.seq w) s = _ ∨ _ ∧ ∃ er, discard (OniComb.seq w) s = _
    simp only [discard, OniComb.seq, State.withInput, hs, if_true]
    cases w with
    | nil => exact .inl ⟨.text, rfl⟩
    | cons d w =>
      refine .inr ⟨nofun, ?_⟩
      cases hd : s.input.drop s.offset with
      | nil => exact ⟨_, rfl⟩
      | cons c u =>
        have hc : ¬d = c := by
          rintro rfl
          exact hm d u hd (.text w)
        simp [seqLoop, hc, Committed.ofBool]
  | .seq a b, F, he, s, hs, hm => by
    obtain ⟨ra, ka⟩ := quick_of_rules n hr a he.1 s hs fun c u h h' => hm c u h (.seqLeft b h')
    have hsteps : (countedOf wr G n (.seq a b)).steps s = (countedOf wr G n a).steps s +
        ((countedOf wr G n a).run s).onSuccess fun _ m => (countedOf wr G n b).steps (s.advanceBy m) := by
      exact seq_steps _ a b s
    have hw : (Exp.seq a b).weight G (fun _ => 0) r = a.weight G (fun _ => 0) r + 0 + 0 + _ := rfl
    unfold Quick
    rw [hsteps, hw]
    rcases ra with ra | ⟨ma, ra⟩ | ⟨ma, er, ra⟩
    · rw [seq_run_other (by rw [ra]; nofun), ra]
      exact ⟨.inl rfl, by simp only [Res.onSuccess]; omega⟩
    · obtain ⟨rb, kb⟩ := quick_of_rules n hr b he.2 s hs fun c u h h' => hm c u h (.seqRight ma h')
      rw [if_pos ma, ra]
      refine ⟨?_, by
        show _ + (countedOf wr G n b).steps s ≤ _
        omega⟩
      obtain ⟨h1, h2, h3, -⟩ := seq_run_success (b := b) ra
      rcases rb with rb | ⟨mb, rb⟩ | ⟨mb, er, rb⟩
      · exact .inl (h3 rb)
      · exact .inr (.inl ⟨.seq ma mb, h1 0 rb⟩)
      · obtain ⟨c', h, h0⟩ := h2 er _ rb
        rw [h0 rfl] at h
        refine .inr (.inr ⟨fun h => ?_, er, h⟩)
        cases h with
        | seq _ h => exact mb h
    · rw [seq_run_other (by rw [ra]; nofun), ra]
      refine ⟨.inr (.inr ⟨fun h => ?_, er, rfl⟩), by simp only [Res.onSuccess]; omega⟩
      cases h with
      | seq h _ => exact ma h
  | .alt a b, F, he, s, hs, hm => by
    obtain ⟨hea, heb, hne, -, -⟩ := he
    obtain ⟨ra, ka⟩ := quick_of_rules n hr a hea s hs fun c u h h' => hm c u h (.altLeft b h')
    obtain ⟨rb, kb⟩ := quick_of_rules n hr b heb s hs fun c u h h' => hm c u h (.altRight a h')
    have hw : (Exp.alt a b).weight G (fun _ => 0) r = a.weight G (fun _ => 0) r + b.weight G (fun _ => 0) r + 0 + 0 := rfl
    unfold Quick
    rw [hw]
    rcases ra with ra | ⟨ma, ra⟩ | ⟨ma, er, ra⟩
    · obtain ⟨h, hk⟩ := run_alt (b := b) ra
      exact ⟨.inl h, by omega⟩
    · exact (hne ma).elim
    · obtain ⟨h, hk⟩ := run_alt (b := b) ra
      rw [h]
      refine ⟨?_, by omega⟩
      rcases rb with rb | ⟨mb, rb⟩ | ⟨mb, er, rb⟩
      · exact .inl rb
      · exact .inr (.inl ⟨.altRight a mb, rb⟩)
      · refine .inr (.inr ⟨fun h => ?_, er, rb⟩)
        cases h with
        | altLeft _ h => exact ma h
        | altRight _ h => exact mb h
  | .star a, F, he, s, hs, hm => by
    obtain ⟨ra, ka⟩ := quick_of_rules n hr a he.1 s hs fun c u h h' => hm c u h (.star h')
    have hsteps : (countedOf wr G n (.star a)).steps s = (countedOf wr G n a).steps s +
        ((countedOf wr G n a).run s).onSuccess fun v m =>
          Counted.loopSteps (countedOf wr G n a) (repFuel .unbounded s) ⟨s.advanceBy m, [v], m⟩ := by
      rfl
    have hw : (Exp.star a).weight G (fun _ => 0) r = 1 + a.weight G (fun _ => 0) r + 0 := rfl
    unfold Quick
    rw [hsteps, hw]
    rcases ra with ra | ⟨ma, ra⟩ | ⟨ma, er, ra⟩
    · have hrun : (countedOf wr G n (.star a)).run s = .diverge := by
        show discard (many0 (countedOf wr G n a).run) s = _
        simp [discard, many0, repeatSep, ra]
      rw [ra, hrun]
      exact ⟨.inl rfl, by simp only [Res.onSuccess]; omega⟩
    · exact (he.2.1 ma).elim
    · rw [ra, run_star_none ⟨er, _, ra⟩]
      exact ⟨.inr (.inl ⟨.star a, rfl⟩), by simp only [Res.onSuccess]; omega⟩
  | .plus a, F, he, s, hs, hm => by
    obtain ⟨ra, ka⟩ := quick_of_rules n hr a he.1 s hs fun c u h h' => hm c u h (.plus h')
    have hsteps : (countedOf wr G n (.plus a)).steps s = (countedOf wr G n a).steps s +
        ((countedOf wr G n a).run s).onSuccess fun v m =>
          Counted.loopSteps (countedOf wr G n a) (repFuel .unbounded s) ⟨s.advanceBy m, [v], m⟩ := by
      rfl
    have hw : (Exp.plus a).weight G (fun _ => 0) r = 1 + a.weight G (fun _ => 0) r + 0 := rfl
    unfold Quick
    rw [hsteps, hw]
    rcases ra with ra | ⟨ma, ra⟩ | ⟨ma, er, ra⟩
    · have hrun : (countedOf wr G n (.plus a)).run s = .diverge := by
        show discard (many1 (countedOf wr G n a).run) s = _
        simp [discard, many1, repeatSep, ra]
      rw [ra, hrun]
      exact ⟨.inl rfl, by simp only [Res.onSuccess]; omega⟩
    · exact (he.2.1 ma).elim
    · obtain ⟨er', hrun⟩ := run_plus_fails hs ⟨er, _, ra⟩
      rw [ra, hrun]
      refine ⟨.inr (.inr ⟨fun h => ?_, _, rfl⟩), by simp only [Res.onSuccess]; omega⟩
      cases h with
      | plus h => exact ma h
  | .opt a, F, he, s, hs, hm => by
    obtain ⟨ra, ka⟩ := quick_of_rules n hr a he.1 s hs fun c u h h' => hm c u h (.opt h')
    have hsteps := opt_steps wr G n a s
    have hw : (Exp.opt a).weight G (fun _ => 0) r = 1 + a.weight G (fun _ => 0) r + 0 := rfl
    unfold Quick
    rw [hw]
    rcases ra with ra | ⟨ma, ra⟩ | ⟨ma, er, ra⟩
    · have hrun : (countedOf wr G n (.opt a)).run s = .diverge := by
        show discard (OniComb.opt (countedOf wr G n a).run) s = _
        simp [discard, OniComb.opt, or, map, attempt, Res.withUncommitted, ra]
      rw [hrun]
      exact ⟨.inl rfl, by omega⟩
    · rw [run_opt_some ra]
      exact ⟨.inr (.inl ⟨.opt a, rfl⟩), by omega⟩
    · rw [run_opt_none ⟨er, _, ra⟩]
      exact ⟨.inr (.inl ⟨.opt a, rfl⟩), by omega⟩
  | .not _, _, he, _, _, _ => he.elim
  | .look _, _, he, _, _, _ => he.elim
  | .rule x, _, _, s, hs, hm => hr x s hs hm
where
  opt_steps (wr : Writing) (G : N → Exp I N) (n : Nat) (a : Exp I N) (s : State I) :
      (countedOf wr G n (.opt a)).steps s ≤ (countedOf wr G n a).steps s + 1 := by
    show _ + Res.onUncommitted _ 1 ≤ _
    apply Nat.add_le_add_left
    unfold Res.onUncommitted
    split
    · exact Nat.le_refl _
    · exact Nat.zero_le _

theorem quick {r : N → Nat} (hG : GrammarLL1 G follow) (hr : ∀ x, r x = 1 + (G x).weight G (fun _ => 0) r) : ∀ (n : Nat) (e : Exp I N)
    {F : I → Prop}, e.LL1 G follow F → ∀ s : State I, s.offset ≤ s.input.length → Misses G (s.input.drop s.offset) e →
      Quick wr G (Exp.weight G (fun _ => 0) r) n e s
  | 0 => quick_of_rules 0 fun x s _ _ => ⟨.inl rfl, by
      show 1 ≤ r x
      rw [hr]
      omega⟩
  | n + 1 => quick_of_rules (n + 1) fun x s hs hm => by
      obtain ⟨h, k⟩ := quick hG hr n (G x) (hG.rules x) s hs fun c u h h' => hm c u h (.rule h')
      refine ⟨?_, ?_⟩
      · have hrun : (countedOf wr G (n + 1) (.rule x)).run s = (countedOf wr G n (G x)).run s := rfl
        rw [hrun]
        rcases h with h | ⟨m, h⟩ | ⟨m, h⟩
        · exact .inl h
        · exact .inr (.inl ⟨.rule m, h⟩)
        · refine .inr (.inr ⟨fun h => ?_, h⟩)
          cases h with
          | rule h => exact m h
      · show 1 + (countedOf wr G n (G x)).steps s ≤ r x
        rw [hr]
        omega

/-! ## All parts

A part that succeeds either has looked only at what it reads and one element more, or it is followed by an element that
must not follow it: something that began with this element has failed. Then everything that follows misses. -/

/-- Bound for the steps `k` of a part with result `r` on the text `t`: `A` for every element read, `w` once, `p` if nothing
is read. -/
def Cost (A p w : Nat) (F : I → Prop) (t : List I) (r : Res I Unit) (k : Nat) : Prop :=
  match r with
  | .success _ m => (m = 0 ∧ k ≤ p) ∨ (0 < m ∧ k + A ≤ A * m + w) ∨ (k ≤ A * t.length + w ∧ ∃ c u, t.drop m = c :: u ∧ ¬F c)
  | _ => k ≤ A * t.length + w

omit [DecidableEq I] in
theorem Cost.of_other {A p w : Nat} {F : I → Prop} {t : List I} {r : Res I Unit} {k : Nat} (hr : ∀ m, r ≠ .success () m)
    (h : k ≤ A * t.length + w) : Cost A p w F t r k := by
  cases r with
  | success v m => exact (hr m rfl).elim
  | _ => exact h

omit [DecidableEq I] in
theorem not_misses {t : List I} {e : Exp I N} (h : ¬Misses G t e) : ∃ c u, t = c :: u ∧ Starts G c e := by
  by_contra hn
  exact h fun c u ht hc => hn ⟨c, u, ht, hc⟩

omit [DecidableEq I] in
theorem length_split {t : List I} {m : Nat} (h : m ≤ t.length) (A : Nat) : A * t.length = A * m + A * (t.drop m).length := by
  rw [← Nat.mul_add, List.length_drop, Nat.add_sub_cancel' h]

omit [DecidableEq I] in
/-- One item at a time. -/
theorem repLoop_succ (p : Parser I Unit) (k : Nat) (st : LoopState I Unit) :
    repLoop p (none : Option (Parser I Unit)) .unbounded (k + 1) st = match p st.cur with
      | .success v n => repLoop p (none : Option (Parser I Unit)) .unbounded k ⟨st.cur.advanceBy n, st.items ++ [v], st.length + n⟩
      | .failure _ _ => .exit st.items st.length
      | .panic => .panic
      | .diverge => .diverge := by
  rw [repLoop, repTurn]
  simp only [boundReached, Bool.false_eq_true, if_false, repItem]
  cases p st.cur <;> rfl

/-- The loop ends at once if no item starts with the next element. -/
theorem loop_misses {p : Exp I N → Nat} {n : Nat} {a : Exp I N} (hne : ¬MayEmpty G a) (k : Nat) (st : LoopState I Unit)
    (hq : Quick wr G p n a st.cur) :
    Counted.loopSteps (countedOf wr G n a) k st ≤ p a ∧
    (repLoop ((countedOf wr G n a).run) (none : Option (Parser I Unit)) .unbounded k st = .exit st.items st.length ∨
      repLoop ((countedOf wr G n a).run) (none : Option (Parser I Unit)) .unbounded k st = .diverge) := by
  cases k with
  | zero => exact ⟨Nat.zero_le _, .inr rfl⟩
  | succ k =>
    obtain ⟨r, hk⟩ := hq
    rw [repLoop_succ, Counted.loopSteps]
    rcases r with r | ⟨m, -⟩ | ⟨-, er, r⟩
    · rw [r]
      exact ⟨hk, .inr rfl⟩
    · exact (hne m).elim
    · rw [r]
      exact ⟨hk, .inl rfl⟩

theorem loop_cost {p : Exp I N → Nat} {n A w : Nat} {a : Exp I N} {F : I → Prop} (hB : ∀ x, (G x).Blind) (ha : a.Blind)
    (hne : ¬MayEmpty G a) (hF : ∀ c, Starts G c a → ¬F c) (hw : w ≤ A)
    (quick : ∀ s : State I, s.offset ≤ s.input.length → Misses G (s.input.drop s.offset) a → Quick wr G p n a s)
    (cost : ∀ s : State I, s.offset ≤ s.input.length → Cost A (p a) w (fun c => Starts G c a ∨ F c) (s.input.drop s.offset)
      ((countedOf wr G n a).run s) ((countedOf wr G n a).steps s)) : ∀ (k : Nat) (st : LoopState I Unit),
    st.cur.offset ≤ st.cur.input.length →
    match repLoop ((countedOf wr G n a).run) (none : Option (Parser I Unit)) .unbounded k st with
    | .exit _ len => ∃ j, len = st.length + j ∧ j ≤ (st.cur.input.drop st.cur.offset).length ∧
        Cost A (p a) (w + p a) F (st.cur.input.drop st.cur.offset) (.success () j) (Counted.loopSteps (countedOf wr G n a) k st)
    | _ => Counted.loopSteps (countedOf wr G n a) k st ≤ A * (st.cur.input.drop st.cur.offset).length + (w + p a)
  | 0, st, hs => Nat.zero_le _
  | k + 1, st, hs => by
    by_cases hm : Misses G (st.cur.input.drop st.cur.offset) a
    · obtain ⟨h1, h2⟩ := loop_misses hne (k + 1) st (quick _ hs hm)
      rcases h2 with h2 | h2
      · rw [h2]
        exact ⟨0, rfl, Nat.zero_le _, .inl ⟨rfl, h1⟩⟩
      · rw [h2]
        show _ ≤ _
        omega
    · obtain ⟨c, u, ht, hc⟩ := not_misses hm
      have hcost := cost _ hs
      rw [repLoop_succ, Counted.loopSteps]
      cases hr : (countedOf wr G n a).run st.cur with
      | panic =>
        rw [hr] at hcost
        have hcost : _ ≤ _ := hcost
        show _ + 0 ≤ _
        omega
      | diverge =>
        rw [hr] at hcost
        have hcost : _ ≤ _ := hcost
        show _ + 0 ≤ _
        omega
      | failure er cm =>
        rw [hr] at hcost
        have hcost : _ ≤ _ := hcost
        refine ⟨0, rfl, Nat.zero_le _, .inr (.inr ⟨?_, c, u, ht, hF c hc⟩)⟩
        show _ + 0 ≤ _
        omega
      | success v i =>
        rw [hr] at hcost
        have hi := run_bounds hs hr
        have hil : i ≤ (st.cur.input.drop st.cur.offset).length := by rw [List.length_drop]; omega
        have hlen := length_split hil A
        have hi0 : i ≠ 0 := by
          rintro rfl
          exact hne (run_mayEmpty hB ha hs hr)
        simp only [Res.onSuccess]
        have hdrop : (st.cur.advanceBy i).input.drop (st.cur.advanceBy i).offset = (st.cur.input.drop st.cur.offset).drop i := by
          simp [State.advanceBy, List.drop_drop]
        rcases hcost with ⟨h, -⟩ | ⟨-, hclean⟩ | ⟨hhot, c', u', ht', hc'⟩
        · exact (hi0 h).elim
        · have ih := loop_cost hB ha hne hF hw quick cost k ⟨st.cur.advanceBy i, st.items ++ [v], st.length + i⟩ hi
          simp only [hdrop] at ih
          generalize Counted.loopSteps (countedOf wr G n a) k ⟨st.cur.advanceBy i, st.items ++ [v], st.length + i⟩ = l at ih ⊢
          cases ho : repLoop ((countedOf wr G n a).run) (none : Option (Parser I Unit)) .unbounded k
              ⟨st.cur.advanceBy i, st.items ++ [v], st.length + i⟩ with
          | panic =>
            rw [ho] at ih
            have ih : _ ≤ _ := ih
            show _ ≤ _
            omega
          | diverge =>
            rw [ho] at ih
            have ih : _ ≤ _ := ih
            show _ ≤ _
            omega
          | exit items len =>
            rw [ho] at ih
            obtain ⟨j, h1, h2, h3⟩ := ih
            rw [List.length_drop] at h2
            refine ⟨i + j, by rw [h1]; exact Nat.add_assoc _ _ _, by omega, ?_⟩
            rcases h3 with ⟨rfl, h3⟩ | ⟨h0, h3⟩ | ⟨h3, c', u', ht', hc'⟩
            · exact .inr (.inl ⟨by omega, by simp only [Nat.add_zero]; omega⟩)
            · exact .inr (.inl ⟨by omega, by rw [Nat.mul_add]; omega⟩)
            · exact .inr (.inr ⟨by omega, c', u', by rw [← List.drop_drop]; exact ht', hc'⟩)
        · obtain ⟨h1, h2⟩ := loop_misses hne k ⟨st.cur.advanceBy i, st.items ++ [v], st.length + i⟩ (quick _ hi (by
            rw [hdrop, ht']
            intro d x hd hs'
            cases hd
            exact hc' (.inl hs')))
          rcases h2 with h2 | h2
          · rw [h2]
            exact ⟨i, rfl, hil, .inr (.inr ⟨by omega, c', u', ht', fun h => hc' (.inr h)⟩)⟩
          · rw [h2]
            show _ ≤ _
            omega

/-- `of_many0` and `of_many1` are the loop, begun with no items. -/
theorem repeat_loop (low n : Nat) (a : Exp I N) (s : State I) :
    (Counted.repeatFrom low (countedOf wr G n a)).steps s =
      Counted.loopSteps (countedOf wr G n a) (repFuel .unbounded s + 1) ⟨s, [], 0⟩ ∧
    repeatSep ((countedOf wr G n a).run) (.from_ low) (none : Option (Parser I Unit)) s =
      match repLoop ((countedOf wr G n a).run) (none : Option (Parser I Unit)) .unbounded (repFuel .unbounded s + 1) ⟨s, [], 0⟩ with
      | .exit items len => repFinish (.from_ low) s items len
      | .panic => .panic
      | .diverge => .diverge := by
  constructor
  · simp only [Counted.repeatFrom, Counted.loopSteps, List.nil_append, Nat.zero_add]
  · rw [repLoop_succ, repeatSep]
    simp only [List.nil_append, Nat.zero_add, Range.from_]
    cases (countedOf wr G n a).run s with
    | success v m =>
      simp only
      cases repLoop ((countedOf wr G n a).run) (none : Option (Parser I Unit)) .unbounded (repFuel .unbounded s) ⟨s.advanceBy m, [v], m⟩ <;> rfl
    | _ => rfl

theorem repeat_cost {p : Exp I N → Nat} {n A w : Nat} {a : Exp I N} {F : I → Prop} (hB : ∀ x, (G x).Blind) (ha : a.Blind)
    (hne : ¬MayEmpty G a) (hF : ∀ c, Starts G c a → ¬F c) (hw : w ≤ A)
    (quick : ∀ s : State I, s.offset ≤ s.input.length → Misses G (s.input.drop s.offset) a → Quick wr G p n a s)
    (cost : ∀ s : State I, s.offset ≤ s.input.length → Cost A (p a) w (fun c => Starts G c a ∨ F c) (s.input.drop s.offset)
      ((countedOf wr G n a).run s) ((countedOf wr G n a).steps s)) (low : Nat) (s : State I) (hs : s.offset ≤ s.input.length) :
    Cost A (1 + p a) (1 + w + p a) F (s.input.drop s.offset)
      (discard (repeatSep ((countedOf wr G n a).run) (.from_ low) (none : Option (Parser I Unit))) s)
      ((Counted.repeatFrom low (countedOf wr G n a)).steps s) := by
  have h := loop_cost hB ha hne hF hw quick cost (repFuel .unbounded s + 1) ⟨s, [], 0⟩ hs
  obtain ⟨h1, h2⟩ := repeat_loop (wr := wr) (G := G) low n a s
  rw [h1, discard, h2]
  generalize Counted.loopSteps (countedOf wr G n a) (repFuel .unbounded s + 1) ⟨s, [], 0⟩ = l at h ⊢
  cases ho : repLoop ((countedOf wr G n a).run) (none : Option (Parser I Unit)) .unbounded (repFuel .unbounded s + 1) ⟨s, [], 0⟩ with
  | panic =>
    rw [ho] at h
    have h : _ ≤ _ := h
    show _ ≤ _
    simp only at h
    omega
  | diverge =>
    rw [ho] at h
    have h : _ ≤ _ := h
    show _ ≤ _
    simp only at h
    omega
  | exit items len =>
    rw [ho] at h
    obtain ⟨j, h3, h4, h5⟩ := h
    simp only [Nat.zero_add] at h3
    subst h3
    have hlen := length_split h4 A
    simp only at hlen h5 h4
    have hle : l ≤ A * (s.input.drop s.offset).length + (w + p a) := by
      rcases h5 with ⟨-, h5⟩ | ⟨-, h5⟩ | ⟨h5, -⟩ <;> omega
    have hfin : (∃ r, repFinish (.from_ low) s items len = r ∧ ∀ v m, r ≠ .success v m) ∨
        repFinish (.from_ low) s items len = .success items len := by
      simp only [repFinish, Range.from_, State.withInput]
      split
      · split <;> exact .inl ⟨_, rfl, nofun⟩
      · exact .inr rfl
    rcases hfin with ⟨r, hr, hn⟩ | hr
    · simp only [hr]
      refine Cost.of_other ?_ (by omega)
      cases r with
      | success v m => exact (hn v m rfl).elim
      | _ => exact fun _ => nofun
    · simp only [hr]
      rcases h5 with ⟨h0, h5⟩ | ⟨h0, h5⟩ | ⟨h5, hot⟩
      · exact .inl ⟨h0, by omega⟩
      · exact .inr (.inl ⟨h0, by omega⟩)
      · exact .inr (.inr ⟨by omega, hot⟩)

theorem cost_of_rules {r r' : N → Nat} {A : Nat} (hG : GrammarLL1 G follow) (hr : ∀ x, r x = 1 + (G x).weight G (fun _ => 0) r) (n : Nat)
    (hrule : ∀ (x : N) {F : I → Prop}, (∀ c, F c → follow x c) → ∀ s : State I, s.offset ≤ s.input.length →
      Cost A (r x) (r' x) F (s.input.drop s.offset) ((countedOf wr G n (.rule x)).run s) ((countedOf wr G n (.rule x)).steps s)) :
    ∀ (e : Exp I N) {F : I → Prop}, e.LL1 G follow F → e.Within (Exp.weight G (Exp.weight G (fun _ => 0) r) r') A → ∀ s : State I,
      s.offset ≤ s.input.length →
      Cost A (e.weight G (fun _ => 0) r) (e.weight G (Exp.weight G (fun _ => 0) r) r') F (s.input.drop s.offset)
        ((countedOf wr G n e).run s) ((countedOf wr G n e).steps s)
  | .empty, _, _, _, s, _ => .inl ⟨rfl, Nat.le_refl _⟩
  | .elem f, _, _, _, s, hs => by
    have hrun : (countedOf wr G n (.elem f)).run s = discard (elmPred f) s := rfl
    simp only [hrun, discard, elmPred, State.withInput, hs, if_true]
    cases s.input.drop s.offset with
    | nil => exact Nat.le_add_left _ _
    | cons c u =>
      by_cases hc : f c = true
      · simp only [hc, if_true]
        refine .inr (.inl ⟨Nat.one_pos, ?_⟩)
        show 1 + A ≤ A * 1 + 1
        omega
      · simp only [hc]
        exact Nat.le_add_left _ _
  | .text w, _, _, _, s, hs => by
    cases hd : (countedOf wr G n (.text w)).run s with
    | success v m =>
      have hl : ∃ v, OniComb.seq w s = .success v m := by
        have hd : discard (OniComb.seq w) s = _ := hd
        simp only [discard] at hd
        split at hd <;> first | (cases hd; exact ⟨_, by assumption⟩) | cases hd
      obtain ⟨v', hl⟩ := hl
      obtain ⟨-, rfl, -⟩ := (c24_seq_success_iff w s hs _ _).1 hl
      cases w with
      | nil => exact .inl ⟨rfl, Nat.le_refl _⟩
      | cons d w =>
        refine .inr (.inl ⟨by simp, ?_⟩)
        show (d :: w).length + 1 + A ≤ A * (d :: w).length + ((d :: w).length + 1)
        simp only [List.length_cons, Nat.mul_add]
        omega
    | _ => exact Nat.le_add_left _ _
  | .seq a b, F, he, hw, s, hs => by
    have ca := cost_of_rules hG hr n hrule a he.1 hw.1 s hs
    have hB : ∀ x, (G x).Blind := fun x => (hG.rules x).blind
    have hsteps : (countedOf wr G n (.seq a b)).steps s = (countedOf wr G n a).steps s +
        ((countedOf wr G n a).run s).onSuccess fun _ m => (countedOf wr G n b).steps (s.advanceBy m) := by
      exact seq_steps _ a b s
    have hwb := hw.2.2
    have hw1 : (Exp.seq a b).weight G (fun _ => 0) r = a.weight G (fun _ => 0) r + 0 + 0 + _ := rfl
    have hw2 : (Exp.seq a b).weight G (Exp.weight G (fun _ => 0) r) r' = a.weight G (Exp.weight G (fun _ => 0) r) r' +
      a.weight G (fun _ => 0) r + b.weight G (fun _ => 0) r + _ := rfl
    have key : ∀ res, (countedOf wr G n a).run s = res → (∀ m, res ≠ .success () m) → Cost A ((Exp.seq a b).weight G (fun _ => 0) r)
        ((Exp.seq a b).weight G (Exp.weight G (fun _ => 0) r) r') F (s.input.drop s.offset) ((countedOf wr G n (.seq a b)).run s)
        ((countedOf wr G n (.seq a b)).steps s) := by
      rintro res rfl hn
      rw [seq_run_other hn]
      refine Cost.of_other hn ?_
      have : ((countedOf wr G n a).run s).onSuccess (fun _ m => (countedOf wr G n b).steps (s.advanceBy m)) = 0 := by
        cases h : (countedOf wr G n a).run s with
        | success v m => exact (hn m h).elim
        | _ => rfl
      rw [hsteps, this, hw2]
      have : (countedOf wr G n a).steps s ≤ A * (s.input.drop s.offset).length + a.weight G (Exp.weight G (fun _ => 0) r) r' := by
        cases h : (countedOf wr G n a).run s with
        | success v m => exact (hn m h).elim
        | _ => rw [h] at ca; exact ca
      omega
    cases ha : (countedOf wr G n a).run s with
    | panic => exact key _ ha nofun
    | diverge => exact key _ ha nofun
    | failure er c => exact key _ ha nofun
    | success v m =>
      rw [ha] at ca
      have hm := run_bounds hs ha
      have hml : m ≤ (s.input.drop s.offset).length := by rw [List.length_drop]; omega
      have hlen := length_split hml A
      have hdrop : (s.advanceBy m).input.drop (s.advanceBy m).offset = (s.input.drop s.offset).drop m := by
        simp [State.advanceBy, List.drop_drop]
      obtain ⟨h1, h2, h3, h4⟩ := seq_run_success (b := b) ha
      rw [hsteps, ha]
      simp only [Res.onSuccess]
      rcases ca with ⟨rfl, ca⟩ | ⟨hm0, ca⟩ | ⟨ca, c, u, ht, hc⟩
      · have hma : MayEmpty G a := run_mayEmpty hB he.1.blind hs ha
        rw [if_pos hma] at hw1 hw2
        have cb := cost_of_rules hG hr n hrule b he.2 hw.2.1 s hs
        have hs0 : s.advanceBy 0 = s := rfl
        rw [hs0] at h1 h2 h3 h4 ⊢
        cases hb : (countedOf wr G n b).run s with
        | success v' j =>
          rw [hb] at cb
          rw [h1 j hb, hw1, hw2, Nat.zero_add]
          rcases cb with ⟨h, cb⟩ | ⟨h, cb⟩ | ⟨cb, hot⟩
          · exact .inl ⟨h, by omega⟩
          · exact .inr (.inl ⟨h, by omega⟩)
          · exact .inr (.inr ⟨by omega, hot⟩)
        | failure er c =>
          rw [hb] at cb
          obtain ⟨c', h, -⟩ := h2 er c hb
          rw [h, hw2]
          have cb : _ ≤ _ := cb
          show _ ≤ _
          omega
        | diverge =>
          rw [hb] at cb
          rw [h3 hb, hw2]
          have cb : _ ≤ _ := cb
          show _ ≤ _
          omega
        | panic =>
          rw [hb] at cb
          rw [h4 hb, hw2]
          have cb : _ ≤ _ := cb
          show _ ≤ _
          omega
      · have cb := cost_of_rules hG hr n hrule b he.2 hw.2.1 (s.advanceBy m) hm
        rw [hdrop] at cb
        cases hb : (countedOf wr G n b).run (s.advanceBy m) with
        | success v' j =>
          rw [hb] at cb
          rw [h1 j hb, hw1, hw2]
          rcases cb with ⟨rfl, cb⟩ | ⟨h, cb⟩ | ⟨cb, c, u, ht, hc⟩
          · exact .inr (.inl ⟨by omega, by simp only [Nat.add_zero]; omega⟩)
          · exact .inr (.inl ⟨by omega, by rw [Nat.mul_add]; omega⟩)
          · exact .inr (.inr ⟨by omega, c, u, by rw [← List.drop_drop]; exact ht, hc⟩)
        | failure er c =>
          rw [hb] at cb
          obtain ⟨c', h, -⟩ := h2 er c hb
          rw [h, hw2]
          have cb : _ ≤ _ := cb
          show _ ≤ _
          omega
        | diverge =>
          rw [hb] at cb
          rw [h3 hb, hw2]
          have cb : _ ≤ _ := cb
          show _ ≤ _
          omega
        | panic =>
          rw [hb] at cb
          rw [h4 hb, hw2]
          have cb : _ ≤ _ := cb
          show _ ≤ _
          omega
      · obtain ⟨rb, kb⟩ := quick (wr := wr) hG hr n b he.2 (s.advanceBy m) hm (by
          rw [hdrop, ht]
          intro d x hd hs'
          cases hd
          exact hc (.inl hs'))
        rcases rb with rb | ⟨mb, rb⟩ | ⟨mb, er, rb⟩
        · rw [h3 rb, hw2]
          show _ ≤ _
          omega
        · rw [h1 0 rb, hw2]
          exact .inr (.inr ⟨by omega, c, u, ht, fun h => hc (.inr ⟨mb, h⟩)⟩)
        · obtain ⟨c', h, -⟩ := h2 er _ rb
          rw [h, hw2]
          show _ ≤ _
          omega
  | .alt a b, F, he, hw, s, hs => by
    obtain ⟨hea, heb, hne, hdis, hF⟩ := he
    have hB : ∀ x, (G x).Blind := fun x => (hG.rules x).blind
    have ca := cost_of_rules hG hr n hrule a hea hw.1 s hs
    have cb := cost_of_rules hG hr n hrule b heb hw.2 s hs
    have hw1 : (Exp.alt a b).weight G (fun _ => 0) r = a.weight G (fun _ => 0) r + b.weight G (fun _ => 0) r + 0 + 0 := rfl
    have hw2 : (Exp.alt a b).weight G (Exp.weight G (fun _ => 0) r) r' = a.weight G (Exp.weight G (fun _ => 0) r) r' +
      b.weight G (Exp.weight G (fun _ => 0) r) r' + a.weight G (fun _ => 0) r + b.weight G (fun _ => 0) r := rfl
    rw [hw1, hw2]
    by_cases hm : Misses G (s.input.drop s.offset) a
    · obtain ⟨ra, ka⟩ := quick (wr := wr) hG hr n a hea s hs hm
      rcases ra with ra | ⟨ma, ra⟩ | ⟨ma, er, ra⟩
      · obtain ⟨h, hk⟩ := run_alt (b := b) ra
        rw [h]
        show _ ≤ _
        omega
      · exact (hne ma).elim
      · obtain ⟨h, hk⟩ := run_alt (b := b) ra
        rw [h, hk]
        cases hb : (countedOf wr G n b).run s with
        | success v j =>
          rw [hb] at cb
          rcases cb with ⟨h, cb⟩ | ⟨h, cb⟩ | ⟨cb, hot⟩
          · exact .inl ⟨h, by omega⟩
          · exact .inr (.inl ⟨h, by omega⟩)
          · exact .inr (.inr ⟨by omega, hot⟩)
        | _ =>
          rw [hb] at cb
          have cb : _ ≤ _ := cb
          show _ ≤ _
          omega
    · obtain ⟨c, u, ht, hc⟩ := not_misses hm
      have second : (countedOf wr G n a).steps s ≤ A * (s.input.drop s.offset).length + a.weight G (Exp.weight G (fun _ => 0) r) r' →
          (countedOf wr G n (.alt a b)).run s = (countedOf wr G n b).run s ∧
            (countedOf wr G n (.alt a b)).steps s = (countedOf wr G n a).steps s + (countedOf wr G n b).steps s →
          Cost A (a.weight G (fun _ => 0) r + b.weight G (fun _ => 0) r + 0 + 0) (a.weight G (Exp.weight G (fun _ => 0) r) r' +
            b.weight G (Exp.weight G (fun _ => 0) r) r' + a.weight G (fun _ => 0) r + b.weight G (fun _ => 0) r) F
            (s.input.drop s.offset) ((countedOf wr G n (.alt a b)).run s) ((countedOf wr G n (.alt a b)).steps s) := by
        rintro ca ⟨h, hk⟩
        rw [h, hk]
        obtain ⟨rb, kb⟩ := quick (wr := wr) hG hr n b heb s hs (by
          rw [ht]
          intro d x hd hs'
          cases hd
          exact hdis c hc hs')
        rcases rb with rb | ⟨mb, rb⟩ | ⟨mb, er, rb⟩
        · rw [rb]
          show _ ≤ _
          omega
        · rw [rb]
          exact .inr (.inr ⟨by omega, c, u, ht, hF mb c hc⟩)
        · rw [rb]
          show _ ≤ _
          omega
      cases ha : (countedOf wr G n a).run s with
      | success v m =>
        obtain ⟨h, hk⟩ := run_alt (b := b) ha
        rw [ha] at ca
        rw [h, hk]
        rcases ca with ⟨rfl, -⟩ | ⟨h, ca⟩ | ⟨ca, hot⟩
        · exact (hne (run_mayEmpty hB hea.blind hs ha)).elim
        · exact .inr (.inl ⟨h, by omega⟩)
        · exact .inr (.inr ⟨by omega, hot⟩)
      | panic => exact (run_noPanic n a hs ha).elim
      | diverge =>
        obtain ⟨h, hk⟩ := run_alt (b := b) ha
        rw [ha] at ca
        rw [h, hk]
        have ca : _ ≤ _ := ca
        show _ ≤ _
        omega
      | failure er cm =>
        have h := run_alt (b := b) ha
        rw [ha] at ca
        have ca : _ ≤ _ := ca
        cases cm with
        | committed =>
          rcases h with ⟨h, hk⟩ | h
          · rw [h, hk]
            show _ ≤ _
            omega
          · exact second ca h
        | uncommitted => exact second ca h
  | .star a, F, he, hw, s, hs =>
    repeat_cost (fun x => (hG.rules x).blind) he.1.blind he.2.1 he.2.2 hw.2 (quick hG hr n a he.1)
      (cost_of_rules hG hr n hrule a he.1 hw.1) 0 s hs
  | .plus a, F, he, hw, s, hs =>
    repeat_cost (fun x => (hG.rules x).blind) he.1.blind he.2.1 he.2.2 hw.2 (quick hG hr n a he.1)
      (cost_of_rules hG hr n hrule a he.1 hw.1) 1 s hs
  | .opt a, F, he, hw, s, hs => by
    have ca := cost_of_rules hG hr n hrule a he.1 hw s hs
    have hsteps := quick_of_rules.opt_steps wr G n a s
    have hw1 : (Exp.opt a).weight G (fun _ => 0) r = 1 + a.weight G (fun _ => 0) r + 0 := rfl
    have hw2 : (Exp.opt a).weight G (Exp.weight G (fun _ => 0) r) r' = 1 + a.weight G (Exp.weight G (fun _ => 0) r) r' +
      a.weight G (fun _ => 0) r := rfl
    rw [hw1, hw2]
    cases ha : (countedOf wr G n a).run s with
    | success v m =>
      rw [ha] at ca
      rw [run_opt_some ha]
      rcases ca with ⟨h, ca⟩ | ⟨h, ca⟩ | ⟨ca, hot⟩
      · exact .inl ⟨h, by omega⟩
      · exact .inr (.inl ⟨h, by omega⟩)
      · exact .inr (.inr ⟨by omega, hot⟩)
    | failure er cm =>
      rw [ha] at ca
      have ca : _ ≤ _ := ca
      rw [run_opt_none ⟨er, cm, ha⟩]
      by_cases hm : Misses G (s.input.drop s.offset) a
      · obtain ⟨-, ka⟩ := quick (wr := wr) hG hr n a he.1 s hs hm
        exact .inl ⟨rfl, by omega⟩
      · obtain ⟨c, u, ht, hc⟩ := not_misses hm
        exact .inr (.inr ⟨by omega, c, u, ht, he.2 c hc⟩)
    | panic => exact (run_noPanic n a hs ha).elim
    | diverge =>
      rw [ha] at ca
      have ca : _ ≤ _ := ca
      have hrun : (countedOf wr G n (.opt a)).run s = .diverge := by
        show discard (OniComb.opt (countedOf wr G n a).run) s = _
        simp [discard, OniComb.opt, or, map, attempt, Res.withUncommitted, ha]
      rw [hrun]
      show _ ≤ _
      omega
  | .not _, _, he, _, _, _ => he.elim
  | .look _, _, he, _, _, _ => he.elim
  | .rule x, _, he, _, s, hs => hrule x he s hs

theorem cost {r r' : N → Nat} {A : Nat} (hG : GrammarLL1 G follow) (hr : ∀ x, r x = 1 + (G x).weight G (fun _ => 0) r)
    (hr' : ∀ x, r' x = 1 + (G x).weight G (Exp.weight G (fun _ => 0) r) r')
    (hA : ∀ x, (G x).Within (Exp.weight G (Exp.weight G (fun _ => 0) r) r') A) : ∀ (n : Nat) (e : Exp I N) {F : I → Prop},
    e.LL1 G follow F → e.Within (Exp.weight G (Exp.weight G (fun _ => 0) r) r') A → ∀ s : State I, s.offset ≤ s.input.length →
      Cost A (e.weight G (fun _ => 0) r) (e.weight G (Exp.weight G (fun _ => 0) r) r') F (s.input.drop s.offset)
        ((countedOf wr G n e).run s) ((countedOf wr G n e).steps s)
  | 0 => cost_of_rules hG hr 0 fun x F _ s _ => by
      show 1 ≤ _ + r' x
      rw [hr']
      omega
  | n + 1 => cost_of_rules hG hr (n + 1) fun x F hF s hs => by
      have h := cost hG hr hr' hA n (G x) (hG.rules x) (hA x) s hs
      have hrun : (countedOf wr G (n + 1) (.rule x)).run s = (countedOf wr G n (G x)).run s := rfl
      have hsteps : (countedOf wr G (n + 1) (.rule x)).steps s = 1 + (countedOf wr G n (G x)).steps s := rfl
      rw [hrun, hsteps, hr x, hr' x]
      cases hres : (countedOf wr G n (G x)).run s with
      | success v m =>
        rw [hres] at h
        rcases h with ⟨h0, h⟩ | ⟨h0, h⟩ | ⟨h, c, u, ht, hc⟩
        · exact .inl ⟨h0, by omega⟩
        · exact .inr (.inl ⟨h0, by omega⟩)
        · exact .inr (.inr ⟨by omega, c, u, ht, fun h => hc (hF c h)⟩)
      | _ =>
        rw [hres] at h
        have h : _ ≤ _ := h
        show _ ≤ _
        omega

/-- C139: parsing with an LL(1) grammar of finitely many rules, in all three writings, takes at most a number
of steps proportional to the length of the text, whether the text is in the language or not. -/
theorem c139_linear (wr : Writing) (G : N → Exp I N) (follow : N → I → Prop) (hG : GrammarLL1 G follow) (names : List N)
    (all : ∀ x, x ∈ names) (e : Exp I N) (he : e.LL1 G follow fun _ => False) :
    ∃ C, ∀ (t : List I) (n : Nat), wholeSteps (countedOf wr G n e) t ≤ C * (t.length + 1) := by
  obtain ⟨r, hr⟩ := exists_weights hG.noLeftRecursion (fun _ => 0)
  obtain ⟨r', hr'⟩ := exists_weights hG.noLeftRecursion (Exp.weight G (fun _ => 0) r)
  obtain ⟨B, hB⟩ := exists_within_rules (G := G) (Exp.weight G (Exp.weight G (fun _ => 0) r) r') names
  obtain ⟨B', hB'⟩ := exists_within (Exp.weight G (Exp.weight G (fun _ => 0) r) r') e
  refine ⟨(B + B') + (e.weight G (Exp.weight G (fun _ => 0) r) r' + e.weight G (fun _ => 0) r) + 1, fun t n => ?_⟩
  have h := cost (wr := wr) (A := B + B') hG hr hr' (fun x => hB _ (by omega) x (all x)) n e he (hB' _ (by omega)) ⟨t, 0⟩
    (Nat.zero_le _)
  have hd : List.drop (State.mk t 0).offset (State.mk t 0).input = t := rfl
  rw [hd] at h
  have hw : wholeSteps (countedOf wr G n e) t ≤ (countedOf wr G n e).steps ⟨t, 0⟩ + 1 := by
    unfold wholeSteps Counted.skipRight Counted.prim
    apply Nat.add_le_add_left
    unfold Res.onSuccess
    split
    · exact Nat.le_refl _
    · exact Nat.zero_le _
  have hk : (countedOf wr G n e).steps ⟨t, 0⟩ ≤ (B + B') * t.length +
      (e.weight G (Exp.weight G (fun _ => 0) r) r' + e.weight G (fun _ => 0) r) := by
    cases hres : (countedOf wr G n e).run ⟨t, 0⟩ with
    | success v m =>
      rw [hres] at h
      have hm : 0 + m ≤ t.length := run_bounds (s := ⟨t, 0⟩) (Nat.zero_le _) hres
      have hlen := length_split (t := t) (m := m) (by omega) (B + B')
      rcases h with ⟨-, h⟩ | ⟨-, h⟩ | ⟨h, -⟩ <;> omega
    | _ =>
      rw [hres] at h
      have h : _ ≤ _ := h
      omega
  have hmul : ∀ a b l : Nat, a * l + b + 1 ≤ (a + b + 1) * (l + 1) := by
    intro a b l
    nlinarith [Nat.zero_le (b * l), Nat.zero_le a, Nat.zero_le l]
  exact hw.trans ((Nat.add_le_add_right hk 1).trans (hmul _ _ _))

/-! ## Without the condition -/

theorem seq_run_fails {n : Nat} {a b : Exp I N} {s : State I} {m : Nat} {er : PError I} {c : Committed} (hw : wr ≠ .flat)
    (ha : (countedOf wr G n a).run s = .success () m) (hb : (countedOf wr G n b).run (s.advanceBy m) = .failure er c) :
    (countedOf wr G n (.seq a b)).run s = .failure er c := by
  have plain : discard (andThen (countedOf wr G n a).run (countedOf wr G n b).run) s = .failure er c := by
    simp only [discard, andThen, ha, hb]
  cases wr with
  | flat => exact (hw rfl).elim
  | _ => exact plain

theorem steps_of_seq {n : Nat} {a b : Exp I N} {s : State I} {m : Nat} (ha : (countedOf wr G n a).run s = .success () m) :
    (countedOf wr G n (.seq a b)).steps s = (countedOf wr G n a).steps s + (countedOf wr G n b).steps (s.advanceBy m) := by
  have h : (countedOf wr G n (.seq a b)).steps s = (countedOf wr G n a).steps s +
    ((countedOf wr G n a).run s).onSuccess fun _ m => (countedOf wr G n b).steps (s.advanceBy m) := seq_steps _ a b s
  rw [h, ha]
  rfl

theorem elem_run_nil {n : Nat} {f : I → Bool} {s : State I} (hs : s.offset ≤ s.input.length) (h : s.input.drop s.offset = []) :
    ∃ er, (countedOf wr G n (.elem f)).run s = .failure er .uncommitted := by
  show ∃ er, discard (elmPred f) s = _
  simp [discard, elmPred, State.withInput, hs, h]

/-- `s = "(" s "x" | "(" s | `; the element `0` is the parenthesis and `1` the `x`. -/
def doubling : Unit → Exp Nat Unit := fun _ =>
  .alt (.seq (.elem (· == 0)) (.seq (.rule ()) (.elem (· == 1)))) (.alt (.seq (.elem (· == 0)) (.rule ())) .empty)

theorem doubling_steps (hw : wr ≠ .flat) : ∀ (m n : Nat) (s : State Nat), s.offset ≤ s.input.length →
    s.input.drop s.offset = List.replicate m 0 → m < n →
    (countedOf wr doubling n (.rule ())).run s = .success () m ∧ 2 ^ m ≤ (countedOf wr doubling n (.rule ())).steps s
  | m, 0, _, _, _, h => by omega
  | m, n + 1, s, hs, hd, hm => by
    have hrun : (countedOf wr doubling (n + 1) (.rule ())).run s = (countedOf wr doubling n (doubling ())).run s := rfl
    have hsteps : (countedOf wr doubling (n + 1) (.rule ())).steps s = 1 + (countedOf wr doubling n (doubling ())).steps s := rfl
    rw [hrun, hsteps, doubling]
    match m with
    | 0 =>
      obtain ⟨er, he⟩ := elem_run_nil (wr := wr) (G := doubling) (n := n) (f := (· == 0)) hs hd
      have h1 : ∀ b, (countedOf wr doubling n (.seq (.elem (· == 0)) b)).run s = .failure er .uncommitted := fun b => by
        rw [seq_run_other (by rw [he]; nofun), he]
      obtain ⟨h, -⟩ := run_alt (b := .alt (.seq (.elem (· == 0)) (.rule ())) .empty) (h1 (.seq (.rule ()) (.elem (· == 1))))
      obtain ⟨h', -⟩ := run_alt (b := .empty) (h1 (.rule ()))
      rw [h, h']
      exact ⟨rfl, Nat.le_add_right _ _⟩
    | m + 1 =>
      have hlen : m + 1 ≤ s.input.length - s.offset := by
        have := congrArg List.length hd
        simp only [List.length_drop, List.length_replicate] at this
        omega
      have he : (countedOf wr doubling n (.elem (· == 0))).run s = .success () 1 := by
        show discard (elmPred _) s = _
        simp [discard, elmPred, State.withInput, hs, hd, List.replicate_succ]
      have hs1 : (s.advanceBy 1).offset ≤ (s.advanceBy 1).input.length := by simp only [State.advanceBy]; omega
      have hd1 : (s.advanceBy 1).input.drop (s.advanceBy 1).offset = List.replicate m 0 := by
        simp only [State.advanceBy]
        rw [← List.drop_drop, hd]
        simp
      obtain ⟨ir, ik⟩ := doubling_steps hw m n (s.advanceBy 1) hs1 hd1 (by omega)
      obtain ⟨er, hx⟩ := elem_run_nil (wr := wr) (G := doubling) (n := n) (f := (· == 1)) (s := (s.advanceBy 1).advanceBy m)
        (by simp only [State.advanceBy]; omega) (by
          have : ((s.advanceBy 1).advanceBy m).input.drop ((s.advanceBy 1).advanceBy m).offset =
            ((s.advanceBy 1).input.drop (s.advanceBy 1).offset).drop m := by simp [State.advanceBy, List.drop_drop]
          rw [this, hd1]
          simp)
      have h1 := seq_run_fails hw he (seq_run_fails hw ir hx)
      obtain ⟨h2, -, -, -⟩ := seq_run_success (b := .rule ()) he
      have h2 := h2 m ir
      obtain ⟨h, hk⟩ := run_alt (b := .alt (.seq (.elem (· == 0)) (.rule ())) .empty) h1
      obtain ⟨h', hk'⟩ := run_alt (b := .empty) h2
      have k1 : (countedOf wr doubling n (.rule ())).steps (s.advanceBy 1) ≤
          (countedOf wr doubling n (.seq (.elem (· == 0)) (.seq (.rule ()) (.elem (· == 1))))).steps s := by
        have := steps_of_seq (wr := wr) (G := doubling) (n := n) (b := .seq (.rule ()) (.elem (· == 1))) he
        have := steps_of_seq (wr := wr) (G := doubling) (n := n) (b := .elem (· == 1)) ir
        omega
      have k2 : (countedOf wr doubling n (.rule ())).steps (s.advanceBy 1) ≤
          (countedOf wr doubling n (.seq (.elem (· == 0)) (.rule ()))).steps s := by
        have := steps_of_seq (wr := wr) (G := doubling) (n := n) (b := .rule ()) he
        omega
      rw [h, h']
      refine ⟨by rw [Nat.add_comm], ?_⟩
      rw [Nat.pow_succ]
      omega

/-- C139: the grammar must be LL(1). Where two alternatives begin alike, the text that both begin with is parsed twice, at
every depth: with `attempt`, and with `and_then` alone, `k` parentheses take at least `2 ^ k` steps, and the text is
accepted. -/
theorem c139_exponential (wr : Writing) (hw : wr ≠ .flat) (k n : Nat) (hn : k < n) :
    parse (skipRight (wr.parserOf doubling n (.rule ())) end_) (List.replicate k 0) = .ok () ∧
    2 ^ k ≤ wholeSteps (countedOf wr doubling n (.rule ())) (List.replicate k 0) := by
  obtain ⟨h, hk⟩ := doubling_steps hw k n ⟨List.replicate k 0, 0⟩ (Nat.zero_le _) rfl hn
  refine ⟨?_, hk.trans (Nat.le_add_right _ _)⟩
  rw [c139_counts] at h
  exact (c34_whole_input _ _ _).2 (by simpa using h)

/-! ## Cases -/

/-- Sums, products and parentheses, in all writings. -/
example (wr : Writing) : ∃ C, ∀ (t : List Char) (n : Nat),
    wholeSteps (countedOf wr arith n (.rule .sum)) t ≤ C * (t.length + 1) :=
  c139_linear wr arith arithFollow arith_LL1 [.sum, .term] (by intro x; cases x <;> simp) (.rule .sum) (fun _ h => h.elim)

/-- Nested parentheses: six steps for every pair here, and twice as many steps for every parenthesis there. -/
example : wholeSteps (countedOf .plain arith 9 (.rule .sum)) "((1))".toList = 18 ∧
    wholeSteps (countedOf .plain arith 9 (.rule .sum)) "(((1)))".toList = 24 ∧
    wholeSteps (countedOf .plain doubling 9 (.rule ())) [0, 0, 0, 0] = 125 ∧
    wholeSteps (countedOf .plain doubling 9 (.rule ())) [0, 0, 0, 0, 0] = 253 := by decide

end OniComb.Peg
