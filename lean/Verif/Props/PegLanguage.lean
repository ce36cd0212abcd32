import Verif.Spec.PegLanguage
import Verif.Props.PegPredictive

/-!
# LL(1) grammars are recognised without `attempt` (C135)
-/

namespace OniComb.Peg
open OniComb
variable {I N : Type} {G : N → Exp I N} {follow : N → I → Prop} {F : I → Prop} [DecidableEq I] {flat : Bool}

/-! ## What is read is in the language -/

omit [DecidableEq I] in
theorem mayEmpty_of_lang {e : Exp I N} {w : List I} (h : Lang G e w) (hw : w = []) : MayEmpty G e := by
  induction h with
  | empty => exact .empty
  | elem h => simp at hw
  | text w => subst hw; exact .text
  | seq _ _ iha ihb =>
    obtain ⟨h1, h2⟩ := List.append_eq_nil_iff.1 hw
    exact .seq (iha h1) (ihb h2)
  | altLeft b _ ih => exact .altLeft b (ih hw)
  | altRight a _ ih => exact .altRight a (ih hw)
  | starNone a => exact .star a
  | starMore _ _ _ _ => exact .star _
  | plus _ _ iha _ => exact .plus (iha (List.append_eq_nil_iff.1 hw).1)
  | optNone a => exact .opt a
  | optSome _ _ => exact .opt _
  | rule _ ih => exact .rule (ih hw)

omit [DecidableEq I] in
theorem starts_of_lang {e : Exp I N} {w : List I} (h : Lang G e w) {c : I} {u : List I} (hw : w = c :: u) : Starts G c e := by
  have part : ∀ {v w u : List I}, v ++ w = c :: u → (v = [] ∧ w = c :: u) ∨ ∃ v', v = c :: v' := by
    intro v w u h
    cases v with
    | nil => exact .inl ⟨rfl, h⟩
    | cons d v => simp only [List.cons_append, List.cons.injEq] at h; exact .inr ⟨v, by rw [h.1]⟩
  induction h generalizing u with
  | empty => simp at hw
  | elem h => simp only [List.cons.injEq] at hw; obtain ⟨rfl, -⟩ := hw; exact .elem h
  | text w => subst hw; exact .text u
  | seq ha _ iha ihb =>
    rcases part hw with ⟨h1, h2⟩ | ⟨v', h1⟩
    · exact .seqRight (mayEmpty_of_lang ha h1) (ihb h2)
    · exact .seqLeft _ (iha h1)
  | altLeft b _ ih => exact .altLeft b (ih hw)
  | altRight a _ ih => exact .altRight a (ih hw)
  | starNone a => simp at hw
  | starMore _ _ iha ihs =>
    rcases part hw with ⟨h1, h2⟩ | ⟨v', h1⟩
    · exact ihs h2
    · exact .star (iha h1)
  | plus _ _ iha ihs =>
    rcases part hw with ⟨h1, h2⟩ | ⟨v', h1⟩
    · cases ihs h2 with
      | star h => exact .plus h
    · exact .plus (iha h1)
  | optNone a => simp at hw
  | optSome _ ih => exact .opt (ih hw)
  | rule _ ih => exact .rule (ih hw)

omit [DecidableEq I] in
theorem lang_plus {a : Exp I N} {w : List I} (h : Lang G (.seq a (.star a)) w) : Lang G (.plus a) w := by
  cases h with
  | seq h1 h2 => exact .plus h1 h2

omit [DecidableEq I] in
theorem lang_opt {a : Exp I N} {w : List I} (h : Lang G (.alt a .empty) w) : Lang G (.opt a) w := by
  cases h with
  | altLeft _ h => exact .optSome h
  | altRight _ h => cases h; exact .optNone _

omit [DecidableEq I] in
/-- What a parsing expression reads is in the language. -/
theorem lang_of_reads (hG : ∀ x, (G x).Blind) {e : Exp I N} {t : List I} {r : Option Nat} (h : Reads G e t r) (he : e.Blind)
    {n : Nat} (hr : r = some n) : Lang G e (t.take n) := by
  have take : ∀ {t : List I} {n m : Nat}, t.take (n + m) = t.take n ++ (t.drop n).take m := fun {t n m} => List.take_add
  induction h generalizing n with
  | empty t => cases hr; exact .empty
  | elem h => cases hr; simpa using Lang.elem h
  | text h => cases hr; rw [← List.prefix_iff_eq_take.1 h]; exact .text _
  | seq _ _ iha ihb => cases hr; rw [take]; exact .seq (iha he.1 rfl) (ihb he.2 rfl)
  | altLeft _ ih => exact .altLeft _ (ih he.1 hr)
  | altRight _ _ _ ih => exact .altRight _ (ih he.2 hr)
  | starEnd _ _ => cases hr; exact .starNone _
  | starMore _ _ iha ihs => cases hr; rw [take]; exact .starMore (iha he rfl) (ihs he rfl)
  | plus _ ih => exact lang_plus (ih ⟨he, he⟩ hr)
  | opt _ ih => exact lang_opt (ih ⟨he, trivial⟩ hr)
  | notMissing _ _ => exact he.elim
  | lookFound _ _ => exact he.elim
  | rule _ ih => exact .rule (ih (hG _) hr)
  | _ => cases hr

theorem bareOf_bounds {n : Nat} {e : Exp I N} {s : State I} (hs : s.offset ≤ s.input.length) {m : Nat}
    (h : bareOf flat G n e s = .success () m) : s.offset + m ≤ s.input.length :=
  c04_in_bounds (fun _ _ h => h.elim) (bare_built (bareRules_built flat G n) e) s _ m hs h

theorem bareOf_noPanic (n : Nat) (e : Exp I N) {s : State I} (hs : s.offset ≤ s.input.length) :
    bareOf flat G n e s ≠ .panic :=
  c05_no_panic (fun _ _ h => h.elim) (bare_built (bareRules_built flat G n) e) s hs

omit [DecidableEq I] in
theorem lang_of_run {a : Exp I N} {p : Parser I Unit}
    (ih : ∀ (s : State I) (m : Nat), s.offset ≤ s.input.length → p s = .success () m → Lang G a ((s.input.drop s.offset).take m))
    (hp : InBounds p) {s : State I} {vs : List Unit} {n : Nat} (hr : Run p s vs n) (hs : s.offset ≤ s.input.length) :
    Lang G (.star a) ((s.input.drop s.offset).take n) := by
  induction hr with
  | nil s => exact .starNone a
  | @cons s n m v vs h1 _ ihr =>
    have hb := hp s v n hs h1
    rw [List.take_add, List.drop_drop]
    exact .starMore (ih s n hs h1) (ihr hb)

/-- What the parser without `attempt` reads is in the language. -/
theorem lang_of_bare (hG : ∀ x, (G x).Blind) : ∀ (n : Nat) (e : Exp I N), e.Blind → ∀ (s : State I) (m : Nat),
    s.offset ≤ s.input.length → bareOf flat G n e s = .success () m → Lang G e ((s.input.drop s.offset).take m) := by
  intro n
  induction n with
  | zero => exact of_rules 0 fun x s m _ h => nomatch h
  | succ n ih => exact of_rules (n + 1) fun x s m hs h => .rule (ih (G x) (hG x) s m hs h)
where
  of_rules (n : Nat) (hr : ∀ (x : N) (s : State I) (m : Nat), s.offset ≤ s.input.length →
      bareRules flat G n x s = .success () m → Lang G (.rule x) ((s.input.drop s.offset).take m)) : ∀ e : Exp I N, e.Blind →
      ∀ (s : State I) (m : Nat), s.offset ≤ s.input.length → bareOf flat G n e s = .success () m →
        Lang G e ((s.input.drop s.offset).take m) := by
    intro e
    induction e with
    | empty => intro _ s m _ h; cases h; exact .empty
    | elem f =>
      intro _ s m hs h
      simp only [bareOf, Exp.bare, discard, elmPred, State.withInput, hs, if_true] at h
      cases hd : s.input.drop s.offset with
      | nil => simp [hd] at h
      | cons c t =>
        cases hc : f c with
        | false => simp [hd, hc] at h
        | true =>
          simp only [hd, hc, if_true, Res.success.injEq, true_and] at h
          subst h
          simpa using Lang.elem hc
    | text w =>
      intro _ s m hs h
      simp only [bareOf, Exp.bare, discard] at h
      cases h1 : OniComb.seq w s with
      | success v k =>
        obtain ⟨-, rfl, hp⟩ := (c24_seq_success_iff w s hs _ _).1 h1
        simp only [h1, Res.success.injEq, true_and] at h
        subst h
        rw [← List.prefix_iff_eq_take.1 hp]
        exact .text w
      | _ => simp [h1] at h
    | seq a b iha ihb =>
      intro he s m hs h
      cases h1 : a.bare flat (bareRules flat G n) s with
      | success v k =>
        have hb := bareOf_bounds (G := G) (n := n) (e := a) (flat := flat) hs h1
        cases h2 : b.bare flat (bareRules flat G n) ⟨s.input, s.offset + k⟩ with
        | success v l =>
          have := bare_seq_success h1 h2
          simp only [bareOf] at h
          rw [this] at h
          simp only [Res.success.injEq, true_and] at h
          subst h
          rw [List.take_add, List.drop_drop]
          exact .seq (iha he.1 s k hs h1) (ihb he.2 _ l hb h2)
        | failure er c =>
          simp only [bareOf] at h
          rw [bare_seq_right h1 h2] at h
          cases h
        | _ =>
          simp only [bareOf, Exp.bare] at h
          cases flat <;> simp [discard, andThen, flatMap, h1, State.advanceBy, h2, Res.addCommit, Res.advanceSuccess] at h
      | failure er c =>
        simp only [bareOf] at h
        rw [bare_seq_left h1] at h
        cases h
      | _ =>
        simp only [bareOf, Exp.bare] at h
        cases flat <;> simp [discard, andThen, flatMap, h1] at h
    | alt a b iha ihb =>
      intro he s m hs h
      simp only [bareOf, Exp.bare, or] at h
      cases h1 : a.bare flat (bareRules flat G n) s with
      | success v k => rw [h1] at h; cases h; exact .altLeft b (iha he.1 s m hs h1)
      | failure er c =>
        cases c with
        | committed => simp [h1] at h
        | uncommitted => simp only [h1] at h; exact .altRight a (ihb he.2 s m hs h)
      | _ => simp [h1] at h
    | star a iha =>
      intro he s m hs h
      simp only [bareOf, Exp.bare, discard] at h
      cases h1 : many0 (a.bare flat (bareRules flat G n)) s with
      | success vs k =>
        simp only [h1, Res.success.injEq, true_and] at h
        subst h
        exact lang_of_run (iha he) (fun s v k hs h => bareOf_bounds (G := G) (n := n) (e := a) (flat := flat) hs h)
          (c12_many0_sound _ _ _ _ h1).1 hs
      | _ => simp [h1] at h
    | plus a iha =>
      intro he s m hs h
      simp only [bareOf, Exp.bare, discard] at h
      cases h1 : many1 (a.bare flat (bareRules flat G n)) s with
      | success vs k =>
        simp only [h1, Res.success.injEq, true_and] at h
        subst h
        obtain ⟨v, l, ws, k, h2, h3, -, rfl⟩ := (c13_many1_eq _ (bareOf_tame n a) _ _ _).1 h1
        have hb := bareOf_bounds (G := G) (n := n) (e := a) (flat := flat) hs h2
        rw [List.take_add, List.drop_drop]
        exact .plus (iha he s l hs h2) (lang_of_run (s := ⟨s.input, s.offset + l⟩) (iha he)
          (fun s v k hs h => bareOf_bounds (G := G) (n := n) (e := a) (flat := flat) hs h) (c12_many0_sound _ _ _ _ h3).1 hb)
      | _ => simp [h1] at h
    | opt a iha =>
      intro he s m hs h
      simp only [bareOf, Exp.bare, discard] at h
      cases h1 : OniComb.opt (a.bare flat (bareRules flat G n)) s with
      | success v k =>
        simp only [h1, Res.success.injEq, true_and] at h
        subst h
        cases v with
        | some v => exact .optSome (iha he s k hs ((c10_opt_some_iff _ _ _ _).1 h1))
        | none =>
          obtain ⟨rfl, -⟩ := (c10_opt_none_iff _ _ _).1 h1
          exact .optNone a
      | _ => simp [h1] at h
    | not a _ => exact fun he => he.elim
    | look a _ => exact fun he => he.elim
    | rule x => exact fun _ => hr x

/-! ## What is in the language is read -/

omit [DecidableEq I] in
theorem Exp.LL1.blind {e : Exp I N} (h : e.LL1 G follow F) : e.Blind := by
  induction e generalizing F with
  | empty => trivial
  | elem f => trivial
  | text w => trivial
  | seq a b iha ihb => exact ⟨iha h.1, ihb h.2⟩
  | alt a b iha ihb => exact ⟨iha h.1, ihb h.2.1⟩
  | star a ih => exact ih (F := fun c => Starts G c a ∨ F c) h.1
  | plus a ih => exact ih (F := fun c => Starts G c a ∨ F c) h.1
  | opt a ih => exact ih (F := F) h.1
  | not a _ => exact h
  | look a _ => exact h
  | rule x => trivial

omit [DecidableEq I] in
theorem Exp.LL1.noIdleLoop {e : Exp I N} (h : e.LL1 G follow F) : e.NoIdleLoop G := by
  induction e generalizing F with
  | empty => trivial
  | elem f => trivial
  | text w => trivial
  | seq a b iha ihb => exact ⟨iha h.1, ihb h.2⟩
  | alt a b iha ihb => exact ⟨iha h.1, ihb h.2.1⟩
  | star a ih => exact ⟨ih h.1, h.2.1⟩
  | plus a ih => exact ⟨ih h.1, h.2.1⟩
  | opt a ih => exact ih (F := F) h.1
  | not a _ => exact h.elim
  | look a _ => exact h.elim
  | rule x => trivial

/-- What the expression reads cannot start with the first element of the text. -/
def Misses (G : N → Exp I N) (t : List I) (e : Exp I N) : Prop := ∀ c u, t = c :: u → ¬Starts G c e

/-- Nothing is read, and a failure is not committed. -/
def Passes (flat : Bool) (G : N → Exp I N) (e : Exp I N) (s : State I) : Prop :=
  ∃ k, ∀ n, k ≤ n → (MayEmpty G e → bareOf flat G n e s = .success () 0) ∧
    (¬MayEmpty G e → ∃ er, bareOf flat G n e s = .failure er .uncommitted)

theorem bare_star_none {n : Nat} {a : Exp I N} {s : State I} (h : Fails (bareOf flat G n a) s) :
    bareOf flat G n (.star a) s = .success () 0 := by
  have : many0 (a.bare flat (bareRules flat G n)) s = .success [] 0 :=
    c12_many0_complete _ (bareOf_tame n a) s [] 0 (.nil s) (by simpa using! h)
  simp [bareOf, Exp.bare, discard, this]

theorem bare_star_more {j : Nat} {a : Exp I N} {s : State I} {n m : Nat} (ha : bareOf flat G j a s = .success () n)
    (hs : bareOf flat G j (.star a) ⟨s.input, s.offset + n⟩ = .success () m) :
    bareOf flat G j (.star a) s = .success () (n + m) := by
  simp only [bareOf, Exp.bare, discard] at hs
  cases h3 : many0 (a.bare flat (bareRules flat G j)) ⟨s.input, s.offset + n⟩ with
  | success vs m' =>
    simp only [h3, Res.success.injEq, true_and] at hs
    subst hs
    obtain ⟨hrun, hf⟩ := c12_many0_sound _ _ _ _ h3
    have : many0 (a.bare flat (bareRules flat G j)) s = .success (() :: vs) (n + m') :=
      c12_many0_complete _ (bareOf_tame j a) s _ _ (.cons ha hrun) (by rw [← Nat.add_assoc]; exact hf)
    simp [bareOf, Exp.bare, discard, this]
  | _ => simp [h3] at hs

theorem bare_plus {j : Nat} {a : Exp I N} {s : State I} {n m : Nat} (ha : bareOf flat G j a s = .success () n)
    (hs : bareOf flat G j (.star a) ⟨s.input, s.offset + n⟩ = .success () m) :
    bareOf flat G j (.plus a) s = .success () (n + m) := by
  simp only [bareOf, Exp.bare, discard] at hs
  cases h3 : many0 (a.bare flat (bareRules flat G j)) ⟨s.input, s.offset + n⟩ with
  | success vs m' =>
    simp only [h3, Res.success.injEq, true_and] at hs
    subst hs
    have : many1 (a.bare flat (bareRules flat G j)) s = .success (() :: vs) (n + m') :=
      (c13_many1_eq _ (bareOf_tame j a) _ _ _).2 ⟨(), n, vs, m', ha, h3, rfl, rfl⟩
    simp [bareOf, Exp.bare, discard, this]
  | _ => simp [h3] at hs

theorem bare_plus_fails {j : Nat} {a : Exp I N} {s : State I} (hs : s.offset ≤ s.input.length)
    (ha : Fails (bareOf flat G j a) s) :
    bareOf flat G j (.plus a) s = .failure (.mismatch (s.input.drop s.offset) s.lastOffset 0) .uncommitted := by
  have : many1 (a.bare flat (bareRules flat G j)) s =
      .failure (.mismatch (s.input.drop s.offset) s.lastOffset 0) .uncommitted :=
    (c13_many1_fails_iff _ s hs _ _).2 ⟨ha, rfl, rfl⟩
  simp [bareOf, Exp.bare, discard, this]

theorem bare_opt_some {j : Nat} {a : Exp I N} {s : State I} {n : Nat} (ha : bareOf flat G j a s = .success () n) :
    bareOf flat G j (.opt a) s = .success () n := by
  have := (c10_opt_some_iff (a.bare flat (bareRules flat G j)) s () n).2 ha
  simp [bareOf, Exp.bare, discard, this]

theorem bare_opt_none {j : Nat} {a : Exp I N} {s : State I} (ha : Fails (bareOf flat G j a) s) :
    bareOf flat G j (.opt a) s = .success () 0 := by
  have := (c10_opt_none_iff (a.bare flat (bareRules flat G j)) s 0).2 ⟨rfl, ha⟩
  simp [bareOf, Exp.bare, discard, this]

theorem bare_alt_left {j : Nat} {a b : Exp I N} {s : State I} {n : Nat} (ha : bareOf flat G j a s = .success () n) :
    bareOf flat G j (.alt a b) s = .success () n := by
  simp only [bareOf] at ha
  simp [bareOf, Exp.bare, or, ha]

theorem bare_alt_right {j : Nat} {a b : Exp I N} {s : State I} {er : PError I}
    (ha : bareOf flat G j a s = .failure er .uncommitted) : bareOf flat G j (.alt a b) s = bareOf flat G j b s := by
  simp only [bareOf] at ha
  simp [bareOf, Exp.bare, or, ha]

theorem passes_of_rules {s : State I} (hs : s.offset ≤ s.input.length) : ∀ (e : Exp I N) {F : I → Prop},
    e.LL1 G follow F → Misses G (s.input.drop s.offset) e →
    (∀ x, e.CallsFirst G x → Misses G (s.input.drop s.offset) (.rule x) → Passes flat G (.rule x) s) → Passes flat G e s
  | .empty, _, _, _, _ => ⟨0, fun n _ => ⟨fun _ => rfl, fun h => (h .empty).elim⟩⟩
  | .elem f, _, _, hm, _ => by
    refine ⟨0, fun n _ => ⟨nofun, fun _ => ?_⟩⟩
    simp only [bareOf, Exp.bare, discard, elmPred, State.withInput, hs, if_true]
    cases hd : s.input.drop s.offset with
    | nil => exact ⟨_, rfl⟩
    | cons c u =>
      have hc : f c = false := by
        cases hc : f c with
        | false => rfl
        | true => exact (hm c u hd (.elem hc)).elim
      exact ⟨_, by simp only [hc]; rfl⟩
  | .text [], _, _, _, _ => by
    refine ⟨0, fun n _ => ⟨fun _ => ?_, fun h => (h .text).elim⟩⟩
    have := (c24_seq_success_iff ([] : List I) s hs [] 0).2 ⟨rfl, rfl, List.nil_prefix⟩
    simp [bareOf, Exp.bare, discard, this]
  | .text (c :: w), _, _, hm, _ => by
    refine ⟨0, fun n _ => ⟨nofun, fun _ => ?_⟩⟩
    have hne : ∀ u, s.input.drop s.offset ≠ c :: u := fun u h => hm c u h (.text w)
    have hp := bareOf_noPanic (G := G) (flat := flat) n (.text (c :: w)) hs
    simp only [bareOf, Exp.bare, discard] at hp ⊢
    cases h1 : OniComb.seq (c :: w) s with
    | success v m =>
      obtain ⟨-, -, u, hu⟩ := (c24_seq_success_iff _ s hs _ _).1 h1
      exact (hne _ hu.symm).elim
    | failure er q =>
      cases q with
      | uncommitted => exact ⟨er, rfl⟩
      | committed =>
        obtain ⟨k, hk, -, ht⟩ := (c24_seq_committed_iff _ s hs).1 ⟨er, h1⟩
        obtain ⟨k, rfl⟩ : ∃ j, k = j + 1 := ⟨k - 1, by omega⟩
        cases hd : s.input.drop s.offset with
        | nil => simp [hd] at ht
        | cons d u =>
          simp only [hd, List.take_succ_cons, List.cons.injEq] at ht
          exact (hne u (by rw [hd, ht.1])).elim
    | panic => rw [h1] at hp; exact (hp rfl).elim
    | diverge => exact absurd h1 (seq_ne_diverge _ s)
  | .seq a b, F, hl, hm, hx => by
    obtain ⟨k, ha⟩ := passes_of_rules hs a hl.1 (fun c u h h' => hm c u h (.seqLeft b h')) fun x h => hx x (.inl h)
    by_cases hea : MayEmpty G a
    · obtain ⟨l, hb⟩ := passes_of_rules hs b hl.2 (fun c u h h' => hm c u h (.seqRight hea h')) fun x h => hx x (.inr ⟨hea, h⟩)
      refine ⟨max k l, fun n hn => ?_⟩
      have h1 := (ha n (by omega)).1 hea
      obtain ⟨h2, h3⟩ := hb n (by omega)
      constructor
      · intro h
        cases h with
        | seq _ heb => exact bare_seq_success (k := 0) h1 (h2 heb)
      · intro h
        obtain ⟨er, h4⟩ := h3 fun heb => h (.seq hea heb)
        refine ⟨er, ?_⟩
        have := bare_seq_right (flat := flat) (rs := bareRules flat G n) (a := a) (b := b) h1 h4
        simp only [bareOf, this]
        cases flat <;> rfl
    · refine ⟨k, fun n hn => ⟨fun h => ?_, fun _ => ?_⟩⟩
      · cases h with
        | seq h _ => exact (hea h).elim
      · obtain ⟨er, h1⟩ := (ha n hn).2 hea
        exact ⟨er, bare_seq_left h1⟩
  | .alt a b, F, hl, hm, hx => by
    obtain ⟨h1, h2, hea, -⟩ := hl
    obtain ⟨k, ha⟩ := passes_of_rules hs a h1 (fun c u h h' => hm c u h (.altLeft b h')) fun x h => hx x (.inl h)
    obtain ⟨l, hb⟩ := passes_of_rules hs b h2 (fun c u h h' => hm c u h (.altRight a h')) fun x h => hx x (.inr h)
    refine ⟨max k l, fun n hn => ?_⟩
    obtain ⟨er, ha⟩ := (ha n (by omega)).2 hea
    obtain ⟨h3, h4⟩ := hb n (by omega)
    rw [bare_alt_right ha]
    refine ⟨fun h => h3 ?_, fun h => h4 fun h' => h (.altRight a h')⟩
    cases h with
    | altLeft _ h => exact (hea h).elim
    | altRight _ h => exact h
  | .star a, F, hl, hm, hx => by
    obtain ⟨k, ha⟩ := passes_of_rules hs a hl.1 (fun c u h h' => hm c u h (.star h')) hx
    refine ⟨k, fun n hn => ⟨fun _ => ?_, fun h => (h (.star a)).elim⟩⟩
    obtain ⟨er, ha⟩ := (ha n hn).2 hl.2.1
    exact bare_star_none ⟨er, _, ha⟩
  | .plus a, F, hl, hm, hx => by
    obtain ⟨k, ha⟩ := passes_of_rules hs a hl.1 (fun c u h h' => hm c u h (.plus h')) hx
    refine ⟨k, fun n hn => ⟨fun h => ?_, fun _ => ?_⟩⟩
    · cases h with
      | plus h => exact (hl.2.1 h).elim
    · obtain ⟨er, ha⟩ := (ha n hn).2 hl.2.1
      exact ⟨_, bare_plus_fails hs ⟨er, _, ha⟩⟩
  | .opt a, F, hl, hm, hx => by
    obtain ⟨k, ha⟩ := passes_of_rules hs a hl.1 (fun c u h h' => hm c u h (.opt h')) hx
    refine ⟨k, fun n hn => ⟨fun _ => ?_, fun h => (h (.opt a)).elim⟩⟩
    by_cases hea : MayEmpty G a
    · exact bare_opt_some ((ha n hn).1 hea)
    · obtain ⟨er, ha⟩ := (ha n hn).2 hea
      exact bare_opt_none ⟨er, _, ha⟩
  | .not a, _, hl, _, _ => hl.elim
  | .look a, _, hl, _, _ => hl.elim
  | .rule x, _, _, hm, hx => hx x rfl hm

/-- Where the text starts with a foreign element nothing is read: the expression is empty or fails without
commitment. -/
theorem passes (hG : GrammarLL1 G follow) {s : State I} (hs : s.offset ≤ s.input.length) {e : Exp I N} (he : e.LL1 G follow F)
    (hm : Misses G (s.input.drop s.offset) e) : Passes flat G e s := by
  have rule : ∀ x, Misses G (s.input.drop s.offset) (.rule x) → Passes flat G (.rule x) s := by
    intro x
    induction hG.noLeftRecursion.apply x with
    | intro x _ ih =>
      intro hm
      obtain ⟨k, h⟩ := passes_of_rules (flat := flat) hs (G x) (hG.rules x) (fun c u h h' => hm c u h (.rule h')) ih
      refine ⟨k + 1, fun n hn => ?_⟩
      obtain ⟨n, rfl⟩ : ∃ m, n = m + 1 := ⟨n - 1, by omega⟩
      obtain ⟨h1, h2⟩ := h n (by omega)
      refine ⟨fun h => h1 ?_, fun h => h2 fun h' => h (.rule h')⟩
      cases h with
      | rule h => exact h
  exact passes_of_rules hs e he hm fun x _ => rule x

/-- What is in the language is read, without `attempt`, if an element follows that may follow. -/
theorem bare_of_lang (hG : GrammarLL1 G follow) {e : Exp I N} {w : List I} (h : Lang G e w) : ∀ {F : I → Prop},
    e.LL1 G follow F → ∀ (s : State I) (r : List I), s.offset ≤ s.input.length → s.input.drop s.offset = w ++ r →
    (∀ c u, r = c :: u → F c) → ∃ k, ∀ n, k ≤ n → bareOf flat G n e s = .success () w.length := by
  have next : ∀ {s : State I} {v w : List I}, s.offset ≤ s.input.length → s.input.drop s.offset = v ++ w →
      s.offset + v.length ≤ s.input.length ∧ s.input.drop (s.offset + v.length) = w := by
    intro s v w hs h
    refine ⟨?_, ?_⟩
    · have := congrArg List.length h
      simp only [List.length_drop, List.length_append] at this
      omega
    · rw [← List.drop_drop, h, List.drop_left]
  have head : ∀ {e : Exp I N} {w r : List I} {P : I → Prop}, Lang G e w →
      (∀ c, Starts G c e → P c) → (MayEmpty G e → ∀ c u, r = c :: u → P c) → ∀ c u, w ++ r = c :: u → P c := by
    intro e w r P h h1 h2 c u hw
    cases w with
    | nil => exact h2 (mayEmpty_of_lang h rfl) c u hw
    | cons d w =>
      simp only [List.cons_append, List.cons.injEq] at hw
      obtain ⟨rfl, -⟩ := hw
      exact h1 d (starts_of_lang h rfl)
  induction h with
  | empty => exact fun _ _ _ _ _ _ => ⟨0, fun n _ => rfl⟩
  | elem h =>
    intro F _ s r hs hd _
    refine ⟨0, fun n _ => ?_⟩
    simp [bareOf, Exp.bare, discard, elmPred, State.withInput, hs, hd, h]
  | text w =>
    intro F _ s r hs hd _
    refine ⟨0, fun n _ => ?_⟩
    simp [bareOf, Exp.bare, discard, (c24_seq_success_iff w s hs _ _).2 ⟨rfl, rfl, hd ▸ List.prefix_append w r⟩]
  | @seq a b v w ha hb iha ihb =>
    intro F hl s r hs hd hr
    rw [List.append_assoc] at hd
    obtain ⟨h1, h2⟩ := next hs hd
    obtain ⟨k, ha⟩ := iha hl.1 s _ hs hd (head hb (fun c h => .inl h) fun h c u hc => .inr ⟨h, hr c u hc⟩)
    obtain ⟨l, hb⟩ := ihb hl.2 ⟨s.input, s.offset + v.length⟩ r h1 h2 hr
    refine ⟨max k l, fun n hn => ?_⟩
    rw [List.length_append]
    exact bare_seq_success (ha n (by omega)) (hb n (by omega))
  | altLeft b _ ih =>
    intro F hl s r hs hd hr
    obtain ⟨k, ha⟩ := ih hl.1 s r hs hd hr
    exact ⟨k, fun n hn => bare_alt_left (ha n hn)⟩
  | @altRight a b w hb ih =>
    intro F hl s r hs hd hr
    obtain ⟨h1, h2, hea, hd1, hd2⟩ := hl
    have hm : Misses G (s.input.drop s.offset) a := by
      intro c u hc hst
      rw [hd] at hc
      exact head (P := fun c => ¬Starts G c a) hb (fun c h h' => hd1 c h' h)
        (fun h c u hc h' => hd2 h c h' (hr c u hc)) c u hc hst
    obtain ⟨k, ha⟩ := passes (flat := flat) hG hs h1 hm
    obtain ⟨l, hb⟩ := ih h2 s r hs hd hr
    refine ⟨max k l, fun n hn => ?_⟩
    obtain ⟨er, ha⟩ := (ha n (by omega)).2 hea
    rw [bare_alt_right ha]
    exact hb n (by omega)
  | starNone a =>
    intro F hl s r hs hd hr
    obtain ⟨k, ha⟩ := passes (flat := flat) hG hs hl.1 (fun c u hc hst => hl.2.2 c hst (hr c u (by rw [← hc, hd]; rfl)))
    refine ⟨k, fun n hn => ?_⟩
    obtain ⟨er, ha⟩ := (ha n hn).2 hl.2.1
    exact bare_star_none ⟨er, _, ha⟩
  | @starMore a v w ha hsl iha ihs =>
    intro F hl s r hs hd hr
    rw [List.append_assoc] at hd
    obtain ⟨h1, h2⟩ := next hs hd
    obtain ⟨k, ha⟩ := iha hl.1 s _ hs hd
      (head hsl (fun c h => by cases h with | star h => exact .inl h) fun _ c u hc => .inr (hr c u hc))
    obtain ⟨l, hb⟩ := ihs hl ⟨s.input, s.offset + v.length⟩ r h1 h2 hr
    refine ⟨max k l, fun n hn => ?_⟩
    rw [List.length_append]
    exact bare_star_more (ha n (by omega)) (hb n (by omega))
  | @plus a v w ha hsl iha ihs =>
    intro F hl s r hs hd hr
    rw [List.append_assoc] at hd
    obtain ⟨h1, h2⟩ := next hs hd
    obtain ⟨k, ha⟩ := iha hl.1 s _ hs hd
      (head hsl (fun c h => by cases h with | star h => exact .inl h) fun _ c u hc => .inr (hr c u hc))
    obtain ⟨l, hb⟩ := ihs (F := F) hl ⟨s.input, s.offset + v.length⟩ r h1 h2 hr
    refine ⟨max k l, fun n hn => ?_⟩
    rw [List.length_append]
    exact bare_plus (ha n (by omega)) (hb n (by omega))
  | optNone a =>
    intro F hl s r hs hd hr
    obtain ⟨k, ha⟩ := passes (flat := flat) hG hs hl.1 (fun c u hc hst => hl.2 c hst (hr c u (by rw [← hc, hd]; rfl)))
    refine ⟨k, fun n hn => ?_⟩
    by_cases hea : MayEmpty G a
    · exact bare_opt_some ((ha n hn).1 hea)
    · obtain ⟨er, ha⟩ := (ha n hn).2 hea
      exact bare_opt_none ⟨er, _, ha⟩
  | optSome _ ih =>
    intro F hl s r hs hd hr
    obtain ⟨k, ha⟩ := ih hl.1 s r hs hd hr
    exact ⟨k, fun n hn => bare_opt_some (ha n hn)⟩
  | @rule x w _ ih =>
    intro F hl s r hs hd hr
    obtain ⟨k, h⟩ := ih (hG.rules x) s r hs hd fun c u hc => hl c (hr c u hc)
    refine ⟨k + 1, fun n hn => ?_⟩
    obtain ⟨n, rfl⟩ : ∃ m, n = m + 1 := ⟨n - 1, by omega⟩
    exact h n (by omega)

/-! ## The same with `attempt` -/

/-- Nothing is read. -/
def Skips (G : N → Exp I N) (e : Exp I N) (t : List I) : Prop :=
  (MayEmpty G e → Reads G e t (some 0)) ∧ (¬MayEmpty G e → Reads G e t none)

omit [DecidableEq I] in
theorem skips_of_rules {t : List I} : ∀ (e : Exp I N) {F : I → Prop}, e.LL1 G follow F → Misses G t e →
    (∀ x, e.CallsFirst G x → Misses G t (.rule x) → Skips G (.rule x) t) → Skips G e t
  | .empty, _, _, _, _ => ⟨fun _ => .empty t, fun h => (h .empty).elim⟩
  | .elem f, _, _, hm, _ => by
    refine ⟨nofun, fun _ => ?_⟩
    cases t with
    | nil => exact .elemEnd f
    | cons c u =>
      cases hc : f c with
      | false => exact .elemOther hc
      | true => exact (hm c u rfl (.elem hc)).elim
  | .text [], _, _, _, _ => ⟨fun _ => .text List.nil_prefix, fun h => (h .text).elim⟩
  | .text (c :: w), _, _, hm, _ =>
    ⟨nofun, fun _ => .textOther fun ⟨u, h⟩ => hm c (w ++ u) h.symm (.text w)⟩
  | .seq a b, F, hl, hm, hx => by
    have ha := skips_of_rules a hl.1 (fun c u h h' => hm c u h (.seqLeft b h')) fun x h => hx x (.inl h)
    by_cases hea : MayEmpty G a
    · obtain ⟨h2, h3⟩ := skips_of_rules b hl.2 (fun c u h h' => hm c u h (.seqRight hea h')) fun x h => hx x (.inr ⟨hea, h⟩)
      constructor
      · intro h
        cases h with
        | seq _ heb => exact .seq (n := 0) (ha.1 hea) (h2 heb)
      · exact fun h => .seqRight (n := 0) (ha.1 hea) (h3 fun heb => h (.seq hea heb))
    · refine ⟨fun h => ?_, fun _ => .seqLeft (ha.2 hea)⟩
      cases h with
      | seq h _ => exact (hea h).elim
  | .alt a b, F, hl, hm, hx => by
    obtain ⟨h1, h2, hea, -⟩ := hl
    have ha := skips_of_rules a h1 (fun c u h h' => hm c u h (.altLeft b h')) fun x h => hx x (.inl h)
    obtain ⟨h3, h4⟩ := skips_of_rules b h2 (fun c u h h' => hm c u h (.altRight a h')) fun x h => hx x (.inr h)
    refine ⟨fun h => .altRight (ha.2 hea) (h3 ?_), fun h => .altRight (ha.2 hea) (h4 fun h' => h (.altRight a h'))⟩
    cases h with
    | altLeft _ h => exact (hea h).elim
    | altRight _ h => exact h
  | .star a, F, hl, hm, hx => by
    have ha := skips_of_rules a hl.1 (fun c u h h' => hm c u h (.star h')) hx
    exact ⟨fun _ => .starEnd (ha.2 hl.2.1), fun h => (h (.star a)).elim⟩
  | .plus a, F, hl, hm, hx => by
    have ha := skips_of_rules a hl.1 (fun c u h h' => hm c u h (.plus h')) hx
    refine ⟨fun h => ?_, fun _ => .plus (.seqLeft (ha.2 hl.2.1))⟩
    cases h with
    | plus h => exact (hl.2.1 h).elim
  | .opt a, F, hl, hm, hx => by
    have ha := skips_of_rules a hl.1 (fun c u h h' => hm c u h (.opt h')) hx
    refine ⟨fun _ => .opt ?_, fun h => (h (.opt a)).elim⟩
    by_cases hea : MayEmpty G a
    · exact .altLeft (ha.1 hea)
    · exact .altRight (ha.2 hea) (.empty t)
  | .not a, _, hl, _, _ => hl.elim
  | .look a, _, hl, _, _ => hl.elim
  | .rule x, _, _, hm, hx => hx x rfl hm

omit [DecidableEq I] in
theorem skips (hG : GrammarLL1 G follow) {t : List I} {e : Exp I N} (he : e.LL1 G follow F) (hm : Misses G t e) :
    Skips G e t := by
  have rule : ∀ x, Misses G t (.rule x) → Skips G (.rule x) t := by
    intro x
    induction hG.noLeftRecursion.apply x with
    | intro x _ ih =>
      intro hm
      obtain ⟨h1, h2⟩ := skips_of_rules (G x) (hG.rules x) (fun c u h h' => hm c u h (.rule h')) ih
      refine ⟨fun h => .rule (h1 ?_), fun h => .rule (h2 fun h' => h (.rule h'))⟩
      cases h with
      | rule h => exact h
  exact skips_of_rules e he hm fun x _ => rule x

omit [DecidableEq I] in
theorem reads_of_lang (hG : GrammarLL1 G follow) {e : Exp I N} {w : List I} (h : Lang G e w) : ∀ {F : I → Prop},
    e.LL1 G follow F → ∀ r : List I, (∀ c u, r = c :: u → F c) → Reads G e (w ++ r) (some w.length) := by
  have head : ∀ {e : Exp I N} {w r : List I} {P : I → Prop}, Lang G e w →
      (∀ c, Starts G c e → P c) → (MayEmpty G e → ∀ c u, r = c :: u → P c) → ∀ c u, w ++ r = c :: u → P c := by
    intro e w r P h h1 h2 c u hw
    cases w with
    | nil => exact h2 (mayEmpty_of_lang h rfl) c u hw
    | cons d w =>
      simp only [List.cons_append, List.cons.injEq] at hw
      obtain ⟨rfl, -⟩ := hw
      exact h1 d (starts_of_lang h rfl)
  induction h with
  | empty => exact fun _ _ _ => .empty _
  | elem h => exact fun _ _ _ => .elem h
  | text w => exact fun _ r _ => .text (List.prefix_append w r)
  | @seq a b v w ha hb iha ihb =>
    intro F hl r hr
    rw [List.append_assoc, List.length_append]
    refine .seq (iha hl.1 _ (head hb (fun c h => .inl h) fun h c u hc => .inr ⟨h, hr c u hc⟩)) ?_
    rw [List.drop_left]
    exact ihb hl.2 r hr
  | altLeft b _ ih => exact fun hl r hr => .altLeft (ih hl.1 r hr)
  | @altRight a b w hb ih =>
    intro F hl r hr
    obtain ⟨h1, h2, hea, hd1, hd2⟩ := hl
    have hm : Misses G (w ++ r) a := fun c u hc hst =>
      head (P := fun c => ¬Starts G c a) hb (fun c h h' => hd1 c h' h)
        (fun h c u hc h' => hd2 h c h' (hr c u hc)) c u hc hst
    exact .altRight ((skips hG h1 hm).2 hea) (ih h2 r hr)
  | starNone a =>
    intro F hl r hr
    exact .starEnd ((skips hG hl.1 fun c u hc hst => hl.2.2 c hst (hr c u hc)).2 hl.2.1)
  | @starMore a v w ha hsl iha ihs =>
    intro F hl r hr
    rw [List.append_assoc, List.length_append]
    refine .starMore (iha hl.1 _ (head hsl (fun c h => by cases h with | star h => exact .inl h)
      fun _ c u hc => .inr (hr c u hc))) ?_
    rw [List.drop_left]
    exact ihs hl r hr
  | @plus a v w ha hsl iha ihs =>
    intro F hl r hr
    rw [List.append_assoc, List.length_append]
    refine .plus (.seq (iha hl.1 _ (head hsl (fun c h => by cases h with | star h => exact .inl h)
      fun _ c u hc => .inr (hr c u hc))) ?_)
    rw [List.drop_left]
    exact ihs (F := F) hl r hr
  | optNone a =>
    intro F hl r hr
    obtain ⟨h1, h2⟩ := skips hG hl.1 (t := r) fun c u hc hst => hl.2 c hst (hr c u hc)
    by_cases hea : MayEmpty G a
    · exact .opt (.altLeft (h1 hea))
    · exact .opt (.altRight (h2 hea) (.empty _))
  | optSome _ ih => exact fun hl r hr => .opt (.altLeft (ih hl.1 r hr))
  | @rule x w _ ih => exact fun hl r hr => .rule (ih (hG.rules x) r fun c u hc => hl c (hr c u hc))

/-! ## Without `attempt` the parser answers as well -/

/-- The parser without `attempt` answers. -/
def BareEnds (flat : Bool) (G : N → Exp I N) (e : Exp I N) (s : State I) : Prop :=
  (∃ m k, ∀ n, k ≤ n → bareOf flat G n e s = .success () m) ∨
    ∃ er c k, ∀ n, k ≤ n → bareOf flat G n e s = .failure er c

theorem mayEmpty_of_bare (hG : ∀ x, (G x).Blind) {e : Exp I N} (he : e.Blind) {s : State I} (hs : s.offset ≤ s.input.length)
    {n : Nat} (h : bareOf flat G n e s = .success () 0) : MayEmpty G e :=
  mayEmpty_of_lang (lang_of_bare hG n e he s 0 hs h) (by simp)

theorem bareEnds_of_rules (hG : ∀ x, (G x).Blind) {s : State I} (hs : s.offset ≤ s.input.length)
    (short : ∀ (e : Exp I N) (i : Nat), s.offset < i → i ≤ s.input.length → e.Blind → e.NoIdleLoop G →
      BareEnds flat G e ⟨s.input, i⟩) :
    ∀ e : Exp I N, e.Blind → e.NoIdleLoop G → (∀ x, e.CallsFirst G x → BareEnds flat G (.rule x) s) → BareEnds flat G e s
  | .empty, _, _, _ => .inl ⟨0, 0, fun _ _ => rfl⟩
  | .elem f, _, _, _ => by
    cases h : bareOf flat G 0 (.elem f) s with
    | success _ m => exact .inl ⟨m, 0, fun _ _ => h⟩
    | failure er c => exact .inr ⟨er, c, 0, fun _ _ => h⟩
    | panic => exact (bareOf_noPanic 0 _ hs h).elim
    | diverge =>
      simp only [bareOf, Exp.bare, discard, elmPred, State.withInput, hs, if_true] at h
      cases hd : s.input.drop s.offset with
      | nil => simp [hd] at h
      | cons c u => cases hc : f c <;> simp [hd, hc] at h
  | .text w, _, _, _ => by
    cases h : bareOf flat G 0 (.text w) s with
    | success _ m => exact .inl ⟨m, 0, fun _ _ => h⟩
    | failure er c => exact .inr ⟨er, c, 0, fun _ _ => h⟩
    | panic => exact (bareOf_noPanic 0 _ hs h).elim
    | diverge =>
      simp only [bareOf, Exp.bare, discard] at h
      cases h1 : OniComb.seq w s with
      | diverge => exact absurd h1 (seq_ne_diverge _ s)
      | _ => simp [h1] at h
  | .seq a b, hb, hi, hx => by
    rcases bareEnds_of_rules hG hs short a hb.1 hi.1 fun x h => hx x (.inl h) with ⟨m, k, ha⟩ | ⟨er, c, k, ha⟩
    · have hm := bareOf_bounds hs (ha k (Nat.le_refl _))
      have : BareEnds flat G b ⟨s.input, s.offset + m⟩ := by
        cases m with
        | zero =>
          exact bareEnds_of_rules hG hs short b hb.2 hi.2 fun x h =>
            hx x (.inr ⟨mayEmpty_of_bare hG hb.1 hs (ha k (Nat.le_refl _)), h⟩)
        | succ m => exact short b _ (by omega) hm hb.2 hi.2
      rcases this with ⟨m', l, h2⟩ | ⟨er, c, l, h2⟩
      · exact .inl ⟨m + m', max k l, fun n hn => bare_seq_success (ha n (by omega)) (h2 n (by omega))⟩
      · exact .inr ⟨er, _, max k l, fun n hn => bare_seq_right (ha n (by omega)) (h2 n (by omega))⟩
    · exact .inr ⟨er, c, k, fun n hn => bare_seq_left (ha n hn)⟩
  | .alt a b, hb, hi, hx => by
    rcases bareEnds_of_rules hG hs short a hb.1 hi.1 fun x h => hx x (.inl h) with ⟨m, k, ha⟩ | ⟨er, c, k, ha⟩
    · exact .inl ⟨m, k, fun n hn => bare_alt_left (ha n hn)⟩
    · cases c with
      | committed =>
        refine .inr ⟨er, .committed, k, fun n hn => ?_⟩
        have := ha n hn
        simp only [bareOf] at this
        simp [bareOf, Exp.bare, or, this]
      | uncommitted =>
        rcases bareEnds_of_rules hG hs short b hb.2 hi.2 fun x h => hx x (.inr h) with ⟨m, l, h2⟩ | ⟨er', c, l, h2⟩
        · exact .inl ⟨m, max k l, fun n hn => by rw [bare_alt_right (ha n (by omega))]; exact h2 n (by omega)⟩
        · exact .inr ⟨er', c, max k l, fun n hn => by rw [bare_alt_right (ha n (by omega))]; exact h2 n (by omega)⟩
  | .star a, hb, hi, hx => by
    rcases bareEnds_of_rules hG hs short a hb hi.1 hx with ⟨m, k, ha⟩ | ⟨er, c, k, ha⟩
    · obtain ⟨m', l, h2⟩ := again a hb hi m k ha
      exact .inl ⟨m + m', max k l, fun n hn => bare_star_more (ha n (by omega)) (h2 n (by omega))⟩
    · exact .inl ⟨0, k, fun n hn => bare_star_none ⟨er, c, ha n hn⟩⟩
  | .plus a, hb, hi, hx => by
    rcases bareEnds_of_rules hG hs short a hb hi.1 hx with ⟨m, k, ha⟩ | ⟨er, c, k, ha⟩
    · obtain ⟨m', l, h2⟩ := again a hb hi m k ha
      exact .inl ⟨m + m', max k l, fun n hn => bare_plus (ha n (by omega)) (h2 n (by omega))⟩
    · exact .inr ⟨_, _, k, fun n hn => bare_plus_fails hs ⟨er, c, ha n hn⟩⟩
  | .opt a, hb, hi, hx => by
    rcases bareEnds_of_rules hG hs short a hb hi hx with ⟨m, k, ha⟩ | ⟨er, c, k, ha⟩
    · exact .inl ⟨m, k, fun n hn => bare_opt_some (ha n hn)⟩
    · exact .inl ⟨0, k, fun n hn => bare_opt_none ⟨er, c, ha n hn⟩⟩
  | .not a, hb, _, _ => hb.elim
  | .look a, hb, _, _ => hb.elim
  | .rule x, _, _, hx => hx x rfl
where
  again (a : Exp I N) (hb : a.Blind) (hi : a.NoIdleLoop G ∧ ¬MayEmpty G a) (m k : Nat)
      (ha : ∀ n, k ≤ n → bareOf flat G n a s = .success () m) :
      ∃ m' l, ∀ n, l ≤ n → bareOf flat G n (.star a) ⟨s.input, s.offset + m⟩ = .success () m' := by
    have hm : m ≠ 0 := by
      rintro rfl
      exact hi.2 (mayEmpty_of_bare hG hb hs (ha k (Nat.le_refl _)))
    have hl := bareOf_bounds hs (ha k (Nat.le_refl _))
    rcases short (.star a) (s.offset + m) (by omega) hl hb hi with h | ⟨er, c, l, h⟩
    · exact h
    · have h := h l (Nat.le_refl _)
      simp only [bareOf, Exp.bare, discard] at h
      cases h1 : many0 (a.bare flat (bareRules flat G l)) ⟨s.input, s.offset + m⟩ with
      | failure e c => exact absurd h1 (c12_many0_never_fails _ _ _ _)
      | _ => simp [h1] at h

theorem bareEnds (hB : ∀ x, (G x).Blind) (hG : ∀ x, (G x).NoIdleLoop G) (hl : NoLeftRecursion G) : ∀ (k : Nat) (s : State I),
    s.offset ≤ s.input.length → s.input.length - s.offset < k → ∀ e : Exp I N, e.Blind → e.NoIdleLoop G →
    BareEnds flat G e s
  | 0, _, _, hk, _, _, _ => absurd hk (Nat.not_lt_zero _)
  | k + 1, s, hs, hk, e, hb, he => by
    have short : ∀ (e : Exp I N) (i : Nat), s.offset < i → i ≤ s.input.length → e.Blind → e.NoIdleLoop G →
        BareEnds flat G e ⟨s.input, i⟩ :=
      fun e i h1 h2 hb he => bareEnds hB hG hl k ⟨s.input, i⟩ h2 (by simp only; omega) e hb he
    have rule : ∀ x, BareEnds flat G (.rule x) s := by
      intro x
      induction hl.apply x with
      | intro x _ ih =>
        rcases bareEnds_of_rules hB hs short (G x) (hB x) (hG x) ih with ⟨m, k, h⟩ | ⟨er, c, k, h⟩
        · refine .inl ⟨m, k + 1, fun n hn => ?_⟩
          obtain ⟨n, rfl⟩ : ∃ m, n = m + 1 := ⟨n - 1, by omega⟩
          exact h n (by omega)
        · refine .inr ⟨er, c, k + 1, fun n hn => ?_⟩
          obtain ⟨n, rfl⟩ : ∃ m, n = m + 1 := ⟨n - 1, by omega⟩
          exact h n (by omega)
    exact bareEnds_of_rules hB hs short e hb he fun x _ => rule x

/-! ## C135 -/

omit [DecidableEq I] in
theorem whole_err {p : Parser I Unit} {t : List I}
    (hp : (∃ er c, p ⟨t, 0⟩ = .failure er c) ∨ ∃ m, m < t.length ∧ p ⟨t, 0⟩ = .success () m) :
    ∃ er, parse (skipRight p end_) t = .err er := by
  rcases hp with ⟨er, c, h⟩ | ⟨m, hm, h⟩
  · exact ⟨er, by simp [parse, skipRight, h, Res.toOut]⟩
  · simp only [parse, skipRight, h, State.advanceBy, Nat.zero_add, end_, State.withInput, Nat.le_of_lt hm, if_true]
    cases hd : t.drop m with
    | nil =>
      have : t.length ≤ m := by simpa using hd
      omega
    | cons c u => exact ⟨_, rfl⟩

/-- A grammar whose next element decides is recognised without any `attempt`: what the expression describes, and only
that, is accepted as the whole input. -/
theorem c135_accepts (flat : Bool) (G : N → Exp I N) (follow : N → I → Prop) (hG : GrammarLL1 G follow) (e : Exp I N)
    (he : e.LL1 G follow fun _ => False) (t : List I) :
    (∃ k, ∀ n, k ≤ n → parse (skipRight (bareOf flat G n e) end_) t = .ok ()) ↔ Lang G e t := by
  constructor
  · rintro ⟨k, h⟩
    have := lang_of_bare (fun x => (hG.rules x).blind) k e he.blind ⟨t, 0⟩ _ (Nat.zero_le _)
      ((c34_whole_input _ _ _).1 (h k (Nat.le_refl _)))
    simpa using this
  · intro h
    obtain ⟨k, hk⟩ := bare_of_lang (flat := flat) hG h he ⟨t, 0⟩ [] (Nat.zero_le _) (by simp) nofun
    exact ⟨k, fun n hn => (c34_whole_input _ _ _).2 (hk n hn)⟩

/-- Everything else is rejected with an error. -/
theorem c135_rejects (flat : Bool) (G : N → Exp I N) (follow : N → I → Prop) (hG : GrammarLL1 G follow) (e : Exp I N)
    (he : e.LL1 G follow fun _ => False) (t : List I) :
    (∃ k, ∀ n, k ≤ n → ∃ er, parse (skipRight (bareOf flat G n e) end_) t = .err er) ↔ ¬Lang G e t := by
  constructor
  · rintro ⟨k, h⟩ hl
    obtain ⟨l, h'⟩ := (c135_accepts flat G follow hG e he t).2 hl
    obtain ⟨er, h⟩ := h (max k l) (by omega)
    rw [h' _ (by omega)] at h
    cases h
  · intro hl
    have hB := fun x => (hG.rules x).blind
    rcases bareEnds (flat := flat) hB (fun x => (hG.rules x).noIdleLoop) hG.noLeftRecursion _ ⟨t, 0⟩ (Nat.zero_le _)
      (Nat.lt_succ_self _) e he.blind he.noIdleLoop with ⟨m, k, h⟩ | ⟨er, c, k, h⟩
    · refine ⟨k, fun n hn => whole_err (.inr ⟨m, ?_, h n hn⟩)⟩
      have hb : 0 + m ≤ t.length := bareOf_bounds (s := ⟨t, 0⟩) (Nat.zero_le _) (h k (Nat.le_refl _))
      have hne : m ≠ t.length := by
        rintro rfl
        have := lang_of_bare hB k e he.blind ⟨t, 0⟩ _ (Nat.zero_le _) (h k (Nat.le_refl _))
        exact hl (by simpa using this)
      omega
    · exact ⟨k, fun n hn => whole_err (.inl ⟨er, c, h n hn⟩)⟩

/-- With `attempt` the same texts are accepted. -/
theorem c135_attempt (G : N → Exp I N) (follow : N → I → Prop) (hG : GrammarLL1 G follow) (e : Exp I N)
    (he : e.LL1 G follow fun _ => False) (t : List I) :
    (∃ k, ∀ n, k ≤ n → parse (skipRight (parserOf G n e) end_) t = .ok ()) ↔ Lang G e t := by
  constructor
  · rintro ⟨k, h⟩
    have := (c129_success G e ⟨t, 0⟩ (Nat.zero_le _) _).1 ⟨k, (c34_whole_input _ _ _).1 (h k (Nat.le_refl _))⟩
    simpa using lang_of_reads (fun x => (hG.rules x).blind) this he.blind rfl
  · intro h
    have := reads_of_lang hG h he [] nofun
    rw [List.append_nil] at this
    obtain ⟨k, hk⟩ := (c129_stable G e ⟨t, 0⟩ (Nat.zero_le _) _).1 this
    exact ⟨k, fun n hn => (c34_whole_input _ _ _).2 (hk n hn)⟩

/-- In the middle of a text: what the expression describes is read to its end if an element follows that may follow. -/
theorem c135_reads (flat : Bool) (G : N → Exp I N) (follow : N → I → Prop) (hG : GrammarLL1 G follow) (F : I → Prop) (e : Exp I N)
    (he : e.LL1 G follow F) (u w r : List I) (hw : Lang G e w) (hr : ∀ c v, r = c :: v → F c) :
    ∃ k, ∀ n, k ≤ n → bareOf flat G n e ⟨u ++ w ++ r, u.length⟩ = .success () w.length ∧
      parserOf G n e ⟨u ++ w ++ r, u.length⟩ = .success () w.length := by
  have hd : (u ++ w ++ r).drop u.length = w ++ r := by simp
  have hs : u.length ≤ (u ++ w ++ r).length := by simp
  obtain ⟨k, hk⟩ := bare_of_lang (flat := flat) hG hw he ⟨u ++ w ++ r, u.length⟩ r hs hd hr
  obtain ⟨l, hl⟩ := (c129_stable G e ⟨u ++ w ++ r, u.length⟩ hs _).1 (by rw [hd]; exact reads_of_lang hG hw he r hr)
  exact ⟨max k l, fun n hn => ⟨hk n (by omega), hl n (by omega)⟩⟩

/-- Nothing is read that the expression does not describe, in any grammar without lookahead, with or without
`attempt`. -/
theorem c135_sound (flat : Bool) (G : N → Exp I N) (hG : ∀ x, (G x).Blind) (e : Exp I N) (he : e.Blind) (n : Nat)
    (s : State I) (hs : s.offset ≤ s.input.length) (m : Nat)
    (h : bareOf flat G n e s = .success () m ∨ parserOf G n e s = .success () m) :
    Lang G e ((s.input.drop s.offset).take m) := by
  rcases h with h | h
  · exact lang_of_bare hG n e he s m hs h
  · exact lang_of_reads hG ((c129_success G e s hs m).1 ⟨n, h⟩) he rfl

omit [DecidableEq I] in
/-- Where one text ends is determined by what may follow. -/
theorem c135_unambiguous (G : N → Exp I N) (follow : N → I → Prop) (hG : GrammarLL1 G follow) (F : I → Prop) (e : Exp I N)
    (he : e.LL1 G follow F) (w r w' r' : List I) (hw : Lang G e w) (hw' : Lang G e w') (h : w ++ r = w' ++ r')
    (hr : ∀ c v, r = c :: v → F c) (hr' : ∀ c v, r' = c :: v → F c) : w = w' := by
  classical
  have h1 := reads_of_lang hG hw he r hr
  have h2 := reads_of_lang hG hw' he r' hr'
  rw [← h] at h2
  have := c129_unique G e _ _ _ h1 h2
  simp only [Option.some.injEq] at this
  exact (List.append_inj h this).1

/-- The condition cannot be left out: where one alternative is the beginning of the next one, the longer text is never
accepted, not even with `attempt`. -/
theorem c135_hidden (flat : Bool) (G : N → Exp I N) (w v : List I) (c : I) (n : Nat) :
    Lang G (.alt (.text w) (.text (w ++ c :: v))) (w ++ c :: v) ∧
    (∃ er, parse (skipRight (bareOf flat G n (.alt (.text w) (.text (w ++ c :: v)))) end_) (w ++ c :: v) = .err er) ∧
    ∃ er, parse (skipRight (parserOf G n (.alt (.text w) (.text (w ++ c :: v)))) end_) (w ++ c :: v) = .err er := by
  have hw : OniComb.seq w ⟨w ++ c :: v, 0⟩ = .success w w.length :=
    (c24_seq_success_iff w ⟨w ++ c :: v, 0⟩ (Nat.zero_le _) _ _).2 ⟨rfl, rfl, List.prefix_append _ _⟩
  refine ⟨.altRight _ (.text _), whole_err (.inr ⟨w.length, by simp, ?_⟩), whole_err (.inr ⟨w.length, by simp, ?_⟩)⟩
  · simp [bareOf, Exp.bare, or, discard, hw]
  · simp [parserOf, Exp.parser, or, attempt, discard, hw, Res.withUncommitted]

/-- Nor where something repeated may follow: the repetition leaves nothing over. -/
theorem c135_greedy (flat : Bool) (G : N → Exp I N) (a : Exp I N) (w : List I) (hw : Lang G a w) (n : Nat) (s : State I) :
    Lang G (.seq (.star a) a) w ∧ (∀ m, bareOf flat G n (.seq (.star a) a) s ≠ .success () m) ∧
    ∀ m, parserOf G n (.seq (.star a) a) s ≠ .success () m := by
  have key : ∀ (p : Parser I Unit) m, andThen (discard (many0 p)) p s ≠ .success ((), ()) m ∧
      flatMap (discard (many0 p)) (fun _ => p) s ≠ .success () m := by
    intro p m
    cases h1 : many0 p s with
    | success vs k =>
      obtain ⟨er, c, hf⟩ := (c12_many0_sound _ _ _ _ h1).2
      simp [andThen, flatMap, discard, h1, State.advanceBy, hf, Res.addCommit, Res.advanceSuccess]
    | _ => simp [andThen, flatMap, discard, h1]
  have disc : ∀ {p : Parser I (Unit × Unit)} {m}, discard p s = .success () m → p s = .success ((), ()) m := by
    intro p m h
    simp only [discard] at h
    cases h1 : p s with
    | success v k => simp only [h1, Res.success.injEq, true_and] at h; rw [h]
    | _ => simp [h1] at h
  refine ⟨Lang.seq (.starNone a) hw, fun m h => ?_, fun m h => (key _ m).1 (disc h)⟩
  cases flat with
  | true => exact (key _ m).2 h
  | false => exact (key _ m).1 (disc h)

/-! ### Sums of numbers and parentheses -/

/-- `sum = term ("+" term)*`, `term = digit+ | "(" sum ")"`. -/
inductive Arith where
  | sum
  | term

def arith : Arith → Exp Char Arith
  | .sum => .seq (.rule .term) (.star (.seq (.elem (· == '+')) (.rule .term)))
  | .term => .alt (.plus (.elem Chr.isDigit)) (.seq (.elem (· == '(')) (.seq (.rule .sum) (.elem (· == ')'))))

/-- What may follow. -/
def arithFollow : Arith → Char → Prop
  | .sum, c => c = ')'
  | .term, c => c = ')' ∨ c = '+'

theorem arith_elem {f : Char → Bool} {c : Char} (h : Starts arith c (.elem f)) : f c = true := by
  cases h with
  | elem h => exact h

theorem arith_item {c : Char} (h : Starts arith c (.seq (.elem (· == '+')) (.rule .term))) : c = '+' := by
  cases h with
  | seqLeft _ h => simpa using arith_elem h
  | seqRight h _ => cases h

theorem arith_digit {c : Char} (h : Starts arith c (.plus (.elem Chr.isDigit))) : Chr.isDigit c = true := by
  cases h with
  | plus h => exact arith_elem h

theorem arith_paren {c : Char}
    (h : Starts arith c (.seq (.elem (· == '(')) (.seq (.rule .sum) (.elem (· == ')'))))) : c = '(' := by
  cases h with
  | seqLeft _ h => simpa using arith_elem h
  | seqRight h _ => cases h

theorem arith_term : ¬MayEmpty arith (arith .term) := fun h => by
  cases h with
  | altLeft _ h =>
    cases h with
    | plus h => cases h
  | altRight _ h =>
    cases h with
    | seq h _ => cases h

theorem arith_LL1 : GrammarLL1 arith arithFollow where
  rules
    | .sum => by
      refine ⟨fun c h => ?_, ⟨trivial, fun c h => ?_⟩, fun h => ?_, fun c h h' => ?_⟩
      · rcases h with h | ⟨-, h⟩
        · cases h with
          | star h => exact .inr (arith_item h)
        · exact .inl h
      · rcases h with h | h
        · exact .inr (arith_item h)
        · exact .inl h
      · cases h with
        | seq h _ => cases h
      · rw [arith_item h] at h'
        have h' : '+' = ')' := h'
        exact absurd h' (by decide)
    | .term => by
      refine ⟨⟨trivial, nofun, fun c h h' => ?_⟩, ⟨trivial, fun c h => ?_, trivial⟩, fun h => ?_, fun c h h' => ?_, fun h => ?_⟩
      · have h := arith_elem h
        rcases h' with rfl | rfl <;> exact absurd h (by decide)
      · rcases h with h | ⟨h, -⟩
        · have := arith_elem h
          exact beq_iff_eq.1 this
        · cases h
      · cases h with
        | plus h => cases h
      · rw [arith_paren h'] at h
        exact absurd (arith_digit h) (by decide)
      · cases h with
        | seq h _ => cases h
  noLeftRecursion := by
    have term : Acc (fun x y => (arith y).CallsFirst arith x) .term := by
      refine ⟨_, fun y h => ?_⟩
      rcases h with h | h | ⟨h, -⟩
      · exact h.elim
      · exact h.elim
      · cases h
    refine ⟨fun x => ?_⟩
    cases x with
    | term => exact term
    | sum =>
      refine ⟨_, fun y h => ?_⟩
      rcases h with rfl | ⟨h, -⟩
      · exact term
      · cases h with
        | rule h => exact (arith_term h).elim

/-- Written with `flat_map` and without `attempt`, the grammar accepts exactly its sums. -/
example (t : List Char) :
    (∃ k, ∀ n, k ≤ n → parse (skipRight (bareOf true arith n (.rule .sum)) end_) t = .ok ()) ↔ Lang arith (.rule .sum) t :=
  c135_accepts true arith arithFollow arith_LL1 (.rule .sum) (fun _ h => h.elim) t

example : parse (skipRight (bareOf true arith 8 (.rule .sum)) end_) "1+(23+4)".toList = .ok () := by decide +kernel

example : Lang arith (.rule .sum) "1+(23+4)".toList :=
  c135_sound true arith (fun x => (arith_LL1.rules x).blind) (.rule .sum) trivial 8 ⟨"1+(23+4)".toList, 0⟩ (by decide) 8
    (.inl (by decide +kernel))

/-- The last alternative may be empty. With `attempt`, `"ab" | ` reads nothing of `ac`; without it, it fails; neither
accepts the text. -/
example (n : Nat) : Gives (parserOf arith n (.alt (.text "ab".toList) .empty)) ⟨"ac".toList, 0⟩ (some 0) ∧
    Gives (bareOf true arith n (.alt (.text "ab".toList) .empty)) ⟨"ac".toList, 0⟩ none :=
  ⟨by unfold Gives; rfl, ⟨_, _, rfl⟩⟩

end OniComb.Peg
