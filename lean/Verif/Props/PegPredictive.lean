import Verif.Props.PegTotal

/-!
# Grammars that need no `attempt` (C131)
-/

namespace OniComb.Peg
open OniComb
variable {I N : Type} {G : N → Exp I N} [DecidableEq I] {flat : Bool}

theorem starts_of_reads {e : Exp I N} {t : List I} {r : Option Nat} (h : Reads G e t r) {n : Nat}
    (hr : r = some (n + 1)) {c : I} {u : List I} (ht : t = c :: u) : Starts G c e := by
  induction h generalizing n with
  | @text w t h =>
    subst ht
    cases w with
    | nil => simp at hr
    | cons d w => cases (List.cons_prefix_cons.1 h).1; exact .text w
  | empty | elemOther | elemEnd | textOther | seqLeft | seqRight | notFound | lookMissing | starEnd | notMissing | lookFound =>
    simp at hr
  | elem h => cases ht; exact .elem h
  | @seq a b t i j ha hb iha ihb =>
    cases i with
    | zero =>
      rw [Nat.zero_add] at hr
      exact .seqRight (mayEmpty_of_reads ha rfl) (ihb hr ht)
    | succ i => exact .seqLeft _ (iha rfl ht)
  | altLeft _ ih => exact .altLeft _ (ih hr ht)
  | altRight _ _ _ ih => exact .altRight _ (ih hr ht)
  | @starMore a t i j ha hb iha ihb =>
    cases i with
    | zero =>
      rw [Nat.zero_add] at hr
      exact ihb hr ht
    | succ i => exact .star (iha rfl ht)
  | plus _ ih =>
    cases ih hr ht with
    | seqLeft _ ha => exact .plus ha
    | seqRight _ hb =>
      cases hb with
      | star ha => exact .plus ha
  | opt _ ih =>
    cases ih hr ht with
    | altLeft _ ha => exact .opt ha
    | altRight _ hb => cases hb
  | rule _ ih => exact .rule (ih hr ht)

theorem bare_built {rs : N → Parser I Unit} (h : ∀ x, Built NoPrim false (rs x)) :
    ∀ e : Exp I N, Built NoPrim false (e.bare flat rs)
  | .empty => .successful _
  | .elem f => .discard _ (.elmPred f)
  | .text w => .discard _ (.seq w)
  | .seq a b => by
    unfold Exp.bare
    split
    · exact .flatMap _ _ (bare_built h a) fun _ => bare_built h b
    · exact .discard _ (.andThen _ _ (bare_built h a) (bare_built h b))
  | .alt a b => .or _ _ (bare_built h a) (bare_built h b)
  | .star a => .discard _ (.repeat_ _ _ (bare_built h a))
  | .plus a => .discard _ (.repeat_ _ _ (bare_built h a))
  | .opt a => .discard _ (.or _ _ (.map _ _ (.attempt _ (bare_built h a))) (.successful _))
  | .not a => .not_ _ (bare_built h a)
  | .look a => .discard _ (.peek _ (bare_built h a))
  | .rule x => h x

theorem bareRules_built (flat : Bool) (G : N → Exp I N) : ∀ n x, Built NoPrim false (bareRules flat G n x)
  | 0, _ => .diverging
  | n + 1, x => .lazy _ (bare_built (bareRules_built flat G n) (G x))

theorem bareOf_tame (n : Nat) (e : Exp I N) : Tame (bareOf flat G n e) :=
  c14_built_tame (fun _ _ h => h.elim) (bare_built (bareRules_built flat G n) e)

/-- What the parser without `attempt` does, given the outcome of the parser with it. -/
def Follows (flat : Bool) (G : N → Exp I N) (e : Exp I N) (t : List I) : Res I Unit → Res I Unit → Prop
  | .success _ m, r => r = .success () m
  | .failure _ _, r => ∃ err c, r = .failure err c ∧ (c = .committed → ∃ x u, t = x :: u ∧ Commits flat G x e)
  | _, _ => True

omit [DecidableEq I] in
theorem run_bare {a : Exp I N} {p q : Parser I Unit}
    (ih : ∀ s : State I, s.offset ≤ s.input.length → Follows flat G a (s.input.drop s.offset) (p s) (q s)) (hp : InBounds p)
    {s : State I} {vs : List Unit} {n : Nat} (hr : Run p s vs n) (hs : s.offset ≤ s.input.length)
    (hf : Fails p ⟨s.input, s.offset + n⟩) : Run q s vs n ∧ Fails q ⟨s.input, s.offset + n⟩ := by
  induction hr with
  | nil s =>
    refine ⟨.nil s, ?_⟩
    obtain ⟨e, c, hf⟩ := hf
    have := ih _ (show (⟨s.input, s.offset + 0⟩ : State I).offset ≤ _ from hs)
    rw [hf] at this
    obtain ⟨e, c, h, _⟩ := this
    exact ⟨e, c, h⟩
  | @cons s n m v vs h1 _ ihr =>
    have hb := hp s v n hs h1
    have h2 := ih s hs
    rw [h1] at h2
    obtain ⟨h3, h4⟩ := ihr hb (by simpa [Nat.add_assoc] using! hf)
    exact ⟨.cons h2 h3, by simpa [Nat.add_assoc] using! h4⟩

theorem bare_seq_success {rs : N → Parser I Unit} {a b : Exp I N} {s : State I} {m k : Nat}
    (ha : a.bare flat rs s = .success () m) (hb : b.bare flat rs ⟨s.input, s.offset + m⟩ = .success () k) :
    (Exp.seq a b).bare flat rs s = .success () (m + k) := by
  cases flat
  · simp [Exp.bare, discard, andThen, ha, State.advanceBy, hb]
  · simp only [Exp.bare, if_true, flatMap, ha, State.advanceBy, hb]
    simp [Res.addCommit, Res.advanceSuccess, Nat.add_comm]

theorem bare_seq_right {rs : N → Parser I Unit} {a b : Exp I N} {s : State I} {m : Nat} {e : PError I} {c : Committed}
    (ha : a.bare flat rs s = .success () m) (hb : b.bare flat rs ⟨s.input, s.offset + m⟩ = .failure e c) :
    (Exp.seq a b).bare flat rs s = .failure e (if flat then c.or (Committed.ofBool (m != 0)) else c) := by
  cases flat
  · simp [Exp.bare, discard, andThen, ha, State.advanceBy, hb]
  · simp only [Exp.bare, if_true, flatMap, ha, State.advanceBy, hb]
    rfl

theorem bare_seq_left {rs : N → Parser I Unit} {a b : Exp I N} {s : State I} {e : PError I} {c : Committed}
    (ha : a.bare flat rs s = .failure e c) : (Exp.seq a b).bare flat rs s = .failure e c := by
  cases flat
  · simp [Exp.bare, discard, andThen, ha]
  · simp [Exp.bare, flatMap, ha]

theorem bareOf_follows (hG : ∀ x, (G x).Predictive flat G) : ∀ (n : Nat) (e : Exp I N), e.Predictive flat G →
    ∀ s : State I, s.offset ≤ s.input.length →
    Follows flat G e (s.input.drop s.offset) (parserOf G n e s) (bareOf flat G n e s) := by
  intro n
  induction n with
  | zero =>
    intro e
    refine of_rules 0 (fun x s _ => ?_) e
    exact trivial
  | succ n ihn =>
    intro e
    refine of_rules (n + 1) (fun x s hs => ?_) e
    have := ihn (G x) (hG x) s hs
    show Follows flat G (.rule x) _ (parserOf G n (G x) s) (bareOf flat G n (G x) s)
    cases h : parserOf G n (G x) s with
    | success v m => rw [h] at this; exact this
    | failure e c =>
      rw [h] at this
      obtain ⟨e, c, h, hc⟩ := this
      refine ⟨e, c, h, fun h => ?_⟩
      obtain ⟨x, u, hu, hx⟩ := hc h
      exact ⟨x, u, hu, .rule hx⟩
    | _ => trivial
where
  of_rules (n : Nat) (hr : ∀ (x : N) (s : State I), s.offset ≤ s.input.length →
      Follows flat G (.rule x) (s.input.drop s.offset) (rules G n x s) (bareRules flat G n x s)) : ∀ e : Exp I N,
      e.Predictive flat G → ∀ s : State I, s.offset ≤ s.input.length →
      Follows flat G e (s.input.drop s.offset) (parserOf G n e s) (bareOf flat G n e s) := by
    intro e
    induction e with
    | empty => intro _ s _; rfl
    | elem f =>
      intro _ s hs
      simp only [parserOf, bareOf, Exp.parser, Exp.bare, discard, elmPred, State.withInput, hs, if_true]
      cases s.input.drop s.offset with
      | nil => exact ⟨_, _, rfl, nofun⟩
      | cons c t =>
        dsimp only
        cases hc : f c with
        | true => rfl
        | false => exact ⟨_, _, rfl, nofun⟩
    | text w =>
      intro _ s hs
      simp only [parserOf, bareOf, Exp.parser, Exp.bare, discard]
      cases h1 : OniComb.seq w s with
      | success v m => rfl
      | failure e c =>
        refine ⟨_, _, rfl, fun hc => ?_⟩
        subst hc
        obtain ⟨k, hk, ⟨a, x, ha, hx, -⟩, ht⟩ := (c24_seq_committed_iff w s hs).1 ⟨e, h1⟩
        obtain ⟨k, rfl⟩ : ∃ i, k = i + 1 := ⟨k - 1, by omega⟩
        match w, hw : s.input.drop s.offset, ha, hx, ht with
        | c :: d :: w, c' :: u, _, _, ht =>
          simp only [List.take_succ_cons, List.cons.injEq] at ht
          exact ⟨c', u, rfl, ht.1 ▸ .text c d w⟩
        | [c], _, ha, _, _ => simp at ha
      | _ => trivial
    | seq a b iha ihb =>
      intro hp s hs
      have ha := iha hp.1 s hs
      have hr := parserOf_sound G n a s hs
      simp only [parserOf, bareOf, Exp.parser, discard, andThen] at ha hr ⊢
      cases h1 : a.parser (rules G n) s with
      | success v m =>
        rw [h1] at ha hr
        have ha : a.bare flat (bareRules flat G n) s = .success () m := ha
        have hr : Reads G a _ (some m) := hr
        have hb' := parserOf_bounds (G := G) (n := n) (e := a) hs h1
        have hb := ihb hp.2 (s.advanceBy m) hb'
        simp only [State.advanceBy, ← List.drop_drop] at hb ⊢
        simp only [parserOf, bareOf] at hb
        cases h2 : b.parser (rules G n) ⟨s.input, s.offset + m⟩ with
        | success w k =>
          rw [h2] at hb
          exact bare_seq_success ha hb
        | failure e c =>
          rw [h2] at hb
          obtain ⟨e, c, hb, hc⟩ := hb
          refine ⟨_, _, bare_seq_right ha hb, fun h => ?_⟩
          by_cases hm : m = 0
          · subst hm
            have : c = .committed := by cases c <;> cases flat <;> first | rfl | exact h
            obtain ⟨x, u, hu, hx⟩ := hc this
            exact ⟨x, u, by simpa using hu, .seqRight (mayEmpty_of_reads hr rfl) hx⟩
          · obtain ⟨m, rfl⟩ : ∃ k, m = k + 1 := ⟨m - 1, by omega⟩
            have hl := reads_le hr
            cases ht : s.input.drop s.offset with
            | nil => rw [ht] at hl; simp at hl
            | cons x u =>
              have hst := starts_of_reads hr rfl ht
              refine ⟨x, u, rfl, ?_⟩
              cases hf : flat with
              | true => exact .seq _ rfl hst
              | false =>
                subst hf
                obtain ⟨y, _, _, hy⟩ := hc h
                exact .seqLater hst hy
        | _ => trivial
      | failure e c =>
        rw [h1] at ha
        obtain ⟨e, c, ha, hc⟩ := ha
        refine ⟨_, _, bare_seq_left ha, fun h => ?_⟩
        obtain ⟨x, u, hu, hx⟩ := hc h
        exact ⟨x, u, hu, .seqLeft _ hx⟩
      | _ => trivial
    | alt a b iha ihb =>
      intro hp s hs
      have ha := iha hp.1 s hs
      have hb := ihb hp.2.1 s hs
      have hr := parserOf_sound G n b s hs
      simp only [parserOf, bareOf, Exp.parser, Exp.bare, or, attempt] at ha hb hr ⊢
      cases h1 : a.parser (rules G n) s with
      | success v m =>
        rw [h1] at ha
        have ha : a.bare flat (bareRules flat G n) s = .success () m := ha
        rw [ha]
        rfl
      | failure e c =>
        rw [h1] at ha
        obtain ⟨e', c', ha, hc⟩ := ha
        rw [ha]
        have hu : Follows flat G (.alt a b) (s.input.drop s.offset) (b.parser (rules G n) s) (b.bare flat (bareRules flat G n) s) := by
          cases h2 : b.parser (rules G n) s with
          | success w k => rw [h2] at hb; exact hb
          | failure e c =>
            rw [h2] at hb
            obtain ⟨e, c, hb, hc⟩ := hb
            refine ⟨_, _, hb, fun h => ?_⟩
            obtain ⟨x, u, hu, hx⟩ := hc h
            exact ⟨x, u, hu, .altRight _ hx⟩
          | _ => trivial
        have hk : c' = .committed →
            Follows flat G (.alt a b) (s.input.drop s.offset) (b.parser (rules G n) s) (.failure e' .committed) := by
          intro h
          obtain ⟨x, u, hu, hx⟩ := hc h
          obtain ⟨h3, h4⟩ := hp.2.2 x hx
          cases h2 : b.parser (rules G n) s with
          | success w k =>
            rw [h2] at hr
            cases k with
            | zero => exact (h3 (mayEmpty_of_reads hr rfl)).elim
            | succ k => exact (h4 (starts_of_reads hr rfl hu)).elim
          | failure e c => exact ⟨_, _, rfl, fun _ => ⟨x, u, hu, .altLeft _ hx⟩⟩
          | _ => trivial
        cases c' with
        | uncommitted => cases c <;> exact hu
        | committed => cases c <;> exact hk rfl
      | _ => trivial
    | star a iha =>
      intro hp s hs
      simp only [parserOf, bareOf, Exp.parser, Exp.bare, discard]
      cases h1 : many0 (a.parser (rules G n)) s with
      | success vs m =>
        obtain ⟨hrun, hf⟩ := c12_many0_sound _ _ _ _ h1
        obtain ⟨hrun, hf⟩ := run_bare (a := a) (iha hp)
          (fun s v k hs h => parserOf_bounds (G := G) (n := n) (e := a) hs h) hrun hs hf
        have := c12_many0_complete _ (bareOf_tame n a) s _ _ hrun hf
        simp only [bareOf] at this
        rw [this]
        rfl
      | failure e c => exact absurd h1 (c12_many0_never_fails _ _ _ _)
      | _ => trivial
    | plus a iha =>
      intro hp s hs
      have ha := iha hp s hs
      simp only [parserOf, bareOf, Exp.parser, Exp.bare, discard] at ha ⊢
      cases h1 : many1 (a.parser (rules G n)) s with
      | success vs m =>
        obtain ⟨v, l, ws, k, h2, h3, -, rfl⟩ := (c13_many1_eq _ (parserOf_tame n a) _ _ _).1 h1
        simp only [parserOf] at h2
        rw [h2] at ha
        have hb := parserOf_bounds (G := G) (n := n) (e := a) hs h2
        obtain ⟨hrun, hf⟩ := c12_many0_sound _ _ _ _ h3
        obtain ⟨hrun, hf⟩ := run_bare (a := a) (iha hp)
          (fun s v k hs h => parserOf_bounds (G := G) (n := n) (e := a) hs h) hrun hb hf
        have h4 := c12_many0_complete _ (bareOf_tame n a) _ _ _ hrun hf
        have := (c13_many1_eq _ (bareOf_tame n a) _ _ _).2 ⟨(), l, ws, k, ha, h4, rfl, rfl⟩
        simp only [bareOf] at this
        rw [this]
        rfl
      | failure e c =>
        obtain ⟨e, c, h2⟩ := ((c13_many1_fails_iff _ _ hs _ _).1 h1).1
        rw [h2] at ha
        obtain ⟨e, c, ha, _⟩ := ha
        have := (c13_many1_fails_iff (a.bare flat (bareRules flat G n)) s hs _ _).2 ⟨⟨e, c, ha⟩, rfl, rfl⟩
        rw [this]
        exact ⟨_, _, rfl, nofun⟩
      | _ => trivial
    | opt a iha =>
      intro hp s hs
      have ha := iha hp s hs
      simp only [parserOf, bareOf, Exp.parser, Exp.bare, discard, OniComb.opt, or, map, attempt, successful] at ha ⊢
      cases h1 : a.parser (rules G n) s with
      | success v m =>
        rw [h1] at ha
        have ha : a.bare flat (bareRules flat G n) s = .success () m := ha
        rw [ha]
        rfl
      | failure e c =>
        rw [h1] at ha
        obtain ⟨e', c', ha, _⟩ := ha
        rw [ha]
        cases c <;> cases c' <;> rfl
      | _ => trivial
    | not a iha =>
      intro hp s hs
      have ha := iha hp s hs
      have h0 : (s.advanceBy 0).offset ≤ (s.advanceBy 0).input.length := hs
      simp only [parserOf, bareOf, Exp.parser, Exp.bare, not_, State.withInput, h0, if_true] at ha ⊢
      cases h1 : a.parser (rules G n) s with
      | success v m =>
        rw [h1] at ha
        have ha : a.bare flat (bareRules flat G n) s = .success () m := ha
        rw [ha]
        exact ⟨_, _, rfl, nofun⟩
      | failure e c =>
        rw [h1] at ha
        obtain ⟨e', c', ha, _⟩ := ha
        rw [ha]
        rfl
      | _ => trivial
    | look a iha =>
      intro hp s hs
      have ha := iha hp s hs
      simp only [parserOf, bareOf, Exp.parser, Exp.bare, discard, peek] at ha ⊢
      cases h1 : a.parser (rules G n) s with
      | success v m =>
        rw [h1] at ha
        have ha : a.bare flat (bareRules flat G n) s = .success () m := ha
        rw [ha]
        rfl
      | failure e c =>
        rw [h1] at ha
        obtain ⟨e', c', ha, hc⟩ := ha
        rw [ha]
        refine ⟨_, _, rfl, fun h => ?_⟩
        obtain ⟨x, u, hu, hx⟩ := hc h
        exact ⟨x, u, hu, .look hx⟩
      | _ => trivial
    | rule x => exact fun _ => hr x

/-! ## C131 -/

/-- Where the next element decides between the alternatives, `attempt` can be left out although `flat_map` commits:
whenever the parser with `attempt` answers, the one without it gives the same answer. -/
theorem c131_agree (flat : Bool) (G : N → Exp I N) (hG : ∀ x, (G x).Predictive flat G) (e : Exp I N) (he : e.Predictive flat G) (n : Nat)
    (s : State I) (hs : s.offset ≤ s.input.length) (r : Option Nat) (h : Gives (parserOf G n e) s r) :
    Gives (bareOf flat G n e) s r := by
  have := bareOf_follows hG n e he s hs
  cases r with
  | some m =>
    simp only [Gives] at h
    rw [h] at this
    exact this
  | none =>
    obtain ⟨e', c, h⟩ := h
    rw [h] at this
    obtain ⟨e', c, h, _⟩ := this
    exact ⟨e', c, h⟩

/-- So it does everything that the grammar says. -/
theorem c131_reads (flat : Bool) (G : N → Exp I N) (hG : ∀ x, (G x).Predictive flat G) (e : Exp I N) (he : e.Predictive flat G) (s : State I)
    (hs : s.offset ≤ s.input.length) (r : Option Nat) (h : Reads G e (s.input.drop s.offset) r) :
    ∃ k, ∀ n, k ≤ n → Gives (bareOf flat G n e) s r := by
  obtain ⟨k, h⟩ := (c129_stable G e s hs r).1 h
  exact ⟨k, fun n hn => c131_agree flat G hG e he n s hs r (h n hn)⟩

/-- And nothing else, if the grammar always answers. -/
theorem c131_exact (flat : Bool) (G : N → Exp I N) (hG : ∀ x, (G x).Predictive flat G) (hw : ∀ x, (G x).NoIdleLoop G)
    (hl : NoLeftRecursion G) (e : Exp I N) (he : e.Predictive flat G) (hi : e.NoIdleLoop G) (s : State I)
    (hs : s.offset ≤ s.input.length) (r : Option Nat) :
    Reads G e (s.input.drop s.offset) r ↔ ∃ k, ∀ n, k ≤ n → Gives (bareOf flat G n e) s r := by
  refine ⟨c131_reads flat G hG e he s hs r, fun ⟨k, h⟩ => ?_⟩
  obtain ⟨r', hr⟩ := c130_total G hw hl e hi (s.input.drop s.offset)
  obtain ⟨l, h'⟩ := c131_reads flat G hG e he s hs r' hr
  have h := h (max k l) (by omega)
  have h' := h' (max k l) (by omega)
  have : r = r' := by
    cases r <;> cases r' <;> simp only [Gives, Fails] at h h'
    · rfl
    · obtain ⟨_, _, h⟩ := h; rw [h] at h'; cases h'
    · obtain ⟨_, _, h'⟩ := h'; rw [h] at h'; cases h'
    · rw [h] at h'; cases h'; rfl
  rw [this]
  exact hr

/-- The condition cannot be left out: if the first alternative has read something when it fails, the second one is not
tried. -/
theorem c131_lost (G : N → Exp I N) (hG : ∀ x, (G x).Predictive true G) (a b e : Exp I N) (ha : a.Predictive true G)
    (hb : b.Predictive true G) (s : State I) (hs : s.offset ≤ s.input.length) (m : Nat)
    (h1 : Reads G a (s.input.drop s.offset) (some (m + 1)))
    (h2 : Reads G b (s.input.drop (s.offset + (m + 1))) none) :
    ∃ k, ∀ n, k ≤ n → Gives (bareOf true G n (.alt (.seq a b) e)) s none := by
  obtain ⟨k, h1⟩ := c131_reads true G hG a ha s hs _ h1
  have hl : s.offset + (m + 1) ≤ s.input.length :=
    c04_in_bounds (fun _ _ h => h.elim) (bare_built (bareRules_built true G k) a) s _ _ hs (h1 k (Nat.le_refl _))
  obtain ⟨l, h2⟩ := c131_reads true G hG b hb ⟨s.input, s.offset + (m + 1)⟩ hl _ h2
  refine ⟨max k l, fun n hn => ?_⟩
  have h1 := h1 n (by omega)
  obtain ⟨er, c, h2⟩ := h2 n (by omega)
  simp only [Gives, bareOf] at h1 h2
  refine ⟨er, .committed, ?_⟩
  have := bare_seq_right h1 h2
  simp only [bareOf, Exp.bare, or] at this ⊢
  rw [this]
  cases c <;> rfl

/-- The same for texts, with `+` as well: if the first alternative begins with a text that differs after its first
element, the second one is not tried. -/
theorem c131_text_lost (flat : Bool) (G : N → Exp I N) (e : Exp I N) (c d x : I) (w v u : List I) (hd : d ≠ x)
    (s : State I) (hs : s.offset ≤ s.input.length) (hu : s.input.drop s.offset = c :: (v ++ x :: u)) (n : Nat) :
    Gives (bareOf flat G n (.alt (.text (c :: (v ++ d :: w))) e)) s none := by
  obtain ⟨er, h⟩ := (c24_seq_committed_iff (c :: (v ++ d :: w)) s hs).2
    ⟨v.length + 1, by omega, ⟨d, x, by simp, by simp [hu], hd⟩, by simp [hu]⟩
  exact ⟨er, .committed, by simp only [bareOf, Exp.bare, or, discard, h]⟩

/-- Signed numbers, `"-" digit+ | digit+`, need no `attempt`. -/
def signed : Unit → Exp Char Unit := fun _ =>
  .alt (.seq (.elem (· == '-')) (.plus (.elem Chr.isDigit))) (.plus (.elem Chr.isDigit))

theorem signed_predictive (x : Unit) : (signed x).Predictive true signed := by
  refine ⟨⟨trivial, trivial⟩, trivial, fun c h => ⟨nofun, fun h' => ?_⟩⟩
  have hd : Chr.isDigit c = true := by cases h' with | plus h' => cases h' with | elem h' => exact h'
  have ha : Starts signed c (.elem (· == '-')) → False := fun ha => by
    cases ha with
    | elem h => rw [beq_iff_eq.1 h] at hd; exact absurd hd (by decide)
  cases h with
  | seq _ _ h => exact ha h
  | seqLater h _ => exact ha h
  | seqLeft _ h => cases h
  | seqRight h _ => cases h

example : Gives (bareOf true signed 1 (.rule ())) ⟨"-12".toList, 0⟩ (some 3) := by unfold Gives; decide +kernel
example (n : Nat) (s : State Char) (hs : s.offset ≤ s.input.length) (r : Option Nat)
    (h : Gives (parserOf signed n (.rule ())) s r) : Gives (bareOf true signed n (.rule ())) s r :=
  c131_agree true signed signed_predictive (.rule ()) trivial n s hs r h

/-- Keywords that start with different letters, `"true" | "false"`, need none either. -/
example (n : Nat) (s : State Char) (hs : s.offset ≤ s.input.length) (r : Option Nat)
    (h : Gives (parserOf signed n (.alt (.text "true".toList) (.text "false".toList))) s r) :
    Gives (bareOf true signed n (.alt (.text "true".toList) (.text "false".toList))) s r := by
  refine c131_agree true signed signed_predictive (.alt (.text "true".toList) (.text "false".toList))
    ⟨trivial, trivial, fun c h => ⟨nofun, fun h' => ?_⟩⟩ n s hs r h
  generalize ht : "true".toList = t at h
  generalize hf : "false".toList = f at h'
  cases h
  cases h'
  simp at ht hf
  exact absurd (ht.1.trans hf.1.symm) (by decide)

/-- `"a" "b" | "a" "c"` does not read `ac` without `attempt`. -/
example : ∃ k, ∀ n, k ≤ n → Gives (bareOf true signed n (.alt (.seq (.elem (· == 'a')) (.elem (· == 'b')))
    (.seq (.elem (· == 'a')) (.elem (· == 'c'))))) ⟨"ac".toList, 0⟩ none :=
  c131_lost signed signed_predictive (.elem _) (.elem _) _ trivial trivial ⟨"ac".toList, 0⟩ (by decide) 0 (.elem rfl)
    (.elemOther rfl)

/-- Nor does `"let" | "less"` read `less`. -/
example (n : Nat) : Gives (bareOf false signed n (.alt (.text "let".toList) (.text "less".toList))) ⟨"less".toList, 0⟩ none :=
  c131_text_lost false signed (.text "less".toList) 'l' 't' 's' [] ['e'] ['s'] (by decide) ⟨"less".toList, 0⟩ (by decide) rfl n

/-- The parsers with `+` never fail committed. -/
theorem parserOf_calm (G : N → Exp I N) (hG : ∀ x, (G x).Short) : ∀ n (e : Exp I N), e.Short → ∀ (s : State I) er,
    parserOf G n e s ≠ .failure er .committed := by
  intro n
  induction n with
  | zero => exact of_rules 0 fun x s er h => nomatch h
  | succ n ih => exact of_rules (n + 1) fun x => ih (G x) (hG x)
where
  of_rules (n : Nat) (h : ∀ x (s : State I) er, rules G n x s ≠ .failure er .committed) : ∀ e : Exp I N,
      e.Short → ∀ (s : State I) er, parserOf G n e s ≠ .failure er .committed := by
    intro e
    induction e with
    | empty => intro _ s er h; cases h
    | elem f =>
      intro hp s er
      simp only [parserOf, Exp.parser, discard, elmPred, State.withInput]
      by_cases hs : s.offset ≤ s.input.length
      · simp only [hs, if_true]
        cases s.input.drop s.offset with
        | nil => simp
        | cons c t => cases hc : f c <;> simp [hc]
      · simp [hs]
    | text w =>
      intro hp s er
      simp only [parserOf, Exp.parser, discard]
      by_cases hs : s.offset ≤ s.input.length
      · cases h1 : OniComb.seq w s with
        | failure e c =>
          intro hc
          simp only [Res.failure.injEq] at hc
          obtain ⟨-, rfl⟩ := hc
          obtain ⟨k, hk, ⟨a, x, ha, -⟩, -⟩ := (c24_seq_committed_iff w s hs).1 ⟨e, h1⟩
          obtain ⟨hl, -⟩ := List.getElem?_eq_some_iff.1 ha
          have : w.length ≤ 1 := hp
          omega
        | _ => simp
      · simp [OniComb.seq, State.withInput, hs]
    | seq a b iha ihb =>
      intro hp s er
      have ha := iha hp.1 s er
      simp only [parserOf, Exp.parser, discard, andThen] at ha ⊢
      cases h1 : a.parser (rules G n) s with
      | success v m =>
        have hb := ihb hp.2 (s.advanceBy m) er
        simp only [parserOf] at hb
        dsimp only
        cases h2 : b.parser (rules G n) (s.advanceBy m) with
        | failure e c => rw [h2] at hb; simpa using hb
        | _ => simp
      | failure e c => rw [h1] at ha; simpa using ha
      | _ => simp
    | alt a b iha ihb =>
      intro hp s er
      have hb := ihb hp.2 s er
      simp only [parserOf, Exp.parser, or, attempt] at hb ⊢
      cases a.parser (rules G n) s with
      | failure e c => cases c <;> exact hb
      | _ => simp [Res.withUncommitted]
    | star a iha =>
      intro hp s er
      simp only [parserOf, Exp.parser, discard]
      cases h1 : many0 (a.parser (rules G n)) s with
      | failure e c => exact absurd h1 (c12_many0_never_fails _ _ _ _)
      | _ => simp
    | plus a iha =>
      intro hp s er
      simp only [parserOf, Exp.parser, discard]
      cases h1 : many1 (a.parser (rules G n)) s with
      | failure e c =>
        have : c = .uncommitted := by
          revert h1
          simp only [many1, repeatSep, repFinish, Range.from_, State.withInput]
          repeat' split
          all_goals simp
          all_goals exact fun _ h => h.symm
        simp [this]
      | _ => simp
    | opt a iha =>
      intro hp s er
      simp only [parserOf, Exp.parser, discard]
      cases h1 : OniComb.opt (a.parser (rules G n)) s with
      | failure e c => exact absurd h1 (c10_opt_never_fails _ _ _ _)
      | _ => simp
    | not a iha =>
      intro hp s er
      simp only [parserOf, Exp.parser, not_, State.withInput]
      cases a.parser (rules G n) s with
      | success v m => dsimp only; split <;> simp
      | _ => simp
    | look a iha =>
      intro hp s er
      have ha := iha hp s er
      simp only [parserOf, Exp.parser, discard, peek] at ha ⊢
      cases h1 : a.parser (rules G n) s with
      | failure e c => rw [h1] at ha; simpa using ha
      | _ => simp
    | rule x => exact fun _ => h x

/-- With `+` in place of `flat_map` and without texts of several elements no grammar needs `attempt`: the parsers are the
same. -/
theorem c131_plus (G : N → Exp I N) (hG : ∀ x, (G x).Short) : ∀ n (e : Exp I N), e.Short →
    bareOf false G n e = parserOf G n e := by
  intro n
  induction n with
  | zero => exact of_rules 0 fun x => rfl
  | succ n ih => exact of_rules (n + 1) fun x => ih (G x) (hG x)
where
  of_rules (n : Nat) (h : ∀ x, bareRules false G n x = rules G n x) : ∀ e : Exp I N, e.Short →
      bareOf false G n e = parserOf G n e := by
    intro e
    simp only [bareOf, parserOf]
    induction e with
    | empty | elem | text => exact fun _ => rfl
    | seq a b iha ihb => intro hp; simp [Exp.bare, Exp.parser, iha hp.1, ihb hp.2]
    | alt a b iha ihb =>
      intro hp
      simp only [Exp.bare, Exp.parser, iha hp.1, ihb hp.2]
      funext s
      have := parserOf_calm G hG n a hp.1 s
      simp only [parserOf] at this
      simp only [or, attempt]
      cases h1 : a.parser (rules G n) s with
      | failure e c =>
        cases c with
        | uncommitted => rfl
        | committed => exact absurd h1 (this e)
      | _ => rfl
    | star a iha => intro hp; simp only [Exp.bare, Exp.parser, iha hp]
    | plus a iha => intro hp; simp only [Exp.bare, Exp.parser, iha hp]
    | opt a iha => intro hp; simp only [Exp.bare, Exp.parser, iha hp]
    | not a iha => intro hp; simp only [Exp.bare, Exp.parser, iha hp]
    | look a iha => intro hp; simp only [Exp.bare, Exp.parser, iha hp]
    | rule x => exact fun _ => h x

example (n : Nat) : bareOf false parens n (.rule ()) = parserOf parens n (.rule ()) :=
  c131_plus parens (fun _ => by simp [parens, Exp.Short]) n (.rule ()) trivial

end OniComb.Peg
