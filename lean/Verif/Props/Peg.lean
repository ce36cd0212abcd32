import Verif.Spec.Peg
import Verif.Props.Built
import Verif.Props.Laws
import Verif.Props.Repeat
import Verif.Props.Elements

/-!
# Parsers as parsing expression grammars (C129)
-/

namespace OniComb.Peg
open OniComb
variable {I N : Type} {G : N → Exp I N} [DecidableEq I]

/-- The outcome of a run: success with a length, or failure. -/
def Gives (p : Parser I Unit) (s : State I) : Option Nat → Prop
  | some n => p s = .success () n
  | none => Fails p s

theorem parser_built {rs : N → Parser I Unit} (h : ∀ x, Built NoPrim false (rs x)) :
    ∀ e : Exp I N, Built NoPrim false (e.parser rs)
  | .empty => .successful _
  | .elem f => .discard _ (.elmPred f)
  | .text w => .discard _ (.seq w)
  | .seq a b => .discard _ (.andThen _ _ (parser_built h a) (parser_built h b))
  | .alt a b => .or _ _ (.attempt _ (parser_built h a)) (parser_built h b)
  | .star a => .discard _ (.repeat_ _ _ (parser_built h a))
  | .plus a => .discard _ (.repeat_ _ _ (parser_built h a))
  | .opt a => .discard _ (.or _ _ (.map _ _ (.attempt _ (parser_built h a))) (.successful _))
  | .not a => .not_ _ (parser_built h a)
  | .look a => .discard _ (.peek _ (parser_built h a))
  | .rule x => h x

theorem rules_built (G : N → Exp I N) : ∀ n x, Built NoPrim false (rules G n x)
  | 0, _ => .diverging
  | n + 1, x => .lazy _ (parser_built (rules_built G n) (G x))

theorem parserOf_built (G : N → Exp I N) (n : Nat) (e : Exp I N) : Built NoPrim false (parserOf G n e) :=
  parser_built (rules_built G n) e

theorem parserOf_tame (n : Nat) (e : Exp I N) : Tame (parserOf G n e) :=
  c14_built_tame (fun _ _ h => h.elim) (parserOf_built G n e)

theorem parserOf_bounds {n : Nat} {e : Exp I N} {s : State I} (hs : s.offset ≤ s.input.length) {m : Nat}
    (h : parserOf G n e s = .success () m) : s.offset + m ≤ s.input.length :=
  c04_in_bounds (fun _ _ h => h.elim) (parserOf_built G n e) s _ m hs h

theorem parserOf_noPanic (n : Nat) (e : Exp I N) {s : State I} (hs : s.offset ≤ s.input.length) :
    parserOf G n e s ≠ .panic :=
  c05_no_panic (fun _ _ h => h.elim) (parserOf_built G n e) s hs

/-- The meaning of a result. -/
def Means (G : N → Exp I N) (e : Exp I N) (t : List I) : Res I Unit → Prop
  | .success _ n => Reads G e t (some n)
  | .failure _ _ => Reads G e t none
  | _ => True

omit [DecidableEq I] in
theorem Means.of_success {e : Exp I N} {t : List I} {p : Parser I Unit} {s : State I} {n : Nat}
    (h : Means G e t (p s)) (hp : p s = .success () n) : Reads G e t (some n) := by rw [hp] at h; exact h

omit [DecidableEq I] in
theorem Means.of_fails {e : Exp I N} {t : List I} {p : Parser I Unit} {s : State I}
    (h : Means G e t (p s)) (hp : Fails p s) : Reads G e t none := by
  obtain ⟨_, _, hp⟩ := hp
  rw [hp] at h
  exact h

theorem star_of_run {a : Exp I N} {p : Parser I Unit}
    (ih : ∀ s : State I, s.offset ≤ s.input.length → Means G a (s.input.drop s.offset) (p s)) (hp : InBounds p)
    {s : State I} {vs : List Unit} {n : Nat} (hr : Run p s vs n) (hs : s.offset ≤ s.input.length)
    (hf : Fails p ⟨s.input, s.offset + n⟩) : Reads G (.star a) (s.input.drop s.offset) (some n) := by
  induction hr with
  | nil s => exact .starEnd ((ih s hs).of_fails (by simpa using hf))
  | @cons s n m v vs h1 _ ihr =>
    have hb := hp s v n hs h1
    refine .starMore ((ih s hs).of_success h1) ?_
    rw [List.drop_drop]
    exact ihr hb (by simpa [Nat.add_assoc] using hf)

/-- The parsers do what the grammar says. -/
theorem parserOf_sound (G : N → Exp I N) : ∀ (n : Nat) (e : Exp I N) (s : State I), s.offset ≤ s.input.length →
    Means G e (s.input.drop s.offset) (parserOf G n e s) := by
  intro n
  induction n with
  | zero =>
    intro e
    refine sound_of_rules 0 (fun x s _ => ?_) e
    exact trivial
  | succ n ihn =>
    intro e
    refine sound_of_rules (n + 1) (fun x s hs => ?_) e
    have := ihn (G x) s hs
    show Means G (.rule x) _ (parserOf G n (G x) s)
    cases h : parserOf G n (G x) s with
    | success v m => rw [h] at this; exact .rule this
    | failure e c => rw [h] at this; exact .rule this
    | _ => trivial
where
  sound_of_rules (n : Nat) (hr : ∀ (x : N) (s : State I), s.offset ≤ s.input.length →
      Means G (.rule x) (s.input.drop s.offset) (rules G n x s)) : ∀ (e : Exp I N) (s : State I),
      s.offset ≤ s.input.length → Means G e (s.input.drop s.offset) (parserOf G n e s) := by
    intro e
    induction e with
    | empty => intro s _; exact .empty _
    | elem f =>
      intro s hs
      simp only [parserOf, Exp.parser, discard, elmPred, State.withInput, hs, if_true]
      cases s.input.drop s.offset with
      | nil => exact .elemEnd f
      | cons c t =>
        dsimp only
        cases hc : f c with
        | true => exact .elem hc
        | false => exact .elemOther hc
    | text w =>
      intro s hs
      simp only [parserOf, Exp.parser, discard]
      cases h1 : OniComb.seq w s with
      | success v m =>
        obtain ⟨-, rfl, h⟩ := (c24_seq_success_iff w s hs _ _).1 h1
        exact .text h
      | failure e c =>
        refine .textOther fun h => ?_
        rw [(c24_seq_success_iff w s hs _ _).2 ⟨rfl, rfl, h⟩] at h1
        cases h1
      | _ => trivial
    | seq a b iha ihb =>
      intro s hs
      have ha := iha s hs
      simp only [parserOf, Exp.parser, discard, andThen] at ha ⊢
      cases h1 : a.parser (rules G n) s with
      | success v m =>
        rw [h1] at ha
        have hb' := parserOf_bounds (G := G) (n := n) (e := a) hs h1
        have hb := ihb (s.advanceBy m) hb'
        simp only [State.advanceBy, ← List.drop_drop] at hb ⊢
        simp only [parserOf] at hb
        cases h2 : b.parser (rules G n) ⟨s.input, s.offset + m⟩ with
        | success w k => rw [h2] at hb; exact .seq ha hb
        | failure e c => rw [h2] at hb; exact .seqRight ha hb
        | _ => trivial
      | failure e c => rw [h1] at ha; exact .seqLeft ha
      | _ => trivial
    | alt a b iha ihb =>
      intro s hs
      have ha := iha s hs
      have hb := ihb s hs
      simp only [parserOf, Exp.parser, or, attempt] at ha hb ⊢
      cases h1 : a.parser (rules G n) s with
      | success v m => rw [h1] at ha; exact .altLeft ha
      | failure e c =>
        rw [h1] at ha
        have : Means G (.alt a b) (s.input.drop s.offset) (b.parser (rules G n) s) := by
          cases h2 : b.parser (rules G n) s with
          | success w k => rw [h2] at hb; exact .altRight ha hb
          | failure e c => rw [h2] at hb; exact .altRight ha hb
          | _ => trivial
        cases c <;> exact this
      | _ => trivial
    | star a iha =>
      intro s hs
      simp only [parserOf, Exp.parser, discard]
      cases h1 : many0 (a.parser (rules G n)) s with
      | success vs m =>
        obtain ⟨hrun, hf⟩ := c12_many0_sound _ _ _ _ h1
        exact star_of_run (a := a) iha (fun s v k hs h => parserOf_bounds (G := G) (n := n) (e := a) hs h) hrun hs hf
      | failure e c => exact absurd h1 (c12_many0_never_fails _ _ _ _)
      | _ => trivial
    | plus a iha =>
      intro s hs
      simp only [parserOf, Exp.parser, discard]
      cases h1 : many1 (a.parser (rules G n)) s with
      | success vs m =>
        obtain ⟨v, l, ws, k, h2, h3, -, rfl⟩ := (c13_many1_eq _ (parserOf_tame n a) _ _ _).1 h1
        have hb := parserOf_bounds (G := G) (n := n) (e := a) hs h2
        obtain ⟨hrun, hf⟩ := c12_many0_sound _ _ _ _ h3
        refine .plus (.seq ((iha s hs).of_success h2) ?_)
        rw [List.drop_drop]
        exact star_of_run (a := a) iha (fun s v k hs h => parserOf_bounds (G := G) (n := n) (e := a) hs h) hrun hb hf
      | failure e c =>
        exact .plus (.seqLeft ((iha s hs).of_fails ((c13_many1_fails_iff _ _ hs _ _).1 h1).1))
      | _ => trivial
    | opt a iha =>
      intro s hs
      have ha := iha s hs
      simp only [parserOf, Exp.parser, discard] at ha ⊢
      cases h1 : OniComb.opt (a.parser (rules G n)) s with
      | success v m =>
        cases v with
        | some v => exact .opt (.altLeft ((iha s hs).of_success ((c10_opt_some_iff _ _ _ _).1 h1)))
        | none =>
          obtain ⟨rfl, hf⟩ := (c10_opt_none_iff _ _ _).1 h1
          exact .opt (.altRight ((iha s hs).of_fails hf) (.empty _))
      | failure e c => exact absurd h1 (c10_opt_never_fails _ _ _ _)
      | _ => trivial
    | not a iha =>
      intro s hs
      have ha := iha s hs
      simp only [parserOf, Exp.parser, not_] at ha ⊢
      cases h1 : a.parser (rules G n) s with
      | success v m =>
        rw [h1] at ha
        have : (s.advanceBy 0).offset ≤ (s.advanceBy 0).input.length := hs
        simp only [State.withInput, this, if_true]
        exact .notFound ha
      | failure e c => rw [h1] at ha; exact .notMissing ha
      | _ => trivial
    | look a iha =>
      intro s hs
      have ha := iha s hs
      simp only [parserOf, Exp.parser, discard, peek] at ha ⊢
      cases h1 : a.parser (rules G n) s with
      | success v m => rw [h1] at ha; exact .lookFound ha
      | failure e c => rw [h1] at ha; exact .lookMissing ha
      | _ => trivial
    | rule x => exact hr x

/-! ## Everything that the grammar says is done -/

theorem seq_ne_diverge (w : List I) (s : State I) : OniComb.seq w s ≠ .diverge := by
  have loop : ∀ (inp lit pat rest : List I) (i : Nat),
      seqLoop (fun c x => decide (c = x)) s inp lit i pat rest ≠ .diverge := by
    intro inp lit pat
    induction pat with
    | nil => intro rest i; simp [seqLoop]
    | cons c pat ih =>
      intro rest i
      cases rest with
      | nil => simp [seqLoop]
      | cons x rest =>
        simp only [seqLoop]
        split
        · exact ih _ _
        · simp
  simp only [OniComb.seq, State.withInput]
  split
  · exact loop _ _ _ _ _
  · simp


/-- With all rules unrolled often enough the parser has this outcome. -/
def Ends (G : N → Exp I N) (e : Exp I N) (s : State I) (r : Option Nat) : Prop :=
  ∃ k, ∀ n, k ≤ n → Gives (parserOf G n e) s r

theorem parserOf_complete {e : Exp I N} {t : List I} {r : Option Nat} (h : Reads G e t r) :
    ∀ s : State I, s.offset ≤ s.input.length → s.input.drop s.offset = t → Ends G e s r := by
  have next : ∀ {a : Exp I N} {s : State I} {t : List I} {k n : Nat}, s.offset ≤ s.input.length →
      s.input.drop s.offset = t → Gives (parserOf G k a) s (some n) →
      (s.advanceBy n).offset ≤ (s.advanceBy n).input.length ∧
        (s.advanceBy n).input.drop (s.advanceBy n).offset = t.drop n := by
    rintro a s t k n hs rfl h
    exact ⟨parserOf_bounds (G := G) hs h, by simp [State.advanceBy, List.drop_drop]⟩
  induction h with
  | empty t => exact fun s _ _ => ⟨0, fun n _ => rfl⟩
  | elem h =>
    intro s hs ht
    refine ⟨0, fun n _ => ?_⟩
    simp [Gives, parserOf, Exp.parser, discard, elmPred, State.withInput, hs, ht, h]
  | elemOther h =>
    intro s hs ht
    refine ⟨0, fun n _ => ?_⟩
    simp [Gives, Fails, parserOf, Exp.parser, discard, elmPred, State.withInput, hs, ht, h]
  | elemEnd f =>
    intro s hs ht
    refine ⟨0, fun n _ => ?_⟩
    simp [Gives, Fails, parserOf, Exp.parser, discard, elmPred, State.withInput, hs, ht]
  | @text w t h =>
    intro s hs ht
    refine ⟨0, fun n _ => ?_⟩
    simp [Gives, parserOf, Exp.parser, discard, (c24_seq_success_iff w s hs _ _).2 ⟨rfl, rfl, ht ▸ h⟩]
  | @textOther w t h =>
    intro s hs ht
    refine ⟨0, fun n _ => ?_⟩
    have h2 := parserOf_noPanic (G := G) n (.text w) hs
    simp only [Gives, Fails, parserOf, Exp.parser, discard] at h2 ⊢
    cases h1 : OniComb.seq w s with
    | success v m =>
      obtain ⟨-, rfl, h3⟩ := (c24_seq_success_iff w s hs _ _).1 h1
      exact absurd (ht ▸ h3) h
    | failure e c => exact ⟨_, _, rfl⟩
    | panic => rw [h1] at h2; exact absurd rfl h2
    | diverge => exact absurd h1 (seq_ne_diverge w s)
  | seq _ _ iha ihb =>
    intro s hs ht
    obtain ⟨k, ha⟩ := iha s hs ht
    obtain ⟨h1, h2⟩ := next hs ht (ha k (Nat.le_refl _))
    obtain ⟨l, hb⟩ := ihb _ h1 h2
    refine ⟨max k l, fun n hn => ?_⟩
    have ha := ha n (by omega)
    have hb := hb n (by omega)
    simp only [Gives, parserOf] at ha hb
    simp [Gives, parserOf, Exp.parser, discard, andThen, ha, hb]
  | seqLeft _ iha =>
    intro s hs ht
    obtain ⟨k, ha⟩ := iha s hs ht
    refine ⟨k, fun n hn => ?_⟩
    obtain ⟨e, c, ha⟩ := ha n hn
    simp only [parserOf] at ha
    simp [Gives, Fails, parserOf, Exp.parser, discard, andThen, ha]
  | seqRight _ _ iha ihb =>
    intro s hs ht
    obtain ⟨k, ha⟩ := iha s hs ht
    obtain ⟨h1, h2⟩ := next hs ht (ha k (Nat.le_refl _))
    obtain ⟨l, hb⟩ := ihb _ h1 h2
    refine ⟨max k l, fun n hn => ?_⟩
    have ha := ha n (by omega)
    obtain ⟨e, c, hb⟩ := hb n (by omega)
    simp only [Gives, parserOf] at ha hb
    simp [Gives, Fails, parserOf, Exp.parser, discard, andThen, ha, hb]
  | altLeft _ iha =>
    intro s hs ht
    obtain ⟨k, ha⟩ := iha s hs ht
    refine ⟨k, fun n hn => ?_⟩
    have ha := ha n hn
    simp only [Gives, parserOf] at ha
    simp [Gives, parserOf, Exp.parser, or, attempt, ha, Res.withUncommitted]
  | @altRight a b t r _ _ iha ihb =>
    intro s hs ht
    obtain ⟨k, ha⟩ := iha s hs ht
    obtain ⟨l, hb⟩ := ihb s hs ht
    refine ⟨max k l, fun n hn => ?_⟩
    obtain ⟨e, c, ha⟩ := ha n (by omega)
    have hb := hb n (by omega)
    have : parserOf G n (.alt a b) s = parserOf G n b s := by
      simp only [parserOf] at ha
      cases c <;> simp [parserOf, Exp.parser, or, attempt, ha, Res.withUncommitted]
    cases r <;> simpa only [Gives, Fails, this] using hb
  | @starEnd a t _ iha =>
    intro s hs ht
    obtain ⟨k, ha⟩ := iha s hs ht
    refine ⟨k, fun n hn => ?_⟩
    have : many0 (a.parser (rules G n)) s = .success [] 0 :=
      c12_many0_complete _ (parserOf_tame n a) s [] 0 (.nil s) (by simpa using! ha n hn)
    simp [Gives, parserOf, Exp.parser, discard, this]
  | @starMore a t n m _ _ iha ihs =>
    intro s hs ht
    obtain ⟨k, ha⟩ := iha s hs ht
    obtain ⟨h1, h2⟩ := next hs ht (ha k (Nat.le_refl _))
    obtain ⟨l, hb⟩ := ihs _ h1 h2
    refine ⟨max k l, fun j hj => ?_⟩
    have ha := ha j (by omega)
    have hb := hb j (by omega)
    simp only [Gives, parserOf, Exp.parser, discard] at hb
    cases h3 : many0 (a.parser (rules G j)) (s.advanceBy n) with
    | success vs m' =>
      simp only [h3, Res.success.injEq, true_and] at hb
      subst hb
      obtain ⟨hrun, hf⟩ := c12_many0_sound _ _ _ _ h3
      have : many0 (a.parser (rules G j)) s = .success (() :: vs) (n + m') :=
        c12_many0_complete _ (parserOf_tame j a) s _ _ (.cons ha hrun)
          (by simpa [State.advanceBy, Nat.add_assoc, parserOf] using hf)
      simp [Gives, parserOf, Exp.parser, discard, this]
    | _ => simp [h3] at hb
  | @plus a t r hp ih =>
    intro s hs ht
    obtain ⟨k, h⟩ := ih s hs ht
    refine ⟨k, fun n hn => ?_⟩
    have h := h n hn
    have h1 := parserOf_noPanic (G := G) n (.seq a (.star a)) hs
    cases r with
    | some m =>
      simp only [Gives, parserOf, Exp.parser, discard, andThen] at h
      cases ha : a.parser (rules G n) s with
      | success v l =>
        simp only [ha] at h
        cases hb : many0 (a.parser (rules G n)) (s.advanceBy l) with
        | success vs m' =>
          simp only [hb, Res.success.injEq, true_and] at h
          have : many1 (a.parser (rules G n)) s = .success (v :: vs) m :=
            (c13_many1_eq _ (parserOf_tame n a) _ _ _).2 ⟨v, l, vs, m', ha, hb, rfl, h.symm⟩
          simp [Gives, parserOf, Exp.parser, discard, this]
        | _ => simp [hb] at h
      | _ => simp [ha] at h
    | none =>
      obtain ⟨e, c, h⟩ := h
      simp only [parserOf, Exp.parser, discard, andThen] at h
      cases ha : a.parser (rules G n) s with
      | success v l =>
        simp only [ha] at h
        cases hb : many0 (a.parser (rules G n)) (s.advanceBy l) with
        | failure e c => exact absurd hb (c12_many0_never_fails _ _ _ _)
        | _ => simp [hb] at h
      | failure e c =>
        have := (c13_many1_fails_iff (a.parser (rules G n)) s hs _ _).2 ⟨⟨e, c, ha⟩, rfl, rfl⟩
        exact ⟨_, _, by simp only [parserOf, Exp.parser, discard, this]; rfl⟩
      | _ => simp [ha] at h
  | @opt a t r _ ih =>
    intro s hs ht
    obtain ⟨k, h⟩ := ih s hs ht
    refine ⟨k, fun n hn => ?_⟩
    have h := h n hn
    cases ha : a.parser (rules G n) s with
    | success v l =>
      cases r <;>
        simp [Gives, Fails, parserOf, Exp.parser, or, attempt, ha, Res.withUncommitted] at h
      simp [Gives, parserOf, Exp.parser, discard, or, attempt, OniComb.opt, map, ha, Res.withUncommitted, h]
    | failure e c =>
      cases r <;> cases c <;>
        simp [Gives, Fails, parserOf, Exp.parser, or, attempt, ha, Res.withUncommitted, unit, successful] at h <;>
        simp [Gives, parserOf, Exp.parser, discard, or, attempt, OniComb.opt, map, ha, Res.withUncommitted, successful, h]
    | _ => cases r <;> simp [Gives, Fails, parserOf, Exp.parser, or, attempt, ha, Res.withUncommitted] at h
  | notFound _ iha =>
    intro s hs ht
    obtain ⟨k, ha⟩ := iha s hs ht
    refine ⟨k, fun n hn => ?_⟩
    have ha := ha n hn
    simp only [Gives, parserOf] at ha
    have : (s.advanceBy 0).offset ≤ (s.advanceBy 0).input.length := hs
    simp [Gives, Fails, parserOf, Exp.parser, not_, ha, State.withInput, this]
  | notMissing _ iha =>
    intro s hs ht
    obtain ⟨k, ha⟩ := iha s hs ht
    refine ⟨k, fun n hn => ?_⟩
    obtain ⟨e, c, ha⟩ := ha n hn
    simp only [parserOf] at ha
    simp [Gives, parserOf, Exp.parser, not_, ha]
  | lookFound _ iha =>
    intro s hs ht
    obtain ⟨k, ha⟩ := iha s hs ht
    refine ⟨k, fun n hn => ?_⟩
    have ha := ha n hn
    simp only [Gives, parserOf] at ha
    simp [Gives, parserOf, Exp.parser, discard, peek, ha]
  | lookMissing _ iha =>
    intro s hs ht
    obtain ⟨k, ha⟩ := iha s hs ht
    refine ⟨k, fun n hn => ?_⟩
    obtain ⟨e, c, ha⟩ := ha n hn
    simp only [parserOf] at ha
    simp [Gives, Fails, parserOf, Exp.parser, discard, peek, ha]
  | @rule x t r _ ih =>
    intro s hs ht
    obtain ⟨k, h⟩ := ih s hs ht
    refine ⟨k + 1, fun n hn => ?_⟩
    obtain ⟨n, rfl⟩ : ∃ m, n = m + 1 := ⟨n - 1, by omega⟩
    exact h n (by omega)

/-! ## C129 -/

/-- Success: a parser written from a grammar reads exactly what the grammar says. -/
theorem c129_success (G : N → Exp I N) (e : Exp I N) (s : State I) (hs : s.offset ≤ s.input.length) (m : Nat) :
    (∃ n, parserOf G n e s = .success () m) ↔ Reads G e (s.input.drop s.offset) (some m) := by
  constructor
  · rintro ⟨n, h⟩
    exact (parserOf_sound G n e s hs).of_success h
  · intro h
    obtain ⟨k, h⟩ := parserOf_complete h s hs rfl
    exact ⟨k, h k (Nat.le_refl _)⟩

/-- Failure: and it fails exactly where the grammar says. -/
theorem c129_failure (G : N → Exp I N) (e : Exp I N) (s : State I) (hs : s.offset ≤ s.input.length) :
    (∃ n, Fails (parserOf G n e) s) ↔ Reads G e (s.input.drop s.offset) none := by
  constructor
  · rintro ⟨n, h⟩
    exact (parserOf_sound G n e s hs).of_fails h
  · intro h
    obtain ⟨k, h⟩ := parserOf_complete h s hs rfl
    exact ⟨k, h k (Nat.le_refl _)⟩

/-- The outcome does not change if the rules are unrolled further. -/
theorem c129_stable (G : N → Exp I N) (e : Exp I N) (s : State I) (hs : s.offset ≤ s.input.length) (r : Option Nat) :
    Reads G e (s.input.drop s.offset) r ↔ ∃ k, ∀ n, k ≤ n → Gives (parserOf G n e) s r := by
  refine ⟨fun h => parserOf_complete h s hs rfl, fun ⟨k, h⟩ => ?_⟩
  have h := h k (Nat.le_refl _)
  cases r with
  | some m => exact (c129_success G e s hs m).1 ⟨k, h⟩
  | none => exact (c129_failure G e s hs).1 ⟨k, h⟩

/-- A grammar is not ambiguous. -/
theorem c129_unique (G : N → Exp I N) (e : Exp I N) (t : List I) (r r' : Option Nat) (h : Reads G e t r)
    (h' : Reads G e t r') : r = r' := by
  obtain ⟨k, h⟩ := parserOf_complete h ⟨t, 0⟩ (Nat.zero_le _) rfl
  obtain ⟨l, h'⟩ := parserOf_complete h' ⟨t, 0⟩ (Nat.zero_le _) rfl
  have h := h (max k l) (by omega)
  have h' := h' (max k l) (by omega)
  cases r <;> cases r' <;> simp only [Gives, Fails] at h h'
  · rfl
  · obtain ⟨_, _, h⟩ := h; rw [h] at h'; cases h'
  · obtain ⟨_, _, h'⟩ := h'; rw [h] at h'; cases h'
  · rw [h] at h'; cases h'; rfl

/-- The parser runs forever exactly where the grammar says nothing. -/
theorem c129_endless (G : N → Exp I N) (e : Exp I N) (s : State I) (hs : s.offset ≤ s.input.length) :
    (∀ n, parserOf G n e s = .diverge) ↔ ¬∃ r, Reads G e (s.input.drop s.offset) r := by
  constructor
  · rintro h ⟨r, hr⟩
    obtain ⟨k, hk⟩ := parserOf_complete hr s hs rfl
    have hk := hk k (Nat.le_refl _)
    cases r with
    | some m => simp only [Gives, h k] at hk; cases hk
    | none => obtain ⟨_, _, hk⟩ := hk; rw [h k] at hk; cases hk
  · intro h n
    have := parserOf_sound G n e s hs
    cases hp : parserOf G n e s with
    | success v m => rw [hp] at this; exact (h ⟨_, this⟩).elim
    | failure e c => rw [hp] at this; exact (h ⟨_, this⟩).elim
    | panic => exact (parserOf_noPanic n e hs hp).elim
    | diverge => rfl

/-- Rules that begin with themselves run forever, on every text. -/
theorem c129_left_recursion (G : N → Exp I N) (x : N) (b c : Exp I N) (hx : G x = .alt (.seq (.rule x) b) c)
    (s : State I) (hs : s.offset ≤ s.input.length) (n : Nat) : parserOf G n (.rule x) s = .diverge := by
  refine (c129_endless G _ s hs).2 ?_ n
  have key : ∀ {e : Exp I N} {t : List I} {r : Option Nat}, Reads G e t r → e ≠ .rule x ∧ e ≠ .seq (.rule x) b ∧
      e ≠ .alt (.seq (.rule x) b) c := by
    intro e t r h
    induction h with
    | seq _ _ iha _ => exact ⟨by simp, fun h => by cases h; exact iha.1 rfl, by simp⟩
    | seqLeft _ iha => exact ⟨by simp, fun h => by cases h; exact iha.1 rfl, by simp⟩
    | seqRight _ _ iha _ => exact ⟨by simp, fun h => by cases h; exact iha.1 rfl, by simp⟩
    | altLeft _ iha => exact ⟨by simp, by simp, fun h => by cases h; exact iha.2.1 rfl⟩
    | altRight _ _ iha _ => exact ⟨by simp, by simp, fun h => by cases h; exact iha.2.1 rfl⟩
    | rule _ ih => exact ⟨fun h => by cases h; exact ih.2.2 hx, by simp, by simp⟩
    | _ => simp
  rintro ⟨r, h⟩
  exact (key h).1 rfl

/-! ## A grammar -/

/-- Balanced parentheses, `S = "(" S ")" S / ""`. -/
def parens : Unit → Exp Char Unit := fun _ =>
  .alt (.seq (.elem (· == '(')) (.seq (.rule ()) (.seq (.elem (· == ')')) (.rule ())))) .empty

example : parserOf parens 9 (.rule ()) ⟨"(()())(".toList, 0⟩ = .success () 6 := by decide +kernel
example : Reads parens (.rule ()) "(()())(".toList (some 6) :=
  (c129_success parens _ ⟨"(()())(".toList, 0⟩ (by decide) 6).1 ⟨9, by decide +kernel⟩

/-- A text in parentheses that nothing follows. -/
example : Reads parens (.seq (.rule ()) (.not (.elem fun _ => true))) "(()".toList none :=
  (c129_failure parens _ ⟨"(()".toList, 0⟩ (by decide)).1 
    ⟨9, .mismatch "(()".toList 0 0, .uncommitted, by decide +kernel⟩

/-- Sums that begin with a sum. -/
example (s : State Char) (hs : s.offset ≤ s.input.length) (n : Nat) :
    parserOf (fun _ : Unit => .alt (.seq (.rule ()) (.seq (.elem (· == '+')) (.elem (· == '1')))) (.elem (· == '1'))) n
      (.rule ()) s = .diverge :=
  c129_left_recursion _ () _ _ rfl s hs n

end OniComb.Peg
