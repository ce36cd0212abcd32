import Verif.Spec.Recoded
import Verif.Lemmas.Twins

/-!
# Combinators keep the relation between parsers for two types of elements
-/

namespace OniComb
variable {I J A A' B B' : Type} {φ : I → J} {R : A → A' → Prop} {S : B → B' → Prop}

/-- The same outcome everywhere. -/
def RecastP (φ : I → J) (R : A → A' → Prop) (p : Parser I A) (p' : Parser J A') : Prop :=
  ∀ s, Recast φ R (p s) (p' (s.recode φ))

theorem Recast.elim {r : Res I A} {r' : Res J A'} (h : Recast φ R r r') :
    (∃ v v' n, r = .success v n ∧ r' = .success v' n ∧ R v v') ∨
    (∃ e e' c, r = .failure e c ∧ r' = .failure e' c ∧ e.recode φ = e') ∨
    (r = .panic ∧ r' = .panic) ∨ (r = .diverge ∧ r' = .diverge) := by
  cases r <;> cases r' <;> simp only [Recast] at h
  · obtain ⟨h, rfl⟩ := h; exact .inl ⟨_, _, _, rfl, rfl, h⟩
  · obtain ⟨h, rfl⟩ := h; exact .inr (.inl ⟨_, _, _, rfl, rfl, h⟩)
  · exact .inr (.inr (.inl ⟨rfl, rfl⟩))
  · exact .inr (.inr (.inr ⟨rfl, rfl⟩))

theorem recode_advanceBy (s : State I) (n : Nat) : (s.recode φ).advanceBy n = (s.advanceBy n).recode φ := rfl

theorem recode_isCustom (e : PError I) : (e.recode φ).isCustom = e.isCustom := by
  cases e <;> rfl

theorem repFuel_recode (b : Bound) (s : State I) : repFuel b (s.recode φ) = repFuel b s := by
  cases b <;> simp [repFuel, State.recode]

theorem Recast.withInput {s : State I} {k : List I → Res I A} {k' : List J → Res J A'}
    (h : ∀ l, Recast φ R (k l) (k' (l.map φ))) : Recast φ R (s.withInput k) ((s.recode φ).withInput k') := by
  unfold State.withInput
  simp only [State.recode, List.length_map, ← List.map_drop]
  split
  · exact h _
  · trivial

theorem Recast.withSlice {s : State I} {n : Nat} {k : List I → Res I A} {k' : List J → Res J A'}
    (h : ∀ l, Recast φ R (k l) (k' (l.map φ))) : Recast φ R (s.withSlice n k) ((s.recode φ).withSlice n k') := by
  unfold State.withSlice
  simp only [State.recode, List.length_map, ← List.map_drop, ← List.map_take]
  split
  · exact h _
  · trivial

theorem Recast.withSub {l : List I} {a b : Nat} {k : List I → Res I A} {k' : List J → Res J A'}
    (h : ∀ l, Recast φ R (k l) (k' (l.map φ))) : Recast φ R (withSub l a b k) (withSub (l.map φ) a b k') := by
  unfold OniComb.withSub
  simp only [List.length_map, ← List.map_drop, ← List.map_take]
  split
  · exact h _
  · trivial

theorem scanWhile_recode {f : I → Bool} {f' : J → Bool} (hf : ∀ x, f x = f' (φ x)) : ∀ (l : List I) (i : Nat)
    (st : Option Nat) (n : Nat), scanWhile f' i st n (l.map φ) = scanWhile f i st n l
  | [], _, _, _ => rfl
  | x :: l, i, st, n => by
    rw [List.map_cons, scanWhile, scanWhile, hf x, scanWhile_recode hf l, scanWhile_recode hf l]

theorem findTill_recode {f : I → Bool} {f' : J → Bool} (hf : ∀ x, f x = f' (φ x)) : ∀ (l : List I) (i : Nat),
    findTill f' i (l.map φ) = findTill f i l
  | [], _ => rfl
  | x :: l, i => by
    rw [List.map_cons, findTill, findTill, hf x, findTill_recode hf l]

theorem recast_seqLoop [DecidableEq I] [DecidableEq J] (hφ : ∀ x y, φ x = φ y → x = y) (s : State I) (inp lit : List I) :
    ∀ (pat rest : List I) (i : Nat), Recast φ (fun l l' => l.map φ = l')
      (seqLoop (fun c x => decide (c = x)) s inp lit i pat rest)
      (seqLoop (fun c x => decide (c = x)) (s.recode φ) (inp.map φ) (lit.map φ) i (pat.map φ) (rest.map φ))
  | [], _, _ => ⟨rfl, rfl⟩
  | _ :: _, [], _ => ⟨rfl, rfl⟩
  | c :: pat, x :: rest, i => by
    simp only [List.map_cons, seqLoop, decide_eq_true_eq]
    by_cases h : c = x
    · rw [if_pos h, if_pos (congrArg φ h)]
      exact recast_seqLoop hφ s inp lit pat rest (i + 1)
    · rw [if_neg h, if_neg fun h' => h (hφ _ _ h')]
      exact ⟨rfl, rfl⟩

theorem Recast.advanceSuccess {r : Res I A} {r' : Res J A'} (h : Recast φ R r r') (n : Nat) :
    Recast φ R (r.advanceSuccess n) (r'.advanceSuccess n) := by
  rcases h.elim with ⟨_, _, _, rfl, rfl, h⟩ | ⟨_, _, _, rfl, rfl, h⟩ | ⟨rfl, rfl⟩ | ⟨rfl, rfl⟩ <;>
    simp_all [Recast, Res.advanceSuccess]

theorem Recast.addCommit {r : Res I A} {r' : Res J A'} (h : Recast φ R r r') (b : Bool) :
    Recast φ R (r.addCommit b) (r'.addCommit b) := by
  rcases h.elim with ⟨_, _, _, rfl, rfl, h⟩ | ⟨_, _, _, rfl, rfl, h⟩ | ⟨rfl, rfl⟩ | ⟨rfl, rfl⟩ <;>
    simp_all [Recast, Res.addCommit]

theorem Recast.withUncommitted {r : Res I A} {r' : Res J A'} (h : Recast φ R r r') :
    Recast φ R r.withUncommitted r'.withUncommitted := by
  rcases h.elim with ⟨_, _, _, rfl, rfl, h⟩ | ⟨_, _, c, rfl, rfl, h⟩ | ⟨rfl, rfl⟩ | ⟨rfl, rfl⟩
  · simp_all [Recast, Res.withUncommitted]
  · cases c <;> simp_all [Recast, Res.withUncommitted]
  · trivial
  · trivial

section
variable {p : Parser I A} {p' : Parser J A'} {q : Parser I B} {q' : Parser J B'}

theorem RecastP.or {q : Parser I A} {q' : Parser J A'} (hp : RecastP φ R p p') (hq : RecastP φ R q q') :
    RecastP φ R (or p q) (or p' q') := by
  intro s
  unfold OniComb.or
  rcases (hp s).elim with ⟨_, _, _, e, e', h⟩ | ⟨_, _, c, e, e', h⟩ | ⟨e, e'⟩ | ⟨e, e'⟩ <;> rw [e, e']
  · exact ⟨h, rfl⟩
  · cases c
    · exact ⟨h, rfl⟩
    · exact hq s
  · trivial
  · trivial

theorem RecastP.flatMap {f : A → Parser I B} {f' : A' → Parser J B'} (hp : RecastP φ R p p')
    (hf : ∀ a a', R a a' → RecastP φ S (f a) (f' a')) : RecastP φ S (flatMap p f) (flatMap p' f') := by
  intro s
  unfold OniComb.flatMap
  rcases (hp s).elim with ⟨_, _, _, e, e', h⟩ | ⟨_, _, c, e, e', h⟩ | ⟨e, e'⟩ | ⟨e, e'⟩ <;> rw [e, e']
  · exact ((hf _ _ h _).addCommit _).advanceSuccess _
  · exact ⟨h, rfl⟩
  · trivial
  · trivial

theorem RecastP.restLeft1N {op : Parser I (A → A → A)} {op' : Parser J (A' → A' → A')} (hp : RecastP φ R p p')
    (ho : RecastP φ (fun f f' => ∀ x x' y y', R x x' → R y y' → R (f x y) (f' x' y')) op op') :
    ∀ (k : Nat) (x : A) (x' : A'), R x x' → RecastP φ R (restLeft1N p op k x) (restLeft1N p' op' k x')
  | 0, _, _, _, _ => trivial
  | k + 1, x, x', hx, s => by
    refine RecastP.or (φ := φ) (R := R) (fun s => ?_) (fun s => ?_) s
    case refine_2 => exact ⟨hx, rfl⟩
    dsimp only
    simp only [recode_advanceBy]
    rcases (ho (s.advanceBy 0)).elim with ⟨f, f', n, e, e', h⟩ | ⟨_, _, c, e, e', h⟩ | ⟨e, e'⟩ | ⟨e, e'⟩ <;>
      rw [e, e']
    · refine Recast.advanceSuccess (Recast.addCommit ?_ _) _
      rcases (hp ((s.advanceBy 0).advanceBy n)).elim with
        ⟨y, y', m, e, e', h'⟩ | ⟨_, _, c, e, e', h'⟩ | ⟨e, e'⟩ | ⟨e, e'⟩ <;> rw [e, e']
      · exact (RecastP.restLeft1N hp ho k _ _ (h x x' y y' hx h') _).advanceSuccess _
      · exact ⟨h', rfl⟩
      · trivial
      · trivial
    · exact ⟨h, rfl⟩
    · trivial
    · trivial

/-- Turns of related loops. -/
def TurnRec (φ : I → J) (R : A → A' → Prop) : Turn I A → Turn J A' → Prop
  | .again st, .again st' => st.cur.recode φ = st'.cur ∧ EachRel R st.items st'.items ∧ st.length = st'.length
  | .exit l n, .exit l' n' => EachRel R l l' ∧ n = n'
  | .panic, .panic => True
  | .diverge, .diverge => True
  | _, _ => False

/-- Results of related loops. -/
def LoopRec (R : A → A' → Prop) : LoopOut A → LoopOut A' → Prop
  | .exit l n, .exit l' n' => EachRel R l l' ∧ n = n'
  | .panic, .panic => True
  | .diverge, .diverge => True
  | _, _ => False

theorem repItem_rec (hp : RecastP φ R p p') (cur : State I) (n : Nat) {l : List A} {l' : List A'}
    (h : EachRel R l l') : TurnRec φ R (repItem p ⟨cur, l, n⟩) (repItem p' ⟨cur.recode φ, l', n⟩) := by
  unfold repItem
  rcases (hp cur).elim with ⟨_, _, _, e, e', h'⟩ | ⟨_, _, c, e, e', h'⟩ | ⟨e, e'⟩ | ⟨e, e'⟩ <;> simp only [e, e']
  · exact ⟨rfl, h.snoc h', rfl⟩
  · exact ⟨h, rfl⟩
  · trivial
  · trivial

theorem repTurn_rec {sep : Option (Parser I B)} {sep' : Option (Parser J B')} (hp : RecastP φ R p p')
    (hs : OptRel (RecastP φ S) sep sep') (stop : Bound) (cur : State I) (n : Nat) {l : List A} {l' : List A'}
    (h : EachRel R l l') : TurnRec φ R (repTurn p sep stop ⟨cur, l, n⟩) (repTurn p' sep' stop ⟨cur.recode φ, l', n⟩) := by
  unfold repTurn
  simp only [h.length, recode_advanceBy]
  by_cases hb : boundReached stop l'.length = true
  · rw [if_pos hb, if_pos hb]
    exact ⟨h, rfl⟩
  · rw [if_neg hb, if_neg hb]
    cases sep <;> cases sep' <;> simp only [OptRel] at hs
    · exact repItem_rec hp cur n h
    · rcases (hs cur).elim with ⟨_, _, m, e, e', h'⟩ | ⟨_, _, c, e, e', h'⟩ | ⟨e, e'⟩ | ⟨e, e'⟩ <;>
        simp only [e, e']
      · exact repItem_rec hp _ _ h
      · exact ⟨h, rfl⟩
      · trivial
      · trivial

theorem repLoop_rec {sep : Option (Parser I B)} {sep' : Option (Parser J B')} (hp : RecastP φ R p p')
    (hs : OptRel (RecastP φ S) sep sep') (stop : Bound) : ∀ (k : Nat) (cur : State I) (n : Nat) (l : List A)
    (l' : List A'), EachRel R l l' → LoopRec R (repLoop p sep stop k ⟨cur, l, n⟩) (repLoop p' sep' stop k ⟨cur.recode φ, l', n⟩)
  | 0, _, _, _, _, _ => trivial
  | k + 1, cur, n, l, l', h => by
    have ht := repTurn_rec hp hs stop cur n h
    unfold repLoop
    cases h1 : repTurn p sep stop ⟨cur, l, n⟩ <;> cases h2 : repTurn p' sep' stop ⟨cur.recode φ, l', n⟩ <;>
      simp only [h1, h2, TurnRec] at ht
    · rename_i st st'
      obtain ⟨c, i, m⟩ := st
      obtain ⟨c', i', m'⟩ := st'
      obtain ⟨rfl, h, rfl⟩ := ht
      exact repLoop_rec hp hs stop k _ _ _ _ h
    · exact ht
    · trivial
    · trivial

theorem repFinish_rec (r : Range) (s : State I) (n : Nat) {l : List A} {l' : List A'} (h : EachRel R l l') :
    Recast φ (EachRel R) (repFinish r s l n) (repFinish r (s.recode φ) l' n) := by
  unfold repFinish
  rw [h.length]
  cases r.start with
  | included m =>
    dsimp only
    by_cases hm : l'.length < m
    · rw [if_pos hm, if_pos hm]
      exact Recast.withInput fun _ => ⟨rfl, rfl⟩
    · rw [if_neg hm, if_neg hm]
      exact ⟨h, rfl⟩
  | _ => exact ⟨h, rfl⟩

theorem RecastP.repeatSep {sep : Option (Parser I B)} {sep' : Option (Parser J B')} (hp : RecastP φ R p p')
    (hs : OptRel (RecastP φ S) sep sep') (r : Range) :
    RecastP φ (EachRel R) (repeatSep p r sep) (repeatSep p' r sep') := by
  intro s
  unfold OniComb.repeatSep
  simp only [recode_advanceBy, repFuel_recode]
  rcases (hp s).elim with ⟨v, v', n, e, e', h⟩ | ⟨_, _, c, e, e', h⟩ | ⟨e, e'⟩ | ⟨e, e'⟩ <;> simp only [e, e']
  · have hl := repLoop_rec hp hs r.stop (repFuel r.stop s) (s.advanceBy n) n [v] [v'] (.cons h .nil)
    cases h1 : repLoop p sep r.stop (repFuel r.stop s) ⟨s.advanceBy n, [v], n⟩ <;>
      cases h2 : repLoop p' sep' r.stop (repFuel r.stop s) ⟨(s.advanceBy n).recode φ, [v'], n⟩ <;>
      simp only [h1, h2, LoopRec] at hl
    · obtain ⟨h, rfl⟩ := hl
      exact repFinish_rec r s _ h
    · trivial
    · trivial
  · exact repFinish_rec r s 0 .nil
  · trivial
  · trivial

end

theorem Recoded.recast {A A' : Type} {R : A → A' → Prop} {p : Parser I A} {p' : Parser J A'} (h : Recoded φ R p p') :
    RecastP φ R p p' := by
  induction h with
  | weaken h _ ih =>
    intro s
    rcases (ih s).elim with ⟨_, _, _, e, e', h'⟩ | ⟨_, _, c, e, e', h'⟩ | ⟨e, e'⟩ | ⟨e, e'⟩ <;> rw [e, e']
    · exact ⟨h _ _ h', rfl⟩
    · exact ⟨h', rfl⟩
    · trivial
    · trivial
  | successful h => exact fun s => ⟨h, rfl⟩
  | failed R e c => exact fun s => ⟨rfl, rfl⟩
  | filter hf _ ih =>
    intro s
    unfold OniComb.filter
    rcases (ih s).elim with ⟨_, _, _, e, e', h'⟩ | ⟨_, _, c, e, e', h'⟩ | ⟨e, e'⟩ | ⟨e, e'⟩ <;> rw [e, e']
    · dsimp only
      rw [hf _ _ h']
      split
      · exact ⟨h', rfl⟩
      · exact ⟨rfl, rfl⟩
    · exact ⟨h', rfl⟩
    · trivial
    · trivial
  | flatMap _ _ ih ihf => exact ih.flatMap ihf
  | map hf _ ih =>
    intro s
    unfold OniComb.map
    rcases (ih s).elim with ⟨_, _, _, e, e', h'⟩ | ⟨_, _, c, e, e', h'⟩ | ⟨e, e'⟩ | ⟨e, e'⟩ <;> rw [e, e']
    · exact ⟨hf _ _ h', rfl⟩
    · exact ⟨h', rfl⟩
    · trivial
    · trivial
  | exists_ _ ih =>
    intro s
    unfold OniComb.exists_
    rcases (ih s).elim with ⟨_, _, _, e, e', h'⟩ | ⟨_, _, c, e, e', h'⟩ | ⟨e, e'⟩ | ⟨e, e'⟩ <;> rw [e, e']
    · exact ⟨rfl, rfl⟩
    · exact ⟨rfl, rfl⟩
    · trivial
    · trivial
  | not_ _ ih =>
    intro s
    unfold OniComb.not_
    rcases (ih s).elim with ⟨_, _, _, e, e', h'⟩ | ⟨_, _, c, e, e', h'⟩ | ⟨e, e'⟩ | ⟨e, e'⟩ <;> rw [e, e']
    · simp only [recode_advanceBy]
      exact Recast.withInput fun _ => ⟨rfl, rfl⟩
    · exact ⟨rfl, rfl⟩
    · trivial
    · trivial
  | or _ _ ihp ihq => exact ihp.or ihq
  | andThen _ _ ihp ihq =>
    intro s
    unfold OniComb.andThen
    simp only [recode_advanceBy]
    rcases (ihp s).elim with ⟨_, _, n, e, e', h⟩ | ⟨_, _, c, e, e', h⟩ | ⟨e, e'⟩ | ⟨e, e'⟩ <;> simp only [e, e']
    · rcases (ihq (s.advanceBy n)).elim with
        ⟨_, _, n, e, e', h'⟩ | ⟨_, _, c, e, e', h'⟩ | ⟨e, e'⟩ | ⟨e, e'⟩ <;> simp only [e, e']
      · exact ⟨⟨h, h'⟩, rfl⟩
      · exact ⟨h', rfl⟩
      · trivial
      · trivial
    · exact ⟨h, rfl⟩
    · trivial
    · trivial
  | attempt _ ih => exact fun s => (ih s).withUncommitted
  | skipLeft _ _ ihp ihq =>
    intro s
    unfold OniComb.skipLeft
    simp only [recode_advanceBy]
    rcases (ihp s).elim with ⟨_, _, n, e, e', h⟩ | ⟨_, _, c, e, e', h⟩ | ⟨e, e'⟩ | ⟨e, e'⟩ <;> simp only [e, e']
    · rcases (ihq (s.advanceBy n)).elim with
        ⟨_, _, n, e, e', h'⟩ | ⟨_, _, c, e, e', h'⟩ | ⟨e, e'⟩ | ⟨e, e'⟩ <;> simp only [e, e']
      · exact ⟨h', rfl⟩
      · exact ⟨h', rfl⟩
      · trivial
      · trivial
    · exact ⟨h, rfl⟩
    · trivial
    · trivial
  | skipRight _ _ ihp ihq =>
    intro s
    unfold OniComb.skipRight
    simp only [recode_advanceBy]
    rcases (ihp s).elim with ⟨_, _, n, e, e', h⟩ | ⟨_, _, c, e, e', h⟩ | ⟨e, e'⟩ | ⟨e, e'⟩ <;> simp only [e, e']
    · rcases (ihq (s.advanceBy n)).elim with
        ⟨_, _, n, e, e', h'⟩ | ⟨_, _, c, e, e', h'⟩ | ⟨e, e'⟩ | ⟨e, e'⟩ <;> simp only [e, e']
      · exact ⟨h, rfl⟩
      · exact ⟨h', rfl⟩
      · trivial
      · trivial
    · exact ⟨h, rfl⟩
    · trivial
    · trivial
  | @mapRes A A' B B' R S p p' f f' hf _ ih =>
    intro s
    unfold OniComb.mapRes
    rcases (ih s).elim with ⟨v, v', _, e, e', h'⟩ | ⟨_, _, c, e, e', h'⟩ | ⟨e, e'⟩ | ⟨e, e'⟩ <;> simp only [e, e']
    · have := hf _ _ h'
      cases h1 : f v <;> cases h2 : f' v' <;> simp only [h1, h2, OptRel] at this
      · exact Recast.withInput fun _ => ⟨rfl, rfl⟩
      · exact ⟨this, rfl⟩
    · exact ⟨h', rfl⟩
    · trivial
    · trivial
  | peek _ ih =>
    intro s
    unfold OniComb.peek
    rcases (ih s).elim with ⟨_, _, _, e, e', h'⟩ | ⟨_, _, c, e, e', h'⟩ | ⟨e, e'⟩ | ⟨e, e'⟩ <;> rw [e, e']
    · exact ⟨h', rfl⟩
    · exact ⟨h', rfl⟩
    · trivial
    · trivial
  | name l _ ih =>
    intro s
    unfold OniComb.name
    rcases (ih s).elim with ⟨_, _, _, e, e', h'⟩ | ⟨f, f', c, e, e', h'⟩ | ⟨e, e'⟩ | ⟨e, e'⟩ <;> simp only [e, e']
    · exact ⟨h', rfl⟩
    · subst h'
      rw [recode_isCustom]
      split <;> exact ⟨rfl, rfl⟩
    · trivial
    · trivial
  | expect l _ ih =>
    intro s
    unfold OniComb.expect
    rcases (ih s).elim with ⟨_, _, _, e, e', h'⟩ | ⟨_, _, c, e, e', h'⟩ | ⟨e, e'⟩ | ⟨e, e'⟩ <;> rw [e, e']
    · exact ⟨h', rfl⟩
    · exact ⟨by rw [← h']; rfl, rfl⟩
    · trivial
    · trivial
  | lastOffset _ ih =>
    intro s
    unfold OniComb.lastOffset
    rcases (ih s).elim with ⟨_, _, _, e, e', h'⟩ | ⟨_, _, c, e, e', h'⟩ | ⟨e, e'⟩ | ⟨e, e'⟩ <;> rw [e, e']
    · exact ⟨rfl, rfl⟩
    · exact ⟨h', rfl⟩
    · trivial
    · trivial
  | nextOffset _ ih =>
    intro s
    unfold OniComb.nextOffset
    rcases (ih s).elim with ⟨_, _, _, e, e', h'⟩ | ⟨_, _, c, e, e', h'⟩ | ⟨e, e'⟩ | ⟨e, e'⟩ <;> rw [e, e']
    · exact ⟨rfl, rfl⟩
    · exact ⟨h', rfl⟩
    · trivial
    · trivial
  | collect _ ih =>
    intro s
    unfold OniComb.collect
    rcases (ih s).elim with ⟨_, _, _, e, e', h'⟩ | ⟨_, _, c, e, e', h'⟩ | ⟨e, e'⟩ | ⟨e, e'⟩ <;> rw [e, e']
    · exact Recast.withSlice fun _ => ⟨rfl, rfl⟩
    · exact ⟨h', rfl⟩
    · trivial
    · trivial
  | discard _ ih =>
    intro s
    unfold OniComb.discard
    rcases (ih s).elim with ⟨_, _, _, e, e', h'⟩ | ⟨_, _, c, e, e', h'⟩ | ⟨e, e'⟩ | ⟨e, e'⟩ <;> rw [e, e']
    · exact ⟨rfl, rfl⟩
    · exact ⟨h', rfl⟩
    · trivial
    · trivial
  | skip n =>
    refine fun s => Recast.withInput fun l => ?_
    rw [List.length_map]
    split
    · exact ⟨rfl, rfl⟩
    · exact ⟨rfl, rfl⟩
  | logMap l l' _ ih => exact ih
  | end_ =>
    refine fun s => Recast.withInput fun l => ?_
    cases l
    · exact ⟨rfl, rfl⟩
    · exact ⟨rfl, rfl⟩
  | elmPred hf =>
    refine fun s => Recast.withInput fun l => ?_
    cases l with
    | nil => exact ⟨rfl, rfl⟩
    | cons x l =>
      dsimp only [List.map]
      rw [hf x]
      split
      · exact ⟨rfl, rfl⟩
      · exact ⟨rfl, rfl⟩
  | elmOfSet hf =>
    refine fun s => Recast.withInput fun l => ?_
    cases l with
    | nil => exact ⟨rfl, rfl⟩
    | cons x l =>
      dsimp only [List.map]
      rw [hf x]
      split
      · exact ⟨rfl, rfl⟩
      · exact ⟨rfl, rfl⟩
  | noneOfSet hf =>
    refine fun s => Recast.withInput fun l => ?_
    cases l with
    | nil => exact ⟨rfl, rfl⟩
    | cons x l =>
      dsimp only [List.map]
      rw [hf x]
      split
      · exact ⟨rfl, rfl⟩
      · exact ⟨rfl, rfl⟩
  | seq lit hφ => exact fun s => Recast.withInput fun l => recast_seqLoop hφ s l lit lit l 0
  | take n =>
    refine fun s => Recast.withInput fun l => ?_
    rw [List.length_map]
    split
    · exact Recast.withSlice fun _ => ⟨rfl, rfl⟩
    · exact ⟨rfl, rfl⟩
  | takeWhile0 hf =>
    refine fun s => Recast.withInput fun l => ?_
    rw [scanWhile_recode hf]
    split
    · exact Recast.withSub fun _ => ⟨rfl, rfl⟩
    · exact Recast.withSlice fun _ => ⟨rfl, rfl⟩
  | takeWhile1 hf =>
    refine fun s => Recast.withInput fun l => ?_
    rw [scanWhile_recode hf]
    split
    · exact Recast.withSub fun _ => ⟨rfl, rfl⟩
    · exact ⟨rfl, rfl⟩
  | takeWhileNM n m hf =>
    refine fun s => Recast.withInput fun l => ?_
    rw [scanWhile_recode hf]
    split
    · refine Recast.withSub fun _ => ?_
      rw [List.length_map]
      split
      · exact ⟨rfl, rfl⟩
      · exact ⟨rfl, rfl⟩
    · exact ⟨rfl, rfl⟩
  | takeTill0 hf =>
    refine fun s => Recast.withInput fun l => ?_
    rw [findTill_recode hf]
    split
    · exact Recast.withSlice fun _ => ⟨rfl, rfl⟩
    · exact ⟨rfl, (List.length_map _).symm⟩
  | takeTill1 hf =>
    refine fun s => Recast.withInput fun l => ?_
    rw [findTill_recode hf]
    split
    · exact Recast.withSlice fun _ => ⟨rfl, rfl⟩
    · exact ⟨rfl, rfl⟩
  | lazy _ ih => exact ih
  | diverging R => exact fun _ => trivial
  | repeat_ r _ ih => exact ih.repeatSep (sep := none) (sep' := none) (S := fun (_ _ : Unit) => True) trivial r
  | repeatSep r _ _ ihp ihq => exact ihp.repeatSep (sep := some _) (sep' := some _) ihq r
  | restLeft1 hx _ _ ihp iho =>
    intro s
    have := RecastP.restLeft1N ihp iho (s.input.length - s.offset + 2) _ _ hx s
    unfold OniComb.restLeft1
    simp only [State.recode, List.length_map] at this ⊢
    exact this

end OniComb
