import Verif.Spec.Twins

/-!
# Combinators keep the relation between twins
-/

namespace OniComb
variable {I A A' B B' : Type} {exact : Bool} {R : A → A' → Prop} {S : B → B' → Prop}

/-- Alike everywhere. -/
def AlikeP (exact : Bool) (R : A → A' → Prop) (p : Parser I A) (p' : Parser I A') : Prop :=
  ∀ s, Alike exact R (p s) (p' s)

theorem Alike.elim {r : Res I A} {r' : Res I A'} (h : Alike exact R r r') :
    (∃ v v' n, r = .success v n ∧ r' = .success v' n ∧ R v v') ∨
    (∃ e e' c, r = .failure e c ∧ r' = .failure e' c ∧ (exact = true → e = e')) ∨
    (r = .panic ∧ r' = .panic) ∨ (r = .diverge ∧ r' = .diverge) := by
  cases r <;> cases r' <;> simp only [Alike] at h
  · obtain ⟨h, rfl⟩ := h; exact .inl ⟨_, _, _, rfl, rfl, h⟩
  · obtain ⟨h, rfl⟩ := h; exact .inr (.inl ⟨_, _, _, rfl, rfl, h⟩)
  · exact .inr (.inr (.inl ⟨rfl, rfl⟩))
  · exact .inr (.inr (.inr ⟨rfl, rfl⟩))

theorem Alike.refl (r : Res I A) : Alike exact Eq r r := by
  cases r <;> simp [Alike]

theorem Alike.withInput {s : State I} {k : List I → Res I A} {k' : List I → Res I A'}
    (h : ∀ l, Alike exact R (k l) (k' l)) : Alike exact R (s.withInput k) (s.withInput k') := by
  unfold State.withInput
  split
  · exact h _
  · trivial

theorem Alike.advanceSuccess {r : Res I A} {r' : Res I A'} (h : Alike exact R r r') (n : Nat) :
    Alike exact R (r.advanceSuccess n) (r'.advanceSuccess n) := by
  rcases h.elim with ⟨_, _, _, rfl, rfl, h⟩ | ⟨_, _, _, rfl, rfl, h⟩ | ⟨rfl, rfl⟩ | ⟨rfl, rfl⟩ <;>
    simp_all [Alike, Res.advanceSuccess]

theorem Alike.addCommit {r : Res I A} {r' : Res I A'} (h : Alike exact R r r') (b : Bool) :
    Alike exact R (r.addCommit b) (r'.addCommit b) := by
  rcases h.elim with ⟨_, _, _, rfl, rfl, h⟩ | ⟨_, _, _, rfl, rfl, h⟩ | ⟨rfl, rfl⟩ | ⟨rfl, rfl⟩ <;>
    simp_all [Alike, Res.addCommit]

theorem Alike.withUncommitted {r : Res I A} {r' : Res I A'} (h : Alike exact R r r') :
    Alike exact R r.withUncommitted r'.withUncommitted := by
  rcases h.elim with ⟨_, _, _, rfl, rfl, h⟩ | ⟨_, _, c, rfl, rfl, h⟩ | ⟨rfl, rfl⟩ | ⟨rfl, rfl⟩
  · simp_all [Alike, Res.withUncommitted]
  · cases c <;> simp_all [Alike, Res.withUncommitted]
  · trivial
  · trivial

section
variable {p : Parser I A} {p' : Parser I A'} {q : Parser I B} {q' : Parser I B'}

theorem AlikeP.or {q : Parser I A} {q' : Parser I A'} (hp : AlikeP exact R p p') (hq : AlikeP exact R q q') :
    AlikeP exact R (or p q) (or p' q') := by
  intro s
  unfold OniComb.or
  rcases (hp s).elim with ⟨_, _, _, e, e', h⟩ | ⟨_, _, c, e, e', h⟩ | ⟨e, e'⟩ | ⟨e, e'⟩ <;> rw [e, e']
  · exact ⟨h, rfl⟩
  · cases c
    · exact ⟨h, rfl⟩
    · exact hq s
  · trivial
  · trivial

theorem AlikeP.flatMap {f : A → Parser I B} {f' : A' → Parser I B'} (hp : AlikeP exact R p p')
    (hf : ∀ a a', R a a' → AlikeP exact S (f a) (f' a')) : AlikeP exact S (flatMap p f) (flatMap p' f') := by
  intro s
  unfold OniComb.flatMap
  rcases (hp s).elim with ⟨_, _, _, e, e', h⟩ | ⟨_, _, c, e, e', h⟩ | ⟨e, e'⟩ | ⟨e, e'⟩ <;> rw [e, e']
  · exact ((hf _ _ h _).addCommit _).advanceSuccess _
  · exact ⟨h, rfl⟩
  · trivial
  · trivial

theorem AlikeP.restLeft1N {op : Parser I (A → A → A)} {op' : Parser I (A' → A' → A')} (hp : AlikeP exact R p p')
    (ho : AlikeP exact (fun f f' => ∀ x x' y y', R x x' → R y y' → R (f x y) (f' x' y')) op op') :
    ∀ (k : Nat) (x : A) (x' : A'), R x x' → AlikeP exact R (restLeft1N p op k x) (restLeft1N p' op' k x')
  | 0, _, _, _, _ => trivial
  | k + 1, x, x', hx, s => by
    refine AlikeP.or (exact := exact) (R := R) (fun s => ?_) (fun s => ?_) s
    case refine_2 => exact ⟨hx, rfl⟩
    dsimp only
    rcases (ho (s.advanceBy 0)).elim with ⟨f, f', n, e, e', h⟩ | ⟨_, _, c, e, e', h⟩ | ⟨e, e'⟩ | ⟨e, e'⟩ <;>
      rw [e, e']
    · refine Alike.advanceSuccess (Alike.addCommit ?_ _) _
      rcases (hp ((s.advanceBy 0).advanceBy n)).elim with
        ⟨y, y', m, e, e', h'⟩ | ⟨_, _, c, e, e', h'⟩ | ⟨e, e'⟩ | ⟨e, e'⟩ <;> rw [e, e']
      · exact (AlikeP.restLeft1N hp ho k _ _ (h x x' y y' hx h') _).advanceSuccess _
      · exact ⟨h', rfl⟩
      · trivial
      · trivial
    · exact ⟨h, rfl⟩
    · trivial
    · trivial

theorem EachRel.length {l : List A} {l' : List A'} (h : EachRel R l l') : l.length = l'.length := by
  induction h with
  | nil => rfl
  | cons _ _ ih => simp [ih]

theorem EachRel.snoc {l : List A} {l' : List A'} {a : A} {a' : A'} (h : EachRel R l l') (ha : R a a') :
    EachRel R (l ++ [a]) (l' ++ [a']) := by
  induction h with
  | nil => exact .cons ha .nil
  | cons h _ ih => exact .cons h ih

/-- Turns of related loops. -/
def TurnRel (R : A → A' → Prop) : Turn I A → Turn I A' → Prop
  | .again st, .again st' => st.cur = st'.cur ∧ EachRel R st.items st'.items ∧ st.length = st'.length
  | .exit l n, .exit l' n' => EachRel R l l' ∧ n = n'
  | .panic, .panic => True
  | .diverge, .diverge => True
  | _, _ => False

/-- Results of related loops. -/
def LoopRel (R : A → A' → Prop) : LoopOut A → LoopOut A' → Prop
  | .exit l n, .exit l' n' => EachRel R l l' ∧ n = n'
  | .panic, .panic => True
  | .diverge, .diverge => True
  | _, _ => False

theorem repItem_rel (hp : AlikeP exact R p p') (cur : State I) (n : Nat) {l : List A} {l' : List A'}
    (h : EachRel R l l') : TurnRel R (repItem p ⟨cur, l, n⟩) (repItem p' ⟨cur, l', n⟩) := by
  unfold repItem
  rcases (hp cur).elim with ⟨_, _, _, e, e', h'⟩ | ⟨_, _, c, e, e', h'⟩ | ⟨e, e'⟩ | ⟨e, e'⟩ <;> simp only [e, e']
  · exact ⟨rfl, h.snoc h', rfl⟩
  · exact ⟨h, rfl⟩
  · trivial
  · trivial

theorem repTurn_rel {sep : Option (Parser I B)} {sep' : Option (Parser I B')} (hp : AlikeP exact R p p')
    (hs : OptRel (AlikeP exact S) sep sep') (stop : Bound) (cur : State I) (n : Nat) {l : List A} {l' : List A'}
    (h : EachRel R l l') : TurnRel R (repTurn p sep stop ⟨cur, l, n⟩) (repTurn p' sep' stop ⟨cur, l', n⟩) := by
  unfold repTurn
  simp only [h.length]
  by_cases hb : boundReached stop l'.length = true
  · rw [if_pos hb, if_pos hb]
    exact ⟨h, rfl⟩
  · rw [if_neg hb, if_neg hb]
    cases sep <;> cases sep' <;> simp only [OptRel] at hs
    · exact repItem_rel hp cur n h
    · rcases (hs cur).elim with ⟨_, _, m, e, e', h'⟩ | ⟨_, _, c, e, e', h'⟩ | ⟨e, e'⟩ | ⟨e, e'⟩ <;>
        simp only [e, e']
      · exact repItem_rel hp _ _ h
      · exact ⟨h, rfl⟩
      · trivial
      · trivial

theorem repLoop_rel {sep : Option (Parser I B)} {sep' : Option (Parser I B')} (hp : AlikeP exact R p p')
    (hs : OptRel (AlikeP exact S) sep sep') (stop : Bound) : ∀ (k : Nat) (cur : State I) (n : Nat) (l : List A)
    (l' : List A'), EachRel R l l' → LoopRel R (repLoop p sep stop k ⟨cur, l, n⟩) (repLoop p' sep' stop k ⟨cur, l', n⟩)
  | 0, _, _, _, _, _ => trivial
  | k + 1, cur, n, l, l', h => by
    have ht := repTurn_rel hp hs stop cur n h
    unfold repLoop
    cases h1 : repTurn p sep stop ⟨cur, l, n⟩ <;> cases h2 : repTurn p' sep' stop ⟨cur, l', n⟩ <;>
      simp only [h1, h2, TurnRel] at ht
    · rename_i st st'
      obtain ⟨c, i, m⟩ := st
      obtain ⟨c', i', m'⟩ := st'
      obtain ⟨rfl, h, rfl⟩ := ht
      exact repLoop_rel hp hs stop k _ _ _ _ h
    · exact ht
    · trivial
    · trivial

theorem repFinish_rel (r : Range) (s : State I) (n : Nat) {l : List A} {l' : List A'} (h : EachRel R l l') :
    Alike exact (EachRel R) (repFinish r s l n) (repFinish r s l' n) := by
  unfold repFinish
  rw [h.length]
  cases r.start with
  | included m =>
    dsimp only
    by_cases hm : l'.length < m
    · rw [if_pos hm, if_pos hm]
      exact Alike.withInput fun _ => ⟨fun _ => rfl, rfl⟩
    · rw [if_neg hm, if_neg hm]
      exact ⟨h, rfl⟩
  | _ => exact ⟨h, rfl⟩

theorem AlikeP.repeatSep {sep : Option (Parser I B)} {sep' : Option (Parser I B')} (hp : AlikeP exact R p p')
    (hs : OptRel (AlikeP exact S) sep sep') (r : Range) :
    AlikeP exact (EachRel R) (repeatSep p r sep) (repeatSep p' r sep') := by
  intro s
  unfold OniComb.repeatSep
  rcases (hp s).elim with ⟨v, v', n, e, e', h⟩ | ⟨_, _, c, e, e', h⟩ | ⟨e, e'⟩ | ⟨e, e'⟩ <;> simp only [e, e']
  · have hl := repLoop_rel hp hs r.stop (repFuel r.stop s) (s.advanceBy n) n [v] [v'] (.cons h .nil)
    cases h1 : repLoop p sep r.stop (repFuel r.stop s) ⟨s.advanceBy n, [v], n⟩ <;>
      cases h2 : repLoop p' sep' r.stop (repFuel r.stop s) ⟨s.advanceBy n, [v'], n⟩ <;>
      simp only [h1, h2, LoopRel] at hl
    · obtain ⟨h, rfl⟩ := hl
      exact repFinish_rel r s _ h
    · trivial
    · trivial
  · exact repFinish_rel r s 0 .nil
  · trivial
  · trivial

theorem alike_name_left (hx : exact = false) (h : AlikeP exact R p p') (l : String) :
    AlikeP exact R (name p l) p' := by
  intro s
  unfold name
  rcases (h s).elim with ⟨v, v', n, e, e', h⟩ | ⟨_, _, c, e, e', h⟩ | ⟨e, e'⟩ | ⟨e, e'⟩ <;> simp only [e, e']
  · exact ⟨h, rfl⟩
  · split <;> simp [Alike, hx]
  · trivial
  · trivial

theorem alike_name_right (hx : exact = false) (h : AlikeP exact R p p') (l : String) :
    AlikeP exact R p (name p' l) := by
  intro s
  unfold name
  rcases (h s).elim with ⟨v, v', n, e, e', h⟩ | ⟨_, _, c, e, e', h⟩ | ⟨e, e'⟩ | ⟨e, e'⟩ <;> simp only [e, e']
  · exact ⟨h, rfl⟩
  · split <;> simp [Alike, hx]
  · trivial
  · trivial

end

theorem Twins.alike {A A' : Type} {R : A → A' → Prop} {p : Parser I A} {p' : Parser I A'} (h : Twins exact R p p') :
    AlikeP exact R p p' := by
  induction h with
  | same p => exact fun s => Alike.refl _
  | weaken h _ ih =>
    intro s
    rcases (ih s).elim with ⟨_, _, _, e, e', h'⟩ | ⟨_, _, c, e, e', h'⟩ | ⟨e, e'⟩ | ⟨e, e'⟩ <;> rw [e, e']
    · exact ⟨h _ _ h', rfl⟩
    · exact ⟨h', rfl⟩
    · trivial
    · trivial
  | successful h => exact fun s => ⟨h, rfl⟩
  | failed R e e' c h => exact fun s => ⟨h, rfl⟩
  | filter hf _ ih =>
    intro s
    unfold OniComb.filter
    rcases (ih s).elim with ⟨_, _, _, e, e', h'⟩ | ⟨_, _, c, e, e', h'⟩ | ⟨e, e'⟩ | ⟨e, e'⟩ <;> rw [e, e']
    · dsimp only
      rw [hf _ _ h']
      split
      · exact ⟨h', rfl⟩
      · exact ⟨fun _ => rfl, rfl⟩
    · exact ⟨h', rfl⟩
    · trivial
    · trivial
  | flatMap _ _ ih ihf => exact ih.flatMap ihf
  | map hf _ ih =>
    intro s
    unfold OniComb.map
    rcases (ih s).elim with ⟨_, _, _, e, e', h'⟩ | ⟨_, _, c, e, e', h'⟩ | ⟨e, e'⟩ | ⟨e, e'⟩ <;> rw [e, e']
    · exact ⟨hf _ _ h', rfl⟩
    · exact ⟨h', rfl⟩
    · trivial
    · trivial
  | exists_ _ ih =>
    intro s
    unfold OniComb.exists_
    rcases (ih s).elim with ⟨_, _, _, e, e', h'⟩ | ⟨_, _, c, e, e', h'⟩ | ⟨e, e'⟩ | ⟨e, e'⟩ <;> rw [e, e'] <;>
      exact Alike.refl _
  | not_ _ ih =>
    intro s
    unfold OniComb.not_
    rcases (ih s).elim with ⟨_, _, _, e, e', h'⟩ | ⟨_, _, c, e, e', h'⟩ | ⟨e, e'⟩ | ⟨e, e'⟩ <;> rw [e, e'] <;>
      exact Alike.refl _
  | or _ _ ihp ihq => exact ihp.or ihq
  | andThen _ _ ihp ihq =>
    intro s
    unfold OniComb.andThen
    rcases (ihp s).elim with ⟨_, _, n, e, e', h⟩ | ⟨_, _, c, e, e', h⟩ | ⟨e, e'⟩ | ⟨e, e'⟩ <;> simp only [e, e']
    · rcases (ihq (s.advanceBy n)).elim with
        ⟨_, _, n, e, e', h'⟩ | ⟨_, _, c, e, e', h'⟩ | ⟨e, e'⟩ | ⟨e, e'⟩ <;> simp only [e, e']
      · exact ⟨⟨h, h'⟩, rfl⟩
      · exact ⟨h', rfl⟩
      · trivial
      · trivial
    · exact ⟨h, rfl⟩
    · trivial
    · trivial
  | attempt _ ih => exact fun s => (ih s).withUncommitted
  | skipLeft _ _ ihp ihq =>
    intro s
    unfold OniComb.skipLeft
    rcases (ihp s).elim with ⟨_, _, n, e, e', h⟩ | ⟨_, _, c, e, e', h⟩ | ⟨e, e'⟩ | ⟨e, e'⟩ <;> simp only [e, e']
    · rcases (ihq (s.advanceBy n)).elim with
        ⟨_, _, n, e, e', h'⟩ | ⟨_, _, c, e, e', h'⟩ | ⟨e, e'⟩ | ⟨e, e'⟩ <;> simp only [e, e']
      · exact ⟨h', rfl⟩
      · exact ⟨h', rfl⟩
      · trivial
      · trivial
    · exact ⟨h, rfl⟩
    · trivial
    · trivial
  | skipRight _ _ ihp ihq =>
    intro s
    unfold OniComb.skipRight
    rcases (ihp s).elim with ⟨_, _, n, e, e', h⟩ | ⟨_, _, c, e, e', h⟩ | ⟨e, e'⟩ | ⟨e, e'⟩ <;> simp only [e, e']
    · rcases (ihq (s.advanceBy n)).elim with
        ⟨_, _, n, e, e', h'⟩ | ⟨_, _, c, e, e', h'⟩ | ⟨e, e'⟩ | ⟨e, e'⟩ <;> simp only [e, e']
      · exact ⟨h, rfl⟩
      · exact ⟨h', rfl⟩
      · trivial
      · trivial
    · exact ⟨h, rfl⟩
    · trivial
    · trivial
  | @mapRes A A' B B' R S p p' f f' hf _ ih =>
    intro s
    unfold OniComb.mapRes
    rcases (ih s).elim with ⟨v, v', _, e, e', h'⟩ | ⟨_, _, c, e, e', h'⟩ | ⟨e, e'⟩ | ⟨e, e'⟩ <;> simp only [e, e']
    · have := hf _ _ h'
      cases h1 : f v <;> cases h2 : f' v' <;> simp only [h1, h2, OptRel] at this
      · exact Alike.withInput fun _ => ⟨fun _ => rfl, rfl⟩
      · exact ⟨this, rfl⟩
    · exact ⟨h', rfl⟩
    · trivial
    · trivial
  | peek _ ih =>
    intro s
    unfold OniComb.peek
    rcases (ih s).elim with ⟨_, _, _, e, e', h'⟩ | ⟨_, _, c, e, e', h'⟩ | ⟨e, e'⟩ | ⟨e, e'⟩ <;> rw [e, e']
    · exact ⟨h', rfl⟩
    · exact ⟨h', rfl⟩
    · trivial
    · trivial
  | name l _ ih =>
    intro s
    unfold OniComb.name
    rcases (ih s).elim with ⟨_, _, _, e, e', h'⟩ | ⟨f, f', c, e, e', h'⟩ | ⟨e, e'⟩ | ⟨e, e'⟩ <;> simp only [e, e']
    · exact ⟨h', rfl⟩
    · cases exact with
      | true =>
        rw [h' rfl]
        split <;> exact ⟨fun _ => rfl, rfl⟩
      | false => split <;> split <;> simp [Alike]
    · trivial
    · trivial
  | expect l _ ih =>
    intro s
    unfold OniComb.expect
    rcases (ih s).elim with ⟨_, _, _, e, e', h'⟩ | ⟨_, _, c, e, e', h'⟩ | ⟨e, e'⟩ | ⟨e, e'⟩ <;> rw [e, e']
    · exact ⟨h', rfl⟩
    · exact ⟨fun h => by rw [h' h], rfl⟩
    · trivial
    · trivial
  | nameLeft l hx _ ih => exact alike_name_left hx ih l
  | nameRight l hx _ ih => exact alike_name_right hx ih l
  | expectLeft l hx _ ih =>
    intro s
    unfold OniComb.expect
    rcases (ih s).elim with ⟨_, _, _, e, e', h'⟩ | ⟨_, _, c, e, e', h'⟩ | ⟨e, e'⟩ | ⟨e, e'⟩ <;>
      simp only [e, e']
    · exact ⟨h', rfl⟩
    · simp [Alike, hx]
    · trivial
    · trivial
  | expectRight l hx _ ih =>
    intro s
    unfold OniComb.expect
    rcases (ih s).elim with ⟨_, _, _, e, e', h'⟩ | ⟨_, _, c, e, e', h'⟩ | ⟨e, e'⟩ | ⟨e, e'⟩ <;>
      simp only [e, e']
    · exact ⟨h', rfl⟩
    · simp [Alike, hx]
    · trivial
    · trivial
  | lastOffset _ ih =>
    intro s
    unfold OniComb.lastOffset
    rcases (ih s).elim with ⟨_, _, _, e, e', h'⟩ | ⟨_, _, c, e, e', h'⟩ | ⟨e, e'⟩ | ⟨e, e'⟩ <;> rw [e, e']
    · exact ⟨rfl, rfl⟩
    · exact ⟨h', rfl⟩
    · trivial
    · trivial
  | nextOffset _ ih =>
    intro s
    unfold OniComb.nextOffset
    rcases (ih s).elim with ⟨_, _, _, e, e', h'⟩ | ⟨_, _, c, e, e', h'⟩ | ⟨e, e'⟩ | ⟨e, e'⟩ <;> rw [e, e']
    · exact ⟨rfl, rfl⟩
    · exact ⟨h', rfl⟩
    · trivial
    · trivial
  | collect _ ih =>
    intro s
    unfold OniComb.collect
    rcases (ih s).elim with ⟨_, _, _, e, e', h'⟩ | ⟨_, _, c, e, e', h'⟩ | ⟨e, e'⟩ | ⟨e, e'⟩ <;> rw [e, e']
    · exact Alike.refl _
    · exact ⟨h', rfl⟩
    · trivial
    · trivial
  | discard _ ih =>
    intro s
    unfold OniComb.discard
    rcases (ih s).elim with ⟨_, _, _, e, e', h'⟩ | ⟨_, _, c, e, e', h'⟩ | ⟨e, e'⟩ | ⟨e, e'⟩ <;> rw [e, e']
    · exact ⟨rfl, rfl⟩
    · exact ⟨h', rfl⟩
    · trivial
    · trivial
  | lazy _ ih => exact ih
  | diverging R => exact fun _ => trivial
  | repeat_ r _ ih => exact ih.repeatSep (sep := none) (sep' := none) (S := fun (_ _ : Unit) => True) trivial r
  | repeatSep r _ _ ihp ihq => exact ihp.repeatSep (sep := some _) (sep' := some _) ihq r
  | restLeft1 hx _ _ ihp iho => exact fun s => AlikeP.restLeft1N ihp iho _ _ _ hx s

end OniComb
