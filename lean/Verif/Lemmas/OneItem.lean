import Verif.Lemmas.Uri
import Verif.Spec.Follow

/-! # Helper lemmas: parsers of one element of a class, and runs of them -/

namespace OniComb
variable {I A B : Type}

theorem noHead_nil {P : I → Prop} : NoHead P [] := by intro b r' h; cases h

theorem noHead_cons {P : I → Prop} {b : I} {r : List I} : NoHead P (b :: r) ↔ ¬ P b :=
  ⟨fun h => h b r rfl, fun h b' r' e => by cases e; exact h⟩

theorem NoHead.mono {P Q : I → Prop} {r : List I} (h : NoHead P r) (hPQ : ∀ b, Q b → P b) : NoHead Q r :=
  fun b r' e hq => h b r' e (hPQ b hq)

theorem noHead_append {P : I → Prop} {t r : List I} (ht : t ≠ []) : NoHead P (t ++ r) ↔ NoHead P t := by
  cases t with
  | nil => exact absurd rfl ht
  | cons b t => rw [List.cons_append, noHead_cons, noHead_cons]

/-- `p` reads one element of the class `P` and fails without commitment otherwise. -/
structure OneOfP (p : Parser I I) (P : I → Prop) : Prop where
  good : Good p
  eats : ∀ {t v rest}, Eats p t v rest ↔ t = [v] ∧ P v
  fail : ∀ {r c}, Fail p r c ↔ c = .uncommitted ∧ NoHead P r
  ret : ∀ {r}, Ret p r

theorem OneOfP.congr {p : Parser I I} {P Q : I → Prop} (h : OneOfP p P) (hPQ : ∀ b, P b ↔ Q b) : OneOfP p Q where
  good := h.good
  eats := by intro t v rest; rw [h.eats, hPQ]
  fail := by intro r c; rw [h.fail]; simp only [NoHead, hPQ]
  ret := h.ret

theorem one_pred (f : I → Bool) : OneOfP (elmPred f) (fun b => f b = true) where
  good := inferInstance
  eats := eats_elmPred
  fail := by intro r c; rw [fail_elmPred]; simp [NoHead]
  ret := ret_elmPred

theorem one_set (f : I → Bool) : OneOfP (elmOfSet f) (fun b => f b = true) where
  good := inferInstance
  eats := eats_elmOfSet
  fail := by intro r c; rw [fail_elmOfSet]; simp [NoHead]
  ret := ret_elmOfSet

theorem one_of [DecidableEq I] (l : List I) : OneOfP (elmOf l) (fun b => b ∈ l) :=
  (one_set _).congr fun b => by simp [setOfList]

theorem one_none [DecidableEq I] (l : List I) : OneOfP (noneOf l) (fun b => b ∉ l) := by
  unfold noneOf
  rw [noneOfSet_eq]
  exact (one_set _).congr fun b => by simp [setOfList]

theorem one_elm [DecidableEq I] (x : I) : OneOfP (elm x) (fun b => b = x) :=
  (one_pred _).congr fun b => by simp

theorem OneOfP.or {p q : Parser I I} {P Q : I → Prop} (h : OneOfP p P) (h' : OneOfP q Q) :
    OneOfP (or p q) (fun b => P b ∨ Q b) where
  good := by have := h.good; have := h'.good; infer_instance
  eats := by
    intro t v rest
    rw [eats_or, h.eats, h'.eats, h.fail]
    constructor
    · rintro (⟨h1, h2⟩ | ⟨-, h1, h2⟩)
      · exact ⟨h1, .inl h2⟩
      · exact ⟨h1, .inr h2⟩
    · rintro ⟨rfl, h2⟩
      by_cases hP : P v
      · exact .inl ⟨rfl, hP⟩
      · exact .inr ⟨⟨rfl, noHead_cons.2 hP⟩, rfl, h2.resolve_left hP⟩
  fail := by
    intro r c
    rw [fail_or, h.fail, h'.fail, h.fail]
    constructor
    · rintro (⟨-, h1, -⟩ | ⟨⟨-, h1⟩, h2, h3⟩)
      · cases h1
      · exact ⟨h2, fun b r' e hb => hb.elim (h1 b r' e) (h3 b r' e)⟩
    · rintro ⟨rfl, h1⟩
      exact .inr ⟨⟨rfl, h1.mono fun _ => .inl⟩, rfl, h1.mono fun _ => .inr⟩
  ret := ret_or.2 ⟨h.ret, fun _ => h'.ret⟩

section
variable {p : Parser I I} {P : I → Prop}

theorem OneOfP.many (h : OneOfP p P) {t vs rest : List I} : Many p t vs rest ↔ vs = t ∧ ∀ b ∈ t, P b := by
  constructor
  · intro hm
    induction hm with
    | nil => simp
    | cons he _ ih =>
      obtain ⟨rfl, h1⟩ := h.eats.1 he
      obtain ⟨rfl, h2⟩ := ih
      refine ⟨rfl, ?_⟩
      simpa [h1] using h2
  · rintro ⟨rfl, h1⟩
    induction vs with
    | nil => exact .nil _
    | cons b vs ih =>
      exact .cons (t := [b]) (h.eats.2 ⟨rfl, h1 b (by simp)⟩) (ih fun x hx => h1 x (by simp [hx]))

theorem OneOfP.fails (h : OneOfP p P) {r : List I} : (∃ c, Fail p r c) ↔ NoHead P r :=
  ⟨fun ⟨_, hc⟩ => (h.fail.1 hc).2, fun hs => ⟨_, h.fail.2 ⟨rfl, hs⟩⟩⟩

theorem OneOfP.eats_many0 (h : OneOfP p P) {t vs rest : List I} :
    Eats (many0 p) t vs rest ↔ vs = t ∧ (∀ b ∈ t, P b) ∧ NoHead P rest := by
  have := h.good
  rw [OniComb.eats_many0, h.many, h.fails, and_assoc]

theorem OneOfP.eats_many1 (h : OneOfP p P) {t vs rest : List I} :
    Eats (many1 p) t vs rest ↔ vs = t ∧ t ≠ [] ∧ (∀ b ∈ t, P b) ∧ NoHead P rest := by
  have := h.good
  rw [OniComb.eats_many1, h.many, h.fails]
  constructor
  · rintro ⟨h0, ⟨rfl, h1⟩, h2⟩; exact ⟨rfl, h0, h1, h2⟩
  · rintro ⟨rfl, h0, h1, h2⟩; exact ⟨h0, ⟨rfl, h1⟩, h2⟩

theorem OneOfP.fail_many1 (h : OneOfP p P) {r : List I} {c : Committed} :
    Fail (many1 p) r c ↔ c = .uncommitted ∧ NoHead P r := by
  rw [OniComb.fail_many1, h.fails]

theorem OneOfP.prog (h : OneOfP p P) : Prog p := ⟨fun t v rest he => by
  obtain ⟨rfl, -⟩ := h.eats.1 he; simp⟩

theorem OneOfP.halts (h : OneOfP p P) : Halts p := ⟨fun _ => h.ret⟩

end

/-! ### More instances -/

section
variable {p : Parser I A} {q : Parser I B}

instance [h : Prog p] : Prog (attempt p) := ⟨fun t v rest he => h.out t v rest (eats_attempt.1 he)⟩
instance {p' : Parser I A} [h : Prog p] [h' : Prog p'] : Prog (or p p') := ⟨fun t v rest he =>
  (eats_or.1 he).elim (h.out t v rest) fun h2 => h'.out t v rest h2.2⟩
instance (f : I → Bool) : Prog (elmPred f) := ⟨fun t v rest he => by
  obtain ⟨rfl, -⟩ := eats_elmPred.1 he; simp⟩
instance (f : I → Bool) : Prog (elmOfSet f) := ⟨fun t v rest he => by
  obtain ⟨rfl, -⟩ := eats_elmOfSet.1 he; simp⟩
instance [DecidableEq I] (l : List I) : Prog (elmOf l) := inferInstanceAs (Prog (elmOfSet _))
instance [DecidableEq I] (l : List I) : Prog (noneOf l) := by
  unfold noneOf; rw [noneOfSet_eq]; infer_instance
instance (f : I → Bool) : NoDiv (noneOfSet f) := by rw [noneOfSet_eq]; infer_instance
instance [DecidableEq I] (l : List I) : NoDiv (noneOf l) := by unfold noneOf; infer_instance
instance [Element I] : Prog (elmAlpha : Parser I I) := inferInstanceAs (Prog (elmPred _))
instance [Element I] : Prog (elmDigit : Parser I I) := inferInstanceAs (Prog (elmPred _))
instance [Element I] : Prog (elmHexDigit : Parser I I) := inferInstanceAs (Prog (elmPred _))
instance [h : Prog p] (f : A → Bool) : Prog (filter p f) := ⟨fun t v rest he => h.out t v rest (eats_filter.1 he).1⟩
instance [Element I] : Prog (elmDigit19 : Parser I I) := inferInstanceAs (Prog (filter _ _))
theorem prog_seq [DecidableEq I] {lit : List I} (h : lit ≠ []) : Prog (seq lit) := ⟨fun t v rest he => by
  obtain ⟨rfl, -⟩ := eats_seq.1 he; exact h⟩
instance [h : Prog p] [Good p] : Prog (many1 p) := ⟨fun t v rest he => by
  obtain ⟨h1, h2, -⟩ := eats_many1.1 he
  cases h2 with
  | nil => exact absurd rfl h1
  | cons he _ => simp [h.out _ _ _ he]⟩
instance [h : Prog p] [Good p] [Good q] : Prog (many1Sep p q) := ⟨fun t v rest he => by
  obtain ⟨t1, t2, t3, v, ws, rfl, -, h1, -⟩ := eats_many1Sep.1 he
  simp [h.out _ _ _ h1]⟩
instance [h : Prog q] [Good p] [Good q] : Prog (skipLeft p q) := ⟨fun t v rest he => by
  obtain ⟨t1, t2, w, rfl, -, h2⟩ := eats_skipLeft.1 he
  simp [h.out _ _ _ h2]⟩
instance {C : Type} {l : Parser I C} [h : Prog p] [Good l] [Good p] [Good q] : Prog (surround l p q) := by
  unfold surround; infer_instance
instance [Good p] [Good q] [h : Halts p] [h' : Halts q] [h'' : Prog p] : Halts (many1Sep p q) :=
  ⟨fun _ => ret_many1Sep (fun r' _ => h.out r') (fun r' _ => h'.out r') (.inl fun t v rest _ he => h''.out t v rest he)⟩
instance [Good p] [Good q] [h : Halts p] [h' : Halts q] [h'' : Prog p] : Halts (many0Sep p q) :=
  ⟨fun _ => ret_many0Sep (fun r' _ => h.out r') (fun r' _ => h'.out r') (.inl fun t v rest _ he => h''.out t v rest he)⟩
instance [h : Halts p] : Halts (discard p) := ⟨fun r => ret_discard.2 (h.out r)⟩
instance {C : Type} {l : Parser I C} [Good l] [Good p] [Good q] [Halts l] [Halts p] [Halts q] :
    Halts (surround l p q) := by unfold surround; infer_instance
instance (f : I → Bool) : NoDiv (takeTill0 f) := ⟨fun s => noDiv_withInput _ _ fun l => by
  cases findTill f 0 l with
  | none => simp
  | some i => exact noDiv_withSlice _ _ _ (by simp)⟩
instance [Good p] [h : Halts p] {f : A → Parser I B} [∀ a, Good (f a)] [h' : ∀ a, Halts (f a)] :
    Halts (flatMap p f) := ⟨fun r => ret_flatMap.2 ⟨h.out r, fun _ v rest _ _ => (h' v).out rest⟩⟩
end

/-! ### Forward rules -/

section
variable {C : Type} {l : Parser I C} {p : Parser I A} {q : Parser I B} {t1 t2 t3 rest : List I}

theorem Eats.andThen [Good p] [Good q] {v : A} {w : B} (h1 : Eats p t1 v (t2 ++ rest)) (h2 : Eats q t2 w rest) :
    Eats (andThen p q) (t1 ++ t2) (v, w) rest := eats_andThen.2 ⟨t1, t2, rfl, h1, h2⟩

theorem Eats.skipLeft [Good p] [Good q] {v : A} {w : B} (h1 : Eats p t1 v (t2 ++ rest)) (h2 : Eats q t2 w rest) :
    Eats (skipLeft p q) (t1 ++ t2) w rest := eats_skipLeft.2 ⟨t1, t2, v, rfl, h1, h2⟩

theorem Eats.skipRight [Good p] [Good q] {v : A} {w : B} (h1 : Eats p t1 v (t2 ++ rest)) (h2 : Eats q t2 w rest) :
    Eats (skipRight p q) (t1 ++ t2) v rest := eats_skipRight.2 ⟨t1, t2, w, rfl, h1, h2⟩

theorem Eats.surround [Good l] [Good p] [Good q] {c : C} {v : A} {w : B} (h1 : Eats l t1 c (t2 ++ (t3 ++ rest)))
    (h2 : Eats p t2 v (t3 ++ rest)) (h3 : Eats q t3 w rest) :
    Eats (surround l p q) (t1 ++ (t2 ++ t3)) v rest := by
  unfold OniComb.surround
  exact Eats.skipLeft (by rw [List.append_assoc]; exact h1) (h2.skipRight h3)

theorem Eats.map {v : A} (f : A → B) (h : Eats p t1 v rest) : Eats (map p f) t1 (f v) rest := eats_map.2 ⟨v, h, rfl⟩

theorem Eats.attempt {v : A} (h : Eats p t1 v rest) : Eats (attempt p) t1 v rest := eats_attempt.2 h

theorem Eats.or_left {p' : Parser I A} {v : A} (h : Eats p t1 v rest) : Eats (or p p') t1 v rest := eats_or.2 (.inl h)

theorem Eats.or_right {p' : Parser I A} {v : A} (h' : Fail p (t1 ++ rest) .uncommitted) (h : Eats p' t1 v rest) :
    Eats (or p p') t1 v rest := eats_or.2 (.inr ⟨h', h⟩)

theorem fail_attempt_of {c : Committed} (h : Fail p t1 c) : Fail (attempt p) t1 .uncommitted := fail_attempt.2 ⟨rfl, c, h⟩

theorem Fail.or {p' : Parser I A} {c : Committed} (h : Fail p t1 .uncommitted) (h' : Fail p' t1 c) :
    Fail (or p p') t1 c := fail_or.2 (.inr ⟨h, h'⟩)

theorem Fail.map {c : Committed} (f : A → B) (h : Fail p t1 c) : Fail (map p f) t1 c := fail_map.2 h

theorem Fail.andThen [Good p] [Good q] {c : Committed} (h : Fail p t1 c) : Fail (andThen p q) t1 c :=
  fail_andThen.2 (.inl h)

theorem Fail.skipLeft [Good p] [Good q] {c : Committed} (h : Fail p t1 c) : Fail (skipLeft p q) t1 c :=
  fail_skipLeft.2 (.inl h)

theorem Fail.skipRight [Good p] [Good q] {c : Committed} (h : Fail p t1 c) : Fail (skipRight p q) t1 c :=
  fail_skipRight.2 (.inl h)

theorem Fail.surround [Good l] [Good p] [Good q] {c : Committed} (h : Fail l t1 c) : Fail (surround l p q) t1 c := by
  unfold OniComb.surround; exact h.skipLeft

theorem Eats.skipLeft_fail [Good p] [Good q] {v : A} {c : Committed} (h1 : Eats p t1 v t2) (h2 : Fail q t2 c) :
    Fail (OniComb.skipLeft p q) (t1 ++ t2) c := fail_skipLeft.2 (.inr ⟨t1, v, t2, rfl, h1, h2⟩)

theorem Eats.andThen_fail [Good p] [Good q] {v : A} {c : Committed} (h1 : Eats p t1 v t2) (h2 : Fail q t2 c) :
    Fail (OniComb.andThen p q) (t1 ++ t2) c := fail_andThen.2 (.inr ⟨t1, v, t2, rfl, h1, h2⟩)

theorem Eats.skipRight_fail [Good p] [Good q] {v : A} {c : Committed} (h1 : Eats p t1 v t2) (h2 : Fail q t2 c) :
    Fail (OniComb.skipRight p q) (t1 ++ t2) c := fail_skipRight.2 (.inr ⟨t1, v, t2, rfl, h1, h2⟩)

end

end OniComb
