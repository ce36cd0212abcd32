import Verif.Lemmas.OneItem
import Verif.Props.Chain

/-! # Helper lemmas: operator chains as relations on texts -/

namespace OniComb
variable {I A : Type} {p : Parser I A} {op : Parser I (A → A → A)} {t r rest : List I}

/-- `(op p)*` as a relation on texts. -/
inductive OpMany (p : Parser I A) (op : Parser I (A → A → A)) :
    List I → List ((A → A → A) × A) → List I → Prop where
  | nil (rest : List I) : OpMany p op [] [] rest
  | cons {s t t' rest : List I} {f : A → A → A} {y : A} {ops : List ((A → A → A) × A)} :
      Eats op s f (t ++ (t' ++ rest)) → Eats p t y (t' ++ rest) → OpMany p op t' ops rest →
      OpMany p op (s ++ (t ++ t')) ((f, y) :: ops) rest

/-- The chain ends in front of the text. -/
def ChainStop (p : Parser I A) (op : Parser I (A → A → A)) (rest : List I) : Prop :=
  Fail op rest .uncommitted ∨ (∃ f, Eats op [] f rest) ∧ Fail p rest .uncommitted

theorem opRun_many [Good p] [Good op] (pre r : List I) (ops : List ((A → A → A) × A)) (n : Nat) :
    OpRun p op ⟨pre ++ r, pre.length⟩ ops n ↔
      ∃ t rest, r = t ++ rest ∧ n = t.length ∧ OpMany p op t ops rest := by
  induction ops generalizing pre r n with
  | nil =>
    constructor
    · intro h; cases h; exact ⟨[], r, rfl, rfl, .nil r⟩
    · rintro ⟨t, rest, rfl, rfl, h⟩; cases h; exact .nil _
  | cons o ops ih =>
    obtain ⟨f, y⟩ := o
    constructor
    · intro h
      cases h with
      | @cons _ n1 n2 m _ _ _ h1 h2 h3 =>
        obtain ⟨s, r1, rfl, rfl, h4⟩ := success_split ((at_success pre r f n1).1 h1)
        have h2' : p ⟨(pre ++ s) ++ r1, (pre ++ s).length⟩ = .success y n2 := by simpa using h2
        obtain ⟨t, r2, rfl, rfl, h5⟩ := success_split ((at_success _ _ y n2).1 h2')
        have h3' : OpRun p op ⟨(pre ++ s ++ t) ++ r2, (pre ++ s ++ t).length⟩ ops m := by
          simpa [Nat.add_assoc] using h3
        obtain ⟨t', rest, rfl, rfl, h6⟩ := (ih _ _ _).1 h3'
        exact ⟨s ++ (t ++ t'), rest, by simp, by simp [Nat.add_assoc], .cons h4 h5 h6⟩
    · rintro ⟨t, rest, rfl, rfl, h⟩
      cases h with
      | @cons s t t' _ _ _ _ h1 h2 h3 =>
        have e1 := (at_success (p := op) pre (s ++ (t ++ (t' ++ rest))) f s.length).2 h1
        have e2 := (at_success (p := p) (pre ++ s) (t ++ (t' ++ rest)) y t.length).2 h2
        have e3 := (ih (pre ++ s ++ t) (t' ++ rest) t'.length).2 ⟨t', rest, rfl, rfl, h3⟩
        have := OpRun.cons (s := ⟨pre ++ (s ++ (t ++ (t' ++ rest))), pre.length⟩) e1
          (by simpa using e2) (by simpa [Nat.add_assoc] using e3)
        simpa [Nat.add_assoc] using this

theorem chainEnd_stop [Good p] [Good op] (pre rest : List I) :
    ChainEnd p op ⟨pre ++ rest, pre.length⟩ ↔ ChainStop p op rest := by
  unfold ChainEnd ChainStop
  rw [at_failure]
  refine or_congr Iff.rfl ?_
  constructor
  · rintro ⟨f, e, h1, h2⟩
    exact ⟨⟨f, (at_success pre rest f 0).1 h1⟩, (at_failure pre rest _).1 ⟨e, h2⟩⟩
  · rintro ⟨⟨f, h1⟩, h2⟩
    obtain ⟨e, h2⟩ := (at_failure pre rest _).2 h2
    exact ⟨f, e, (at_success pre rest f 0).2 h1, h2⟩

theorem eats_chainLeft1 [Good p] [Good op] {v : A} : Eats (chainLeft1 p op) t v rest ↔
    ∃ t1 x t2 ops, t = t1 ++ t2 ∧ Eats p t1 x (t2 ++ rest) ∧ OpMany p op t2 ops rest ∧
      v = applyLeft x ops ∧ ChainStop p op rest := by
  unfold Eats
  rw [c17_chainLeft1_success_iff p op Good.tame Good.tame]
  constructor
  · rintro ⟨x, l, ops, m, h1, h2, rfl, h3, h4⟩
    obtain ⟨t1, r1, e1, rfl, h5⟩ := success_split h1
    rw [e1] at h2 h4
    simp only [Nat.zero_add] at h2 h4
    obtain ⟨t2, r2, rfl, rfl, h6⟩ := (opRun_many _ _ _ _).1 h2
    have e2 : t ++ rest = (t1 ++ t2) ++ r2 := by rw [e1]; simp
    obtain ⟨rfl, rfl⟩ := List.append_inj e2 (by simp; omega)
    refine ⟨t1, x, t2, ops, rfl, h5, h6, rfl, (chainEnd_stop (t1 ++ t2) rest).1 ?_⟩
    simpa using h4
  · rintro ⟨t1, x, t2, ops, rfl, h1, h2, rfl, h3⟩
    refine ⟨x, t1.length, ops, t2.length, ?_, ?_, rfl, by simp, ?_⟩
    · rw [List.append_assoc]; exact h1
    · have := (opRun_many t1 (t2 ++ rest) ops t2.length).2 ⟨t2, rest, rfl, rfl, h2⟩
      simpa using this
    · have := (chainEnd_stop (t1 ++ t2) rest).2 h3
      simpa using this

theorem Fail.chainLeft1 {c : Committed} (h : Fail p r c) : Fail (OniComb.chainLeft1 p op) r c := by
  obtain ⟨e, h⟩ := h
  exact ⟨e, by unfold OniComb.chainLeft1 flatMap; rw [h]⟩

theorem opRun_sep {s : State I} {ops : List ((A → A → A) × A)} {n : Nat} (h : OpRun p op s ops n) :
    SepRun p (some op) s (ops.map Prod.snd) n := by
  induction h with
  | nil s => exact .nil s
  | cons h1 h2 hr ih => exact .cons ⟨_, h1⟩ h2 ih

/-- A chain returns where the repetition with the operator as separator does. -/
theorem ret_chainLeft1 [Good p] [Good op] (h : Ret (many1Sep p op) r) : Ret (OniComb.chainLeft1 p op) r := by
  intro hd
  refine h ((c14_diverge_iff p (some op) Good.tame (by rintro q ⟨⟩; exact Good.tame) _ rfl _).2 ?_)
  unfold OniComb.chainLeft1 flatMap at hd
  cases hp : p ⟨r, 0⟩ with
  | success x l =>
    rw [hp] at hd
    simp only [State.advanceBy] at hd
    have hd' : restLeft1 p op x ⟨r, 0 + l⟩ = .diverge := by
      cases hr : restLeft1 p op x ⟨r, 0 + l⟩ <;> rw [hr] at hd <;> simp [Res.addCommit, Res.advanceSuccess] at hd ⊢
    rcases (c14_restLeft1_diverge_iff p op Good.tame Good.tame _ _).1 hd' with h1 | ⟨ops, m, h1, h2⟩
    · exact .inr ⟨x, l, rfl, .inl h1⟩
    · exact .inr ⟨x, l, rfl, .inr ⟨_, m, opRun_sep h1, h2⟩⟩
  | diverge => exact .inl rfl
  | _ => rw [hp] at hd; cases hd

end OniComb
