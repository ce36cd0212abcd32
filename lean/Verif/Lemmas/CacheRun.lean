import Verif.Lemmas.CacheGrammar
import Verif.Model.Elements

/-! # Helper lemmas: runs of grammars with new caches -/

namespace OniComb.Stateful
variable {I A B S T : Type}

/-! ### Grammars with new caches -/

/-- Built with new caches, the grammar follows the parser on the states `P`. -/
def Run [New S] (P : State I → Prop) (sp : SParser S I A) (g : Parser I A) : Prop :=
  ∃ Inv : List I → S → Prop, (∀ t, Inv t New.new) ∧ Follows P Inv sp g

section
variable {P Q R : State I → Prop}

theorem Run.mono [New S] {sp : SParser S I A} {g : Parser I A} (h : Run Q sp g) (hp : ∀ s, P s → Q s) : Run P sp g := by
  obtain ⟨Inv, h0, h⟩ := h
  exact ⟨Inv, h0, h.mono hp⟩

theorem run_plain [New S] (p : Parser I A) : Run P (ofParser p : SParser S I A) p :=
  ⟨fun _ _ => True, fun _ => trivial, follows_plain p⟩

theorem run_cache [New S] {sp : SParser S I A} {g : Parser I A} (D : Nat → Bool) (hD : D 0 = false ∨ D 1 = false)
    (hP : ∀ s, P s → D s.offset = true) (h : Run P sp g) : Run P (Stateful.cache sp) g := by
  obtain ⟨Inv, h0, h⟩ := h
  refine ⟨CacheOk D g Inv, fun t => ⟨?_, h0 t⟩, follows_cache_on D hD hP h⟩
  intro a l r hf; cases hf

theorem run_built [New T] {sp : SParser T I A} {g : Parser I A} (h : Run P sp g) (Inv : List I → S → Prop) :
    Follows P Inv (built sp : SParser S I A) g := by
  obtain ⟨Inv', h0, h⟩ := h
  exact follows_built h0 h

theorem run_unary [New S] {C : Parser I A → Parser I B} (hC : Unary C) {sp : SParser S I A} {g : Parser I A}
    (h : Run P sp g) : Run P (Stateful.unary C sp) (C g) := by
  obtain ⟨Inv, h0, h⟩ := h
  exact ⟨Inv, h0, follows_unary hC h⟩

/-- Two grammars with their own caches. -/
theorem run_pair [New S] [New T] {C : Type} {sp : SParser S I A} {g : Parser I A} {sq : SParser T I B} {q : Parser I B}
    (h : Run P sp g) (h' : Run Q sq q) {sr : SParser (S × T) I C} {r : Parser I C}
    (hr : ∀ Inv, Follows P Inv (left sp) g → Follows Q Inv (lift sq) q → Follows R Inv sr r) : Run R sr r := by
  obtain ⟨Inv, h0, h⟩ := h
  obtain ⟨Inv', h0', h'⟩ := h'
  exact ⟨fun t σ => Inv t σ.1 ∧ Inv' t σ.2, fun t => ⟨h0 t, h0' t⟩, hr _ (follows_left h) (follows_right h')⟩

/-! ### Operator chains -/

theorem follows_restLeft1N' {Inv : List I → S → Prop} {sp : SParser S I A} {sp' : SParser S I (A → A → A)}
    {g : Parser I A} {g' : Parser I (A → A → A)} (h : Follows P Inv sp g) (h' : Follows Q Inv sp' g')
    (hl : Leads P g Q) (hl' : Leads Q g' P) :
    ∀ (k : Nat) (x : A), Follows Q Inv (Stateful.restLeft1N sp sp' k x) (OniComb.restLeft1N g g' k x)
  | 0, _ => fun _ _ => ensures_pure _
  | k + 1, x => by
    unfold Stateful.restLeft1N OniComb.restLeft1N
    refine follows_or ?_ (follows_plain _)
    intro s hs
    refine ensures_bind (h' (s.advanceBy 0) hs) (fun e => by dsimp only; rw [e]) ?_
    dsimp only
    have h1 := fun v n => hl' (s.advanceBy 0) v n hs
    revert h1
    rcases g' (s.advanceBy 0) with ⟨f, n1⟩ | ⟨e, c⟩ | _ | _ <;> intro h1
    · refine ensures_bind (h ((s.advanceBy 0).advanceBy n1) (h1 f n1 rfl))
        (fun e => by dsimp only; rw [e]; rfl) ?_
      dsimp only
      have h2 := fun v n => hl ((s.advanceBy 0).advanceBy n1) v n (h1 f n1 rfl)
      revert h2
      rcases g ((s.advanceBy 0).advanceBy n1) with ⟨y, n2⟩ | ⟨e, c⟩ | _ | _ <;> intro h2
      · exact ensures_map (follows_restLeft1N' h h' hl hl' k (f x y) (((s.advanceBy 0).advanceBy n1).advanceBy n2)
          (h2 y n2 rfl)) (fun e => by dsimp only; rw [e]; rfl) rfl
      · exact ensures_pure _
      · exact ensures_pure _
      · exact ensures_pure _
    · exact ensures_pure _
    · exact ensures_pure _
    · exact ensures_pure _

theorem run_chainLeft1 [New S] {sp : SParser S I A} {g : Parser I A} {g' : Parser I (A → A → A)} (h : Run P sp g)
    (hl : Leads P g Q) (hl' : Leads Q g' P) :
    Run P (Stateful.chainLeft1 sp (ofParser g')) (OniComb.chainLeft1 g g') := by
  obtain ⟨Inv, h0, h⟩ := h
  exact ⟨Inv, h0, follows_flatMap h hl fun x s hs => follows_restLeft1N' h (follows_plain _) hl hl' _ x s hs⟩

end

end OniComb.Stateful

namespace OniComb
variable {I A B : Type}

/-! ### Lengths -/

/-- A success takes at least so much. -/
def Takes (k : Nat) (p : Parser I A) : Prop := ∀ s v n, p s = .success v n → k ≤ n

section
variable {k : Nat} {p : Parser I A} {q : Parser I B}

theorem Takes.mono {j : Nat} (h : Takes k p) (hj : j ≤ k) : Takes j p := fun s v n e => Nat.le_trans hj (h s v n e)

theorem takes_unary {C : Parser I A → Parser I B} (hC : ∀ s v n, C p s = .success v n → ∃ w, p s = .success w n)
    (h : Takes k p) : Takes k (C p) := fun s v n e => by
  obtain ⟨w, e⟩ := hC s v n e
  exact h s w n e

theorem takes_map (f : A → B) (h : Takes k p) : Takes k (map p f) :=
  takes_unary (C := fun p => map p f) (fun s v n e => by
    unfold map at e
    cases e' : p s with
    | success w m => rw [e'] at e; cases e; exact ⟨w, rfl⟩
    | failure => rw [e'] at e; cases e
    | panic => rw [e'] at e; cases e
    | diverge => rw [e'] at e; cases e) h

theorem takes_name (l : String) (h : Takes k p) : Takes k (name p l) :=
  takes_unary (C := fun p => name p l) (fun s v n e => by
    unfold name at e
    cases e' : p s with
    | success w m => rw [e'] at e; cases e; exact ⟨v, rfl⟩
    | failure => rw [e'] at e; dsimp only at e; split at e <;> cases e
    | panic => rw [e'] at e; cases e
    | diverge => rw [e'] at e; cases e) h

theorem takes_attempt (h : Takes k p) : Takes k (attempt p) :=
  takes_unary (C := attempt) (fun s v n e => by
    unfold attempt at e
    cases e' : p s with
    | success w m => rw [e'] at e; cases e; exact ⟨v, rfl⟩
    | failure _ c => rw [e'] at e; cases c <;> cases e
    | panic => rw [e'] at e; cases e
    | diverge => rw [e'] at e; cases e) h

theorem takes_mapRes (f : A → Option B) (h : Takes k p) : Takes k (mapRes p f) :=
  takes_unary (C := fun p => mapRes p f) (fun s v n e => by
    unfold mapRes at e
    cases e' : p s with
    | success w m =>
      rw [e'] at e
      dsimp only at e
      cases e2 : f w with
      | some b => rw [e2] at e; cases e; exact ⟨w, rfl⟩
      | none =>
        rw [e2] at e
        unfold State.withInput at e
        dsimp only at e
        split at e <;> cases e
    | failure => rw [e'] at e; cases e
    | panic => rw [e'] at e; cases e
    | diverge => rw [e'] at e; cases e) h

theorem takes_or {p' : Parser I A} (h : Takes k p) (h' : Takes k p') : Takes k (or p p') := fun s v n e => by
  unfold or at e
  split at e
  · exact h' s v n e
  · exact h s v n e

theorem takes_andThen {j : Nat} (h : Takes k p) (h' : Takes j q) : Takes (k + j) (andThen p q) := fun s v n e => by
  unfold andThen at e
  cases e' : p s with
  | success w m =>
    rw [e'] at e
    dsimp only at e
    have := h s w m e'
    cases e2 : q (s.advanceBy m) with
    | success w2 m2 => rw [e2] at e; cases e; have := h' _ w2 m2 e2; omega
    | failure => rw [e2] at e; cases e
    | panic => rw [e2] at e; cases e
    | diverge => rw [e2] at e; cases e
  | failure => rw [e'] at e; cases e
  | panic => rw [e'] at e; cases e
  | diverge => rw [e'] at e; cases e

theorem takes_any (p : Parser I A) : Takes 0 p := fun _ _ _ _ => Nat.zero_le _

theorem takes_skipLeft {j : Nat} (h : Takes k p) (h' : Takes j q) : Takes (k + j) (skipLeft p q) := by
  rw [Stateful.skipLeft_eq]; exact takes_map _ (takes_andThen h h')

theorem takes_skipRight {j : Nat} (h : Takes k p) (h' : Takes j q) : Takes (k + j) (skipRight p q) := by
  rw [Stateful.skipRight_eq]; exact takes_map _ (takes_andThen h h')

theorem takes_flatMap {f : A → Parser I B} (h : Takes k p) : Takes k (flatMap p f) := fun s v n e => by
  unfold flatMap at e
  cases e' : p s with
  | success w m =>
    rw [e'] at e
    dsimp only at e
    have := h s w m e'
    cases e2 : f w (s.advanceBy m) with
    | success w2 m2 => rw [e2] at e; simp [Res.addCommit, Res.advanceSuccess] at e; omega
    | failure => rw [e2] at e; simp [Res.addCommit, Res.advanceSuccess] at e
    | panic => rw [e2] at e; cases e
    | diverge => rw [e2] at e; cases e
  | failure => rw [e'] at e; cases e
  | panic => rw [e'] at e; cases e
  | diverge => rw [e'] at e; cases e

theorem takes_filterNot (f : A → Bool) (h : Takes k p) : Takes k (filterNot p f) :=
  takes_unary (C := fun p => filterNot p f) (fun s v n e => by
    unfold filterNot filter at e
    cases e' : p s with
    | success w m =>
      rw [e'] at e
      dsimp only at e
      split at e <;> cases e
      exact ⟨v, rfl⟩
    | failure => rw [e'] at e; cases e
    | panic => rw [e'] at e; cases e
    | diverge => rw [e'] at e; cases e) h

theorem takes_elmPred (f : I → Bool) : Takes 1 (elmPred f) := fun s v n h => by
  unfold elmPred State.withInput at h
  split at h
  · dsimp only at h
    split at h
    · split at h
      · cases h; exact Nat.le_refl 1
      · cases h
    · cases h
  · cases h

theorem takes_elmOfSet (f : I → Bool) : Takes 1 (elmOfSet f) := fun s v n h => by
  unfold elmOfSet State.withInput at h
  split at h
  · dsimp only at h
    split at h
    · split at h
      · cases h; exact Nat.le_refl 1
      · cases h
    · cases h
  · cases h

theorem takes_elm [DecidableEq I] (x : I) : Takes 1 (elm x) := takes_elmPred _

end

theorem takes_seqLoop {I : Type} (eq : I → I → Bool) (s : State I) (inp lit : List I) :
    ∀ (pat : List I) (index : Nat) (rest v : List I) (n : Nat), seqLoop eq s inp lit index pat rest = .success v n →
      index + pat.length ≤ n
  | [], index, rest, v, n, h => by unfold seqLoop at h; cases h; exact Nat.le_refl _
  | c :: pat, index, [], v, n, h => by unfold seqLoop at h; cases h
  | c :: pat, index, x :: rest, v, n, h => by
    unfold seqLoop at h
    split at h
    · have := takes_seqLoop eq s inp lit pat (index + 1) rest v n h
      rw [List.length_cons]; omega
    · cases h

theorem takes_tag (l : List Char) : Takes l.length (tag l) := fun s v n h => by
  unfold tag seq State.withInput at h
  split at h
  · have := takes_seqLoop _ _ _ _ _ _ _ _ _ h; omega
  · cases h

theorem takes_regex {m : List Char → Option Nat} (hm : ∀ t k, m t = some k → t ≠ [] ∧ k ≠ 0) : Takes 1 (regex m) :=
  fun s v n h => by
    unfold regex State.withInput at h
    split at h
    · dsimp only at h
      split at h
      · rename_i k e
        cases h
        obtain ⟨h1, h2⟩ := hm _ _ e
        cases e2 : s.input.drop s.offset with
        | nil => exact absurd e2 h1
        | cons c r =>
          cases k with
          | zero => exact absurd rfl h2
          | succ k =>
            rw [List.take_succ_cons, List.map_cons, List.sum_cons]
            have : 1 ≤ utf8Len c := by unfold utf8Len; split <;> (try split) <;> (try split) <;> omega
            omega
      · cases h
    · cases h

namespace Stateful

/-! ### Places -/

/-- Not both the beginning and the place next to it. -/
def Apart (P : State I → Prop) : Prop :=
  ∃ D : Nat → Bool, (D 0 = false ∨ D 1 = false) ∧ ∀ s, P s → D s.offset = true

/-- Places where cached parsers are asked (`P`) and where operators are asked (`Q`). -/
structure Place (P Q : State I → Prop) : Prop where
  apart : Apart P
  item : ∀ s n, P s → 1 ≤ n → Q (s.advanceBy n)
  op : ∀ s n, Q s → 1 ≤ n → P (s.advanceBy n)

/-- Not at the beginning. -/
abbrev Late (s : State I) : Prop := 1 ≤ s.offset

theorem place_late : Place (I := I) Late Late :=
  ⟨⟨fun o => decide (1 ≤ o), .inl rfl, fun s hs => by simpa using hs⟩, fun s n h _ => Nat.le_trans h (Nat.le_add_right _ _),
    fun s n h _ => Nat.le_trans h (Nat.le_add_right _ _)⟩

/-- At the beginning, or not next to it. -/
abbrev Far (s : State I) : Prop := s.offset = 0 ∨ 2 ≤ s.offset

theorem place_far : Place (I := I) Far Late :=
  ⟨⟨fun o => decide (o = 0 ∨ 2 ≤ o), .inr rfl, fun s hs => by simpa using hs⟩,
    fun s n _ h => Nat.le_trans h (Nat.le_add_left _ _), fun s n h h' => .inr (Nat.add_le_add h h')⟩

section
variable {P Q : State I → Prop}

theorem Apart.cache (hp : Apart P) {S A : Type} [New S] {sp : SParser S I A} {g : Parser I A} (h : Run P sp g) :
    Run P (Stateful.cache sp) g := by
  obtain ⟨D, hD, hP⟩ := hp
  exact run_cache D hD hP h

theorem Place.cache (hp : Place P Q) {S A : Type} [New S] {sp : SParser S I A} {g : Parser I A} (h : Run P sp g) :
    Run P (Stateful.cache sp) g := hp.apart.cache h

theorem leads_any {A : Type} (g : Parser I A) : Leads P g (fun _ => True) := fun _ _ _ _ _ => trivial

theorem leads_late {A : Type} {g : Parser I A} (h : Takes 1 g) : Leads P g Late := fun s v n _ e =>
  Nat.le_trans (h s v n e) (Nat.le_add_left _ _)

theorem run_either {S T A : Type} [New S] [New T] {sp : SParser S I A} {g : Parser I A} {sq : SParser T I A}
    {q : Parser I A} (h : Run P sp g) (h' : Run P sq q) : Run P (either sp sq) (OniComb.or g q) :=
  run_pair h h' fun _ h1 h2 => follows_or h1 h2

/-- A follower without caches of its own. -/
theorem run_clean {A : Type} {sp : SParser Unit I A} {g : Parser I A} (h : ∀ Inv, Follows P Inv sp g) : Run P sp g :=
  ⟨fun _ _ => True, fun _ => trivial, h _⟩

theorem Place.chain (hp : Place P Q) {T A : Type} [New T] {sp : SParser T I A} {g : Parser I A}
    {g' : Parser I (A → A → A)} (h : Run P sp g) (hg : Takes 1 g) (hg' : Takes 1 g') :
    Run P (Stateful.chainLeft1 sp (ofParser g')) (OniComb.chainLeft1 g g') :=
  run_chainLeft1 h (fun s v n hs e => hp.item s n hs (hg s v n e)) (fun s v n hs e => hp.op s n hs (hg' s v n e))

end

end Stateful

end OniComb
