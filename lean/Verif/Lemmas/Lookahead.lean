import Verif.Spec.Lookahead
import Verif.Props.Repeat

/-! # Lemmas about lookahead -/

namespace OniComb
variable {I A B C : Type}

/-! ## Texts that agree for a while -/

theorem SameFor.mono {m m' : Nat} {s s' : State I} (h : SameFor m s s') (hm : m' ≤ m) : SameFor m' s s' := by
  refine ⟨h.place, h.inside, h.inside', ?_⟩
  have := congrArg (List.take m') h.next
  simpa only [List.take_take, Nat.min_eq_left hm] using this

theorem SameFor.symm {m : Nat} {s s' : State I} (h : SameFor m s s') : SameFor m s' s :=
  ⟨h.place.symm, h.inside', h.inside, h.next.symm⟩

theorem SameFor.bound {n k : Nat} {s s' : State I} (h : SameFor (n + k) s s') (hn : s.offset + n ≤ s.input.length) :
    s'.offset + n ≤ s'.input.length := by
  have h1 := congrArg List.length h.next
  simp only [List.length_take, List.length_drop] at h1
  have := h.inside
  have := h.inside'
  have := h.place
  omega

theorem SameFor.advance {n k : Nat} {s s' : State I} (h : SameFor (n + k) s s') (hn : s.offset + n ≤ s.input.length) :
    SameFor k (s.advanceBy n) (s'.advanceBy n) := by
  refine ⟨congrArg (· + n) h.place, hn, h.bound hn, ?_⟩
  have := congrArg (List.drop n) h.next
  simpa only [State.advanceBy, List.drop_take, List.drop_drop, Nat.add_sub_cancel_left] using this

theorem SameFor.slice {n : Nat} {s s' : State I} (h : SameFor n s s') :
    (s.input.drop s.offset).take n = (s'.input.drop s'.offset).take n := h.next

/-! ## Answers -/

theorem SameAnswer.refl (r : Res I A) : SameAnswer r r := by cases r <;> simp [SameAnswer]

theorem SameAnswer.success {v : A} {n : Nat} {r r' : Res I A} (h : SameAnswer r r') (hr : r = .success v n) :
    r' = .success v n := by
  subst hr
  cases r' <;> simp_all [SameAnswer]

theorem SameAnswer.failure {e : PError I} {c : Committed} {r r' : Res I A} (h : SameAnswer r r') (hr : r = .failure e c) :
    ∃ e', r' = .failure e' c ∧ e.blank = e'.blank := by
  subst hr
  cases r' <;> simp_all [SameAnswer]

theorem SameAnswer.elim {r r' : Res I A} (h : SameAnswer r r') :
    (∃ v n, r = .success v n ∧ r' = .success v n) ∨ (∃ e e' c, r = .failure e c ∧ r' = .failure e' c ∧ e.blank = e'.blank) ∨
    (r = .panic ∧ r' = .panic) ∨ (r = .diverge ∧ r' = .diverge) := by
  cases r with
  | failure e c =>
    obtain ⟨e', h1, h2⟩ := h.failure rfl
    exact .inr (.inl ⟨e, e', c, rfl, h1, h2⟩)
  | success v n => exact .inl ⟨v, n, rfl, h.success rfl⟩
  | panic => cases r' <;> simp_all [SameAnswer]
  | diverge => cases r' <;> simp_all [SameAnswer]

/-! ## The four degrees -/

/-- The first three degrees: those failures are decided whose status is in `S`. -/
def Upto (S : Committed → Prop) (k : Nat) (p : Parser I A) : Prop :=
  Ahead k p ∧ ∀ s s' e c, S c → p s = .failure e c → SameFor k s s' → SameAnswer (p s) (p s')

theorem ahead_iff {k : Nat} {p : Parser I A} : Ahead k p ↔ Upto (fun _ => False) k p :=
  ⟨fun h => ⟨h, fun _ _ _ _ h => h.elim⟩, fun h => h.1⟩

theorem firm_iff {k : Nat} {p : Parser I A} : Firm k p ↔ Upto (· = .uncommitted) k p :=
  ⟨fun h => ⟨h.1, fun s s' e _ hc he => by subst hc; exact h.2 s s' e he⟩,
    fun h => ⟨h.1, fun s s' e he => h.2 s s' e _ rfl he⟩⟩

theorem settled_iff {k : Nat} {p : Parser I A} : Settled k p ↔ Upto (fun _ => True) k p :=
  ⟨fun h => ⟨h.1, fun s s' e c _ => h.2 s s' e c⟩, fun h => ⟨h.1, fun s s' e c => h.2 s s' e c trivial⟩⟩

theorem Upto.weaken {S T : Committed → Prop} {k l : Nat} {p : Parser I A} (h : Upto T k p) (hS : ∀ c, S c → T c) (hk : k ≤ l) :
    Upto S l p :=
  ⟨fun s v n hp hs => ⟨(h.1 s v n hp hs).1, fun s' hs' => (h.1 s v n hp hs).2 s' (hs'.mono (by omega))⟩,
    fun s s' e c hc he hs => h.2 s s' e c (hS c hc) he (hs.mono hk)⟩

theorem Within.upto {k : Nat} {p : Parser I A} (h : Within k p) (S : Committed → Prop) : Upto S k p :=
  ⟨fun s v n hp hs => ⟨h.1 s v n hp hs, fun _ hs' => (h.2 s _ (hs'.mono (by omega))).success hp⟩,
    fun s s' _ _ _ _ hs => h.2 s s' hs⟩

theorem Within.mono {k l : Nat} {p : Parser I A} (h : Within k p) (hk : k ≤ l) : Within l p :=
  ⟨h.1, fun s s' hs => h.2 s s' (hs.mono hk)⟩

/-- It reads no more than what decides. -/
theorem Within.le {k : Nat} {p : Parser I A} (h : Within k p) {s : State I} {v : A} {n : Nat} (hp : p s = .success v n)
    (hs : s.offset ≤ s.input.length) : n ≤ k := by
  by_cases hk : s.offset + k ≤ s.input.length
  · have hsame : SameFor k s ⟨s.input.take (s.offset + k), s.offset⟩ := by
      refine ⟨rfl, hs, ?_, ?_⟩
      · simp only [List.length_take]; omega
      · simp only [List.drop_take, List.take_take]
        congr 1
        omega
    have := h.1 _ _ _ ((h.2 _ _ hsame).success hp) hsame.inside'
    simp only [List.length_take] at this
    omega
  · have := h.1 _ _ _ hp hs
    omega

/-! ## Parsers that only change values and errors -/

/-- The second parser reads and fails as the first one does. -/
structure Tracks (p : Parser I A) (q : Parser I B) (val : State I → A → Nat → B) (err : State I → PError I → PError I) :
    Prop where
  success : ∀ s v n, p s = .success v n → s.offset + n ≤ s.input.length → q s = .success (val s v n) n
  failure : ∀ s e c, p s = .failure e c → q s = .failure (err s e) c
  panic : ∀ s, p s = .panic → q s = .panic
  diverge : ∀ s, p s = .diverge → q s = .diverge
  val : ∀ s s' v n, SameFor n s s' → val s v n = val s' v n
  err : ∀ s s' e e', s.offset = s'.offset → e.blank = e'.blank → (err s e).blank = (err s' e').blank

theorem Tracks.within {p : Parser I A} {q : Parser I B} {f g} (h : Tracks p q f g) {k : Nat} (hp : Within k p) :
    Within k q := by
  constructor
  · intro s w n hq hs
    cases hr : p s with
    | success v m =>
      have hb := hp.1 _ _ _ hr hs
      rw [h.success _ _ _ hr hb] at hq
      cases hq
      exact hb
    | failure e c => rw [h.failure _ _ _ hr] at hq; cases hq
    | panic => rw [h.panic _ hr] at hq; cases hq
    | diverge => rw [h.diverge _ hr] at hq; cases hq
  · intro s s' hs
    rcases (hp.2 s s' hs).elim with ⟨v, n, h1, h2⟩ | ⟨e, e', c, h1, h2, h3⟩ | ⟨h1, h2⟩ | ⟨h1, h2⟩
    · have hb := hp.1 _ _ _ h1 hs.inside
      have hb' := hp.1 _ _ _ h2 hs.inside'
      rw [h.success _ _ _ h1 hb, h.success _ _ _ h2 hb']
      exact ⟨h.val _ _ _ _ (hs.mono (hp.le h1 hs.inside)), rfl⟩
    · rw [h.failure _ _ _ h1, h.failure _ _ _ h2]
      exact ⟨h.err _ _ _ _ hs.place h3, rfl⟩
    · rw [h.panic _ h1, h.panic _ h2]; trivial
    · rw [h.diverge _ h1, h.diverge _ h2]; trivial

theorem Tracks.upto {p : Parser I A} {q : Parser I B} {f g} (h : Tracks p q f g) {k : Nat} {S : Committed → Prop}
    (hp : Upto S k p) : Upto S k q := by
  constructor
  · intro s w n hq hs
    cases hr : p s with
    | success v m =>
      have hb := hp.1 _ _ _ hr hs
      rw [h.success _ _ _ hr hb.1] at hq
      cases hq
      refine ⟨hb.1, fun s' hs' => ?_⟩
      rw [h.success _ _ _ (hb.2 s' hs') (hs'.bound hb.1), h.val s s' v n (hs'.mono (by omega))]
    | failure e c => rw [h.failure _ _ _ hr] at hq; cases hq
    | panic => rw [h.panic _ hr] at hq; cases hq
    | diverge => rw [h.diverge _ hr] at hq; cases hq
  · intro s s' e c hc hq hs
    cases hr : p s with
    | success v m =>
      have hb := hp.1 _ _ _ hr hs.inside
      rw [h.success _ _ _ hr hb.1] at hq
      cases hq
    | failure e' c' =>
      rw [h.failure _ _ _ hr] at hq
      cases hq
      obtain ⟨e'', h1, h2⟩ := (hp.2 s s' _ _ hc hr hs).failure hr
      rw [h.failure _ _ _ hr, h.failure _ _ _ h1]
      exact ⟨h.err _ _ _ _ hs.place h2, rfl⟩
    | panic => rw [h.panic _ hr] at hq; cases hq
    | diverge => rw [h.diverge _ hr] at hq; cases hq

theorem follows_map (p : Parser I A) (f : A → B) : Tracks p (map p f) (fun _ v _ => f v) fun _ e => e := by
  constructor <;> intros <;> simp_all [map]

theorem follows_discard (p : Parser I A) : Tracks p (discard p) (fun _ _ _ => ()) fun _ e => e := by
  constructor <;> intros <;> simp_all [discard]

theorem follows_logMap (p : Parser I A) (l : String) : Tracks p (logMap p l) (fun _ v _ => v) fun _ e => e := by
  constructor <;> intros <;> simp_all [logMap]

theorem follows_lazy (f : Unit → Parser I A) : Tracks (f ()) (lazy f) (fun _ v _ => v) fun _ e => e := by
  constructor <;> intros <;> simp_all [lazy]

theorem follows_expect (p : Parser I A) (l : String) :
    Tracks p (expect p l) (fun _ v _ => v) fun s e => .expect s.lastOffset e (.expect l) := by
  constructor <;> intros <;> simp_all [expect, State.lastOffset, PError.blank]

theorem PError.isCustom_blank (e : PError I) : e.blank.isCustom = e.isCustom := by cases e <;> rfl

theorem follows_name (p : Parser I A) (l : String) :
    Tracks p (name p l) (fun _ v _ => v)
      fun s e => if e.isCustom then e else .customInner s.lastOffset e (.failedToParse l) := by
  constructor
  · intro s v n h _; simp [name, h]
  · intro s e c h
    simp only [name, h]
    split <;> rfl
  · intro s h; simp [name, h]
  · intro s h; simp [name, h]
  · intros; rfl
  · intro s s' e e' ho he
    have : e.isCustom = e'.isCustom := by rw [← e.isCustom_blank, he, e'.isCustom_blank]
    rw [this]
    split
    · exact he
    · simp [PError.blank, State.lastOffset, ho, he]

theorem follows_lastOffset (p : Parser I A) : Tracks p (lastOffset p) (fun s _ n => (s.advanceBy n).lastOffset) fun _ e => e := by
  constructor
  case val => intro s s' v n h; simp [State.advanceBy, State.lastOffset, h.place]
  all_goals intros; simp_all [lastOffset]

theorem follows_nextOffset (p : Parser I A) : Tracks p (nextOffset p) (fun s _ n => (s.advanceBy n).offset) fun _ e => e := by
  constructor
  case val => intro s s' v n h; simp [State.advanceBy, h.place]
  all_goals intros; simp_all [nextOffset]

theorem follows_collect (p : Parser I A) :
    Tracks p (collect p) (fun s _ n => (s.input.drop s.offset).take n) fun _ e => e := by
  constructor
  case val => intro s s' v n h; exact h.slice
  all_goals intros; simp_all [collect, State.withSlice]

/-! ## Alternatives -/

theorem upto_or {S : Committed → Prop} {k : Nat} {p q : Parser I A} (hp : Upto (fun c => c = .uncommitted ∨ S c) k p)
    (hq : Upto S k q) : Upto S k (or p q) := by
  constructor
  · intro s v n h hs
    cases hr : p s with
    | success w m =>
      simp only [or, hr] at h
      cases h
      have := hp.1 _ _ _ hr hs
      exact ⟨this.1, fun s' hs' => by simp only [or, this.2 s' hs']⟩
    | failure e c =>
      cases c with
      | committed => simp only [or, hr] at h; cases h
      | uncommitted =>
        simp only [or, hr] at h
        have := hq.1 _ _ _ h hs
        refine ⟨this.1, fun s' hs' => ?_⟩
        obtain ⟨e', h1, -⟩ := (hp.2 s s' _ _ (.inl rfl) hr (hs'.mono (by omega))).failure hr
        simp only [or, h1]
        exact this.2 s' hs'
    | panic => simp only [or, hr] at h; cases h
    | diverge => simp only [or, hr] at h; cases h
  · intro s s' e c hc h hs
    cases hr : p s with
    | success w m => simp only [or, hr] at h; cases h
    | failure e' c' =>
      cases c' with
      | committed =>
        simp only [or, hr] at h ⊢
        cases h
        obtain ⟨e', h1, h2⟩ := (hp.2 s s' _ _ (.inr hc) hr hs).failure hr
        simp only [h1]
        exact ⟨h2, rfl⟩
      | uncommitted =>
        obtain ⟨e', h1, -⟩ := (hp.2 s s' _ _ (.inl rfl) hr hs).failure hr
        simp only [or, hr, h1] at h ⊢
        exact hq.2 s s' _ _ hc h hs
    | panic => simp only [or, hr] at h; cases h
    | diverge => simp only [or, hr] at h; cases h

theorem within_or {k : Nat} {p q : Parser I A} (hp : Within k p) (hq : Within k q) : Within k (or p q) := by
  constructor
  · exact fun s v n h hs => ((upto_or (S := fun _ => True) (hp.upto _) (hq.upto _)).1 s v n h hs).1
  · intro s s' hs
    rcases (hp.2 s s' hs).elim with ⟨v, n, h1, h2⟩ | ⟨e, e', c, h1, h2, h3⟩ | ⟨h1, h2⟩ | ⟨h1, h2⟩
    · simp [or, h1, h2, SameAnswer]
    · cases c with
      | committed => simp [or, h1, h2, SameAnswer, h3]
      | uncommitted => simp only [or, h1, h2]; exact hq.2 s s' hs
    · simp [or, h1, h2, SameAnswer]
    · simp [or, h1, h2, SameAnswer]

/-! ## Sequences -/

theorem ahead_andThen {k : Nat} {p : Parser I A} {q : Parser I B} (hp : Ahead k p) (hq : Ahead k q) : Ahead k (andThen p q) := by
  intro s v n h hs
  cases h1 : p s with
  | success a m =>
    obtain ⟨hb, hp⟩ := hp _ _ _ h1 hs
    cases h2 : q (s.advanceBy m) with
    | success b l =>
      simp only [andThen, h1, h2] at h
      cases h
      obtain ⟨hb', hq⟩ := hq _ _ _ h2 hb
      refine ⟨by simpa only [State.advanceBy, Nat.add_assoc] using hb', fun s' hs' => ?_⟩
      simp only [andThen, hp s' (hs'.mono (by omega)), hq _ (SameFor.advance (hs'.mono (by omega)) hb)]
    | failure e c => simp only [andThen, h1, h2] at h; cases h
    | panic => simp only [andThen, h1, h2] at h; cases h
    | diverge => simp only [andThen, h1, h2] at h; cases h
  | failure e c => simp only [andThen, h1] at h; cases h
  | panic => simp only [andThen, h1] at h; cases h
  | diverge => simp only [andThen, h1] at h; cases h

theorem upto_andThen {S : Committed → Prop} {l k : Nat} {p : Parser I A} {q : Parser I B} (hp : Within l p) (hq : Upto S k q) :
    Upto S (l + k) (andThen p q) := by
  refine ⟨ahead_andThen ((hp.upto fun _ => False).weaken (fun _ h => h) (by omega)).1
    (hq.weaken (S := fun _ => False) (fun _ h => h.elim) (by omega)).1, ?_⟩
  intro s s' e c hc h hs
  rcases (hp.2 s s' (hs.mono (by omega))).elim with ⟨v, n, h1, h2⟩ | ⟨e, e', c, h1, h2, h3⟩ | ⟨h1, h2⟩ | ⟨h1, h2⟩
  · have hn := hp.le h1 hs.inside
    have ha : SameFor k (s.advanceBy n) (s'.advanceBy n) := SameFor.advance (hs.mono (by omega)) (hp.1 _ _ _ h1 hs.inside)
    cases h3 : q (s.advanceBy n) with
    | failure e' c' =>
      simp only [andThen, h1, h3] at h
      cases h
      obtain ⟨e', h4, h5⟩ := (hq.2 _ _ _ _ hc h3 ha).failure h3
      simp only [andThen, h1, h2, h3, h4]
      exact ⟨h5, rfl⟩
    | success => simp only [andThen, h1, h3] at h; cases h
    | panic => simp only [andThen, h1, h3] at h; cases h
    | diverge => simp only [andThen, h1, h3] at h; cases h
  · simp [andThen, h1, h2, SameAnswer, h3]
  · simp [andThen, h1, h2, SameAnswer]
  · simp [andThen, h1, h2, SameAnswer]

theorem within_andThen {l k : Nat} {p : Parser I A} {q : Parser I B} (hp : Within l p) (hq : Within k q) :
    Within (l + k) (andThen p q) := by
  constructor
  · exact fun s v n h hs => ((upto_andThen (S := fun _ => True) hp (hq.upto _)).1 s v n h hs).1
  · intro s s' hs
    rcases (hp.2 s s' (hs.mono (by omega))).elim with ⟨v, n, h1, h2⟩ | ⟨e, e', c, h1, h2, h3⟩ | ⟨h1, h2⟩ | ⟨h1, h2⟩
    · have hn := hp.le h1 hs.inside
      have ha : SameFor k (s.advanceBy n) (s'.advanceBy n) := SameFor.advance (hs.mono (by omega)) (hp.1 _ _ _ h1 hs.inside)
      rcases (hq.2 _ _ ha).elim with ⟨v, n, h3, h4⟩ | ⟨e, e', c, h3, h4, h5⟩ | ⟨h3, h4⟩ | ⟨h3, h4⟩ <;>
        simp_all [andThen, SameAnswer]
    · simp [andThen, h1, h2, SameAnswer, h3]
    · simp [andThen, h1, h2, SameAnswer]
    · simp [andThen, h1, h2, SameAnswer]

theorem skipLeft_andThen (p : Parser I A) (q : Parser I B) : skipLeft p q = map (andThen p q) (·.2) := by
  funext s
  simp only [skipLeft, map, andThen]
  cases p s with
  | success a n => cases h : q (s.advanceBy n) <;> simp only [h]
  | _ => rfl

theorem skipRight_andThen (p : Parser I A) (q : Parser I B) : skipRight p q = map (andThen p q) (·.1) := by
  funext s
  simp only [skipRight, map, andThen]
  cases p s with
  | success a n => cases h : q (s.advanceBy n) <;> simp only [h, Res.advanceSuccess]
  | _ => rfl

theorem flatMap_success {p : Parser I A} {f : A → Parser I B} {s : State I} {v : B} {n : Nat} :
    flatMap p f s = .success v n ↔ ∃ a m l, p s = .success a m ∧ f a (s.advanceBy m) = .success v l ∧ n = l + m := by
  cases h1 : p s with
  | success a m =>
    cases h2 : f a (s.advanceBy m) <;>
      simp only [flatMap, h1, h2, Res.addCommit, Res.advanceSuccess, reduceCtorEq, false_iff, Res.success.injEq]
    · constructor
      · rintro ⟨rfl, rfl⟩; exact ⟨_, _, _, ⟨rfl, rfl⟩, h2, rfl⟩
      · rintro ⟨_, _, _, ⟨rfl, rfl⟩, h3, rfl⟩
        rw [h2] at h3
        cases h3
        exact ⟨rfl, rfl⟩
    all_goals rintro ⟨_, _, _, ⟨rfl, rfl⟩, h3, -⟩; rw [h2] at h3; cases h3
  | _ => simp [flatMap, h1]

theorem flatMap_failure {p : Parser I A} {f : A → Parser I B} {s : State I} {e : PError I} {c : Committed} :
    flatMap p f s = .failure e c ↔ p s = .failure e c ∨
      ∃ a m c', p s = .success a m ∧ f a (s.advanceBy m) = .failure e c' ∧ c = c'.or (Committed.ofBool (m != 0)) := by
  cases h1 : p s with
  | success a m =>
    cases h2 : f a (s.advanceBy m) <;>
      simp only [flatMap, h1, h2, Res.addCommit, Res.advanceSuccess, reduceCtorEq, false_iff, false_or, Res.failure.injEq,
        Res.success.injEq]
    case failure =>
      constructor
      · rintro ⟨rfl, rfl⟩; exact ⟨_, _, _, ⟨rfl, rfl⟩, h2, rfl⟩
      · rintro ⟨_, _, _, ⟨rfl, rfl⟩, h3, rfl⟩
        rw [h2] at h3
        cases h3
        exact ⟨rfl, rfl⟩
    all_goals rintro ⟨_, _, _, ⟨rfl, rfl⟩, h3, -⟩; rw [h2] at h3; cases h3
  | failure e' c' => simp [flatMap, h1]
  | _ => simp [flatMap, h1]

theorem ahead_flatMap {k : Nat} {p : Parser I A} {f : A → Parser I B} (hp : Ahead k p) (hf : ∀ a, Ahead k (f a)) :
    Ahead k (flatMap p f) := by
  intro s v n h hs
  obtain ⟨a, m, l, h1, h2, rfl⟩ := flatMap_success.1 h
  obtain ⟨hb, hp⟩ := hp _ _ _ h1 hs
  obtain ⟨hb', hq⟩ := hf a _ _ _ h2 hb
  simp only [State.advanceBy] at hb'
  refine ⟨by omega, fun s' hs' => flatMap_success.2 ⟨a, m, l, hp s' (hs'.mono (by omega)), ?_, rfl⟩⟩
  exact hq _ (SameFor.advance (hs'.mono (by omega)) hb)

theorem firm_flatMap {k : Nat} {p : Parser I A} {f : A → Parser I B} (hp : Firm k p)
    (hf : ∀ a, Ahead k (f a)) (h0 : (∀ a, Firm k (f a)) ∨ Progress p) : Firm k (flatMap p f) := by
  refine ⟨ahead_flatMap hp.1 hf, ?_⟩
  intro s s' e h hs
  rcases flatMap_failure.1 h with h1 | ⟨a, m, c, h1, h2, hc⟩
  · obtain ⟨e', h2, h3⟩ := (hp.2 s s' _ h1 hs).failure h1
    rw [h, flatMap_failure.2 (.inl h2)]
    exact ⟨h3, rfl⟩
  · have hm : m = 0 := by
      cases m with
      | zero => rfl
      | succ m => cases c <;> simp [Committed.or, Committed.ofBool] at hc
    subst hm
    have h0 := h0.resolve_right fun hpr => absurd (hpr _ _ _ h1) (by omega)
    have hc' : c = .uncommitted := by
      cases c with
      | uncommitted => rfl
      | committed => exact absurd hc (by simp [Committed.or])
    subst hc'
    obtain ⟨hb, hp'⟩ := hp.1 _ _ _ h1 hs.inside
    obtain ⟨e', h3, h4⟩ := ((h0 a).2 _ _ _ h2 (SameFor.advance (hs.mono (by omega)) hb)).failure h2
    rw [h, flatMap_failure.2 (.inr ⟨a, 0, _, hp' s' (hs.mono (by omega)), h3, rfl⟩)]
    exact ⟨h4, rfl⟩

theorem settled_flatMap {l k : Nat} {p : Parser I A} {f : A → Parser I B} (hp : Within l p) (hf : ∀ a, Settled k (f a)) :
    Settled (l + k) (flatMap p f) := by
  refine ⟨ahead_flatMap ((hp.upto fun _ => False).weaken (fun _ h => h) (by omega)).1
    fun a => ((settled_iff.1 (hf a)).weaken (S := fun _ => False) (fun _ h => h.elim) (by omega)).1, ?_⟩
  intro s s' e c h hs
  rcases flatMap_failure.1 h with h1 | ⟨a, m, c', h1, h2, hc⟩
  · obtain ⟨e', h2, h3⟩ := (hp.2 s s' (hs.mono (by omega))).failure h1
    rw [h, flatMap_failure.2 (.inl h2)]
    exact ⟨h3, rfl⟩
  · have hm := hp.le h1 hs.inside
    obtain ⟨e', h3, h4⟩ := ((hf a).2 _ _ _ _ h2 (SameFor.advance (hs.mono (by omega)) (hp.1 _ _ _ h1 hs.inside))).failure h2
    rw [h, flatMap_failure.2 (.inr ⟨a, m, _, (hp.2 s s' (hs.mono (by omega))).success h1, h3, hc⟩)]
    exact ⟨h4, rfl⟩

theorem within_flatMap {l k : Nat} {p : Parser I A} {f : A → Parser I B} (hp : Within l p) (hf : ∀ a, Within k (f a)) :
    Within (l + k) (flatMap p f) := by
  have hu := settled_flatMap hp fun a => settled_iff.2 ((hf a).upto _)
  constructor
  · exact fun s v n h hs => (hu.1 s v n h hs).1
  · intro s s' hs
    rcases (hp.2 s s' (hs.mono (by omega))).elim with ⟨v, n, h1, h2⟩ | ⟨e, e', c, h1, h2, h3⟩ | ⟨h1, h2⟩ | ⟨h1, h2⟩
    · have hn := hp.le h1 hs.inside
      have ha : SameFor k (s.advanceBy n) (s'.advanceBy n) := SameFor.advance (hs.mono (by omega)) (hp.1 _ _ _ h1 hs.inside)
      rcases ((hf v).2 _ _ ha).elim with ⟨v, n, h3, h4⟩ | ⟨e, e', c, h3, h4, h5⟩ | ⟨h3, h4⟩ | ⟨h3, h4⟩ <;>
        simp_all [flatMap, SameAnswer, Res.addCommit, Res.advanceSuccess]
    · simp [flatMap, h1, h2, SameAnswer, h3]
    · simp [flatMap, h1, h2, SameAnswer]
    · simp [flatMap, h1, h2, SameAnswer]

/-! ## Failures that are changed -/

theorem attempt_success_iff {p : Parser I A} {s : State I} {v : A} {n : Nat} : attempt p s = .success v n ↔ p s = .success v n := by
  simp only [attempt]
  cases p s with
  | failure e c => cases c <;> simp [Res.withUncommitted]
  | _ => simp [Res.withUncommitted]

theorem ahead_attempt {k : Nat} {p : Parser I A} (hp : Ahead k p) : Ahead k (attempt p) := fun s v n h hs =>
  have := hp s v n (attempt_success_iff.1 h) hs
  ⟨this.1, fun s' hs' => attempt_success_iff.2 (this.2 s' hs')⟩

theorem SameAnswer.withUncommitted {r r' : Res I A} (h : SameAnswer r r') : SameAnswer r.withUncommitted r'.withUncommitted := by
  rcases h.elim with ⟨v, n, rfl, rfl⟩ | ⟨e, e', c, rfl, rfl, h3⟩ | ⟨rfl, rfl⟩ | ⟨rfl, rfl⟩
  · exact .refl _
  · cases c <;> exact ⟨h3, rfl⟩
  · trivial
  · trivial

theorem settled_attempt {k : Nat} {p : Parser I A} (hp : Settled k p) : Settled k (attempt p) := by
  refine ⟨ahead_attempt hp.1, fun s s' e c h hs => ?_⟩
  cases hr : p s with
  | failure e' c' => exact (hp.2 s s' _ _ hr hs).withUncommitted
  | _ => simp [attempt, hr, Res.withUncommitted] at h

theorem within_attempt {k : Nat} {p : Parser I A} (hp : Within k p) : Within k (attempt p) :=
  ⟨fun s v n h => hp.1 s v n (attempt_success_iff.1 h), fun s s' hs => (hp.2 s s' hs).withUncommitted⟩

theorem ahead_filter {k : Nat} {p : Parser I A} (hp : Ahead k p) (f : A → Bool) : Ahead k (filter p f) := by
  intro s v n h hs
  cases hr : p s with
  | success w m =>
    simp only [filter, hr] at h
    split at h
    · cases h
      have := hp _ _ _ hr hs
      exact ⟨this.1, fun s' hs' => by simp_all [filter, this.2 s' hs']⟩
    · cases h
  | _ => simp [filter, hr] at h

theorem within_filter {k : Nat} {p : Parser I A} (hp : Within k p) (f : A → Bool) : Within k (filter p f) := by
  constructor
  · exact fun s v n h hs => (ahead_filter (hp.upto fun _ => False).1 f s v n h hs).1
  · intro s s' hs
    rcases (hp.2 s s' hs).elim with ⟨v, n, h1, h2⟩ | ⟨e, e', c, h1, h2, h3⟩ | ⟨h1, h2⟩ | ⟨h1, h2⟩
    · simp only [filter, h1, h2, hs.place]
      split
      · exact ⟨rfl, rfl⟩
      · exact ⟨rfl, rfl⟩
    · simp [filter, h1, h2, SameAnswer, h3]
    · simp [filter, h1, h2, SameAnswer]
    · simp [filter, h1, h2, SameAnswer]

theorem ahead_mapRes {k : Nat} {p : Parser I A} (hp : Ahead k p) (f : A → Option B) : Ahead k (mapRes p f) := by
  intro s v n h hs
  cases hr : p s with
  | success w m =>
    simp only [mapRes, hr] at h
    cases hf : f w with
    | some b =>
      rw [hf] at h
      cases h
      have := hp _ _ _ hr hs
      exact ⟨this.1, fun s' hs' => by simp [mapRes, this.2 s' hs', hf]⟩
    | none => simp [hf, State.withInput, hs] at h
  | _ => simp [mapRes, hr] at h

theorem within_mapRes {k : Nat} {p : Parser I A} (hp : Within k p) (f : A → Option B) : Within k (mapRes p f) := by
  constructor
  · exact fun s v n h hs => (ahead_mapRes (hp.upto fun _ => False).1 f s v n h hs).1
  · intro s s' hs
    rcases (hp.2 s s' hs).elim with ⟨v, n, h1, h2⟩ | ⟨e, e', c, h1, h2, h3⟩ | ⟨h1, h2⟩ | ⟨h1, h2⟩
    · simp only [mapRes, h1, h2]
      cases f v with
      | some b => exact ⟨rfl, rfl⟩
      | none =>
        simp only [State.withInput, if_pos hs.inside, if_pos hs.inside']
        exact ⟨by simp only [PError.blank, State.lastOffset, hs.place], rfl⟩
    · simp [mapRes, h1, h2, SameAnswer, h3]
    · simp [mapRes, h1, h2, SameAnswer]
    · simp [mapRes, h1, h2, SameAnswer]

/-! ## Lookahead predicates -/

theorem within_peek {k : Nat} {p : Parser I A} (hp : Within k p) : Within k (peek p) := by
  constructor
  · intro s v n h hs
    cases hr : p s <;> simp [peek, hr] at h
    omega
  · intro s s' hs
    rcases (hp.2 s s' hs).elim with ⟨v, n, h1, h2⟩ | ⟨e, e', c, h1, h2, h3⟩ | ⟨h1, h2⟩ | ⟨h1, h2⟩ <;>
      simp_all [peek, SameAnswer]

theorem within_exists {k : Nat} {p : Parser I A} (hp : Within k p) : Within k (exists_ p) := by
  constructor
  · intro s v n h hs
    cases hr : p s <;> simp [exists_, hr] at h <;> omega
  · intro s s' hs
    rcases (hp.2 s s' hs).elim with ⟨v, n, h1, h2⟩ | ⟨e, e', c, h1, h2, h3⟩ | ⟨h1, h2⟩ | ⟨h1, h2⟩ <;>
      simp_all [exists_, SameAnswer]

theorem within_not {k : Nat} {p : Parser I A} (hp : Within k p) : Within k (not_ p) := by
  constructor
  · intro s v n h hs
    cases hr : p s <;> simp [not_, hr, State.withInput, State.advanceBy, hs] at h
    omega
  · intro s s' hs
    have := hs.place
    have := hs.inside
    have := hs.inside'
    rcases (hp.2 s s' hs).elim with ⟨v, n, h1, h2⟩ | ⟨e, e', c, h1, h2, h3⟩ | ⟨h1, h2⟩ | ⟨h1, h2⟩ <;>
      simp_all [not_, SameAnswer, State.withInput, State.advanceBy, State.lastOffset, PError.blank]

/-! ## Elements -/

theorem within_input {k : Nat} {p : Parser I A} {f : Nat → List I → Res I A}
    (hp : ∀ s, s.offset ≤ s.input.length → p s = f s.offset (s.input.drop s.offset))
    (hb : ∀ o d v n, f o d = .success v n → n ≤ d.length)
    (hs : ∀ o d d', d.take k = d'.take k → SameAnswer (f o d) (f o d')) : Within k p := by
  constructor
  · intro s v n h hi
    rw [hp s hi] at h
    have := hb _ _ _ _ h
    simp only [List.length_drop] at this
    omega
  · intro s s' h
    rw [hp s h.inside, hp s' h.inside', ← h.place]
    refine hs _ _ _ ?_
    rw [h.next, h.place]

theorem take_one {d d' : List I} (h : d.take 1 = d'.take 1) : (d = [] ∧ d' = []) ∨ ∃ x t t', d = x :: t ∧ d' = x :: t' := by
  cases d <;> cases d' <;> simp at h
  · exact .inl ⟨rfl, rfl⟩
  · subst h
    exact .inr ⟨_, _, _, rfl, rfl⟩

theorem within_elmPred (f : I → Bool) : Within 1 (elmPred f) := by
  refine within_input (f := fun o inp => match inp with
    | x :: _ => if f x then .success x 1 else .failure (.mismatch inp (o + 1) 1) .uncommitted
    | [] => .failure (.mismatch inp (o + 1) 1) .uncommitted)
    (fun s hs => by simp only [elmPred, State.withInput, if_pos hs]; rfl) ?_ ?_
  · intro o d v n h
    cases d with
    | nil => cases h
    | cons x t =>
      dsimp only at h
      split at h <;> cases h
      simp
  · intro o d d' h
    rcases take_one h with ⟨rfl, rfl⟩ | ⟨x, t, t', rfl, rfl⟩
    · exact .refl _
    · dsimp only
      split <;> exact ⟨rfl, rfl⟩

theorem within_elmOfSet (f : I → Bool) : Within 1 (elmOfSet f) := by
  refine within_input (f := fun o inp => match inp with
    | x :: _ => if f x then .success x 1 else .failure (.mismatch inp (o + 1) 1) .uncommitted
    | [] => .failure .incomplete .uncommitted)
    (fun s hs => by simp only [elmOfSet, State.withInput, if_pos hs]; rfl) ?_ ?_
  · intro o d v n h
    cases d with
    | nil => cases h
    | cons x t =>
      dsimp only at h
      split at h <;> cases h
      simp
  · intro o d d' h
    rcases take_one h with ⟨rfl, rfl⟩ | ⟨x, t, t', rfl, rfl⟩
    · exact .refl _
    · dsimp only
      split <;> exact ⟨rfl, rfl⟩

theorem noneOfSet_elmOfSet (f : I → Bool) : noneOfSet f = elmOfSet fun x => !f x := rfl

theorem within_end : Within 1 (end_ : Parser I Unit) := by
  refine within_input (f := fun o inp => match inp with
    | _ :: _ => .failure (.mismatch inp (o + 1) 1) .uncommitted
    | [] => .success () 0)
    (fun s hs => by simp only [end_, State.withInput, if_pos hs, State.advanceBy]; rfl) ?_ ?_
  · intro o d v n h
    cases d with
    | nil => cases h; simp
    | cons x t => cases h
  · intro o d d' h
    rcases take_one h with ⟨rfl, rfl⟩ | ⟨x, t, t', rfl, rfl⟩
    · exact .refl _
    · exact ⟨rfl, rfl⟩

theorem take_length {k : Nat} {d d' : List I} (h : d.take k = d'.take k) : d.length ≥ k ↔ d'.length ≥ k := by
  have := congrArg List.length h
  simp only [List.length_take] at this
  omega

theorem within_skip (n : Nat) : Within n (skip n : Parser I Unit) := by
  refine within_input (f := fun _ inp => if inp.length ≥ n then .success () n else .failure .incomplete .uncommitted)
    (fun s hs => by simp only [skip, State.withInput, if_pos hs]) ?_ ?_
  · intro o d v m h
    split at h <;> cases h
    assumption
  · intro o d d' h
    by_cases hl : d.length ≥ n
    · rw [if_pos hl, if_pos ((take_length h).1 hl)]; exact ⟨rfl, rfl⟩
    · rw [if_neg hl, if_neg (fun h' => hl ((take_length h).2 h'))]; exact ⟨rfl, rfl⟩

theorem within_take (n : Nat) : Within n (take n : Parser I (List I)) := by
  refine within_input (f := fun _ inp => if inp.length ≥ n then .success (inp.take n) n else .failure .incomplete .uncommitted)
    (fun s hs => ?_) ?_ ?_
  · simp only [take, State.withInput, if_pos hs]
    split
    · rename_i h
      simp only [List.length_drop] at h
      simp only [State.withSlice]
      rw [if_pos (by omega)]
    · rfl
  · intro o d v m h
    split at h <;> cases h
    assumption
  · intro o d d' h
    by_cases hl : d.length ≥ n
    · rw [if_pos hl, if_pos ((take_length h).1 hl), h]; exact ⟨rfl, rfl⟩
    · rw [if_neg hl, if_neg (fun h' => hl ((take_length h).2 h'))]; exact ⟨rfl, rfl⟩

theorem seqLoop_bound (eq : I → I → Bool) (s : State I) (inp lit : List I) : ∀ (pat rest : List I) (i : Nat) (v : List I) (n : Nat),
    seqLoop eq s inp lit i pat rest = .success v n → n ≤ i + rest.length
  | [], rest, i, v, n, h => by simp only [seqLoop] at h; cases h; omega
  | _ :: _, [], i, v, n, h => by simp [seqLoop] at h
  | c :: pat, x :: rest, i, v, n, h => by
    simp only [seqLoop] at h
    split at h
    · have := seqLoop_bound eq s inp lit pat rest (i + 1) v n h
      simp only [List.length_cons]; omega
    · cases h

theorem seqLoop_sameFor (eq : I → I → Bool) {s s' : State I} (hs : s.offset = s'.offset) (inp inp' lit : List I) :
    ∀ (pat rest rest' : List I) (i : Nat), rest.take pat.length = rest'.take pat.length →
      SameAnswer (seqLoop eq s inp lit i pat rest) (seqLoop eq s' inp' lit i pat rest')
  | [], rest, rest', i, _ => by simp [seqLoop, SameAnswer]
  | c :: pat, [], [], i, _ => by simp [seqLoop, SameAnswer, PError.blank]
  | c :: pat, [], x :: rest', i, h => by simp at h
  | c :: pat, x :: rest, [], i, h => by simp at h
  | c :: pat, x :: rest, y :: rest', i, h => by
    simp only [List.length_cons, List.take_succ_cons, List.cons.injEq] at h
    obtain ⟨rfl, h⟩ := h
    simp only [seqLoop]
    split
    · exact seqLoop_sameFor eq hs inp inp' lit pat rest rest' (i + 1) h
    · simp [SameAnswer, PError.blank, State.advanceBy, hs]

theorem within_seqLoop (eq : I → I → Bool) (lit : List I) :
    Within lit.length fun s => s.withInput fun inp => seqLoop eq s inp lit 0 lit inp := by
  constructor
  · intro s v n h hs
    simp only [State.withInput, if_pos hs] at h
    have := seqLoop_bound _ _ _ _ _ _ _ _ _ h
    simp only [List.length_drop] at this
    omega
  · intro s s' h
    simp only [State.withInput, if_pos h.inside, if_pos h.inside']
    exact seqLoop_sameFor eq h.place _ _ _ _ _ _ _ h.next

theorem within_successful (a : A) : Within 0 (successful a : Parser I A) :=
  ⟨fun s v n h hs => (by cases h; exact hs), fun _ _ _ => SameAnswer.refl _⟩

theorem within_failed (e : PError I) (c : Committed) : Within 0 (failed e c : Parser I A) :=
  ⟨fun s v n h hs => (by cases h), fun _ _ _ => SameAnswer.refl _⟩

theorem within_diverging : Within 0 (diverging : Parser I A) :=
  ⟨fun s v n h hs => (by cases h), fun _ _ _ => SameAnswer.refl _⟩

/-! ## Repetition -/

theorem Settled.fails {k : Nat} {p : Parser I A} (hp : Settled k p) {s s' : State I} (h : Fails p s) (hs : SameFor k s s') :
    Fails p s' := by
  obtain ⟨e, c, h⟩ := h
  obtain ⟨e', h, -⟩ := (hp.2 s s' _ _ h hs).failure h
  exact ⟨e', c, h⟩

theorem SepAt.same {k : Nat} {sep : Option (Parser I B)} (hq : ∀ q, sep = some q → Settled k q) {s : State I} {j : Nat}
    (h : SepAt sep s j) (hs : s.offset ≤ s.input.length) :
    s.offset + j ≤ s.input.length ∧ ∀ s', SameFor (j + k) s s' → SepAt sep s' j := by
  cases sep with
  | none => cases h; exact ⟨hs, fun _ _ => rfl⟩
  | some q =>
    obtain ⟨b, h⟩ := h
    have := (hq q rfl).1 _ _ _ h hs
    exact ⟨this.1, fun s' hs' => ⟨b, this.2 s' hs'⟩⟩

theorem SepRun.same {k : Nat} {p : Parser I A} {sep : Option (Parser I B)} (hp : Settled k p)
    (hq : ∀ q, sep = some q → Settled k q) {s : State I} {vs : List A} {m : Nat} (h : SepRun p sep s vs m)
    (hs : s.offset ≤ s.input.length) :
    s.offset + m ≤ s.input.length ∧ ∀ s', SameFor (m + k) s s' → SepRun p sep s' vs m := by
  induction h with
  | nil s => exact ⟨hs, fun s' _ => .nil s'⟩
  | @cons s j n m v vs h1 h2 _ ih =>
    obtain ⟨b1, h1⟩ := h1.same hq hs
    obtain ⟨b2, h2⟩ := hp.1 _ _ _ h2 b1
    obtain ⟨b3, h3⟩ := ih b2
    simp only at b1 b2 b3
    refine ⟨by omega, fun s' hs' => .cons (h1 s' (hs'.mono (by omega))) ?_ ?_⟩
    · exact h2 _ (SameFor.advance (hs'.mono (by omega)) b1)
    · exact h3 _ (SameFor.advance (n := n) (s := s.advanceBy j) (s' := s'.advanceBy j)
        (SameFor.advance (hs'.mono (by omega)) b1) b2)

theorem NoMore.same {k : Nat} {p : Parser I A} {sep : Option (Parser I B)} (hp : Settled k p)
    (hq : ∀ q, sep = some q → Settled k q) {s : State I} {j : Nat} (h : NoMore p sep s j) (hs : s.offset ≤ s.input.length) :
    s.offset + j ≤ s.input.length ∧ ∀ s', SameFor (j + k) s s' → NoMore p sep s' j := by
  rcases h with ⟨rfl, q, hsep, hf⟩ | ⟨h1, h2⟩
  · exact ⟨hs, fun s' hs' => .inl ⟨rfl, q, hsep, (hq q hsep).fails hf (hs'.mono (by omega))⟩⟩
  · obtain ⟨b1, h1⟩ := h1.same hq hs
    exact ⟨b1, fun s' hs' => .inr ⟨h1 s' hs', hp.fails h2 (SameFor.advance hs' b1)⟩⟩

/-- A run that stops has no more items than elements. -/
theorem SepRun.short {k : Nat} {p : Parser I A} {sep : Option (Parser I B)} (hp : Settled k p)
    (hq : ∀ q, sep = some q → Settled k q) {s : State I} {vs : List A} {m j : Nat} (h : SepRun p sep s vs m)
    (hs : s.offset ≤ s.input.length) (hn : NoMore p sep ⟨s.input, s.offset + m⟩ j) : vs.length ≤ m := by
  induction h with
  | nil s => simp
  | @cons s j' n m v vs h1 h2 h3 ih =>
    have b1 := (h1.same hq hs).1
    have b2 := (hp.1 _ _ _ h2 b1).1
    have ih := ih b2 (by simpa only [Nat.add_assoc] using hn)
    simp only [List.length_cons]
    by_cases h0 : j' + n = 0
    · obtain ⟨rfl, rfl⟩ : j' = 0 ∧ n = 0 := by omega
      obtain rfl := sepRun_stuck (by simpa using h1) (by simpa using h2) (by simpa using h3)
      exact (not_noMore h1 (by simpa using h2) (by simpa using hn)).elim
    · omega

theorem ahead_repeatSep {k : Nat} {p : Parser I A} {sep : Option (Parser I B)} (hp : Settled k p)
    (hq : ∀ q, sep = some q → Settled k q) (r : Range) : Ahead k (repeatSep p r sep) := by
  intro s vs n h hs
  obtain ⟨hlow, h⟩ := (repeatSep_success _ _ _ _ _ _).1 h
  rcases h with ⟨rfl, rfl, hf⟩ | ⟨v, l, ws, m, j, h1, rfl, rfl, h2, h3, h4, h5⟩
  · refine ⟨hs, fun s' hs' => (repeatSep_success _ _ _ _ _ _).2 ⟨hlow, .inl ⟨rfl, rfl, hp.fails hf (hs'.mono (by omega))⟩⟩⟩
  · obtain ⟨b1, t1⟩ := hp.1 _ _ _ h1 hs
    obtain ⟨b2, t2⟩ := h2.same hp hq b1
    simp only at b2
    have key : s.offset + l + m + j ≤ s.input.length ∧ ∀ s', SameFor (l + m + j + k) s s' →
        StopsAt p sep r.stop (1 + ws.length) ⟨s'.input, s'.offset + l + m⟩ j := by
      rcases h5 with ⟨hb, rfl⟩ | ⟨hb, h5⟩
      · exact ⟨b2, fun _ _ => .inl ⟨hb, rfl⟩⟩
      · obtain ⟨b3, t3⟩ := h5.same hp hq b2
        refine ⟨b3, fun s' hs' => .inr ⟨hb, t3 _ ?_⟩⟩
        exact SameFor.advance (n := m) (s := s.advanceBy l) (s' := s'.advanceBy l)
          (SameFor.advance (hs'.mono (by omega)) b1) b2
    refine ⟨by omega, fun s' hs' => (repeatSep_success _ _ _ _ _ _).2 ⟨hlow, .inr ⟨v, l, ws, m, j, t1 s' (hs'.mono (by omega)),
      rfl, rfl, t2 _ (SameFor.advance (hs'.mono (by omega)) b1), ?_, h4, key.2 s' hs'⟩⟩⟩
    cases hstop : r.stop with
    | included c => rw [hstop] at h3; exact h3
    | excluded c => rw [hstop] at h3; exact h3
    | unbounded =>
      have hk := key.2 s' hs'
      rw [hstop] at hk
      rcases hk with ⟨hb, -⟩ | ⟨-, hn⟩
      · simp [boundReached] at hb
      · have hb : s'.offset + (l + m) ≤ s'.input.length :=
          SameFor.bound (k := j + k) (hs'.mono (by omega)) (by omega)
        have := (t2 _ (SameFor.advance (n := l) (hs'.mono (by omega)) b1)).short hp hq
          (SameFor.bound (n := l) (k := m + j + k) (hs'.mono (by omega)) b1) hn
        simp only [repFuel]
        omega

theorem settled_repeatSep {k : Nat} {p : Parser I A} {sep : Option (Parser I B)} (hp : Settled k p)
    (hq : ∀ q, sep = some q → Settled k q) (r : Range) (hr : ∀ m, r.start = .included m → m ≤ 1) :
    Settled k (repeatSep p r sep) := by
  refine ⟨ahead_repeatSep hp hq r, fun s s' e c h hs => ?_⟩
  cases h1 : p s with
  | success v l =>
    exfalso
    simp only [repeatSep, h1] at h
    cases h2 : repLoop p sep r.stop (repFuel r.stop s) ⟨s.advanceBy l, [v], l⟩ with
    | exit items len =>
      obtain ⟨ws, m, j, -, -, rfl, -, -, -⟩ := (repLoop_exit_iff _ _ _ _ _ _ _).1 h2
      simp only [h2, repFinish] at h
      split at h
      · rename_i m hm
        rw [if_neg (by have := hr m hm; simp; omega)] at h
        cases h
      · cases h
    | panic => simp [h2] at h
    | diverge => simp [h2] at h
  | failure e' c' =>
    obtain ⟨e'', h2, -⟩ := (hp.2 s s' _ _ h1 hs).failure h1
    simp only [repeatSep, h1, h2, repFinish]
    split
    · split
      · rw [show s.advanceBy 0 = s from rfl, show s'.advanceBy 0 = s' from rfl]
        simp only [State.withInput, if_pos hs.inside, if_pos hs.inside']
        exact ⟨by simp only [PError.blank, State.lastOffset, hs.place], rfl⟩
      · exact ⟨rfl, rfl⟩
    · exact ⟨rfl, rfl⟩
  | panic => simp [repeatSep, h1] at h
  | diverge => simp [repeatSep, h1] at h

end OniComb
