import Verif.Lemmas.Text
import Verif.Model.Uri

/-!
# Helper lemmas: grammars that always return

`Live n p`: on every rest of fewer than `n` elements `p` returns (or panics) and does not consume more than there is.
`Adv p`: a success of `p` consumes something.  A recursive grammar that consumes something before it calls itself is
live for every length as soon as it is unrolled as often.
-/

set_option linter.unusedVariables false

namespace OniComb
variable {I A B C : Type}

/-- Result that is acceptable at `s`. -/
def LiveAt (s : State I) : Res I A → Prop
  | .success _ k => s.offset + k ≤ s.input.length
  | .diverge => False
  | _ => True

class Live (n : Nat) (p : Parser I A) : Prop where
  live : ∀ s, s.offset ≤ s.input.length → s.input.length - s.offset < n → LiveAt s (p s)

class Adv (p : Parser I A) : Prop where
  adv : ∀ s v k, p s = .success v k → 0 < k

theorem Live.mono {n m : Nat} {p : Parser I A} (h : Live n p) (hm : m ≤ n) : Live m p :=
  ⟨fun s hs hl => h.live s hs (by omega)⟩

theorem Live.zero {p : Parser I A} : Live 0 p := ⟨fun s _ hl => by omega⟩

/-- Two parsers in sequence; the second one may be live for shorter rests only. -/
theorem live_seq {n m : Nat} {p : Parser I A} (q : Parser I B) (f : A → B → C) (r : Parser I C)
    (hr : ∀ s, r s = match p s with
      | .success a k1 => match q (s.advanceBy k1) with
        | .success b k2 => .success (f a b) (k1 + k2)
        | .failure e c => .failure e c
        | .panic => .panic
        | .diverge => .diverge
      | .failure e c => .failure e c
      | .panic => .panic
      | .diverge => .diverge)
    (hp : Live n p) (hq : Live m q) (hk : ∀ s a k, s.input.length - s.offset < n → s.offset + k ≤ s.input.length →
      p s = .success a k → s.input.length - (s.offset + k) < m) : Live n r := by
  refine ⟨fun s hs hl => ?_⟩
  have h1 := hp.live s hs hl
  rw [hr s]
  cases h : p s with
  | success a k =>
    rw [h] at h1
    have h1' : s.offset + k ≤ s.input.length := h1
    have h2 := hq.live (s.advanceBy k) h1' (hk s a k hl h1' h)
    dsimp only
    cases h3 : q (s.advanceBy k) with
    | success b j =>
      rw [h3] at h2
      have h2' : s.offset + k + j ≤ s.input.length := h2
      show s.offset + (k + j) ≤ s.input.length
      omega
    | diverge => rw [h3] at h2; exact h2.elim
    | _ => trivial
  | diverge => rw [h] at h1; exact h1.elim
  | _ => trivial

section instances
variable {n : Nat} {p : Parser I A} {q : Parser I B}

theorem live_andThen {m : Nat} (hp : Live n p) (hq : Live m q) (hk : ∀ s a k, s.input.length - s.offset < n →
    s.offset + k ≤ s.input.length → p s = .success a k → s.input.length - (s.offset + k) < m) : Live n (andThen p q) :=
  live_seq q (fun a b => (a, b)) _ (fun s => rfl) hp hq hk

theorem live_skipLeft {m : Nat} (hp : Live n p) (hq : Live m q) (hk : ∀ s a k, s.input.length - s.offset < n →
    s.offset + k ≤ s.input.length → p s = .success a k → s.input.length - (s.offset + k) < m) : Live n (skipLeft p q) :=
  live_seq q (fun _ b => b) _ (fun s => rfl) hp hq hk

theorem live_skipRight {m : Nat} (hp : Live n p) (hq : Live m q) (hk : ∀ s a k, s.input.length - s.offset < n →
    s.offset + k ≤ s.input.length → p s = .success a k → s.input.length - (s.offset + k) < m) : Live n (skipRight p q) :=
  live_seq q (fun a _ => a) _ (fun s => rfl) hp hq hk

instance [hp : Live n p] [hq : Live n q] : Live n (andThen p q) := live_andThen hp hq fun s a k h1 h2 _ => by omega
instance [hp : Live n p] [hq : Live n q] : Live n (skipLeft p q) := live_skipLeft hp hq fun s a k h1 h2 _ => by omega
instance [hp : Live n p] [hq : Live n q] : Live n (skipRight p q) := live_skipRight hp hq fun s a k h1 h2 _ => by omega

/-- What follows a parser that consumes something. -/
theorem live_andThen_adv [ha : Adv p] (hp : Live (n + 1) p) (hq : Live n q) : Live (n + 1) (andThen p q) :=
  live_andThen hp hq fun s a k h1 h2 h3 => by have := ha.adv s a k h3; omega
theorem live_skipLeft_adv [ha : Adv p] (hp : Live (n + 1) p) (hq : Live n q) : Live (n + 1) (skipLeft p q) :=
  live_skipLeft hp hq fun s a k h1 h2 h3 => by have := ha.adv s a k h3; omega
theorem live_surround_adv {r : Parser I C} [ha : Adv p] (hp : Live (n + 1) p) (hq : Live n q) (hr : Live n r) :
    Live (n + 1) (surround p q r) :=
  live_skipLeft_adv hp inferInstance

instance {r : Parser I C} [hp : Live n p] [hq : Live n q] [hr : Live n r] : Live n (surround p q r) := by
  unfold surround; infer_instance

instance [hp : Live n p] (f : A → B) : Live n (map p f) := ⟨fun s hs hl => by
  have := hp.live s hs hl
  unfold map
  cases h : p s <;> rw [h] at this <;> exact this⟩
instance [hp : Live n p] (f : A → Option B) : Live n (mapRes p f) := ⟨fun s hs hl => by
  have := hp.live s hs hl
  unfold mapRes
  cases h : p s with
  | success a k =>
    rw [h] at this
    dsimp only
    cases f a with
    | some b => exact this
    | none => simp only [State.withInput, hs, if_true]; trivial
  | diverge => rw [h] at this; exact this
  | _ => trivial⟩
instance [hp : Live n p] : Live n (collect p) := ⟨fun s hs hl => by
  have := hp.live s hs hl
  unfold collect
  cases h : p s with
  | success a k =>
    rw [h] at this
    have h' : s.offset + k ≤ s.input.length := this
    dsimp only
    simp only [State.withSlice, h', if_true]
    exact h'
  | diverge => rw [h] at this; exact this
  | _ => trivial⟩
instance [hp : Live n p] : Live n (discard p) := ⟨fun s hs hl => by
  have := hp.live s hs hl
  unfold discard
  cases h : p s <;> rw [h] at this <;> exact this⟩
instance [hp : Live n p] : Live n (attempt p) := ⟨fun s hs hl => by
  have := hp.live s hs hl
  unfold attempt Res.withUncommitted
  cases h : p s with
  | failure e c => cases c <;> trivial
  | _ => rw [h] at this; exact this⟩
instance [hp : Live n p] (l : String) : Live n (name p l) := ⟨fun s hs hl => by
  have := hp.live s hs hl
  unfold name
  cases h : p s with
  | failure e c => dsimp only; split <;> trivial
  | _ => rw [h] at this; exact this⟩
instance {p' : Parser I A} [hp : Live n p] [hp' : Live n p'] : Live n (or p p') := ⟨fun s hs hl => by
  have h1 := hp.live s hs hl
  have h2 := hp'.live s hs hl
  unfold or
  cases h : p s with
  | failure e c => cases c <;> first | exact h2 | trivial
  | _ => rw [h] at h1; exact h1⟩
instance (a : A) : Live n (successful a : Parser I A) := ⟨fun s hs _ => hs⟩
instance [hp : Live n p] : Live n (opt p) := by unfold opt; infer_instance
instance [hp : Live n p] (f : A → Bool) : Live n (filter p f) := ⟨fun s hs hl => by
  have := hp.live s hs hl
  unfold filter
  cases h : p s with
  | success v k => rw [h] at this; dsimp only; split; exacts [this, trivial]
  | diverge => rw [h] at this; exact this
  | _ => trivial⟩
instance [hp : Live n p] (f : A → Bool) : Live n (filterNot p f) := by unfold filterNot; infer_instance
instance (f : Unit → Parser I A) [hp : Live n (f ())] : Live n (lazy f) := ⟨hp.live⟩

/-- A good parser that never runs forever. -/
theorem live_good (p : Parser I A) [hg : Good p] (h : ∀ s, p s ≠ .diverge) : Live n p := ⟨fun s hs _ => by
  have := Good.safe p s hs
  cases hp : p s with
  | diverge => exact h s hp
  | success v k => rw [hp] at this; exact this
  | _ => trivial⟩

theorem withInput_ne {s : State I} {k : List I → Res I A} (h : ∀ i, k i ≠ .diverge) : s.withInput k ≠ .diverge := by
  unfold State.withInput; split; exacts [h _, by simp]
theorem withSlice_ne {s : State I} {n : Nat} {k : List I → Res I A} (h : ∀ i, k i ≠ .diverge) : s.withSlice n k ≠ .diverge := by
  unfold State.withSlice; split; exacts [h _, by simp]

instance : Live n (end_ : Parser I Unit) := live_good _ fun s => withInput_ne fun i => by
  split <;> simp
instance (f : I → Bool) : Live n (elmPred f) := live_good _ fun s => withInput_ne fun i => by
  split <;> (try split) <;> simp
instance (f : I → Bool) : Live n (elmOfSet f) := live_good _ fun s => withInput_ne fun i => by
  split <;> (try split) <;> simp
instance (f : I → Bool) : Live n (noneOfSet f) := live_good _ fun s => withInput_ne fun i => by
  split <;> (try split) <;> simp
instance [DecidableEq I] (x : I) : Live n (elm x) := by unfold elm; infer_instance
instance [DecidableEq I] (l : List I) : Live n (elmOf l) := by unfold elmOf; infer_instance
instance [DecidableEq I] (l : List I) : Live n (noneOf l) := by unfold noneOf; infer_instance
instance [Element I] : Live n (elmAlpha : Parser I I) := by unfold elmAlpha; infer_instance
instance [Element I] : Live n (elmDigit : Parser I I) := by unfold elmDigit; infer_instance
instance [Element I] : Live n (elmHexDigit : Parser I I) := by unfold elmHexDigit; infer_instance
instance [Element I] : Live n (elmDigit19 : Parser I I) := by unfold elmDigit19; infer_instance

theorem seqLoop_ne (eq : I → I → Bool) (s : State I) (inp lit : List I) : ∀ (i : Nat) (pat rest : List I),
    seqLoop eq s inp lit i pat rest ≠ .diverge
  | _, [], _ => by simp [seqLoop]
  | _, _ :: _, [] => by simp [seqLoop]
  | i, c :: pat, x :: rest => by
    rw [seqLoop]
    split
    · exact seqLoop_ne eq s inp lit _ pat rest
    · simp
instance [DecidableEq I] (l : List I) : Live n (seq l) := live_good _ fun s => withInput_ne fun i => seqLoop_ne _ _ _ _ _ _ _
instance (f : I → Bool) : Live n (takeTill0 f) := live_good _ fun s => withInput_ne fun i => by
  split
  · exact withSlice_ne fun i => by simp
  · simp

/-! ### Repetition -/

/-- Acceptable result of a turn of the loop. -/
def TurnLive (p : Parser I A) (o : Nat) (st : LoopState I A) : Turn I A → Prop
  | .again st' => st'.cur.input = st.cur.input ∧ st.cur.offset ≤ st'.cur.offset ∧ st'.cur.offset ≤ st.cur.input.length ∧
      st'.cur.offset = o + st'.length ∧ st'.items.length = st.items.length + 1 ∧ (Adv p → st.cur.offset < st'.cur.offset)
  | .exit _ l => o + l ≤ st.cur.input.length
  | .panic => True
  | .diverge => False

/-- Acceptable result of the loop. -/
def LoopLive (o len : Nat) : LoopOut A → Prop
  | .exit _ l => o + l ≤ len
  | .panic => True
  | .diverge => False

theorem repItem_live [hp : Live n p] {st st0 : LoopState I A} {o : Nat} (h1 : st.cur.input = st0.cur.input)
    (h2 : st0.cur.offset ≤ st.cur.offset) (h3 : st.cur.offset ≤ st0.cur.input.length)
    (hl : st0.cur.input.length - st0.cur.offset < n) (h4 : st.cur.offset = o + st.length)
    (h5 : st.items = st0.items) : TurnLive p o st0 (repItem p st) := by
  have := hp.live st.cur (by rw [h1]; exact h3) (by rw [h1]; omega)
  unfold repItem
  cases h : p st.cur with
  | success v k =>
    rw [h] at this
    have h6 : st.cur.offset + k ≤ st.cur.input.length := this
    rw [h1] at h6
    refine ⟨h1, ?_, h6, ?_, by simp [h5], fun ha => ?_⟩
    · simp only [State.advanceBy]; omega
    · simp only [State.advanceBy]; omega
    · have := ha.adv _ _ _ h
      simp only [State.advanceBy]; omega
  | failure e c => simp only [TurnLive]; omega
  | panic => trivial
  | diverge => rw [h] at this; exact this

theorem repTurn_live [hp : Live n p] {sep : Option (Parser I B)} (hsep : ∀ q, sep = some q → Live n q) (stop : Bound)
    {st : LoopState I A} {o : Nat} (hs : st.cur.offset ≤ st.cur.input.length)
    (hl : st.cur.input.length - st.cur.offset < n) (ho : st.cur.offset = o + st.length) :
    TurnLive p o st (repTurn p sep stop st) := by
  unfold repTurn
  by_cases hb : boundReached stop st.items.length = true
  · rw [if_pos hb]; simp only [TurnLive]; omega
  · rw [if_neg hb]
    cases sep with
    | none => exact repItem_live rfl (Nat.le_refl _) hs hl ho rfl
    | some q =>
      have := (hsep q rfl).live st.cur hs hl
      dsimp only
      cases h : q st.cur with
      | success b k =>
        rw [h] at this
        have h5 : st.cur.offset + k ≤ st.cur.input.length := this
        exact repItem_live rfl (by simp [State.advanceBy]) h5 hl (by simp only [State.advanceBy]; omega) rfl
      | failure e c => simp only [TurnLive]; omega
      | panic => trivial
      | diverge => rw [h] at this; exact this

theorem repLoop_live [hp : Live n p] [ha : Adv p] {sep : Option (Parser I B)} (hsep : ∀ q, sep = some q → Live n q)
    (stop : Bound) : ∀ (fuel : Nat) (st : LoopState I A) (o : Nat), st.cur.offset ≤ st.cur.input.length →
      st.cur.input.length - st.cur.offset < n → st.cur.input.length - st.cur.offset < fuel →
      st.cur.offset = o + st.length → LoopLive o st.cur.input.length (repLoop p sep stop fuel st) := by
  intro fuel
  induction fuel with
  | zero => intro st o _ _ h; omega
  | succ fuel ih =>
    intro st o hs hl hf ho
    have ht := repTurn_live (p := p) hsep stop hs hl ho
    rw [repLoop]
    cases h : repTurn p sep stop st with
    | again st' =>
      rw [h] at ht
      obtain ⟨h1, h2, h3, h4, -, h6⟩ := ht
      have := ih st' o (by rw [h1]; exact h3) (by rw [h1]; omega) (by rw [h1]; have := h6 ha; omega) h4
      rw [h1] at this
      exact this
    | exit items l => rw [h] at ht; exact ht
    | panic => trivial
    | diverge => rw [h] at ht; exact ht

theorem repFinish_live (range : Range) (s : State I) (items : List A) (l : Nat) (h : s.offset + l ≤ s.input.length) :
    LiveAt s (repFinish range s items l) := by
  unfold repFinish
  split
  · split
    · simp [State.withInput, State.advanceBy, h, LiveAt]
    · exact h
  · exact h

theorem live_repeatSep [hp : Live n p] [ha : Adv p] (range : Range) (hstop : range.stop = .unbounded)
    (sep : Option (Parser I B)) (hsep : ∀ q, sep = some q → Live n q) : Live n (repeatSep p range sep) := ⟨fun s hs hl => by
  have h1 := hp.live s hs hl
  unfold repeatSep
  cases h : p s with
  | success v k =>
    rw [h] at h1
    have h1' : s.offset + k ≤ s.input.length := h1
    have h2 := repLoop_live (p := p) hsep range.stop (repFuel range.stop s) ⟨s.advanceBy k, [v], k⟩ s.offset h1'
      (by simp only [State.advanceBy]; omega) (by rw [hstop]; simp only [State.advanceBy, repFuel]; omega) rfl
    dsimp only
    cases h3 : repLoop p sep range.stop (repFuel range.stop s) ⟨s.advanceBy k, [v], k⟩ with
    | exit items l => rw [h3] at h2; exact repFinish_live range s items l h2
    | panic => trivial
    | diverge => rw [h3] at h2; exact h2
  | failure e c => exact repFinish_live range s [] 0 hs
  | panic => trivial
  | diverge => rw [h] at h1; exact h1⟩

instance [Live n p] [Adv p] : Live n (many0 p) := live_repeatSep _ rfl none fun q hq => by cases hq
instance [Live n p] [Adv p] : Live n (many1 p) := live_repeatSep _ rfl none fun q hq => by cases hq
instance [Live n p] [Adv p] [h : Live n q] : Live n (many0Sep p q) := live_repeatSep _ rfl (some q) fun q' hq => by
  cases hq; exact h
instance [Live n p] [Adv p] [h : Live n q] : Live n (many1Sep p q) := live_repeatSep _ rfl (some q) fun q' hq => by
  cases hq; exact h

/-- The loop with an upper bound returns in any case. -/
theorem repLoop_live_bounded [hp : Live n p] {sep : Option (Parser I B)} (hsep : ∀ q, sep = some q → Live n q)
    (m : Nat) : ∀ (fuel : Nat) (st : LoopState I A) (o : Nat), st.cur.offset ≤ st.cur.input.length →
      st.cur.input.length - st.cur.offset < n → m < fuel + st.items.length → 0 < fuel →
      st.cur.offset = o + st.length → LoopLive o st.cur.input.length (repLoop p sep (.included m) fuel st) := by
  intro fuel
  induction fuel with
  | zero => intro st o _ _ _ h; omega
  | succ fuel ih =>
    intro st o hs hl hf _ ho
    have ht := repTurn_live (p := p) hsep (.included m) hs hl ho
    rw [repLoop]
    cases h : repTurn p sep (.included m) st with
    | again st' =>
      rw [h] at ht
      obtain ⟨h1, h2, h3, h4, h5, -⟩ := ht
      obtain ⟨hb, -⟩ := (repTurn_again_iff _ _ _ _ _).1 h
      simp only [boundReached, decide_eq_false_iff_not] at hb
      have := ih st' o (by rw [h1]; exact h3) (by rw [h1]; omega) (by omega) (by omega) h4
      rw [h1] at this
      exact this
    | exit items l => rw [h] at ht; exact ht
    | panic => trivial
    | diverge => rw [h] at ht; exact ht

instance [hp : Live n p] (m : Nat) : Live n (count p m) := ⟨fun s hs hl => by
  have h1 := hp.live s hs hl
  unfold count repeatSep
  cases h : p s with
  | success v k =>
    rw [h] at h1
    have h1' : s.offset + k ≤ s.input.length := h1
    have h2 := repLoop_live_bounded (n := n) (p := p) (B := Unit) (sep := none) (fun q hq => by cases hq) m (m + 1) ⟨s.advanceBy k, [v], k⟩ s.offset h1'
      (by simp only [State.advanceBy]; omega) (by simp only [List.length_singleton]; omega) (by omega) rfl
    dsimp only [Range.closed, repFuel]
    cases h3 : repLoop p (none : Option (Parser I Unit)) (.included m) (m + 1) ⟨s.advanceBy k, [v], k⟩ with
    | exit items l => rw [h3] at h2; exact repFinish_live _ s items l h2
    | panic => trivial
    | diverge => rw [h3] at h2; exact h2
  | failure e c => exact repFinish_live _ s [] 0 hs
  | panic => trivial
  | diverge => rw [h] at h1; exact h1⟩

/-! ### Consumption -/

theorem map_success {f : A → B} {s : State I} {w : B} {k : Nat} (h : map p f s = .success w k) :
    ∃ v, p s = .success v k ∧ w = f v := by
  unfold map at h
  cases hp : p s with
  | success v n => rw [hp] at h; cases h; exact ⟨v, rfl, rfl⟩
  | _ => rw [hp] at h; cases h

theorem mapRes_success {f : A → Option B} {s : State I} {w : B} {k : Nat} (h : mapRes p f s = .success w k) :
    ∃ v, p s = .success v k ∧ f v = some w := by
  unfold mapRes at h
  cases hp : p s with
  | success v n =>
    rw [hp] at h
    dsimp only at h
    cases hf : f v with
    | some b => rw [hf] at h; cases h; exact ⟨v, rfl, hf⟩
    | none => rw [hf] at h; simp only [State.withInput] at h; split at h <;> cases h
  | _ => rw [hp] at h; cases h

theorem or_success {p p' : Parser I A} {s : State I} {v : A} {k : Nat} (h : or p p' s = .success v k) :
    p s = .success v k ∨ p' s = .success v k := by
  unfold or at h
  split at h
  · exact .inr h
  · exact .inl h

theorem attempt_success {s : State I} {v : A} {k : Nat} (h : attempt p s = .success v k) : p s = .success v k := by
  unfold attempt Res.withUncommitted at h
  cases hp : p s with
  | failure e c => rw [hp] at h; cases c <;> cases h
  | _ => rw [hp] at h; exact h

theorem andThen_success {s : State I} {v : A × B} {k : Nat} (h : andThen p q s = .success v k) :
    ∃ i j, p s = .success v.1 i ∧ q (s.advanceBy i) = .success v.2 j ∧ k = i + j := by
  unfold andThen at h
  cases hp : p s with
  | success a i =>
    rw [hp] at h
    dsimp only at h
    cases hq : q (s.advanceBy i) with
    | success b j => rw [hq] at h; cases h; exact ⟨i, j, rfl, hq, rfl⟩
    | _ => rw [hq] at h; cases h
  | _ => rw [hp] at h; cases h

theorem skipLeft_success {s : State I} {v : B} {k : Nat} (h : skipLeft p q s = .success v k) :
    ∃ a i j, p s = .success a i ∧ q (s.advanceBy i) = .success v j ∧ k = i + j := by
  unfold skipLeft at h
  cases hp : p s with
  | success a i =>
    rw [hp] at h
    dsimp only at h
    cases hq : q (s.advanceBy i) with
    | success b j => rw [hq] at h; cases h; exact ⟨a, i, j, rfl, hq, rfl⟩
    | _ => rw [hq] at h; cases h
  | _ => rw [hp] at h; cases h

theorem skipRight_success {s : State I} {v : A} {k : Nat} (h : skipRight p q s = .success v k) :
    ∃ b i j, p s = .success v i ∧ q (s.advanceBy i) = .success b j ∧ k = i + j := by
  unfold skipRight at h
  cases hp : p s with
  | success a i =>
    rw [hp] at h
    dsimp only at h
    cases hq : q (s.advanceBy i) with
    | success b j => rw [hq] at h; cases h; exact ⟨b, i, j, rfl, hq, rfl⟩
    | _ => rw [hq] at h; cases h
  | _ => rw [hp] at h; cases h

theorem collect_success {s : State I} {v : List I} {k : Nat} (h : collect p s = .success v k) :
    ∃ a, p s = .success a k ∧ v = (s.input.drop s.offset).take k := by
  unfold collect at h
  cases hp : p s with
  | success a i =>
    rw [hp] at h
    simp only [State.withSlice] at h
    split at h
    · cases h; exact ⟨a, rfl, rfl⟩
    · cases h
  | _ => rw [hp] at h; cases h

theorem discard_success {s : State I} {v : Unit} {k : Nat} (h : discard p s = .success v k) : ∃ a, p s = .success a k := by
  unfold discard at h
  cases hp : p s with
  | success a i => rw [hp] at h; cases h; exact ⟨a, rfl⟩
  | _ => rw [hp] at h; cases h

theorem name_success {l : String} {s : State I} {v : A} {k : Nat} (h : name p l s = .success v k) : p s = .success v k := by
  unfold name at h
  cases hp : p s with
  | failure e c => rw [hp] at h; dsimp only at h; split at h <;> cases h
  | _ => rw [hp] at h; exact h

theorem filter_success {f : A → Bool} {s : State I} {v : A} {k : Nat} (h : filter p f s = .success v k) :
    p s = .success v k ∧ f v = true := by
  unfold filter at h
  cases hp : p s with
  | success a i =>
    rw [hp] at h; dsimp only at h
    split at h
    · cases h; exact ⟨rfl, by assumption⟩
    · cases h
  | _ => rw [hp] at h; cases h

instance [hp : Adv p] (f : A → B) : Adv (map p f) := ⟨fun s w k h => by
  obtain ⟨v, hv, -⟩ := map_success h; exact hp.adv _ _ _ hv⟩
instance [hp : Adv p] (f : A → Option B) : Adv (mapRes p f) := ⟨fun s w k h => by
  obtain ⟨v, hv, -⟩ := mapRes_success h; exact hp.adv _ _ _ hv⟩
instance {p' : Parser I A} [hp : Adv p] [hp' : Adv p'] : Adv (or p p') := ⟨fun s v k h =>
  (or_success h).elim (hp.adv _ _ _) (hp'.adv _ _ _)⟩
instance [hp : Adv p] : Adv (attempt p) := ⟨fun s v k h => hp.adv _ _ _ (attempt_success h)⟩
instance (priority := low) [hp : Adv p] : Adv (andThen p q) := ⟨fun s v k h => by
  obtain ⟨i, j, h1, -, rfl⟩ := andThen_success h; have := hp.adv _ _ _ h1; omega⟩
instance (priority := low) [hq : Adv q] : Adv (andThen p q) := ⟨fun s v k h => by
  obtain ⟨i, j, -, h1, rfl⟩ := andThen_success h; have := hq.adv _ _ _ h1; omega⟩
instance (priority := low) [hp : Adv p] : Adv (skipLeft p q) := ⟨fun s v k h => by
  obtain ⟨a, i, j, h1, -, rfl⟩ := skipLeft_success h; have := hp.adv _ _ _ h1; omega⟩
instance (priority := low) [hq : Adv q] : Adv (skipLeft p q) := ⟨fun s v k h => by
  obtain ⟨a, i, j, -, h1, rfl⟩ := skipLeft_success h; have := hq.adv _ _ _ h1; omega⟩
instance (priority := low) [hp : Adv p] : Adv (skipRight p q) := ⟨fun s v k h => by
  obtain ⟨b, i, j, h1, -, rfl⟩ := skipRight_success h; have := hp.adv _ _ _ h1; omega⟩
instance (priority := low) [hq : Adv q] : Adv (skipRight p q) := ⟨fun s v k h => by
  obtain ⟨b, i, j, -, h1, rfl⟩ := skipRight_success h; have := hq.adv _ _ _ h1; omega⟩
instance (priority := low) {r : Parser I C} [hp : Adv p] : Adv (surround p q r) := by unfold surround; infer_instance
instance (priority := low) {r : Parser I C} [hp : Adv q] : Adv (surround p q r) := by unfold surround; infer_instance
instance [hp : Adv p] : Adv (collect p) := ⟨fun s w k h => by
  obtain ⟨v, hv, -⟩ := collect_success h; exact hp.adv _ _ _ hv⟩
instance [hp : Adv p] : Adv (discard p) := ⟨fun s w k h => by
  obtain ⟨v, hv⟩ := discard_success h; exact hp.adv _ _ _ hv⟩
instance [hp : Adv p] (l : String) : Adv (name p l) := ⟨fun s w k h => hp.adv _ _ _ (name_success h)⟩
instance [hp : Adv p] (f : A → Bool) : Adv (filter p f) := ⟨fun s w k h => hp.adv _ _ _ (filter_success h).1⟩
instance [hp : Adv p] (f : A → Bool) : Adv (filterNot p f) := by unfold filterNot; infer_instance
instance (f : Unit → Parser I A) [hp : Adv (f ())] : Adv (lazy f) := ⟨hp.adv⟩
instance : Adv (diverging : Parser I A) := ⟨fun s v k h => by cases h⟩
instance (f : I → Bool) : Adv (elmPred f) := ⟨fun s v k h => by
  unfold elmPred State.withInput at h
  split at h
  · dsimp only at h
    split at h
    · split at h <;> cases h; omega
    · cases h
  · cases h⟩
instance (f : I → Bool) : Adv (elmOfSet f) := ⟨fun s v k h => by
  unfold elmOfSet State.withInput at h
  split at h
  · dsimp only at h
    split at h
    · split at h <;> cases h; omega
    · cases h
  · cases h⟩
instance (f : I → Bool) : Adv (noneOfSet f) := ⟨fun s v k h => by
  unfold noneOfSet State.withInput at h
  split at h
  · dsimp only at h
    split at h
    · split at h <;> cases h; omega
    · cases h
  · cases h⟩
instance [DecidableEq I] (x : I) : Adv (elm x) := by unfold elm; infer_instance
instance [DecidableEq I] (l : List I) : Adv (elmOf l) := by unfold elmOf; infer_instance
instance [DecidableEq I] (l : List I) : Adv (noneOf l) := by unfold noneOf; infer_instance
instance [Element I] : Adv (elmAlpha : Parser I I) := by unfold elmAlpha; infer_instance
instance [Element I] : Adv (elmDigit : Parser I I) := by unfold elmDigit; infer_instance
instance [Element I] : Adv (elmHexDigit : Parser I I) := by unfold elmHexDigit; infer_instance
instance [Element I] : Adv (elmDigit19 : Parser I I) := by unfold elmDigit19; infer_instance

theorem seqLoop_success {eq : I → I → Bool} {s : State I} {inp lit : List I} : ∀ {i : Nat} {pat rest v : List I} {k : Nat},
    seqLoop eq s inp lit i pat rest = .success v k → k = i + pat.length ∧ v = lit
  | _, [], _, _, _, h => by simp only [seqLoop] at h; cases h; simp
  | _, _ :: _, [], _, _, h => by simp only [seqLoop] at h; cases h
  | i, c :: pat, x :: rest, v, k, h => by
    rw [seqLoop] at h
    split at h
    · obtain ⟨h1, h2⟩ := seqLoop_success h
      exact ⟨by rw [h1, List.length_cons]; omega, h2⟩
    · cases h

theorem seq_returns [DecidableEq I] {l : List I} {s : State I} {v : List I} {k : Nat} (h : seq l s = .success v k) :
    k = l.length ∧ v = l := by
  unfold seq State.withInput at h
  split at h
  · have := seqLoop_success h; simpa using this
  · cases h

theorem adv_seq [DecidableEq I] {l : List I} (hl : l ≠ []) : Adv (seq l) := ⟨fun s v k h => by
  rw [(seq_returns h).1]; cases l; exacts [absurd rfl hl, by simp]⟩
end instances

/-! ### What a parser returns -/

/-- Every value that `p` returns satisfies `P`. -/
def Yields (p : Parser I A) (P : A → Prop) : Prop := ∀ s v k, p s = .success v k → P v

section yields
variable {p : Parser I A} {q : Parser I B} {P Q : A → Prop}

theorem Yields.imp (h : Yields p P) (hi : ∀ v, P v → Q v) : Yields p Q := fun s v k hv => hi v (h s v k hv)
theorem Yields.map {R : B → Prop} {f : A → B} (h : Yields p fun v => R (f v)) : Yields (OniComb.map p f) R := fun s v k hv => by
  obtain ⟨w, hw, rfl⟩ := map_success hv; exact h s w k hw
theorem Yields.mapRes {R : B → Prop} {f : A → Option B} (h : Yields p fun v => ∀ w, f v = some w → R w) :
    Yields (OniComb.mapRes p f) R := fun s v k hv => by
  obtain ⟨w, hw, hf⟩ := mapRes_success hv; exact h s w k hw v hf
theorem Yields.or {p' : Parser I A} (h : Yields p P) (h' : Yields p' P) : Yields (OniComb.or p p') P := fun s v k hv =>
  (or_success hv).elim (h s v k) (h' s v k)
theorem Yields.attempt (h : Yields p P) : Yields (OniComb.attempt p) P := fun s v k hv => h s v k (attempt_success hv)
theorem Yields.andThen {R : B → Prop} (h : Yields p P) (h' : Yields q R) : Yields (OniComb.andThen p q) fun v => P v.1 ∧ R v.2 :=
  fun s v k hv => by
    obtain ⟨i, j, h1, h2, -⟩ := andThen_success hv; exact ⟨h _ _ _ h1, h' _ _ _ h2⟩
theorem Yields.skipLeft {R : B → Prop} (h' : Yields q R) : Yields (OniComb.skipLeft p q) R :=
  fun s v k hv => by
    obtain ⟨a, i, j, -, h2, -⟩ := skipLeft_success hv; exact h' _ _ _ h2
theorem Yields.skipRight (h : Yields p P) : Yields (OniComb.skipRight p q) P :=
  fun s v k hv => by
    obtain ⟨a, i, j, h1, -, -⟩ := skipRight_success hv; exact h _ _ _ h1
theorem Yields.surround {l : Parser I B} {r : Parser I C} (h : Yields p P) : Yields (OniComb.surround l p r) P :=
  Yields.skipLeft (Yields.skipRight h)
theorem Yields.name {l : String} (h : Yields p P) : Yields (OniComb.name p l) P := fun s v k hv => h s v k (name_success hv)
theorem Yields.lazy {f : Unit → Parser I A} (h : Yields (f ()) P) : Yields (OniComb.lazy f) P := h
theorem Yields.diverging : Yields (OniComb.diverging : Parser I A) P := fun s v k hv => by cases hv
theorem Yields.any : Yields p fun _ => True := fun _ _ _ _ => trivial
theorem Yields.opt (h : Yields p P) : Yields (OniComb.opt p) fun v => ∀ x, v = some x → P x := by
  refine Yields.or (Yields.map (Yields.attempt (h.imp fun v hv x hx => ?_))) ?_
  · cases hx; exact hv
  · intro s v k hv x hx; cases hv; cases hx

theorem repLoop_yields (h : Yields p P) (sep : Option (Parser I B)) (stop : Bound) : ∀ (fuel : Nat) (st : LoopState I A)
    (items : List A) (l : Nat), (∀ v ∈ st.items, P v) → repLoop p sep stop fuel st = .exit items l → ∀ v ∈ items, P v := by
  intro fuel
  induction fuel with
  | zero => intro st items l _ he; cases he
  | succ fuel ih =>
    intro st items l hst he
    rw [repLoop] at he
    cases ht : repTurn p sep stop st with
    | again st' =>
      rw [ht] at he
      obtain ⟨-, k, v, n, -, h2, rfl⟩ := (repTurn_again_iff p sep stop st st').1 ht
      refine ih _ items l (fun w hw => ?_) he
      rcases List.mem_append.1 hw with hw | hw
      · exact hst w hw
      · rw [List.mem_singleton.1 hw]; exact h _ _ _ h2
    | exit items' n' =>
      rw [ht] at he
      cases he
      obtain ⟨rfl, -⟩ := (repTurn_exit_iff p sep stop st items l).1 ht
      exact hst
    | _ => rw [ht] at he; cases he

theorem Yields.repeatSep (h : Yields p P) (range : Range) (sep : Option (Parser I B)) :
    Yields (OniComb.repeatSep p range sep) fun vs => ∀ v ∈ vs, P v := by
  intro s vs k hv
  have fin : ∀ items l, (∀ v ∈ items, P v) → repFinish range s items l = .success vs k → ∀ v ∈ vs, P v := by
    intro items l hi hf
    unfold repFinish State.withInput at hf
    split at hf
    · split at hf
      · split at hf <;> cases hf
      · cases hf; exact hi
    · cases hf; exact hi
  unfold OniComb.repeatSep at hv
  cases hp : p s with
  | success v n =>
    rw [hp] at hv
    dsimp only at hv
    cases hl : repLoop p sep range.stop (repFuel range.stop s) ⟨s.advanceBy n, [v], n⟩ with
    | exit items l =>
      rw [hl] at hv
      refine fin items l (repLoop_yields h sep _ _ _ items l (fun w hw => ?_) hl) hv
      rw [List.mem_singleton.1 hw]; exact h _ _ _ hp
    | _ => rw [hl] at hv; cases hv
  | failure e c => rw [hp] at hv; exact fin [] 0 (by simp) hv
  | _ => rw [hp] at hv; cases hv

theorem Yields.many0 (h : Yields p P) : Yields (OniComb.many0 p) fun vs => ∀ v ∈ vs, P v := h.repeatSep _ _
theorem Yields.many1 (h : Yields p P) : Yields (OniComb.many1 p) fun vs => ∀ v ∈ vs, P v := h.repeatSep _ _
theorem Yields.count (h : Yields p P) (n : Nat) : Yields (OniComb.count p n) fun vs => ∀ v ∈ vs, P v := h.repeatSep _ _
theorem Yields.many0Sep (h : Yields p P) : Yields (OniComb.many0Sep p q) fun vs => ∀ v ∈ vs, P v := h.repeatSep _ _
theorem Yields.many1Sep (h : Yields p P) : Yields (OniComb.many1Sep p q) fun vs => ∀ v ∈ vs, P v := h.repeatSep _ _
end yields

/-! ### Consumption of repetitions -/

theorem repLoop_length {p : Parser I A} {sep : Option (Parser I B)} {stop : Bound} : ∀ (fuel : Nat) (st : LoopState I A)
    (items : List A) (l : Nat), repLoop p sep stop fuel st = .exit items l → st.length ≤ l := by
  intro fuel
  induction fuel with
  | zero => intro st items l he; cases he
  | succ fuel ih =>
    intro st items l he
    rw [repLoop] at he
    cases ht : repTurn p sep stop st with
    | again st' =>
      rw [ht] at he
      obtain ⟨-, k, v, n, -, h2, rfl⟩ := (repTurn_again_iff p sep stop st st').1 ht
      have := ih _ items l he
      simp only at this; omega
    | exit items' n' =>
      rw [ht] at he
      cases he
      obtain ⟨-, ⟨-, h⟩ | ⟨-, k, -, h⟩⟩ := (repTurn_exit_iff p sep stop st items l).1 ht <;> omega
    | _ => rw [ht] at he; cases he

theorem adv_repeat1 {p : Parser I A} [ha : Adv p] (sep : Option (Parser I B)) : Adv (repeatSep p (.from_ 1) sep) := ⟨fun s vs k hv => by
  have fin : ∀ (items : List A) l, repFinish (.from_ 1) s items l = .success vs k → items ≠ [] ∧ k = l := by
    intro items l hf
    unfold repFinish State.withInput Range.from_ at hf
    dsimp only at hf
    split at hf
    · split at hf <;> cases hf
    · rename_i h; cases hf; exact ⟨by rintro rfl; simp at h, rfl⟩
  unfold OniComb.repeatSep at hv
  cases hp : p s with
  | success v n =>
    rw [hp] at hv
    have := ha.adv _ _ _ hp
    dsimp only at hv
    cases hl : repLoop p sep (Range.from_ 1).stop (repFuel (Range.from_ 1).stop s) ⟨s.advanceBy n, [v], n⟩ with
    | exit items l =>
      rw [hl] at hv
      obtain ⟨-, rfl⟩ := fin items l hv
      have := repLoop_length _ _ _ _ hl
      simp only at this; omega
    | _ => rw [hl] at hv; cases hv
  | failure e c => rw [hp] at hv; exact absurd rfl (fin [] 0 hv).1
  | _ => rw [hp] at hv; cases hv⟩

instance {p : Parser I A} [Adv p] : Adv (many1 p) := adv_repeat1 _
instance {p : Parser I A} {q : Parser I B} [Adv p] : Adv (many1Sep p q) := adv_repeat1 _

namespace Uri
instance {n : Nat} {p : Parser UInt8 A} [Live n p] : Live n (text p) := by unfold text; infer_instance
instance {p : Parser UInt8 A} [Adv p] : Adv (text p) := by unfold text; infer_instance

theorem mapUnwrap_success {p : Parser UInt8 A} {f : A → Option B} {s : State UInt8} {w : B} {k : Nat}
    (h : mapUnwrap p f s = .success w k) : ∃ v, p s = .success v k ∧ f v = some w := by
  unfold mapUnwrap at h
  cases hp : p s with
  | success v n =>
    rw [hp] at h
    dsimp only at h
    cases hf : f v with
    | some b => rw [hf] at h; cases h; exact ⟨v, rfl, hf⟩
    | none => rw [hf] at h; cases h
  | _ => rw [hp] at h; cases h

instance {n : Nat} {p : Parser UInt8 A} [hp : Live n p] (f : A → Option B) : Live n (mapUnwrap p f) := ⟨fun s hs hl => by
  have := hp.live s hs hl
  unfold mapUnwrap
  cases h : p s with
  | success a k =>
    rw [h] at this
    dsimp only
    cases f a with
    | some b => exact this
    | none => trivial
  | diverge => rw [h] at this; exact this
  | _ => trivial⟩
instance {p : Parser UInt8 A} [hp : Adv p] (f : A → Option B) : Adv (mapUnwrap p f) := ⟨fun s w k h => by
  obtain ⟨v, hv, -⟩ := mapUnwrap_success h; exact hp.adv _ _ _ hv⟩
end Uri

end OniComb
