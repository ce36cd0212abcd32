import Verif.Spec.Built
import Verif.Lemmas.Repeat

/-!
# Helper lemmas: closure of the contracts under all combinators
-/

namespace OniComb
variable {I A B : Type}

/-! ## Safety: in bounds and no panic -/

/-- Result that is acceptable at `s`. -/
def SafeAt (s : State I) : Res I A → Prop
  | .success _ n => s.offset + n ≤ s.input.length
  | .panic => False
  | _ => True

def Safe (p : Parser I A) : Prop := ∀ s, s.offset ≤ s.input.length → SafeAt s (p s)

theorem safe_iff (p : Parser I A) : Safe p ↔ InBounds p ∧ NoPanic p := by
  constructor
  · intro h
    refine ⟨fun s v n hs hp => ?_, fun s hs hp => ?_⟩
    · have := h s hs; rw [hp] at this; exact this
    · have := h s hs; rw [hp] at this; exact this
  · rintro ⟨h1, h2⟩ s hs
    cases hp : p s with
    | success v n => exact h1 s v n hs hp
    | panic => exact h2 s hs hp
    | _ => trivial

theorem safe_filter {p : Parser I A} {f : A → Bool} (hp : Safe p) : Safe (filter p f) := by
  intro s hs
  have := hp s hs
  unfold filter
  cases h : p s with
  | success v n => rw [h] at this; simp only; split <;> simp_all [SafeAt]
  | _ => rw [h] at this; simp_all [SafeAt]

theorem safe_shift {s : State I} {n : Nat} {r : Res I A} (b : Bool)
    (h : SafeAt ⟨s.input, s.offset + n⟩ r) :
    SafeAt s ((r.addCommit b).advanceSuccess n) := by
  cases r <;> simp_all [SafeAt, Res.addCommit, Res.advanceSuccess]
  omega

theorem safe_flatMap {p : Parser I A} {f : A → Parser I B} (hp : Safe p) (hf : ∀ a, Safe (f a)) :
    Safe (flatMap p f) := by
  intro s hs
  have := hp s hs
  unfold flatMap
  cases h : p s with
  | success v n =>
    rw [h] at this
    exact safe_shift _ (hf v ⟨s.input, s.offset + n⟩ this)
  | _ => rw [h] at this; simp_all [SafeAt]

theorem safe_map {p : Parser I A} {f : A → B} (hp : Safe p) : Safe (map p f) := by
  intro s hs
  have := hp s hs
  unfold map
  cases h : p s <;> rw [h] at this <;> simp_all [SafeAt]

theorem safe_exists {p : Parser I A} (hp : Safe p) : Safe (exists_ p) := by
  intro s hs
  have := hp s hs
  unfold exists_
  cases h : p s <;> rw [h] at this <;> simp_all [SafeAt]

theorem safe_not {p : Parser I A} (hp : Safe p) : Safe (not_ p) := by
  intro s hs
  have := hp s hs
  unfold not_
  cases h : p s <;> rw [h] at this <;> simp_all [SafeAt, State.withInput, State.advanceBy]

theorem safe_or {p q : Parser I A} (hp : Safe p) (hq : Safe q) : Safe (or p q) := by
  intro s hs
  have := hp s hs
  have := hq s hs
  unfold or
  split <;> simp_all

theorem safe_andThen {p : Parser I A} {q : Parser I B} (hp : Safe p) (hq : Safe q) :
    Safe (andThen p q) := by
  intro s hs
  have := hp s hs
  unfold andThen
  cases h : p s with
  | success v n =>
    rw [h] at this
    have hq' := hq ⟨s.input, s.offset + n⟩ this
    simp only [State.advanceBy]
    cases h' : q ⟨s.input, s.offset + n⟩ <;> rw [h'] at hq' <;> simp_all [SafeAt]
    omega
  | _ => rw [h] at this; simp_all [SafeAt]

theorem safe_skipLeft {p : Parser I A} {q : Parser I B} (hp : Safe p) (hq : Safe q) :
    Safe (skipLeft p q) := by
  intro s hs
  have := hp s hs
  unfold skipLeft
  cases h : p s with
  | success v n =>
    rw [h] at this
    have hq' := hq ⟨s.input, s.offset + n⟩ this
    simp only [State.advanceBy]
    cases h' : q ⟨s.input, s.offset + n⟩ <;> rw [h'] at hq' <;> simp_all [SafeAt]
    omega
  | _ => rw [h] at this; simp_all [SafeAt]

theorem safe_skipRight {p : Parser I A} {q : Parser I B} (hp : Safe p) (hq : Safe q) :
    Safe (skipRight p q) := by
  intro s hs
  have := hp s hs
  unfold skipRight
  cases h : p s with
  | success v n =>
    rw [h] at this
    have hq' := hq ⟨s.input, s.offset + n⟩ this
    simp only [State.advanceBy]
    cases h' : q ⟨s.input, s.offset + n⟩ <;> rw [h'] at hq' <;> simp_all [SafeAt, Res.advanceSuccess]
    omega
  | _ => rw [h] at this; simp_all [SafeAt]

theorem safe_attempt {p : Parser I A} (hp : Safe p) : Safe (attempt p) := by
  intro s hs
  have := hp s hs
  unfold attempt Res.withUncommitted
  split <;> simp_all [SafeAt]

theorem safe_skip (n : Nat) : Safe (skip (I := I) n) := by
  intro s hs
  simp only [skip, State.withInput, hs, if_true]
  split
  · rename_i h; simp only [List.length_drop] at h; simp only [SafeAt]; omega
  · simp [SafeAt]

theorem safe_mapRes {p : Parser I A} {f : A → Option B} (hp : Safe p) : Safe (mapRes p f) := by
  intro s hs
  have := hp s hs
  unfold mapRes
  cases h : p s with
  | success v n =>
    rw [h] at this
    simp only
    cases f v <;> simp_all [SafeAt, State.withInput]
  | _ => rw [h] at this; simp_all [SafeAt]

theorem safe_peek {p : Parser I A} (hp : Safe p) : Safe (peek p) := by
  intro s hs
  have := hp s hs
  unfold peek
  cases h : p s <;> rw [h] at this <;> simp_all [SafeAt]

theorem safe_name {p : Parser I A} {l : String} (hp : Safe p) : Safe (name p l) := by
  intro s hs
  have := hp s hs
  unfold name
  cases h : p s with
  | failure e c => simp only; split <;> trivial
  | _ => rw [h] at this; exact this

theorem safe_expect {p : Parser I A} {l : String} (hp : Safe p) : Safe (expect p l) := by
  intro s hs
  have := hp s hs
  unfold expect
  cases h : p s <;> rw [h] at this <;> simp_all [SafeAt]

theorem safe_lastOffset {p : Parser I A} (hp : Safe p) : Safe (lastOffset p) := by
  intro s hs
  have := hp s hs
  unfold lastOffset
  cases h : p s <;> rw [h] at this <;> simp_all [SafeAt]

theorem safe_nextOffset {p : Parser I A} (hp : Safe p) : Safe (nextOffset p) := by
  intro s hs
  have := hp s hs
  unfold nextOffset
  cases h : p s <;> rw [h] at this <;> simp_all [SafeAt]

theorem safe_collect {p : Parser I A} (hp : Safe p) : Safe (collect p) := by
  intro s hs
  have := hp s hs
  unfold collect
  cases h : p s <;> rw [h] at this <;> simp_all [SafeAt, State.withSlice]

theorem safe_discard {p : Parser I A} (hp : Safe p) : Safe (discard p) := by
  intro s hs
  have := hp s hs
  unfold discard
  cases h : p s <;> rw [h] at this <;> simp_all [SafeAt]

theorem safe_end : Safe (end_ (I := I)) := by
  intro s hs
  simp only [end_, State.withInput, hs, if_true]
  split <;> simp_all [SafeAt]

/-- A parser that inspects the first element of the rest. -/
theorem safe_head {k : State I → List I → Res I A} {p : Parser I A}
    (hp : p = fun s => s.withInput (k s))
    (h : ∀ s x rest, SafeAt ⟨x :: rest, 0⟩ (k s (x :: rest))) (h0 : ∀ s, SafeAt ⟨([] : List I), 0⟩ (k s [])) :
    Safe p := by
  subst hp
  intro s hs
  simp only [State.withInput, hs, if_true]
  cases hd : s.input.drop s.offset with
  | nil =>
    have := h0 s
    revert this
    cases k s [] <;> simp only [SafeAt, imp_self, List.length_nil]
    intro; omega
  | cons x rest =>
    have := h s x rest
    have hlen := congrArg List.length hd
    simp only [List.length_drop] at hlen
    revert this
    cases k s (x :: rest) <;> simp only [SafeAt, imp_self]
    intro; omega

theorem safe_elmPred (f : I → Bool) : Safe (elmPred f) := by
  refine safe_head (k := fun s inp => match inp with
    | x :: _ => if f x then .success x 1 else .failure (.mismatch inp (s.offset + 1) 1) .uncommitted
    | [] => .failure (.mismatch inp (s.offset + 1) 1) .uncommitted) rfl ?_ ?_
  · intro s x rest; dsimp only; split <;> simp [SafeAt]
  · intro s; simp [SafeAt]

theorem safe_elmOfSet (f : I → Bool) : Safe (elmOfSet f) := by
  refine safe_head (k := fun s inp => match inp with
    | x :: _ =>
      if f x then .success x 1 else .failure (.mismatch inp (s.offset + 1) 1) .uncommitted
    | [] => .failure .incomplete .uncommitted) rfl ?_ ?_
  · intro s x rest; dsimp only; split <;> simp [SafeAt]
  · intro s; simp [SafeAt]

theorem safe_noneOfSet (f : I → Bool) : Safe (noneOfSet f) := by
  refine safe_head (k := fun s inp => match inp with
    | x :: _ =>
      if !f x then .success x 1 else .failure (.mismatch inp (s.offset + 1) 1) .uncommitted
    | [] => .failure .incomplete .uncommitted) rfl ?_ ?_
  · intro s x rest; dsimp only; split <;> simp [SafeAt]
  · intro s; simp [SafeAt]

theorem seqLoop_safe (eq : I → I → Bool) (s : State I) (inp lit : List I) :
    ∀ (index : Nat) (pat rest : List I),
      match seqLoop eq s inp lit index pat rest with
      | .success _ n => n ≤ index + rest.length
      | .failure _ _ => True
      | _ => False := by
  intro index pat
  induction pat generalizing index with
  | nil => intro rest; simp [seqLoop]
  | cons c pat ih =>
    intro rest
    cases rest with
    | nil => simp [seqLoop]
    | cons x rest =>
      simp only [seqLoop]
      by_cases h : eq c x = true
      · simp only [h, if_true]
        have := ih (index + 1) rest
        revert this
        split <;> simp_all <;> omega
      · simp [h]

theorem safe_seqLike (eq : I → I → Bool) (lit : List I) :
    Safe (fun s : State I => s.withInput fun inp => seqLoop eq s inp lit 0 lit inp) := by
  intro s hs
  simp only [State.withInput, hs, if_true]
  have := seqLoop_safe eq s (s.input.drop s.offset) lit 0 lit (s.input.drop s.offset)
  revert this
  cases seqLoop eq s (s.input.drop s.offset) lit 0 lit (s.input.drop s.offset) <;>
    simp [SafeAt] <;> omega

theorem safe_take (n : Nat) : Safe (take (I := I) n) := by
  intro s hs
  simp only [take, State.withInput, State.withSlice, hs, if_true, List.length_drop]
  by_cases h : s.input.length - s.offset ≥ n
  · have : s.offset + n ≤ s.input.length := by omega
    simp [h, this, SafeAt]
  · simp [h, SafeAt]

theorem scanWhile_some_bound (f : I → Bool) (st : Nat) :
    ∀ (l : List I) (index len : Nat), st + len ≤ index →
      ∃ len', scanWhile f index (some st) len l = (some st, len') ∧ st + len' ≤ index + l.length := by
  intro l
  induction l with
  | nil => intro index len h; exact ⟨len, rfl, by simpa using h⟩
  | cons c l ih =>
    intro index len h
    simp only [scanWhile]
    by_cases hc : f c = true
    · simp only [hc, if_true, Option.isNone_some, Bool.false_eq_true, if_false]
      obtain ⟨len', h1, h2⟩ := ih (index + 1) (len + 1) (by omega)
      exact ⟨len', h1, by simp; omega⟩
    · simp only [hc]
      obtain ⟨len', h1, h2⟩ := ih (index + 1) len (by omega)
      exact ⟨len', h1, by simp; omega⟩

theorem scanWhile_bound (f : I → Bool) : ∀ (l : List I) (index st len : Nat),
    scanWhile f index none 0 l = (some st, len) → st + len ≤ index + l.length := by
  intro l
  induction l with
  | nil => intro index st len h; simp [scanWhile] at h
  | cons c l ih =>
    intro index st len h
    simp only [scanWhile] at h
    by_cases hc : f c = true
    · simp only [hc, if_true, Option.isNone_none] at h
      obtain ⟨len', h1, h2⟩ := scanWhile_some_bound f index l (index + 1) (0 + 1) (by omega)
      rw [h1] at h; cases h; simp; omega
    · simp only [hc, Bool.false_eq_true, if_false] at h
      have := ih (index + 1) st len h
      simp; omega

theorem withSub_scan {A : Type} (f : I → Bool) (l : List I) (st len : Nat) (k : List I → Res I A)
    (h : scanWhile f 0 none 0 l = (some st, len)) :
    withSub l st (st + len) k = k ((l.drop st).take len) ∧ len ≤ l.length := by
  have := scanWhile_bound f l 0 st len h
  have h1 : st ≤ st + len ∧ st + len ≤ l.length := by omega
  exact ⟨by simp [withSub, h1], by omega⟩

theorem safe_takeWhile0 (f : I → Bool) : Safe (takeWhile0 f) := by
  intro s hs
  simp only [takeWhile0, State.withInput, hs, if_true]
  split
  · rename_i st len h
    obtain ⟨h1, h2⟩ := withSub_scan f _ st len (fun sl => (.success sl len : Res I (List I))) h
    rw [h1]; simp only [List.length_drop] at h2; simp only [SafeAt]; omega
  · simp [State.withSlice, hs, SafeAt]

theorem safe_takeWhile1 (f : I → Bool) : Safe (takeWhile1 f) := by
  intro s hs
  simp only [takeWhile1, State.withInput, hs, if_true]
  split
  · rename_i st len h
    obtain ⟨h1, h2⟩ := withSub_scan f _ st len (fun sl => (.success sl len : Res I (List I))) h
    rw [h1]; simp only [List.length_drop] at h2; simp only [SafeAt]; omega
  · trivial

theorem safe_takeWhileNM (n m : Nat) (f : I → Bool) : Safe (takeWhileNM n m f) := by
  intro s hs
  simp only [takeWhileNM, State.withInput, hs, if_true]
  split
  · rename_i st len h
    obtain ⟨h1, h2⟩ := withSub_scan f _ st len (fun sl =>
      if n ≤ sl.length ∧ sl.length ≤ m then (.success sl len : Res I (List I))
      else .failure .incomplete .uncommitted) h
    rw [h1]; simp only [List.length_drop] at h2
    split
    · simp only [SafeAt]; omega
    · trivial
  · trivial

theorem findTill_bound (f : I → Bool) : ∀ (l : List I) (index i : Nat),
    findTill f index l = some i → i < index + l.length := by
  intro l
  induction l with
  | nil => intro index i h; cases h
  | cons c l ih =>
    intro index i h
    simp only [findTill] at h
    split at h
    · cases h; simp
    · have := ih _ _ h; simp; omega

theorem safe_takeTill0 (f : I → Bool) : Safe (takeTill0 f) := by
  intro s hs
  simp only [takeTill0, State.withInput, hs, if_true]
  split
  · rename_i i h
    have := findTill_bound f _ _ _ h
    simp only [List.length_drop] at this
    have h2 : s.offset + (i + 1) ≤ s.input.length := by omega
    simp [State.withSlice, h2, SafeAt]
  · simp [SafeAt]; omega

theorem safe_takeTill1 (f : I → Bool) : Safe (takeTill1 f) := by
  intro s hs
  simp only [takeTill1, State.withInput, hs, if_true]
  split
  · rename_i i h
    have := findTill_bound f _ _ _ h
    simp only [List.length_drop] at this
    have h2 : s.offset + (i + 1) ≤ s.input.length := by omega
    simp [State.withSlice, h2, SafeAt]
  · simp [SafeAt]

def SafeSep (sep : Option (Parser I B)) : Prop := ∀ q, sep = some q → Safe q

theorem repTurn_safe {p : Parser I A} {sep : Option (Parser I B)} (hp : Safe p) (hsep : SafeSep sep)
    (stop : Bound) (s : State I) (st : LoopState I A) (hi : st.cur.input = s.input)
    (ho : st.cur.offset = s.offset + st.length) (hb : st.cur.offset ≤ s.input.length) :
    match repTurn p sep stop st with
    | .again st' => st'.cur.input = s.input ∧ st'.cur.offset = s.offset + st'.length ∧
        st'.cur.offset ≤ s.input.length
    | .exit _ n => s.offset + n ≤ s.input.length
    | .panic => False
    | .diverge => True := by
  have hitem : ∀ (st : LoopState I A), st.cur.input = s.input →
      st.cur.offset = s.offset + st.length → st.cur.offset ≤ s.input.length →
      match repItem p st with
      | .again st' => st'.cur.input = s.input ∧ st'.cur.offset = s.offset + st'.length ∧
          st'.cur.offset ≤ s.input.length
      | .exit _ n => s.offset + n ≤ s.input.length
      | .panic => False
      | .diverge => True := by
    intro st hi ho hb
    unfold repItem
    have := hp st.cur (by rw [hi]; exact hb)
    cases h : p st.cur <;> rw [h] at this <;> simp_all [SafeAt, State.advanceBy]
    omega
  unfold repTurn
  by_cases hbr : boundReached stop st.items.length = true
  · simp only [hbr, if_true]; omega
  · simp only [hbr, Bool.false_eq_true, if_false]
    cases sep with
    | none => exact hitem st hi ho hb
    | some q =>
      have hq := hsep q rfl st.cur (by rw [hi]; exact hb)
      cases h : q st.cur with
      | success b k =>
        rw [h] at hq
        simp only [h]
        refine hitem ⟨st.cur.advanceBy k, st.items, st.length + k⟩ hi ?_ ?_
        · simp only [State.advanceBy]; omega
        · simp only [SafeAt] at hq; rw [hi] at hq; exact hq
      | failure e c => simp only [h]; omega
      | panic => rw [h] at hq; exact hq.elim
      | diverge => simp only [h]

theorem repLoop_safe {p : Parser I A} {sep : Option (Parser I B)} (hp : Safe p) (hsep : SafeSep sep)
    (stop : Bound) (s : State I) :
    ∀ (fuel : Nat) (st : LoopState I A), st.cur.input = s.input →
      st.cur.offset = s.offset + st.length → st.cur.offset ≤ s.input.length →
      match repLoop p sep stop fuel st with
      | .exit _ n => s.offset + n ≤ s.input.length
      | .panic => False
      | .diverge => True := by
  intro fuel
  induction fuel with
  | zero => intro st _ _ _; trivial
  | succ fuel ih =>
    intro st hi ho hb
    have := repTurn_safe hp hsep stop s st hi ho hb
    simp only [repLoop]
    cases h : repTurn p sep stop st with
    | again st' => rw [h] at this; exact ih st' this.1 this.2.1 this.2.2
    | _ => rw [h] at this; exact this

theorem safe_repeatSep {p : Parser I A} {sep : Option (Parser I B)} (r : Range) (hp : Safe p)
    (hsep : SafeSep sep) : Safe (repeatSep p r sep) := by
  intro s hs
  have hfin : ∀ (items : List A) (len : Nat), s.offset + len ≤ s.input.length →
      SafeAt s (repFinish r s items len) := by
    intro items len h
    unfold repFinish
    split
    · split
      · simp [State.withInput, State.advanceBy, h, SafeAt]
      · exact h
    · exact h
  have := hp s hs
  unfold repeatSep
  cases h : p s with
  | success v n =>
    rw [h] at this
    simp only
    have hl := repLoop_safe hp hsep r.stop s (repFuel r.stop s) ⟨s.advanceBy n, [v], n⟩ rfl rfl this
    cases h' : repLoop p sep r.stop (repFuel r.stop s) ⟨s.advanceBy n, [v], n⟩ with
    | exit items len => rw [h'] at hl; exact hfin items len hl
    | panic => rw [h'] at hl; exact hl
    | diverge => trivial
  | failure e c => exact hfin [] 0 hs
  | panic => rw [h] at this; exact this
  | diverge => trivial

theorem safe_restLeft1N {p : Parser I A} {op : Parser I (A → A → A)} (hp : Safe p) (hop : Safe op) :
    ∀ (k : Nat) (x : A), Safe (restLeft1N p op k x) := by
  intro k
  induction k with
  | zero => intro x s hs; trivial
  | succ k ih =>
    intro x
    refine safe_or ?_ (fun s hs => hs)
    intro s hs
    have ho := hop s hs
    simp only [State.advanceBy, Nat.add_zero]
    cases h : op s with
    | success f n1 =>
      rw [h] at ho
      simp only
      refine safe_shift _ ?_
      have hp' := hp ⟨s.input, s.offset + n1⟩ ho
      cases h' : p ⟨s.input, s.offset + n1⟩ with
      | success y n2 =>
        rw [h'] at hp'
        have := ih (f x y) ⟨s.input, s.offset + n1 + n2⟩ hp'
        revert this
        simp only
        cases restLeft1N p op k (f x y) ⟨s.input, s.offset + n1 + n2⟩ <;>
          simp [SafeAt, Res.advanceSuccess] <;> omega
      | panic => rw [h'] at hp'; exact hp'
      | _ => trivial
    | panic => rw [h] at ho; exact ho
    | _ => trivial

theorem safe_restLeft1 {p : Parser I A} {op : Parser I (A → A → A)} (hp : Safe p) (hop : Safe op)
    (x : A) : Safe (restLeft1 p op x) := fun s hs => safe_restLeft1N hp hop _ x s hs

theorem built_safe {P : (A : Type) → Parser I A → Prop} {obs : Bool}
    (hP : ∀ A (p : Parser I A), P A p → Safe p) {E : PError I → Prop} {p : Parser I A} (h : BuiltWith P obs E p) : Safe p := by
  induction h with
  | prim p h => exact hP _ p h
  | successful a => exact fun s hs => hs
  | failed e c _ => exact fun s hs => trivial
  | filter p f _ ih => exact safe_filter ih
  | flatMap p f _ _ ih1 ih2 => exact safe_flatMap ih1 ih2
  | map p f _ ih => exact safe_map ih
  | exists_ p _ ih => exact safe_exists ih
  | not_ p _ ih => exact safe_not ih
  | or p q _ _ ih1 ih2 => exact safe_or ih1 ih2
  | andThen p q _ _ ih1 ih2 => exact safe_andThen ih1 ih2
  | attempt p _ ih => exact safe_attempt ih
  | skip n => exact safe_skip n
  | skipLeft p q _ _ ih1 ih2 => exact safe_skipLeft ih1 ih2
  | skipRight p q _ _ ih1 ih2 => exact safe_skipRight ih1 ih2
  | mapRes p f _ ih => exact safe_mapRes ih
  | peek p _ ih => exact safe_peek ih
  | logMap p l _ ih => exact ih
  | name p l _ ih => exact safe_name ih
  | expect p l _ ih => exact safe_expect ih
  | lastOffset p _ _ ih => exact safe_lastOffset ih
  | nextOffset p _ _ ih => exact safe_nextOffset ih
  | collect p _ ih => exact safe_collect ih
  | discard p _ ih => exact safe_discard ih
  | end_ => exact safe_end
  | lazy f _ ih => exact ih
  | diverging => exact fun s hs => trivial
  | elmPred f => exact safe_elmPred f
  | elmOfSet f => exact safe_elmOfSet f
  | noneOfSet f => exact safe_noneOfSet f
  | seq lit => exact safe_seqLike _ lit
  | take n => exact safe_take n
  | takeWhile0 f => exact safe_takeWhile0 f
  | takeWhile1 f => exact safe_takeWhile1 f
  | takeWhileNM n m f => exact safe_takeWhileNM n m f
  | takeTill0 f => exact safe_takeTill0 f
  | takeTill1 f => exact safe_takeTill1 f
  | repeat_ p r _ ih => exact safe_repeatSep r ih (by intro q hq; cases hq)
  | repeatSep p r q _ _ ih1 ih2 => exact safe_repeatSep r ih1 (by intro q hq; cases hq; exact ih2)
  | restLeft1 p op x _ _ ih1 ih2 => exact safe_restLeft1 ih1 ih2 x

end OniComb
