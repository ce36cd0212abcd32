import Verif.Model.Repeat
import Verif.Model.Chain
import Verif.Model.Elements

/-!
# Helper lemmas: unrolling further never changes a result

`Below p q`: where `p` returns, `q` returns the same.  All combinators are monotone in this order.
-/

namespace OniComb
variable {I A B C : Type}

/-- Where `p` returns (or panics), `q` does the same. -/
class Below (p q : Parser I A) : Prop where
  out : ∀ s, p s = .diverge ∨ p s = q s

theorem Below.eq {p q : Parser I A} [h : Below p q] {s : State I} (hp : p s ≠ .diverge) : q s = p s :=
  ((h.out s).resolve_left hp).symm

theorem Below.trans {p q r : Parser I A} (h : Below p q) (h' : Below q r) : Below p r := ⟨fun s => by
  rcases h.out s with h1 | h1
  · exact .inl h1
  · rw [h1]; exact h'.out s⟩

instance (priority := low) belowRefl (p : Parser I A) : Below p p := ⟨fun _ => .inr rfl⟩
instance (q : Parser I A) : Below diverging q := ⟨fun _ => .inl rfl⟩

section
variable {p p' : Parser I A} {q q' : Parser I B}

instance [h : Below p p'] (f : A → Bool) : Below (filter p f) (filter p' f) := ⟨fun s => by
  unfold filter; rcases h.out s with h | h <;> rw [h] <;> simp⟩
instance [h : Below p p'] (f : A → Bool) : Below (filterNot p f) (filterNot p' f) := by
  unfold filterNot; infer_instance
instance {f f' : A → Parser I B} [h : Below p p'] [h' : ∀ a, Below (f a) (f' a)] :
    Below (flatMap p f) (flatMap p' f') := ⟨fun s => by
  unfold flatMap
  rcases h.out s with h | h <;> rw [h]
  · simp
  · cases p' s with
    | success v n =>
      dsimp only
      rcases (h' v).out (s.advanceBy n) with h1 | h1 <;> rw [h1]
      · exact .inl rfl
      · exact .inr rfl
    | _ => exact .inr rfl⟩
instance [h : Below p p'] (f : A → B) : Below (map p f) (map p' f) := ⟨fun s => by
  unfold map; rcases h.out s with h | h <;> rw [h] <;> simp⟩
instance [h : Below p p'] : Below (exists_ p) (exists_ p') := ⟨fun s => by
  unfold exists_; rcases h.out s with h | h <;> rw [h] <;> simp⟩
instance [h : Below p p'] : Below (not_ p) (not_ p') := ⟨fun s => by
  unfold not_; rcases h.out s with h | h <;> rw [h] <;> simp⟩
instance {p2 p2' : Parser I A} [h : Below p p'] [h' : Below p2 p2'] : Below (or p p2) (or p' p2') := ⟨fun s => by
  unfold or
  rcases h.out s with h | h <;> rw [h]
  · simp
  · cases p' s with
    | failure e c => cases c with
      | uncommitted => exact h'.out s
      | committed => exact .inr rfl
    | _ => exact .inr rfl⟩
instance [h : Below p p'] [h' : Below q q'] : Below (andThen p q) (andThen p' q') := ⟨fun s => by
  unfold andThen
  rcases h.out s with h | h <;> rw [h]
  · simp
  · cases p' s with
    | success v n => dsimp only; rcases h'.out (s.advanceBy n) with h1 | h1 <;> rw [h1] <;> simp
    | _ => exact .inr rfl⟩
instance [h : Below p p'] [h' : Below q q'] : Below (skipLeft p q) (skipLeft p' q') := ⟨fun s => by
  unfold skipLeft
  rcases h.out s with h | h <;> rw [h]
  · simp
  · cases p' s with
    | success v n => dsimp only; rcases h'.out (s.advanceBy n) with h1 | h1 <;> rw [h1] <;> simp
    | _ => exact .inr rfl⟩
instance [h : Below p p'] [h' : Below q q'] : Below (skipRight p q) (skipRight p' q') := ⟨fun s => by
  unfold skipRight
  rcases h.out s with h | h <;> rw [h]
  · simp
  · cases p' s with
    | success v n => dsimp only; rcases h'.out (s.advanceBy n) with h1 | h1 <;> rw [h1] <;> simp
    | _ => exact .inr rfl⟩
instance {l l' : Parser I C} [Below l l'] [Below p p'] [Below q q'] :
    Below (surround l p q) (surround l' p' q') := by unfold surround; infer_instance
instance [h : Below p p'] : Below (attempt p) (attempt p') := ⟨fun s => by
  unfold attempt; rcases h.out s with h | h <;> rw [h]
  · exact .inl rfl
  · exact .inr rfl⟩
instance [Below p p'] : Below (opt p) (opt p') := by unfold opt; infer_instance
instance [h : Below p p'] (f : A → Option B) : Below (mapRes p f) (mapRes p' f) := ⟨fun s => by
  unfold mapRes; rcases h.out s with h | h <;> rw [h] <;> simp⟩
instance [h : Below p p'] (f : A → Option B) : Below (mapOpt p f) (mapOpt p' f) := by
  unfold mapOpt; infer_instance
instance [h : Below p p'] : Below (peek p) (peek p') := ⟨fun s => by
  unfold peek; rcases h.out s with h | h <;> rw [h] <;> simp⟩
instance [h : Below p p'] (l : String) : Below (logMap p l) (logMap p' l) := ⟨h.out⟩
instance [h : Below p p'] (l : String) : Below (name p l) (name p' l) := ⟨fun s => by
  unfold name; rcases h.out s with h | h <;> rw [h] <;> simp⟩
instance [h : Below p p'] (l : String) : Below (expect p l) (expect p' l) := ⟨fun s => by
  unfold expect; rcases h.out s with h | h <;> rw [h] <;> simp⟩
instance [h : Below p p'] : Below (lastOffset p) (lastOffset p') := ⟨fun s => by
  unfold lastOffset; rcases h.out s with h | h <;> rw [h] <;> simp⟩
instance [h : Below p p'] : Below (nextOffset p) (nextOffset p') := ⟨fun s => by
  unfold nextOffset; rcases h.out s with h | h <;> rw [h] <;> simp⟩
instance [h : Below p p'] : Below (collect p) (collect p') := ⟨fun s => by
  unfold collect; rcases h.out s with h | h <;> rw [h] <;> simp⟩
instance [h : Below p p'] : Below (discard p) (discard p') := ⟨fun s => by
  unfold discard; rcases h.out s with h | h <;> rw [h] <;> simp⟩
instance {f f' : Unit → Parser I A} [h : Below (f ()) (f' ())] : Below (lazy f) (lazy f') := ⟨h.out⟩

/-! ### Repetition -/

theorem below_item [h : Below p p'] (st : LoopState I A) : repItem p st = .diverge ∨ repItem p st = repItem p' st := by
  unfold repItem; rcases h.out st.cur with h | h <;> rw [h] <;> simp

/-- Two optional separators, one below the other. -/
class BelowSep (q q' : Option (Parser I B)) : Prop where
  out : (q = none ∧ q' = none) ∨ ∃ r r', q = some r ∧ q' = some r' ∧ Below r r'

instance : BelowSep (none : Option (Parser I B)) none := ⟨.inl ⟨rfl, rfl⟩⟩
instance [h : Below q q'] : BelowSep (some q) (some q') := ⟨.inr ⟨q, q', rfl, rfl, h⟩⟩

theorem below_turn [Below p p'] {sep sep' : Option (Parser I B)} [h : BelowSep sep sep'] (stop : Bound)
    (st : LoopState I A) : repTurn p sep stop st = .diverge ∨ repTurn p sep stop st = repTurn p' sep' stop st := by
  unfold repTurn
  split
  · exact .inr rfl
  · rcases h.out with ⟨rfl, rfl⟩ | ⟨r, r', rfl, rfl, hr⟩
    · exact below_item st
    · dsimp only
      rcases hr.out st.cur with h1 | h1 <;> rw [h1]
      · exact .inl rfl
      · cases r' st.cur with
        | success v n => exact below_item _
        | _ => exact .inr rfl

theorem below_loop [Below p p'] {sep sep' : Option (Parser I B)} [h : BelowSep sep sep'] (stop : Bound) :
    ∀ (k : Nat) (st : LoopState I A),
      repLoop p sep stop k st = .diverge ∨ repLoop p sep stop k st = repLoop p' sep' stop k st
  | 0, _ => .inl rfl
  | k + 1, st => by
    unfold repLoop
    rcases below_turn (p := p) (p' := p') (sep := sep) (sep' := sep') stop st with h1 | h1 <;> rw [h1]
    · exact .inl rfl
    · cases repTurn p' sep' stop st with
      | again st' => exact below_loop stop k st'
      | _ => exact .inr rfl

instance [hp : Below p p'] {sep sep' : Option (Parser I B)} [h : BelowSep sep sep'] (r : Range) :
    Below (repeatSep p r sep) (repeatSep p' r sep') := ⟨fun s => by
  unfold repeatSep
  rcases hp.out s with h1 | h1 <;> rw [h1]
  · exact .inl rfl
  · cases p' s with
    | success v n =>
      dsimp only
      rcases below_loop (p := p) (p' := p') (sep := sep) (sep' := sep') r.stop (repFuel r.stop s)
        ⟨s.advanceBy n, [v], n⟩ with h2 | h2 <;> rw [h2]
      · exact .inl rfl
      · exact .inr rfl
    | _ => exact .inr rfl⟩
instance [Below p p'] (r : Range) : Below (repeat_ p r) (repeat_ p' r) := by unfold repeat_; infer_instance
instance [Below p p'] : Below (many0 p) (many0 p') := by unfold many0; infer_instance
instance [Below p p'] : Below (many1 p) (many1 p') := by unfold many1; infer_instance
instance [Below p p'] (n : Nat) : Below (count p n) (count p' n) := by unfold count; infer_instance
instance [Below p p'] (n m : Nat) : Below (manyNM p n m) (manyNM p' n m) := by unfold manyNM; infer_instance
instance [Below p p'] [Below q q'] : Below (many0Sep p q) (many0Sep p' q') := by unfold many0Sep; infer_instance
instance [Below p p'] [Below q q'] : Below (many1Sep p q) (many1Sep p' q') := by unfold many1Sep; infer_instance
instance [Below p p'] [Below q q'] (n m : Nat) : Below (manyNMSep p n m q) (manyNMSep p' n m q') := by
  unfold manyNMSep; infer_instance
instance [Below p p'] [Below q q'] (n : Nat) : Below (countSep p n q) (countSep p' n q') := by
  unfold countSep; infer_instance

/-! ### Operator chains -/

theorem below_restLeft1N [hp : Below p p'] {op op' : Parser I (A → A → A)} [ho : Below op op'] :
    ∀ (k : Nat) (x : A), Below (restLeft1N p op k x) (restLeft1N p' op' k x)
  | 0, _ => ⟨fun _ => .inl rfl⟩
  | k + 1, x => by
    unfold restLeft1N
    refine @instBelowOr _ _ _ _ _ _ ⟨fun s => ?_⟩ _
    dsimp only
    rcases ho.out (s.advanceBy 0) with h1 | h1 <;> rw [h1]
    · exact .inl rfl
    · cases op' (s.advanceBy 0) with
      | success f n =>
        dsimp only
        rcases hp.out ((s.advanceBy 0).advanceBy n) with h2 | h2 <;> rw [h2]
        · exact .inl rfl
        · cases p' ((s.advanceBy 0).advanceBy n) with
          | success y m =>
            dsimp only
            rcases (below_restLeft1N (hp := hp) (ho := ho) k (f x y)).out (((s.advanceBy 0).advanceBy n).advanceBy m) with h3 | h3 <;> rw [h3]
            · exact .inl rfl
            · exact .inr rfl
          | _ => exact .inr rfl
      | _ => exact .inr rfl

instance [Below p p'] {op op' : Parser I (A → A → A)} [Below op op'] (x : A) :
    Below (restLeft1 p op x) (restLeft1 p' op' x) :=
  ⟨fun s => (below_restLeft1N (p := p) (p' := p') (op := op) (op' := op') (s.input.length - s.offset + 2) x).out s⟩
instance [Below p p'] {op op' : Parser I (A → A → A)} [Below op op'] :
    Below (chainLeft1 p op) (chainLeft1 p' op') := by unfold chainLeft1; infer_instance
instance [Below p p'] {op op' : Parser I (A → A → A)} [Below op op'] :
    Below (chainRight1 p op) (chainRight1 p' op') := by unfold chainRight1; infer_instance
end

/-! ### Recursive grammars -/

/-- A grammar body that is monotone in the parser it refers to. -/
def Monotone (F : Parser I A → Parser I A) : Prop := ∀ p q, Below p q → Below (F p) (F q)

theorem below_fixN_succ {F : Parser I A → Parser I A} (hF : Monotone F) : ∀ n, Below (fixN F n) (fixN F (n + 1))
  | 0 => ⟨fun _ => .inl rfl⟩
  | n + 1 => hF _ _ ⟨(below_fixN_succ hF n).out⟩

theorem below_fixN {F : Parser I A → Parser I A} (hF : Monotone F) {n m : Nat} (h : n ≤ m) :
    Below (fixN F n) (fixN F m) := by
  induction h with
  | refl => infer_instance
  | step _ ih => exact ih.trans (below_fixN_succ hF _)

end OniComb
