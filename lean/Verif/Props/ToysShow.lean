import Verif.Props.ToysParse

/-!
# C114, C115: what a toys program prints, and running several programs
-/

namespace OniComb.Toys
open OniComb.Calc.Spec (Blank Digits)
open OniComb.Toys.Text

/-! ### C114: the printed text -/

private theorem decimal_digits (n : Nat) : decimal (Nat.toDigits 10 n) = n := by
  have := Nat.ofDigitChars_ten_toDigits (n := n)
  rw [Nat.ofDigitChars_eq_foldl] at this
  unfold decimal
  simpa [Nat.mul_comm] using this

private theorem toDigits_digits (n : Nat) : Digits (Nat.toDigits 10 n) := by
  refine ⟨?_, fun c hc => ?_⟩
  · rw [Nat.toDigits_eq_if (by decide)]
    split <;> simp
  · have := Nat.isDigit_of_mem_toDigits (by decide) (by decide) hc
    simp only [Char.isDigit, Bool.and_eq_true, decide_eq_true_eq] at this
    exact this

/-- An integer is printed as a literal with its value: the printed text is read as that integer. -/
theorem c114_int (i : Int) (h : Fits i) : IntText i (Value.int i).show := by
  unfold Value.show showInt
  split
  · rename_i hi
    have e : i = -(decimal (Nat.toDigits 10 i.natAbs) : Int) := by rw [decimal_digits]; omega
    have := IntText.neg (toDigits_digits i.natAbs) (by rw [← e]; exact h)
    rw [← e] at this
    exact this
  · rename_i hi
    have e : i = (decimal (Nat.toDigits 10 i.natAbs) : Int) := by rw [decimal_digits]; omega
    have := IntText.pos (toDigits_digits i.natAbs) (by rw [← e]; exact h)
    rw [← e] at this
    exact this

/-- Integers are printed without leading zeros. -/
theorem c114_no_leading_zero (i : Int) (h : (Value.int i).show.head? = some '0') : i = 0 := by
  have key : ∀ n : Nat, (Nat.toDigits 10 n).head? = some '0' → n = 0 := by
    intro n
    induction n using Nat.strongRecOn with
    | _ n ih =>
      rw [Nat.toDigits_eq_if (by decide)]
      split
      · rename_i hn
        intro h
        simp only [List.head?_cons, Option.some.injEq] at h
        have : ∀ m < 10, Nat.digitChar m = '0' → m = 0 := by decide
        exact this n hn h
      · rename_i hn
        intro h
        have hne := (toDigits_digits (n / 10)).1
        rw [List.head?_append, Option.or_of_isSome (by simp [hne])] at h
        have := ih (n / 10) (by omega) h
        omega
  unfold Value.show showInt at h
  split at h
  · cases h
  · have := key _ h; omega

/-- Values without texts in them. -/
inductive NoText : Value → Prop where
  | int (i : Int) : NoText (.int i)
  | bool (b : Bool) : NoText (.bool b)
  | array (vs : List Value) : (∀ v ∈ vs, NoText v) → NoText (.array vs)

/-- A text is printed as it is, so that it cannot be told from any other value that is printed in the same way. -/
theorem c114_text_violated (v : Value) (h : NoText v) : ∃ w, w ≠ v ∧ w.show = v.show := by
  refine ⟨.string (String.ofList v.show), ?_, by rw [Value.show]; simp⟩
  intro e
  rw [← e] at h
  cases h

/-- Nor can arrays of texts. -/
theorem c114_array_violated (s t : String) : Value.show (.array [.string s, .string t]) =
    Value.show (.array [.string (s ++ "," ++ t)]) := by
  simp [Value.show, showAll]

/-- What may stand behind a printed value inside an array, or nothing. -/
private def Stop (r : List Char) : Prop := r = [] ∨ (∃ r', r = ',' :: r') ∨ ∃ r', r = ']' :: r'

private theorem digits_split : ∀ {a b r q : List Char}, (∀ c ∈ a, '0' ≤ c ∧ c ≤ '9') → (∀ c ∈ b, '0' ≤ c ∧ c ≤ '9') →
    Stop r → Stop q → a ++ r = b ++ q → a = b ∧ r = q
  | [], [], _, _, _, _, _, _, h => ⟨rfl, h⟩
  | [], d :: b, r, q, _, hb, hr, _, h => by
    have hd := hb d (by simp)
    rcases hr with rfl | ⟨r', rfl⟩ | ⟨r', rfl⟩ <;> simp only [List.nil_append, List.cons_append] at h
    · cases h
    · rw [← (List.cons.inj h).1] at hd; exact absurd hd (by decide)
    · rw [← (List.cons.inj h).1] at hd; exact absurd hd (by decide)
  | c :: a, [], r, q, ha, _, _, hq, h => by
    have hd := ha c (by simp)
    rcases hq with rfl | ⟨r', rfl⟩ | ⟨r', rfl⟩ <;> simp only [List.nil_append, List.cons_append] at h
    · cases h
    · rw [(List.cons.inj h).1] at hd; exact absurd hd (by decide)
    · rw [(List.cons.inj h).1] at hd; exact absurd hd (by decide)
  | c :: a, d :: b, r, q, ha, hb, hr, hq, h => by
    simp only [List.cons_append, List.cons.injEq] at h
    obtain ⟨rfl, h2⟩ := digits_split (fun c hc => ha c (List.mem_cons_of_mem _ hc))
      (fun c hc => hb c (List.mem_cons_of_mem _ hc)) hr hq h.2
    exact ⟨by rw [h.1], h2⟩

private theorem int_split {i j : Int} {r q : List Char} (hr : Stop r) (hq : Stop q)
    (h : showInt i ++ r = showInt j ++ q) : i = j ∧ r = q := by
  have d := fun n => (toDigits_digits n).2
  have inj : ∀ n m : Nat, Nat.toDigits 10 n = Nat.toDigits 10 m → n = m := fun n m h => by
    rw [← decimal_digits n, h, decimal_digits]
  have noMinus : ∀ (n : Nat) (x y : List Char), '-' :: x ≠ Nat.toDigits 10 n ++ y := by
    intro n x y h
    have h0 := (toDigits_digits n).1
    cases hn : Nat.toDigits 10 n with
    | nil => exact h0 hn
    | cons c cs =>
      rw [hn] at h
      have := d n c (by rw [hn]; simp)
      rw [← (List.cons.inj h).1] at this
      exact absurd this (by decide)
  unfold showInt at h
  split at h <;> split at h
  · simp only [List.cons_append, List.cons.injEq, true_and] at h
    obtain ⟨h1, h2⟩ := digits_split (d _) (d _) hr hq h
    have := inj _ _ h1
    exact ⟨by omega, h2⟩
  · exact absurd h (noMinus _ _ _)
  · exact absurd h.symm (noMinus _ _ _)
  · obtain ⟨h1, h2⟩ := digits_split (d _) (d _) hr hq h
    have := inj _ _ h1
    exact ⟨by omega, h2⟩

/-- The first character of a printed value. -/
private theorem show_head {v : Value} (h : NoText v) : ∃ c r, v.show = c :: r ∧
    ((∃ i, v = .int i) ∧ (c = '-' ∨ '0' ≤ c ∧ c ≤ '9') ∨ v = .bool true ∧ c = 't' ∨ v = .bool false ∧ c = 'f' ∨
      (∃ vs, v = .array vs) ∧ c = '[') := by
  cases h with
  | int i =>
    unfold Value.show showInt
    split
    · exact ⟨_, _, rfl, .inl ⟨⟨i, rfl⟩, .inl rfl⟩⟩
    · have h0 := toDigits_digits i.natAbs
      cases hn : Nat.toDigits 10 i.natAbs with
      | nil => exact absurd hn h0.1
      | cons c cs => exact ⟨c, cs, rfl, .inl ⟨⟨i, rfl⟩, .inr (h0.2 c (by rw [hn]; simp))⟩⟩
  | bool b =>
    cases b
    · exact ⟨'f', "alse".toList, by simp [Value.show], .inr (.inr (.inl ⟨rfl, rfl⟩))⟩
    · exact ⟨'t', "rue".toList, by simp [Value.show], .inr (.inl ⟨rfl, rfl⟩)⟩
  | array vs => exact ⟨'[', _, by rw [Value.show], .inr (.inr (.inr ⟨⟨vs, rfl⟩, rfl⟩))⟩

private theorem showAll_cons (v : Value) (vs : List Value) : ∃ r, ∀ q, showAll (v :: vs) ++ ']' :: q = v.show ++ (r ++ ']' :: q) ∧
    Stop (r ++ ']' :: q) ∧ (r = [] ∧ vs = [] ∨ vs ≠ [] ∧ r = ',' :: showAll vs) := by
  cases vs with
  | nil => exact ⟨[], fun q => ⟨by simp [showAll], .inr (.inr ⟨q, rfl⟩), .inl ⟨rfl, rfl⟩⟩⟩
  | cons w vs =>
    exact ⟨',' :: showAll (w :: vs), fun q => ⟨by rw [showAll] <;> simp, .inr (.inl ⟨_, rfl⟩), .inr ⟨by simp, rfl⟩⟩⟩

mutual
private theorem value_split : ∀ (v : Value) {w : Value} {r q : List Char}, NoText v → NoText w → Stop r → Stop q →
    v.show ++ r = w.show ++ q → v = w ∧ r = q
  | .int i, w, r, q, hv, hw, hr, hq, h => by
    obtain ⟨c, x, e1, h1⟩ := show_head hv
    obtain ⟨d, y, e2, h2⟩ := show_head hw
    have hc : c = d := by rw [e1, e2] at h; exact (List.cons.inj h).1
    subst hc
    have h1' : c = '-' ∨ '0' ≤ c ∧ c ≤ '9' := by
      rcases h1 with ⟨-, h⟩ | ⟨h, -⟩ | ⟨h, -⟩ | ⟨⟨_, h⟩, -⟩
      · exact h
      all_goals cases h
    rcases h2 with ⟨⟨j, rfl⟩, -⟩ | ⟨-, rfl⟩ | ⟨-, rfl⟩ | ⟨-, rfl⟩
    · rw [Value.show, Value.show] at h
      obtain ⟨rfl, h'⟩ := int_split hr hq h
      exact ⟨rfl, h'⟩
    all_goals exact absurd h1' (by decide)
  | .bool b, w, r, q, hv, hw, hr, hq, h => by
    obtain ⟨d, y, e2, h2⟩ := show_head hw
    rw [Value.show] at h
    cases b <;> simp only [Bool.false_eq_true, if_false, if_true] at h <;> rw [e2] at h <;>
      have hc := (List.cons.inj h).1
    · subst hc
      rcases h2 with ⟨-, h⟩ | ⟨-, h⟩ | ⟨rfl, -⟩ | ⟨-, h⟩
      · exact absurd h (by decide)
      · exact absurd h (by decide)
      · rw [Value.show] at e2
        simp only [Bool.false_eq_true, if_false] at e2
        rw [← e2] at h
        exact ⟨rfl, List.append_cancel_left h⟩
      · exact absurd h (by decide)
    · subst hc
      rcases h2 with ⟨-, h⟩ | ⟨rfl, -⟩ | ⟨-, h⟩ | ⟨-, h⟩
      · exact absurd h (by decide)
      · rw [Value.show] at e2
        simp only [if_true] at e2
        rw [← e2] at h
        exact ⟨rfl, List.append_cancel_left h⟩
      · exact absurd h (by decide)
      · exact absurd h (by decide)
  | .string s, w, r, q, hv, _, _, _, _ => by cases hv
  | .array vs, w, r, q, hv, hw, hr, hq, h => by
    obtain ⟨d, y, e2, h2⟩ := show_head hw
    rw [Value.show] at h
    have hc : '[' = d := by rw [e2] at h; exact (List.cons.inj h).1
    subst hc
    rcases h2 with ⟨-, h2⟩ | ⟨-, h2⟩ | ⟨-, h2⟩ | ⟨⟨ws, rfl⟩, -⟩
    · exact absurd h2 (by decide)
    · exact absurd h2 (by decide)
    · exact absurd h2 (by decide)
    · rw [Value.show] at h
      simp only [List.cons_append, List.append_assoc, List.nil_append, List.cons.injEq, true_and] at h
      cases hv with | array _ hv => cases hw with | array _ hw =>
        obtain ⟨rfl, h'⟩ := all_split vs hv hw h
        exact ⟨rfl, h'⟩

private theorem all_split : ∀ (vs : List Value) {ws : List Value} {r q : List Char}, (∀ v ∈ vs, NoText v) →
    (∀ w ∈ ws, NoText w) → showAll vs ++ ']' :: r = showAll ws ++ ']' :: q → vs = ws ∧ r = q
  | [], [], r, q, _, _, h => ⟨rfl, by simpa [showAll] using h⟩
  | [], w :: ws, r, q, _, hw, h => by
    obtain ⟨x, hx⟩ := showAll_cons w ws
    obtain ⟨c, y, e, h1⟩ := show_head (hw w (by simp))
    rw [(hx q).1, e, showAll] at h
    have hc : ']' = c := (List.cons.inj h).1
    subst hc
    rcases h1 with ⟨-, h⟩ | ⟨-, h⟩ | ⟨-, h⟩ | ⟨-, h⟩ <;> exact absurd h (by decide)
  | v :: vs, [], r, q, hv, _, h => by
    obtain ⟨x, hx⟩ := showAll_cons v vs
    obtain ⟨c, y, e, h1⟩ := show_head (hv v (by simp))
    rw [(hx r).1, e, showAll] at h
    have hc : c = ']' := (List.cons.inj h).1
    subst hc
    rcases h1 with ⟨-, h⟩ | ⟨-, h⟩ | ⟨-, h⟩ | ⟨-, h⟩ <;> exact absurd h (by decide)
  | v :: vs, w :: ws, r, q, hv, hw, h => by
    obtain ⟨x, hx⟩ := showAll_cons v vs
    obtain ⟨y, hy⟩ := showAll_cons w ws
    rw [(hx r).1, (hy q).1] at h
    obtain ⟨rfl, h2⟩ := value_split v (hv v (by simp)) (hw w (by simp)) (hx r).2.1 (hy q).2.1 h
    have hv' : ∀ v ∈ vs, NoText v := fun v h => hv v (List.mem_cons_of_mem _ h)
    have hw' : ∀ w ∈ ws, NoText w := fun w h => hw w (List.mem_cons_of_mem _ h)
    rcases (hx r).2.2 with ⟨rfl, rfl⟩ | ⟨hvs, rfl⟩ <;> rcases (hy q).2.2 with ⟨rfl, rfl⟩ | ⟨hws, rfl⟩
    · exact ⟨rfl, (List.cons.inj h2).2⟩
    · exact absurd (List.cons.inj h2).1 (by decide)
    · exact absurd (List.cons.inj h2).1 (by decide)
    · simp only [List.cons_append, List.cons.injEq, true_and] at h2
      obtain ⟨rfl, h3⟩ := all_split vs hv' hw' h2
      exact ⟨rfl, h3⟩
end

/-- Values without texts are told apart by what is printed.  (The full property, for all values, does not hold:
`c114_text_violated`.) -/
theorem c114_injective_partial (v w : Value) (hv : NoText v) (hw : NoText w) (h : v.show = w.show) : v = w :=
  (value_split v hv hw (.inl rfl) (.inl rfl) (by rw [h])).1

/-- Each value that is printed has its own line; a run of values whose texts have no line breaks can be recovered line
by line. -/
theorem c114_lines (s s' : St) (h : ∀ v ∈ s.out, '\n' ∉ v.show) (h' : ∀ v ∈ s'.out, '\n' ∉ v.show) :
    s.printed = s'.printed ↔ s.out.map Value.show = s'.out.map Value.show := by
  have key : ∀ (vs ws : List (List Char)), (∀ v ∈ vs, '\n' ∉ v) → (∀ w ∈ ws, '\n' ∉ w) →
      (vs.map (· ++ ['\n'])).flatten = (ws.map (· ++ ['\n'])).flatten → vs = ws := by
    have split : ∀ (a b x y : List Char), '\n' ∉ a → '\n' ∉ b → a ++ '\n' :: x = b ++ '\n' :: y → a = b ∧ x = y := by
      intro a
      induction a with
      | nil =>
        intro b x y _ hb h
        cases b with
        | nil => exact ⟨rfl, (List.cons.inj h).2⟩
        | cons c b => exact absurd (by rw [← (List.cons.inj h).1]; simp) hb
      | cons c a ih =>
        intro b x y ha hb h
        cases b with
        | nil => exact absurd (by rw [(List.cons.inj h).1]; simp) ha
        | cons d b =>
          simp only [List.cons_append, List.cons.injEq] at h
          obtain ⟨rfl, h2⟩ := ih b x y (fun hc => ha (List.mem_cons_of_mem _ hc)) (fun hc => hb (List.mem_cons_of_mem _ hc)) h.2
          exact ⟨by rw [h.1], h2⟩
    intro vs
    induction vs with
    | nil =>
      intro ws _ _ h
      cases ws with
      | nil => rfl
      | cons w ws => simp at h
    | cons v vs ih =>
      intro ws hv hw h
      cases ws with
      | nil => simp at h
      | cons w ws =>
        simp only [List.map_cons, List.flatten_cons, List.append_assoc, List.cons_append, List.nil_append] at h
        obtain ⟨rfl, h2⟩ := split v w _ _ (hv v (by simp)) (hw w (by simp)) h
        rw [ih ws (fun v h => hv v (List.mem_cons_of_mem _ h)) (fun v h => hw v (List.mem_cons_of_mem _ h)) h2]
  have e : ∀ s : St, s.printed = ((s.out.map Value.show).map (· ++ ['\n'])).flatten := by
    intro s; unfold St.printed; rw [List.map_map]; rfl
  rw [e, e]
  refine ⟨key _ _ ?_ ?_, fun h => by rw [h]⟩
  · intro x hx; obtain ⟨v, hv, rfl⟩ := List.mem_map.1 hx; exact h v hv
  · intro x hx; obtain ⟨v, hv, rfl⟩ := List.mem_map.1 hx; exact h' v hv

example : NoText (.array [.int (-3), .bool true, .array []]) ∧
    Value.show (.array [.int (-3), .bool true, .array []]) = "[-3,true,[]]".toList :=
  ⟨.array _ (by
    intro v hv
    simp only [List.mem_cons, List.not_mem_nil, or_false] at hv
    rcases hv with rfl | rfl | rfl
    · exact .int _
    · exact .bool _
    · exact .array _ (by simp)), by decide +kernel⟩

/-! ### C115: running several programs -/

/-- The outcome when `o` has been printed before. -/
def Out.after {A : Type} (o : List Value) : Out A → Out A
  | .ok a st => .ok a { st with out := o ++ st.out }
  | .panic => .panic
  | .diverge => .diverge

private abbrev St.after (o : List Value) (st : St) : St := { st with out := o ++ st.out }

private theorem bind_after {A B : Type} {o : List Value} {x : Out A} {f g : A → St → Out B}
    (h : ∀ a st, f a (St.after o st) = (g a st).after o) : (x.after o).bind f = (x.bind g).after o := by
  cases x with
  | ok a st => exact h a st
  | panic => rfl
  | diverge => rfl

private theorem evalAll_after {o : List Value} {ev : Expr → St → Out Value}
    (h : ∀ e st, ev e (St.after o st) = (ev e st).after o) : ∀ es st,
    evalAll ev es (St.after o st) = (evalAll ev es st).after o
  | [], _ => rfl
  | e :: es, st => by
    rw [evalAll, evalAll, h]
    refine bind_after fun v st => ?_
    rw [evalAll_after h es st]
    exact bind_after fun vs st => rfl

private theorem interpret_after (cfg : Cfg) (o : List Value) : ∀ (n : Nat) (e : Expr) (st : St),
    interpret cfg n e (St.after o st) = (interpret cfg n e st).after o
  | 0, _, _ => rfl
  | n + 1, e, st => by
    have ih := interpret_after cfg o n
    have ihs := evalAll_after ih
    unfold interpret
    cases e <;> dsimp only
    case binary op l r =>
      rw [ih]
      refine bind_after fun v st => ?_
      rw [ih]
      refine bind_after fun w st => ?_
      cases applyOp cfg op v w <;> rfl
    case symbol name =>
      cases st.env.findBinding name with
      | none => rfl
      | some m => dsimp only; cases m name <;> rfl
    case functionCall name args =>
      cases cfg.fns name with
      | none => rfl
      | some pb =>
        dsimp only
        rw [ihs]
        refine bind_after fun vs st => ?_
        cases bindParams pb.1 0 vs Map.empty with
        | none => rfl
        | some b =>
          dsimp only
          have := ih pb.2 { st with env := ⟨b, st.env.bindings :: st.env.next⟩ }
          dsimp only [St.after] at this
          rw [this]
          exact bind_after fun v st => rfl
    case labelledCall name args =>
      cases cfg.fns name with
      | none => rfl
      | some pb =>
        dsimp only
        rw [ihs]
        refine bind_after fun vs st => ?_
        have := ih pb.2 { st with env := ⟨Map.empty, st.env.bindings :: st.env.next⟩ }
        dsimp only [St.after] at this
        rw [this]
        exact bind_after fun v st => rfl
    case println e =>
      rw [ih]
      exact bind_after fun v st => by simp [Out.after]
    case «while» c b =>
      rw [ih]
      refine bind_after fun v st => ?_
      cases v.asBool with
      | none => rfl
      | some x =>
        cases x
        · rfl
        · dsimp only
          rw [ih]
          exact bind_after fun w st => ih _ _
    case «if» c b eb =>
      rw [ih]
      refine bind_after fun v st => ?_
      cases v.asBool with
      | none => rfl
      | some x =>
        cases x
        · cases eb with
          | none => rfl
          | some e => exact ih _ _
        · exact ih _ _
    case block es =>
      rw [ihs]
      refine bind_after fun vs st => ?_
      cases vs.getLast? <;> rfl
    case assignment name e =>
      cases st.env.findBinding name with
      | none => dsimp only; rw [ih]; exact bind_after fun v st => rfl
      | some m =>
        dsimp only
        rw [ih]
        refine bind_after fun v st => ?_
        cases st.env.bindings name <;> simp [Out.after]
    case parenthesized e => exact ih e st
    all_goals rfl

private theorem define_after (o : List Value) (fuel : Nat) : ∀ (ds : List Expr) (cfg : Cfg) (st : St),
    define fuel ds cfg (St.after o st) = (define fuel ds cfg st).after o
  | [], _, _ => rfl
  | d :: ds, cfg, st => by
    cases d <;> try rfl
    case globalVariableDefinition x e =>
      rw [define, define, interpret_after]
      exact bind_after fun v st => define_after o fuel ds cfg st
    case functionDefinition f ps b =>
      rw [define, define]
      exact define_after o fuel ds _ st

/-- What has been printed before does not influence a run. -/
theorem c115_output (fuel : Nat) (cfg : Cfg) (env : Env) (o : List Value) (p : Expr) :
    callMain fuel cfg ⟨env, o⟩ p = (callMain fuel cfg ⟨env, []⟩ p).after o := by
  have e : (⟨env, o⟩ : St) = St.after o ⟨env, []⟩ := by simp
  rw [e]
  cases p <;> try rfl
  case program ds =>
    rw [callMain, callMain, define_after]
    refine bind_after fun cfg st => ?_
    cases cfg.fns "main" with
    | none => rfl
    | some pb => exact interpret_after cfg o fuel pb.2 st

/-- After `reset` a program runs as on a new interpreter, whatever ran before: the same value is returned, the same
values are printed, the same variables remain, and the same programs panic or run forever. -/
theorem c115_reset (fuel : Nat) (cfg : Cfg) (st : St) (p : Expr) :
    callMain fuel cfg.reset st.reset p = (callMain fuel (Cfg.new cfg.overflowChecks) St.new p).after st.out :=
  c115_output fuel _ _ _ p

/-- `call_main` with and without the functions that it leaves behind. -/
theorem c115_keep (fuel : Nat) (cfg : Cfg) (st : St) (p : Expr) :
    (callMainKeep fuel cfg st p).bind (fun r st => .ok r.1 st) = callMain fuel cfg st p := by
  cases p <;> try rfl
  case program ds =>
    rw [callMain, callMainKeep]
    cases define fuel ds cfg st with
    | panic => rfl
    | diverge => rfl
    | ok cfg st =>
      dsimp only [Out.bind]
      cases cfg.fns "main" with
      | none => rfl
      | some pb => dsimp only; cases interpret cfg fuel pb.2 st <;> rfl

/-- Without `reset` a variable that one program assigns in `main` is known to the next one, and so are the functions of
the first program: `fn main() { x = i; }` makes `fn main() { println(x); }` print `i`, where a new interpreter
panics. -/
theorem c115_without_reset (checks : Bool) (i : Int) : ∃ cfg st v st',
    callMainKeep 5 (Cfg.new checks) St.new (.program [.functionDefinition "main" []
      (.block [.assignment "x" (.integerLiteral i)])]) = .ok (v, cfg) st ∧
    callMain 5 cfg st (.program [.functionDefinition "main" [] (.block [.println (.symbol "x")])]) = .ok (.int i) st' ∧
    st'.out = [.int i] ∧ ∀ fuel, 3 ≤ fuel → ∀ st, callMain fuel cfg.reset (St.reset st)
      (.program [.functionDefinition "main" [] (.block [.println (.symbol "x")])]) = .panic := by
  refine ⟨_, _, _, _, rfl, rfl, rfl, fun fuel hf st => ?_⟩
  obtain ⟨n, rfl⟩ : ∃ n, fuel = n + 3 := ⟨fuel - 3, by omega⟩
  rfl

/-- Functions stay until they are defined again or the interpreter is reset. -/
theorem c115_functions (fuel : Nat) (cfg cfg' : Cfg) (st st' : St) (ds : List Expr) (v : Value) (f : Name)
    (h : callMainKeep fuel cfg st (.program ds) = .ok (v, cfg') st')
    (hf : ∀ ps b, Expr.functionDefinition f ps b ∉ ds) : cfg'.fns f = cfg.fns f := by
  have key : ∀ (ds : List Expr) (cfg cfg' : Cfg) (st st' : St), (∀ ps b, Expr.functionDefinition f ps b ∉ ds) →
      define fuel ds cfg st = .ok cfg' st' → cfg'.fns f = cfg.fns f := by
    intro ds
    induction ds with
    | nil => intro cfg cfg' st st' _ h; cases h; rfl
    | cons d ds ih =>
      intro cfg cfg' st st' hf h
      have hf' : ∀ ps b, Expr.functionDefinition f ps b ∉ ds := fun ps b hm => hf ps b (List.mem_cons_of_mem _ hm)
      cases d <;> try (simp [define] at h; done)
      case globalVariableDefinition x e =>
        rw [define] at h
        obtain ⟨w, st1, -, h2⟩ := bind_ok h
        exact ih _ _ _ _ hf' h2
      case functionDefinition g ps b =>
        rw [define] at h
        have := ih _ _ _ _ hf' h
        rw [this]
        have hg : f ≠ g := by rintro rfl; exact hf ps b (by simp)
        simp [Map.insert, hg]
  rw [callMainKeep] at h
  obtain ⟨cfg1, st1, h1, h2⟩ := bind_ok h
  cases hm : cfg1.fns "main" with
  | none => simp [hm] at h2
  | some pb =>
    simp only [hm] at h2
    obtain ⟨w, st2, -, h4⟩ := bind_ok h2
    simp only [Out.ok.injEq, Prod.mk.injEq] at h4
    obtain ⟨⟨-, rfl⟩, -⟩ := h4
    exact key ds cfg cfg1 st st1 hf h1

example : ∀ ps b, Expr.functionDefinition "g" ps b ∉ [Expr.functionDefinition "main" [] (.block [.integerLiteral 1])] := by
  intro ps b h
  simp at h

end OniComb.Toys
