import Verif.Spec.JsonTicks
import Verif.Props.JsonSteps
import Verif.Props.LinearTicks

/-!
# C144, by a clock

The number of steps that `Model/JsonSteps` computes is what a clock shows that is advanced by the parsers without parts
while the combinators of `Model/CacheGrammar` run.
-/

namespace OniComb.Json.Ticking
open OniComb OniComb.Json OniComb.Stateful
open OniComb.Peg

section
variable {I A B C : Type}

theorem clocked_skipLeft {m : SParser Nat I A} {c : Counted I A} {m' : SParser Nat I B} {c' : Counted I B}
    (h : Clocked m c) (h' : Clocked m' c') : Clocked (Stateful.skipLeft m m') (.skipLeft c c') := by
  have h1 := clocked_unary (clocked_andThen h h') (fun r => map r Prod.snd) fun _ _ => rfl
  intro s σ r σ'
  refine (h1 s σ r σ').trans ?_
  have : (Counted.unary (fun r => map r Prod.snd) (.andThen c c')).run s = (Counted.skipLeft c c').run s := by
    simp only [Counted.unary, Counted.andThen, Counted.skipLeft, map, andThen, skipLeft]
    cases c.run s with
    | success v n =>
      dsimp only
      cases c'.run (s.advanceBy n) <;> rfl
    | _ => rfl
  rw [this]
  rfl

theorem clocked_surround {m : SParser Nat I A} {c : Counted I A} {m' : SParser Nat I B} {c' : Counted I B}
    {m'' : SParser Nat I C} {c'' : Counted I C}
    (h : Clocked m c) (h' : Clocked m' c') (h'' : Clocked m'' c'') : Clocked (Stateful.surround m m' m'') (.surround c c' c'') :=
  clocked_skipLeft h (clocked_skipRight h' h'')

theorem bind_bind {S X Y Z : Type} (m : Comp S X) (f : X → Comp S Y) (g : Y → Comp S Z) (σ : S) (z : Z) (σ' : S) :
    Comp.bind (Comp.bind m f) g σ z σ' ↔ Comp.bind m (fun x => Comp.bind (f x) g) σ z σ' :=
  ⟨fun ⟨y, σ2, ⟨x, σ1, h1, h2⟩, h3⟩ => ⟨x, σ1, h1, y, σ2, h2, h3⟩, fun ⟨x, σ1, h1, y, σ2, h2, h3⟩ => ⟨y, σ2, ⟨x, σ1, h1, h2⟩, h3⟩⟩

/-- A separator and its clock, or none. -/
inductive ClockedSep : Option (SParser Nat I B) → Option (Counted I B) → Prop
  | none : ClockedSep none none
  | some {m c} : Clocked m c → ClockedSep (some m) (some c)

theorem item_bind {m : SParser Nat I A} {c : Counted I A} (h : Clocked m c) {X : Type} (k : Turn I A → Comp Nat X)
    (st : LoopState I A) (σ : Nat) (r : X) (σ' : Nat) :
    Comp.bind (Stateful.repItem m st) k σ r σ' ↔ k (OniComb.repItem c.run st) (σ + c.steps st.cur) r σ' := by
  unfold Stateful.repItem
  constructor
  · rintro ⟨t, σ1, h1, h2⟩
    obtain ⟨rfl, rfl⟩ := (clocked_bind h _ _ _ _ _).1 h1
    exact h2
  · exact fun h2 => ⟨_, _, (clocked_bind h _ _ _ _ _).2 ⟨rfl, rfl⟩, h2⟩

theorem clocked_loopSep {m : SParser Nat I A} {c : Counted I A} {sm : Option (SParser Nat I B)} {sc : Option (Counted I B)}
    (h : Clocked m c) (hs : ClockedSep sm sc) (stop : Bound) : ∀ (k : Nat) (st : LoopState I A) (σ : Nat)
    (r : LoopOut A) (σ' : Nat), Stateful.repLoop m sm stop k st σ r σ' ↔
      r = OniComb.repLoop c.run (sc.map Counted.run) stop k st ∧ σ' = σ + Counted.repSteps c sc stop k st
  | 0, st, σ, r, σ' => by simp [Stateful.repLoop, Comp.pure, OniComb.repLoop, Counted.repSteps]
  | k + 1, st, σ, r, σ' => by
    unfold Stateful.repLoop OniComb.repLoop Stateful.repTurn OniComb.repTurn Counted.repSteps
    by_cases hb : boundReached stop st.items.length = true
    · simp only [hb, if_true]
      simp [Comp.bind, Comp.pure]
    · simp only [hb, Bool.false_eq_true, if_false]
      have hitem : ∀ (st : LoopState I A) (σ : Nat), Comp.bind (Stateful.repItem m st) (fun r => match r with
            | .again st' => Stateful.repLoop m sm stop k st'
            | .exit items n => .pure (.exit items n)
            | .panic => .pure .panic
            | .diverge => .pure .diverge) σ r σ' ↔
          r = (match OniComb.repItem c.run st with
            | .again st' => OniComb.repLoop c.run (sc.map Counted.run) stop k st'
            | .exit items n => .exit items n
            | .panic => .panic
            | .diverge => .diverge) ∧ σ' = σ + Counted.itemSteps c (Counted.repSteps c sc stop k) st := by
        intro st σ
        rw [item_bind h, Counted.itemSteps]
        cases hr : c.run st.cur with
        | success v n =>
          simp only [OniComb.repItem, hr, Res.onSuccess]
          rw [clocked_loopSep h hs stop k, Nat.add_assoc]
        | _ => simp [OniComb.repItem, hr, Res.onSuccess, Comp.pure]
      cases hs with
      | none => exact hitem st σ
      | @some ms cs hsep =>
        refine (bind_bind _ _ _ _ _ _).trans ((clocked_bind hsep _ _ _ _ _).trans ?_)
        simp only [Option.map_some]
        cases hq : cs.run st.cur with
        | success v n =>
          simp only [Res.onSuccess]
          rw [← Nat.add_assoc]
          exact hitem _ _
        | _ => simp [Res.onSuccess, Comp.pure, Comp.bind]

theorem clocked_repeatSep {m : SParser Nat I A} {c : Counted I A} {sm : Option (SParser Nat I B)} {sc : Option (Counted I B)}
    (h : Clocked m c) (hs : ClockedSep sm sc) (range : Range) : Clocked (Stateful.repeatSep m range sm) (.repeatSep c range sc) := by
  intro s σ r σ'
  unfold Stateful.repeatSep
  rw [clocked_bind h]
  simp only [Counted.repeatSep, OniComb.repeatSep]
  cases hr : c.run s with
  | success v n =>
    simp only [Res.onSuccess]
    constructor
    · rintro ⟨o, σ1, h1, rfl, rfl⟩
      obtain ⟨rfl, rfl⟩ := (clocked_loopSep h hs _ _ _ _ _ _).1 h1
      exact ⟨rfl, Nat.add_assoc _ _ _⟩
    · rintro ⟨rfl, rfl⟩
      exact ⟨_, _, (clocked_loopSep h hs _ _ _ _ _ _).2 ⟨rfl, rfl⟩, rfl, (Nat.add_assoc _ _ _).symm⟩
  | _ => simp [Comp.pure, Res.onSuccess]

theorem clocked_fixN {F : SParser Nat I A → SParser Nat I A} {G : Counted I A → Counted I A}
    (h : ∀ m c, Clocked m c → Clocked (F m) (G c)) : ∀ n, Clocked (fixN F n) (.fixN G n)
  | 0 => clocked_prim _
  | n + 1 => h _ _ fun s σ r σ' => by
    refine (clocked_bind (clocked_prim unit) _ s σ r σ').trans ((clocked_fixN h n _ _ _ _).trans ?_)
    rw [Nat.add_assoc]
    rfl

theorem clocked_map {m : SParser Nat I A} {c : Counted I A} (h : Clocked m c) (f : A → B) :
    Clocked (Stateful.unary (fun p => map p f) m) (.unary (fun p => map p f) c) := clocked_unary h _ fun _ _ => rfl

end

section
variable {I F : Type} [DecidableEq I] [Element I] (K : Kind I F)

omit [Element I] in
theorem clocked_one (c : Char) : Clocked (one K c) (Counting.one K c) := clocked_prim _

omit [Element I] in
theorem clocked_space : Clocked (space K) (Counting.space K) := clocked_unary (clocked_repeat (clocked_prim _) 0) discard fun _ _ => rfl

theorem clocked_number : Clocked (number K) (Counting.number K) := by
  have hd : Clocked (tick 1 elmDigit : SParser Nat I I) (.prim elmDigit) := clocked_prim _
  refine clocked_unary (clocked_unary (clocked_unary ?_ collect fun _ _ => rfl) (fun p => mapRes p K.str) fun _ _ => rfl)
    (fun p => mapRes p K.f64) fun _ _ => rfl
  exact clocked_andThen (clocked_andThen (clocked_andThen (clocked_opt (clocked_one K '-'))
    (clocked_or (clocked_skipRight (clocked_prim _) (clocked_repeat hd 0)) (clocked_one K '0')))
    (clocked_opt (clocked_andThen (clocked_one K '.') (clocked_repeat hd 1))))
    (clocked_opt (clocked_andThen (clocked_andThen (clocked_prim _) (clocked_opt (clocked_prim _))) (clocked_repeat hd 1)))

theorem clocked_string : Clocked (string K) (Counting.string K) := by
  have hs : Clocked (specialChar K) (Counting.specialChar K) :=
    clocked_or (clocked_or (clocked_or (clocked_or (clocked_or (clocked_or (clocked_or (clocked_one K _) (clocked_one K _)) (clocked_one K _))
      (clocked_map (clocked_one K _) _)) (clocked_map (clocked_one K _) _)) (clocked_map (clocked_one K _) _))
      (clocked_map (clocked_one K _) _)) (clocked_map (clocked_one K _) _)
  have hc : Clocked (charString K) (Counting.charString K) :=
    clocked_unary (clocked_repeat (clocked_or (clocked_prim _) (clocked_skipLeft (clocked_one K _) hs)) 1) _ fun _ _ => rfl
  have hu : Clocked (utf16Char K) (Counting.utf16Char K) :=
    clocked_skipLeft (clocked_seq _) (clocked_unary (clocked_unary (clocked_repeatSep (clocked_prim _) .none _) _ fun _ _ => rfl) _
      fun _ _ => rfl)
  exact clocked_map (clocked_surround (clocked_one K _) (clocked_repeat (clocked_or hc (clocked_map (clocked_repeat hu 1) _)) 0)
    (clocked_one K _)) _

variable {value : SParser Nat I (Value I F)} {value' : Counted I (Value I F)}

theorem clocked_arrayChar (h : Clocked value value') : Clocked (arrayChar K value) (Counting.arrayChar K value') :=
  clocked_surround (clocked_skipRight (clocked_one K _) (clocked_space K))
    (clocked_repeatSep h (.some (clocked_skipRight (clocked_skipLeft (clocked_space K) (clocked_one K _)) (clocked_space K))) _)
    (clocked_skipLeft (clocked_space K) (clocked_one K _))

theorem clocked_arrayByte (h : Clocked value value') : Clocked (arrayByte K value) (Counting.arrayByte K value') :=
  clocked_surround (clocked_andThen (clocked_one K _) (clocked_space K))
    (clocked_repeatSep h (.some (clocked_andThen (clocked_andThen (clocked_space K) (clocked_one K _)) (clocked_space K))) _)
    (clocked_andThen (clocked_space K) (clocked_one K _))

theorem clocked_object (h : Clocked value value') : Clocked (object K value) (Counting.object K value') :=
  clocked_map (clocked_surround (clocked_andThen (clocked_one K _) (clocked_space K))
    (clocked_repeatSep (clocked_andThen (clocked_skipRight (clocked_skipRight (clocked_skipRight (clocked_string K) (clocked_space K))
      (clocked_one K _)) (clocked_space K)) h)
      (.some (clocked_andThen (clocked_andThen (clocked_space K) (clocked_one K _)) (clocked_space K))) _)
    (clocked_andThen (clocked_space K) (clocked_one K _))) _

theorem clocked_json {array : SParser Nat I (Value I F) → SParser Nat I (List (Value I F))}
    {array' : Counted I (Value I F) → Counted I (List (Value I F))} (ha : ∀ m c, Clocked m c → Clocked (array m) (array' c)) (n : Nat) :
    Clocked (jsonOf K array n) (Counting.jsonOf K array' n) :=
  clocked_skipRight (clocked_skipLeft (clocked_space K) (clocked_fixN (fun _ _ h =>
    clocked_skipRight (clocked_or (clocked_or (clocked_or (clocked_or (clocked_or (clocked_or
      (clocked_map (clocked_seq _) _) (clocked_map (clocked_seq _) _)) (clocked_map (clocked_seq _) _))
      (clocked_map (clocked_number K) _)) (clocked_map (clocked_string K) _)) (clocked_map (ha _ _ h) _))
      (clocked_map (clocked_object K h) _)) (clocked_space K)) n)) (clocked_prim _)

end

section
variable {F : Type}

/-- **C144**: the only run of `json` of `json_char.rs` with a clock gives its result, and takes a time proportional to the
length of the text. -/
theorem c144_clock_char (f64 : List Char → Option F) (n : Nat) (t : List Char) (σ : Nat) :
    ∃ σ', σ' ≤ σ + 100 * (t.length + 1) ∧
      ∀ r σ1, jsonChar f64 n ⟨t, 0⟩ σ r σ1 ↔ r = Json.jsonChar f64 n ⟨t, 0⟩ ∧ σ1 = σ' := by
  refine ⟨_, Nat.add_le_add_left (Counting.c144_char f64 n t) σ, fun r σ1 => ?_⟩
  rw [← (Counting.c144_counts f64 (fun _ => none) n).1]
  exact clocked_json _ (fun _ _ => clocked_arrayChar _) n _ _ _ _

/-- **C144**, `json_byte.rs`. -/
theorem c144_clock_byte (f64 : List UInt8 → Option F) (n : Nat) (t : List UInt8) (σ : Nat) :
    ∃ σ', σ' ≤ σ + 100 * (t.length + 1) ∧
      ∀ r σ1, jsonByte f64 n ⟨t, 0⟩ σ r σ1 ↔ r = Json.jsonByte f64 n ⟨t, 0⟩ ∧ σ1 = σ' := by
  refine ⟨_, Nat.add_le_add_left (Counting.c144_byte f64 n t) σ, fun r σ1 => ?_⟩
  rw [← (Counting.c144_counts (fun _ => none) f64 n).2]
  exact clocked_json _ (fun _ _ => clocked_arrayByte _) n _ _ _ _

/-- A deeply nested text that is never closed. -/
example (f64 : List Char → Option Unit) (d : Nat) (σ : Nat) : ∃ r σ1, jsonChar f64 (d + 1) ⟨List.replicate d '[', 0⟩ σ r σ1 ∧
    σ1 ≤ σ + 100 * (d + 1) := by
  obtain ⟨σ', h1, h2⟩ := c144_clock_char f64 (d + 1) (List.replicate d '[') σ
  exact ⟨_, σ', (h2 _ _).2 ⟨rfl, rfl⟩, by simpa using h1⟩

end

end OniComb.Json.Ticking
