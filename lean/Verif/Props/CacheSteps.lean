import Verif.Spec.CacheSteps
import Verif.Lemmas.CacheTicks

/-!
# C148: caches never cost parser runs

Every grammar with any number of cached parsers in it, also shared ones and cached parsers with cached parsers inside, asked behind the
first element of the text: whatever the addresses are, the results are those without caches, and not more steps are taken.
-/

namespace OniComb.Stateful.Ticking
open OniComb
variable {I A B : Type}

theorem storeOk_empty (t : List I) : ∀ Γ : List (Cell I), StoreOk t Γ (emptyStore Γ)
  | [] => trivial
  | _ :: Γ => ⟨cellOk_nil _ _, storeOk_empty t Γ⟩

theorem timed_within {Γ : List (Cell I)} {sp : SParser (Nat × Store Γ) I A} {c : Counted I A} (h : Timed Γ sp c) :
    Within Late (fun t => StoreOk t Γ) sp c := by
  induction h with
  | prim p => exact within_tick p
  | seq w => exact within_ticks _ _
  | unary hC _ ih => exact within_unary hC ih
  | or _ _ ih ih' => exact within_or ih ih'
  | andThen _ _ ih ih' => exact within_andThen ih (Onward.leads _) ih'
  | skipLeft _ _ ih ih' => exact within_skipLeft ih (Onward.leads _) ih'
  | skipRight _ _ ih ih' => exact within_skipRight ih (Onward.leads _) ih'
  | flatMap _ _ ih ih' => exact within_flatMap ih (Onward.leads _) ih'
  | repeat_ range _ ih => exact within_repeatSep ih (.none rfl (Onward.leads _)) range
  | repeatSep range _ _ ih ih' => exact within_repeatSep ih (.some ih' (Onward.leads _) (Onward.leads _)) range
  | restLeft1 x _ _ ih ih' => exact within_restLeft1 ih ih' (Onward.leads _) (Onward.leads _) x
  | cache h1 _ ih => exact within_cache (fun o => decide (1 ≤ o)) (.inl rfl) (fun s hs => by simpa using hs) h1 ih
  | lift d _ ih => exact within_right (Inv' := fun t m => CellOk t d m) ih
  | fresh _ ih => exact within_fresh ih

/-- **C148**: a grammar with new caches, asked behind the first element. -/
theorem c148_cost {Γ : List (Cell I)} {sp : SParser (Nat × Store Γ) I A} {c : Counted I A} (h : Timed Γ sp c) (s : State I)
    (hs : 1 ≤ s.offset) (k : Nat) : (∃ σ, sp s (k, emptyStore Γ) (c.run s) (k + c.steps s, σ)) ∧
    ∀ r k' σ, sp s (k, emptyStore Γ) r (k', σ) → r = c.run s ∧ k' ≤ k + c.steps s := by
  obtain ⟨h1, h2⟩ := timed_within h s hs k _ (storeOk_empty _ Γ)
  exact ⟨h1, fun r k' σ h3 => ⟨(h2 r k' σ h3).1, (h2 r k' σ h3).2.2⟩⟩

/-- **C148**: a whole text whose first element is read by a parser without caches. -/
theorem c148_text {Γ : List (Cell I)} {sp : SParser (Nat × Store Γ) I A} {c : Counted I A} (h : Timed Γ sp c) {p : Parser I B}
    (hp : ∀ s v n, p s = .success v n → 1 ≤ n) (t : List I) (k : Nat) :
    (∃ σ, Stateful.andThen (tick 1 p) sp ⟨t, 0⟩ (k, emptyStore Γ) (OniComb.andThen p c.run ⟨t, 0⟩)
      (k + (Counted.andThen (.prim p) c).steps ⟨t, 0⟩, σ)) ∧
    ∀ r k' σ, Stateful.andThen (tick 1 p) sp ⟨t, 0⟩ (k, emptyStore Γ) r (k', σ) →
      r = OniComb.andThen p c.run ⟨t, 0⟩ ∧ k' ≤ k + (Counted.andThen (.prim p) c).steps ⟨t, 0⟩ := by
  obtain ⟨h1, h2⟩ := within_andThen (P := fun _ => True) (within_tick p) (leads_late hp) (timed_within h) ⟨t, 0⟩ trivial k _
    (storeOk_empty t Γ)
  exact ⟨h1, fun r k' σ h3 => ⟨(h2 r k' σ h3).1, (h2 r k' σ h3).2.2⟩⟩

/-- **C148**: what is asked again in the same place may be found: with the state at the same address, it takes one step. -/
theorem c148_found {Γ : List (Cell I)} {sp : SParser (Nat × Store Γ) I A} {c : Counted I A} (h : Timed Γ sp c) (s : State I)
    (hs : 1 ≤ s.offset) (k : Nat) (hr : c.run s ≠ .panic) (hd : c.run s ≠ .diverge) : ∃ σ k', cache sp s (k, [], emptyStore Γ) (c.run s) (k', σ) ∧
    k' = k + c.steps s ∧ ∀ j, cache sp s (j, σ) (c.run s) (j + 1, σ) := by
  obtain ⟨⟨σ1, h1⟩, -⟩ := c148_cost h s hs k
  refine ⟨(((0, s.lastOffset), c.run s) :: [], σ1), _, ⟨0, _, σ1, h1, ?_⟩, rfl, fun j => ⟨0, ?_⟩⟩
  · revert hr hd
    cases c.run s <;> intro hr hd
    · rfl
    · rfl
    · exact absurd rfl hr
    · exact absurd rfl hd
  · simp [CacheMap.find]

/-- One cached parser for three digits, asked by both alternatives. -/
private def three : SParser (Nat × CacheMap Char (List Char) × Unit) Char (List Char) :=
  cache (Stateful.repeatSep (tick 1 elmDigit) (.closed 3 3) (none : Option (SParser _ _ Unit)))

private def ex : SParser (Nat × Unit) Char (List Char) :=
  fresh (Stateful.or (Stateful.unary attempt (Stateful.skipRight three (tick 1 (elm 'a')))) (Stateful.skipRight three (tick 1 (elm 'b'))))

private def exC : Counted Char (List Char) :=
  .or (.unary attempt (.skipRight (.count (.prim elmDigit) 3) (.prim (elm 'a')))) (.skipRight (.count (.prim elmDigit) 3) (.prim (elm 'b')))

private theorem ex_timed : Timed [] ex exC := by
  have h : Timed (cell (Counted.count (.prim elmDigit) 3).run :: []) three (.count (.prim (elmDigit : Parser Char Char)) 3) :=
    .cache (fun _ => Nat.le_add_right _ _) (.repeat_ _ (.prim _))
  exact .fresh (.or (.unary unary_attempt (.skipRight h (.prim _))) (.skipRight h (.prim _)))

/-- `x123b`: without caches the digits are read twice. -/
example : ∀ r k' σ, ex ⟨"x123b".toList, 1⟩ (0, ()) r (k', σ) → r = .success ['1', '2', '3'] 4 ∧ k' ≤ 8 := by
  intro r k' σ h
  have h1 := (c148_cost ex_timed ⟨"x123b".toList, 1⟩ (by decide) 0).2 r k' σ h
  have h2 : exC.run ⟨"x123b".toList, 1⟩ = .success ['1', '2', '3'] 4 := by decide +kernel
  have h3 : exC.steps ⟨"x123b".toList, 1⟩ = 8 := by decide +kernel
  rw [h2, h3] at h1
  simpa using h1

end OniComb.Stateful.Ticking
