import Verif.Spec.CrondCacheTicks
import Verif.Lemmas.CacheTicks
import Verif.Lemmas.CrondCache
import Verif.Props.CrondTicks

/-!
# C146, with the caches

Whatever the addresses of the states are, and so whatever is found in the caches: finding a stored result takes one step, and the
result is the one that the parser would have given.
-/

namespace OniComb.Crond.CacheTicking
open OniComb OniComb.Crond OniComb.Stateful OniComb.Stateful.Ticking
open OniComb.Counted (prim)

theorem one_prim {I A : Type} (p : Parser I A) (s : State I) : 1 ≤ (prim p).steps s := Nat.le_refl _

section
variable {I A B : Type} {c : Counted I A} {c' : Counted I A} {d : Counted I B}

theorem one_or (h : ∀ s, 1 ≤ c.steps s) (s : State I) : 1 ≤ (Counted.or c c').steps s := Nat.le_trans (h s) (Nat.le_add_right _ _)
theorem one_andThen (h : ∀ s, 1 ≤ c.steps s) (s : State I) : 1 ≤ (Counted.andThen c d).steps s :=
  Nat.le_trans (h s) (Nat.le_add_right _ _)

end

section
variable {P Q : State Char → Prop} {X : Type} [New X] {sx : SParser (Nat × X) Char CronExpr} {x : Counted Char CronExpr}

omit [New X] in
theorem within_per {Inv : List Char → X → Prop} (hp : Place P Q) (h : Within P Inv sx x) : Within Q Inv (perP sx) (Counting.perP x) :=
  within_skipLeft (within_tick _) (leads_op hp (takes_elm _)) h

theorem runs_asterisk (hp : Place P Q) : Runs P asterisk Counting.asterisk :=
  runs_cache hp (one_prim _) (runs_bare (Json.Ticking.clocked_map (Peg.clocked_prim _) _))

theorem takes_asterisk' : Takes 1 Counting.asterisk.run := takes_map _ (takes_elm _)

theorem runs_asteriskPer (hp : Place P Q) (hx : Runs P sx x) : Runs P (asteriskPer sx) (Counting.asteriskPer x) :=
  runs_cache hp (one_andThen (one_prim _)) (runs_pair (runs_asterisk hp) (runs_same hx fun _ => within_per hp) fun _ h1 h2 =>
    within_unary unary_attempt (within_unary (unary_map _) (within_andThen h1 (leads_item hp takes_asterisk') h2)))

theorem runs_range (hp : Place P Q) (hx : Runs P sx x) (ht : Takes 1 x.run) : Runs P (rangeP sx) (Counting.rangeP x) := by
  have h1 : Runs P (Stateful.skipRight sx (Ticking.tick 1 (elm '-'))) (.skipRight x (prim (elm '-'))) :=
    runs_same hx fun _ h => within_skipRight h (leads_any _) (within_tick _)
  have l1 : Leads P (skipRight x.run (elm '-')) P := by
    rw [skipRight_eq]; exact leads_map _ (leads_both (leads_item hp ht) (leads_op hp (takes_elm _)))
  have h2 : Runs P (Stateful.andThen (Ticking.left (Stateful.skipRight sx (Ticking.tick 1 (elm '-')))) (Ticking.right sx))
      (.andThen (.skipRight x (prim (elm '-'))) x) := runs_pair h1 hx fun _ h h' => within_andThen h l1 h'
  have h3 : Runs Q (rangePer sx) (Counting.rangePer x) :=
    runs_same hx fun _ h => within_unary (unary_map _) (within_opt (within_per hp h))
  exact runs_pair h2 h3 fun _ h h' => within_unary unary_attempt (within_unary (unary_map _)
    (within_andThen h (leads_both l1 (leads_item hp ht)) h'))

theorem runs_list (hp : Place P Q) (hx : Runs P sx x) (ht : Takes 1 x.run) : Runs P (listP sx) (Counting.listP x) :=
  runs_same hx fun _ h => within_unary unary_attempt (within_unary (unary_map _)
    (within_repeatSep h (.some (within_tick _) (leads_item hp ht) (leads_op hp (takes_elm _))) _))

theorem runs_field (hp : Place P Q) (hx : Runs P sx x) (ht : Takes 1 x.run) :
    Runs P (digitInstruction sx) (Counting.digitInstruction x) :=
  runs_either (runs_either (runs_list hp (runs_either (runs_range hp hx ht) hx) (takes_or (takes_range ht) ht))
    (runs_asteriskPer hp hx)) (runs_asterisk hp)

end

theorem runs_next {A X Y : Type} [New X] [New Y] {P : State Char → Prop} {sp : SParser (Nat × X) Char A} {c : Counted Char A}
    {sq : SParser (Nat × Y) Char CronExpr} {q : Counted Char CronExpr} (h : Runs P sp c) (h' : Runs Late sq q) :
    Runs P (next sp sq) (.andThen (.skipRight c (prim (elm ' '))) q) :=
  runs_pair (runs_same h fun _ h1 => within_skipRight h1 (leads_any _) (within_tick _)) h' fun _ h1 h2 => within_andThen h1
    (leads_late ((takes_skipRight (takes_any _) (takes_elm _)).mono (by omega))) h2

theorem clocked_text : Peg.Clocked Crond.Ticking.dayOfWeekText Counting.dayOfWeekText := Crond.Ticking.clocked_single _

theorem clocked_names : Peg.Clocked Crond.Ticking.dayOfWeekDigit Counting.dayOfWeekDigit := by
  open Crond.Ticking Peg Json.Ticking in
  exact clocked_or (clocked_or (clocked_or (clocked_or (clocked_or (clocked_or (clocked_or (clocked_name _ _)
    (clocked_name _ _)) (clocked_name _ _)) (clocked_name _ _)) (clocked_name _ _)) (clocked_name _ _)) (clocked_name _ _))
    (clocked_map (clocked_prim _) _)

theorem runs_cron : Runs Far (Stateful.skipRight instruction (Ticking.tick 1 end_)) Counting.cron := by
  have h1 : Runs Far (digitInstruction minDigit) (Counting.digitInstruction Counting.minDigit) :=
    runs_field place_far (runs_cache place_far (one_or (one_or (one_andThen (one_prim _)))) (runs_bare Crond.Ticking.clocked_min)) takes_minDigit
  have h2 : Runs Late (digitInstruction hourDigit) (Counting.digitInstruction Counting.hourDigit) :=
    runs_field place_late (runs_cache place_late (one_or (one_or (one_or (one_andThen (one_prim _))))) (runs_bare Crond.Ticking.clocked_hour)) takes_hourDigit
  have h3 : Runs Late (digitInstruction dayDigit) (Counting.digitInstruction Counting.dayDigit) :=
    runs_field place_late (runs_cache place_late (one_or (one_or (one_or (one_andThen (one_prim _))))) (runs_bare Crond.Ticking.clocked_day)) takes_dayDigit
  have h4 : Runs Late (digitInstruction monthDigit) (Counting.digitInstruction Counting.monthDigit) :=
    runs_field place_late (runs_cache place_late (one_or (one_or (one_andThen (one_prim _)))) (runs_bare Crond.Ticking.clocked_month)) takes_monthDigit
  have h5 : Runs Late (digitInstruction dayOfWeek) (Counting.digitInstruction (.or Counting.dayOfWeekText Counting.dayOfWeekDigit)) :=
    runs_field place_late (runs_either (runs_cache place_late (one_prim _) (runs_bare clocked_text))
      (runs_cache place_late (one_or (one_or (one_or (one_or (one_or (one_or (one_or fun _ => Nat.le_add_left _ _)))))))
        (runs_bare clocked_names))) takes_dayOfWeek
  exact runs_same (runs_next (runs_next (runs_next (runs_next h1 h2) h3) h4) h5) fun _ h =>
    within_skipRight (within_unary (unary_map _) h) (leads_any _) (within_tick _)

/-- **C146**: the parser with its caches and a clock has a run, every run gives the result of the parser without caches and takes a
time proportional to the length of the text, and at most the time of the parser without caches, which one of the runs takes. -/
theorem c146_cached (t : List Char) (k : Nat) : ∃ n, n ≤ 124 * t.length + 790 ∧
    (∀ r k', Crond.Ticking.cron ⟨t, 0⟩ k r k' ↔ r = skipRight Crond.instruction end_ ⟨t, 0⟩ ∧ k' = k + n) ∧
    cron ⟨t, 0⟩ k (skipRight Crond.instruction end_ ⟨t, 0⟩) (k + n) ∧
    ∀ r k', cron ⟨t, 0⟩ k r k' → r = skipRight Crond.instruction end_ ⟨t, 0⟩ ∧ k' ≤ k + n := by
  obtain ⟨h1, h2⟩ := runs_built runs_cron ⟨t, 0⟩ (.inl rfl) k
  rw [Counting.cron_run] at h1 h2
  refine ⟨_, Counting.c146_linear t, fun r k' => ?_, h1, h2⟩
  rw [← Counting.cron_run]
  exact Crond.Ticking.clocked_cron _ _ _ _

/-- A list of `n` minutes that is never finished. -/
example (n k : Nat) : ∃ r k', cron ⟨(List.replicate n ['1', ',']).flatten, 0⟩ k r k' ∧ k' ≤ k + (248 * n + 790) := by
  obtain ⟨m, hm, -, h1, -⟩ := c146_cached (List.replicate n ['1', ',']).flatten k
  refine ⟨_, _, h1, ?_⟩
  simp at hm
  omega

end OniComb.Crond.CacheTicking
