import Verif.Spec.CrondTicks
import Verif.Props.CrondSteps
import Verif.Props.JsonTicks

/-!
# C146, by a clock

The number of steps that `Model/CrondSteps` computes is what a clock shows that is advanced by the parsers without parts
while the combinators of `Model/CacheGrammar` run.
-/

namespace OniComb.Crond.Ticking
open OniComb OniComb.Crond OniComb.Stateful
open OniComb.Peg
open OniComb.Json.Ticking (clocked_skipLeft clocked_map clocked_repeatSep)

section
variable {A : Type} {m : SParser Nat Char A} {c : Counted Char A}

theorem clocked_attempt (h : Clocked m c) : Clocked (Stateful.unary attempt m) (.unary attempt c) := clocked_unary h _ fun _ _ => rfl

end

theorem clocked_pair (p q : Parser Char Char) : Clocked (pair p q) (Counting.pair p q) :=
  clocked_attempt (clocked_map (clocked_andThen (clocked_prim _) (clocked_prim _)) _)

theorem clocked_zeroed (q : Parser Char Char) : Clocked (zeroed q) (Counting.zeroed q) :=
  clocked_attempt (clocked_map (clocked_skipLeft (clocked_prim _) (clocked_prim _)) _)

theorem clocked_single (q : Parser Char Char) : Clocked (single q) (Counting.single q) := clocked_map (clocked_prim _) _

theorem clocked_min : Clocked minDigit Counting.minDigit :=
  clocked_or (clocked_or (clocked_pair _ _) (clocked_zeroed _)) (clocked_single _)

theorem clocked_hour : Clocked hourDigit Counting.hourDigit :=
  clocked_or (clocked_or (clocked_or (clocked_pair _ _) (clocked_pair _ _)) (clocked_zeroed _))
    (clocked_unary (clocked_single _) _ fun _ _ => rfl)

theorem clocked_day : Clocked dayDigit Counting.dayDigit :=
  clocked_or (clocked_or (clocked_or (clocked_pair _ _) (clocked_pair _ _)) (clocked_zeroed _)) (clocked_single _)

theorem clocked_month : Clocked monthDigit Counting.monthDigit :=
  clocked_or (clocked_or (clocked_pair _ _) (clocked_zeroed _)) (clocked_single _)

theorem clocked_name (n : Nat) (t : List Char) : Clocked (dowName n t) (Counting.dowName n t) :=
  clocked_attempt (clocked_map (clocked_seq _) _)

theorem clocked_weekday : Clocked (Stateful.or dayOfWeekText dayOfWeekDigit) (.or Counting.dayOfWeekText Counting.dayOfWeekDigit) :=
  clocked_or (clocked_single _) (clocked_or (clocked_or (clocked_or (clocked_or (clocked_or (clocked_or (clocked_or (clocked_name _ _)
    (clocked_name _ _)) (clocked_name _ _)) (clocked_name _ _)) (clocked_name _ _)) (clocked_name _ _)) (clocked_name _ _))
    (clocked_map (clocked_prim _) _))

theorem clocked_field {m : SParser Nat Char CronExpr} {c : Counted Char CronExpr} (h : Clocked m c) :
    Clocked (digitInstruction m) (Counting.digitInstruction c) := by
  have hper : Clocked (perP m) (Counting.perP c) := clocked_skipLeft (clocked_prim _) h
  have ha : Clocked asterisk Counting.asterisk := clocked_map (clocked_prim _) _
  have hr : Clocked (rangeP m) (Counting.rangeP c) :=
    clocked_attempt (clocked_map (clocked_andThen (clocked_andThen (clocked_skipRight h (clocked_prim _)) h)
      (clocked_map (clocked_opt hper) _)) _)
  exact clocked_or (clocked_or (clocked_attempt (clocked_map (clocked_repeatSep (clocked_or hr h) (.some (clocked_prim _)) _) _))
    (clocked_attempt (clocked_map (clocked_andThen ha hper) _))) ha

theorem clocked_cron : Clocked cron Counting.cron :=
  clocked_skipRight (clocked_map (clocked_andThen (clocked_skipRight (clocked_andThen (clocked_skipRight (clocked_andThen
    (clocked_skipRight (clocked_andThen (clocked_skipRight (clocked_field clocked_min) (clocked_prim _)) (clocked_field clocked_hour))
    (clocked_prim _)) (clocked_field clocked_day)) (clocked_prim _)) (clocked_field clocked_month)) (clocked_prim _))
    (clocked_field clocked_weekday)) _) (clocked_prim _)

/-- **C146**: the only run of the parser with a clock gives its result, and takes a time proportional to the length of the text. -/
theorem c146_clock (t : List Char) (σ : Nat) : ∃ σ', σ' ≤ σ + (124 * t.length + 790) ∧
    ∀ r σ1, cron ⟨t, 0⟩ σ r σ1 ↔ r = skipRight Crond.instruction end_ ⟨t, 0⟩ ∧ σ1 = σ' := by
  refine ⟨_, Nat.add_le_add_left (Counting.c146_linear t) σ, fun r σ1 => ?_⟩
  rw [← Counting.cron_run]
  exact clocked_cron _ _ _ _

/-- A list of `k` minutes that is never finished. -/
example (k σ : Nat) : ∃ r σ1, cron ⟨(List.replicate k ['1', ',']).flatten, 0⟩ σ r σ1 ∧ σ1 ≤ σ + (248 * k + 790) := by
  obtain ⟨σ', h1, h2⟩ := c146_clock (List.replicate k ['1', ',']).flatten σ
  refine ⟨_, σ', (h2 _ _).2 ⟨rfl, rfl⟩, Nat.le_trans h1 ?_⟩
  simp
  omega

end OniComb.Crond.Ticking
