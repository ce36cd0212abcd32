import Verif.Model.CrondCache
import Verif.Lemmas.CacheRun

/-! # Helper lemmas: the crond parser with its caches -/

namespace OniComb.Crond
open Stateful

section
variable {P Q : State Char → Prop} {X : Type} [New X] {sx : SParser X Char CronExpr} {x : Parser Char CronExpr}

theorem leads_op (hp : Place P Q) {A : Type} {g : Parser Char A} (h : Takes 1 g) : Leads Q g P :=
  fun s v n hs e => hp.op s n hs (h s v n e)

theorem leads_item (hp : Place P Q) {A : Type} {g : Parser Char A} (h : Takes 1 g) : Leads P g Q :=
  fun s v n hs e => hp.item s n hs (h s v n e)

theorem leads_both {R : State Char → Prop} {A B : Type} {g : Parser Char A} {g' : Parser Char B} (h : Leads P g Q) (h' : Leads Q g' R) :
    Leads P (andThen g g') R := by
  intro s v n hs e
  unfold andThen at e
  cases e1 : g s with
  | success w m =>
    rw [e1] at e
    dsimp only at e
    cases e2 : g' (s.advanceBy m) with
    | success w2 m2 =>
      rw [e2] at e
      cases e
      have := h' _ _ _ (h s w m hs e1) e2
      simpa only [State.advanceBy, Nat.add_assoc] using this
    | failure => rw [e2] at e; cases e
    | panic => rw [e2] at e; cases e
    | diverge => rw [e2] at e; cases e
  | failure => rw [e1] at e; cases e
  | panic => rw [e1] at e; cases e
  | diverge => rw [e1] at e; cases e

theorem leads_map {A B : Type} {g : Parser Char A} (f : A → B) (h : Leads P g Q) : Leads P (map g f) Q := by
  intro s v n hs e
  unfold map at e
  cases e1 : g s with
  | success w m => rw [e1] at e; cases e; exact h s w _ hs e1
  | failure => rw [e1] at e; cases e
  | panic => rw [e1] at e; cases e
  | diverge => rw [e1] at e; cases e

omit [New X] in
theorem follows_per {Inv : List Char → X → Prop} (hp : Place P Q) (h : Follows P Inv sx x) : Follows Q Inv (perC sx) (perP x) :=
  follows_skipLeft (follows_plain _) (leads_op hp (takes_elm _)) h

theorem run_asterisk (hp : Place P Q) : Run P asteriskC asterisk := hp.cache (run_plain _)

theorem takes_asterisk : Takes 1 asterisk := takes_map _ (takes_elm _)

theorem run_asteriskPer (hp : Place P Q) (hx : Run P sx x) : Run P (asteriskPerC sx) (asteriskPer x) := by
  have h : Run Q (perC sx) (perP x) := by
    obtain ⟨Inv, h0, h⟩ := hx
    exact ⟨Inv, h0, follows_per hp h⟩
  exact hp.cache (run_pair (run_asterisk hp) h fun _ h1 h2 => follows_unary unary_attempt (follows_unary (unary_map _)
    (follows_andThen h1 (leads_item hp takes_asterisk) h2)))

theorem run_range (hp : Place P Q) (hx : Run P sx x) (ht : Takes 1 x) : Run P (rangeC sx) (rangeP x) := by
  have h1 : Run P (Stateful.skipRight sx (ofParser (elm '-'))) (skipRight x (elm '-')) := by
    obtain ⟨Inv, h0, h⟩ := hx
    exact ⟨Inv, h0, follows_skipRight h (leads_any _) (follows_plain _)⟩
  have l1 : Leads P (skipRight x (elm '-')) P := by
    rw [skipRight_eq]; exact leads_map _ (leads_both (leads_item hp ht) (leads_op hp (takes_elm _)))
  have h2 : Run P (Stateful.andThen (left (Stateful.skipRight sx (ofParser (elm '-')))) (lift sx))
      (andThen (skipRight x (elm '-')) x) := run_pair h1 hx fun _ h h' => follows_andThen h l1 h'
  have h3 : Run Q (rangePerC sx) (rangePer x) := by
    obtain ⟨Inv, h0, h⟩ := hx
    exact ⟨Inv, h0, follows_unary (unary_map _) (follows_unary unary_opt (follows_per hp h))⟩
  exact run_pair h2 h3 fun _ h h' => follows_unary unary_attempt (follows_unary (unary_map _)
    (follows_andThen h (leads_both l1 (leads_item hp ht)) h'))

theorem takes_range (ht : Takes 1 x) : Takes 1 (rangeP x) :=
  takes_attempt (takes_map _ ((takes_andThen (takes_andThen (takes_skipRight ht (takes_any _)) (takes_any _)) (takes_any _)).mono
    (by omega)))

theorem run_list (hp : Place P Q) (hx : Run P sx x) (ht : Takes 1 x) : Run P (listC sx) (listP x) := by
  obtain ⟨Inv, h0, h⟩ := hx
  exact ⟨Inv, h0, follows_unary unary_attempt (follows_unary (unary_map _) (follows_repeatSep h
    (.inr ⟨_, _, rfl, rfl, follows_plain _, leads_item hp ht, leads_op hp (takes_elm _)⟩) _))⟩

theorem run_digitInstruction (hp : Place P Q) (hx : Run P sx x) (ht : Takes 1 x) :
    Run P (digitInstructionC sx) (digitInstruction x) :=
  run_either (run_either (run_list hp (run_either (run_range hp hx ht) hx) (takes_or (takes_range ht) ht))
    (run_asteriskPer hp hx)) (run_asterisk hp)

end

/-! ### The fields -/

theorem takes_pair {p q : Parser Char Char} (f : Char × Char → CronExpr) (h : Takes 1 p) : Takes 1 (attempt (map (andThen p q) f)) :=
  takes_attempt (takes_map _ ((takes_andThen h (takes_any _)).mono (by omega)))

theorem takes_zero {q : Parser Char Char} (f : Char → CronExpr) : Takes 1 (attempt (map (skipLeft (elm '0') q) f)) :=
  takes_attempt (takes_map _ ((takes_skipLeft (takes_elm _) (takes_any _)).mono (by omega)))

theorem takes_digit : Takes 1 (elmDigit : Parser Char Char) := takes_elmPred _
theorem takes_digit19 : Takes 1 (elmDigit19 : Parser Char Char) := takes_filterNot _ takes_digit

theorem takes_minDigit : Takes 1 minDigit :=
  takes_or (takes_or (takes_pair _ (takes_elmOfSet _)) (takes_zero _)) (takes_map _ takes_digit)

theorem takes_hourDigit : Takes 1 hourDigit :=
  takes_or (takes_or (takes_or (takes_pair _ (takes_elm _)) (takes_pair _ (takes_elm _))) (takes_zero _))
    (takes_map _ takes_digit)

theorem takes_dayDigit : Takes 1 dayDigit :=
  takes_or (takes_or (takes_or (takes_pair _ (takes_elm _)) (takes_pair _ (takes_elmOfSet _))) (takes_zero _))
    (takes_map _ takes_digit19)

theorem takes_monthDigit : Takes 1 monthDigit :=
  takes_or (takes_or (takes_pair _ (takes_elm _)) (takes_zero _)) (takes_map _ takes_digit19)

theorem takes_dowName (n : Nat) (a : Char) (l : List Char) : Takes 1 (dowName n (a :: l)) :=
  takes_attempt (takes_map _ ((takes_tag _).mono (by simp)))

theorem takes_dayOfWeek : Takes 1 (or dayOfWeekText dayOfWeekDigit) :=
  takes_or (takes_map _ (takes_elmOfSet _))
    (takes_or (takes_or (takes_or (takes_or (takes_or (takes_or (takes_or (takes_dowName _ _ _) (takes_dowName _ _ _))
      (takes_dowName _ _ _)) (takes_dowName _ _ _)) (takes_dowName _ _ _)) (takes_dowName _ _ _)) (takes_dowName _ _ _))
      (takes_map _ (takes_elm _)))

theorem run_behind {A X : Type} [New X] {P : State Char → Prop} {sp : SParser X Char A} {g : Parser Char A} (h : Run P sp g) :
    Run P (Stateful.skipRight sp (ofParser (elm ' '))) (skipRight g (elm ' ')) := by
  obtain ⟨Inv, h0, h⟩ := h
  exact ⟨Inv, h0, follows_skipRight h (leads_any _) (follows_plain _)⟩

theorem run_next {A X Y : Type} [New X] [New Y] {P : State Char → Prop} {sp : SParser X Char A} {g : Parser Char A}
    {sq : SParser Y Char CronExpr} {q : Parser Char CronExpr} (h : Run P sp g) (h' : Run Late sq q) :
    Run P (Stateful.andThen (left (Stateful.skipRight sp (ofParser (elm ' ')))) (lift sq))
      (andThen (skipRight g (elm ' ')) q) :=
  run_pair (run_behind h) h' fun _ h1 h2 => follows_andThen h1
    (leads_late ((takes_skipRight (takes_any _) (takes_elm _)).mono (by omega))) h2

theorem follows_cron : Follows Far (fun _ _ => True) cronParserC (skipRight instruction end_) := by
  have h1 : Run Far (digitInstructionC minDigitC) (digitInstruction minDigit) :=
    run_digitInstruction place_far (place_far.cache (run_plain _)) takes_minDigit
  have h2 : Run Late (digitInstructionC hourDigitC) (digitInstruction hourDigit) :=
    run_digitInstruction place_late (place_late.cache (run_plain _)) takes_hourDigit
  have h3 : Run Late (digitInstructionC dayDigitC) (digitInstruction dayDigit) :=
    run_digitInstruction place_late (place_late.cache (run_plain _)) takes_dayDigit
  have h4 : Run Late (digitInstructionC monthDigitC) (digitInstruction monthDigit) :=
    run_digitInstruction place_late (place_late.cache (run_plain _)) takes_monthDigit
  have h5 : Run Late (digitInstructionC dayOfWeekC) (digitInstruction (or dayOfWeekText dayOfWeekDigit)) :=
    run_digitInstruction place_late (run_either (place_late.cache (run_plain _)) (place_late.cache (run_plain _)))
      takes_dayOfWeek
  obtain ⟨Inv, h0, h⟩ := run_next (run_next (run_next (run_next h1 h2) h3) h4) h5
  exact run_built ⟨Inv, h0, follows_skipRight (follows_unary (unary_map _) h) (leads_any _) (follows_plain _)⟩ _

end OniComb.Crond
