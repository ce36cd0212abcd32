import Verif.Model.ToysCache
import Verif.Lemmas.CacheRun

/-! # Helper lemmas: the toys parser with its caches -/

namespace OniComb

namespace Toys.Parse
open Stateful

/-! ### Lengths in the toys grammar -/

theorem takes_spaced {A : Type} {k : Nat} {p : Parser Char A} (h : Takes k p) : Takes k (spaced p) := by
  have := takes_skipRight (takes_skipLeft (takes_any space) h) (takes_any space)
  exact this.mono (by omega)

theorem takes_punct (c : Char) : Takes 1 (punct c) := takes_spaced (takes_tag [c])

theorem takes_ident : Takes 1 ident := takes_map _ (takes_spaced (takes_regex fun t k h => by
  unfold matchIdent at h
  split at h
  · cases h
  · split at h
    · injection h with h; exact ⟨by simp, by omega⟩
    · cases h))

theorem matchDigits_pos {S : Std} {t : List Char} {k : Nat} (h : matchDigits S t = some k) : t ≠ [] ∧ k ≠ 0 := by
  unfold matchDigits at h
  split at h
  · cases h
  · rename_i h0
    injection h with h
    subst h
    exact ⟨by rintro rfl; exact h0 rfl, h0⟩

theorem takes_integer (S : Std) : Takes 1 (integer S) := takes_name _ (takes_spaced (takes_map _ (takes_mapRes _
  (takes_regex fun t k h => by
    unfold matchInteger at h
    split at h
    · rename_i r
      cases e : matchDigits S r with
      | none => rw [e] at h; cases h
      | some j => rw [e] at h; injection h with h; subst h; exact ⟨by simp, by simp⟩
    · exact matchDigits_pos h))))

theorem takes_stringLiteral : Takes 1 stringLiteral := by
  refine takes_name _ (takes_attempt (takes_map _ (takes_map _ ((takes_skipLeft (takes_elm _) (takes_any _)).mono ?_))))
  omega

theorem takes_boolLiteral : Takes 1 boolLiteral := by
  refine takes_name _ (takes_spaced (takes_map _ (takes_or (takes_attempt ((takes_tag _).mono ?_)) ((takes_tag _).mono ?_)))) <;>
    decide

theorem takes_identifier : Takes 1 identifier := takes_name _ (takes_map _ takes_ident)

section
variable (S : Std) (ex : Parser Char Expr)

theorem takes_functionCall : Takes 1 (functionCall ex) :=
  takes_name _ (takes_attempt (takes_spaced (takes_map _ ((takes_andThen takes_ident (takes_any _)).mono (by omega)))))

theorem takes_labelledCall : Takes 1 (labelledCall ex) :=
  takes_name _ (takes_attempt (takes_spaced (takes_map _ ((takes_andThen takes_ident (takes_any _)).mono (by omega)))))

theorem takes_arrayLiteral : Takes 1 (arrayLiteral ex) :=
  takes_name _ (takes_spaced (takes_map _ ((takes_skipLeft (takes_punct _) (takes_any _)).mono (by omega))))

theorem takes_primary : Takes 1 (primary S ex) :=
  takes_name _ (takes_or (takes_or (takes_or (takes_or (takes_or (takes_or (takes_or
    (takes_map _ ((takes_skipRight (takes_skipLeft (takes_punct _) (takes_any _)) (takes_any _)).mono (by omega)))
    (takes_integer S)) takes_stringLiteral) (takes_functionCall ex)) (takes_labelledCall ex)) (takes_arrayLiteral ex))
    takes_boolLiteral) takes_identifier)

theorem takes_multitive : Takes 1 (multitive S ex) := takes_name _ (takes_flatMap (takes_primary S ex))
theorem takes_moditive : Takes 1 (moditive S ex) := takes_name _ (takes_flatMap (takes_multitive S ex))
theorem takes_additive : Takes 1 (additive S ex) := takes_name _ (takes_flatMap (takes_moditive S ex))
theorem takes_comparative : Takes 1 (comparative S ex) := takes_name _ (takes_flatMap (takes_additive S ex))

theorem takes_sign (c : Char) : Takes 1 (sign c) := takes_spaced (takes_elm c)
theorem takes_mulOp : Takes 1 mulOp := takes_map _ (takes_or (takes_sign _) (takes_sign _))
theorem takes_modOp : Takes 1 modOp := takes_map _ (takes_sign _)
theorem takes_addOp : Takes 1 addOp := takes_map _ (takes_or (takes_sign _) (takes_sign _))
theorem takes_cmpOp : Takes 1 cmpOp := by
  have h : ∀ l : List Char, 1 ≤ l.length → Takes 1 (tag l) := fun l hl => (takes_tag l).mono hl
  have h' : ∀ l : List Char, 1 ≤ l.length → Takes 1 (attempt (tag l)) := fun l hl => takes_attempt (h l hl)
  exact takes_map _ (takes_spaced (takes_or (takes_or (takes_or (takes_or (takes_or (takes_or (takes_or
    (h' _ (by decide)) (h' _ (by decide))) (h' _ (by decide))) (h' _ (by decide))) (h' _ (by decide))) (h' _ (by decide)))
    (h' _ (by decide))) (h _ (by decide))))

end

/-! ### The parts of the grammar -/

section
variable {P Q : State Char → Prop}

theorem follows_spaced {S A : Type} {Inv : List Char → S → Prop} {sp : SParser S Char A} {g : Parser Char A}
    (hl : Leads P space Q) (h : Follows Q Inv sp g) : Follows P Inv (spacedC sp) (spaced g) :=
  follows_skipRight (follows_skipLeft (follows_plain _) hl h) (leads_any _) (follows_plain _)

variable {S : Std} {sx : SParser Unit Char Expr} {ex : Parser Char Expr}

theorem run_functionCall (hp : Place P Q) (hx : ∀ Inv, Follows Late Inv sx ex) : Run P (functionCallC sx) (functionCall ex) :=
  hp.cache (run_clean fun _ => follows_unary (unary_name _) (follows_unary unary_attempt (follows_spaced (leads_any _)
    (follows_unary (unary_map _) (follows_andThen (follows_plain _) (leads_late takes_ident)
      (follows_skipLeft (follows_plain _) (Onward.leads _)
        (follows_skipRight (follows_repeatSep (hx _) (seps_some (follows_plain _)) _) (Onward.leads _) (follows_plain _))))))))

theorem run_labelledCall (hp : Place P Q) (hx : ∀ Inv, Follows Late Inv sx ex) : Run P (labelledCallC sx) (labelledCall ex) :=
  hp.cache (run_clean fun _ => follows_unary (unary_name _) (follows_unary unary_attempt (follows_spaced (leads_any _)
    (follows_unary (unary_map _) (follows_andThen (follows_plain _) (leads_late takes_ident)
      (follows_skipLeft (follows_plain _) (Onward.leads _)
        (follows_skipRight (follows_repeatSep (follows_andThen (follows_plain _) (Onward.leads _) (hx _))
          (seps_some (follows_plain _)) _) (Onward.leads _) (follows_plain _))))))))

theorem run_arrayLiteral (hp : Place P Q) (hx : ∀ Inv, Follows Late Inv sx ex) : Run P (arrayLiteralC sx) (arrayLiteral ex) :=
  hp.cache (run_clean fun _ => follows_unary (unary_name _) (follows_spaced (leads_any _)
    (follows_unary (unary_map _) (follows_skipLeft (follows_plain _) (leads_late (takes_punct _))
        (follows_skipRight (follows_repeatSep (hx _) (seps_some (follows_plain _)) _) (Onward.leads _) (follows_plain _))))))

theorem run_primary (hp : Place P Q) (hx : ∀ Inv, Follows Late Inv sx ex) : Run P (primaryC S sx) (primary S ex) :=
  hp.cache (run_unary (unary_name _) (hp.cache
    (run_either (run_either (run_either (run_either (run_either (run_either (run_either
      (run_clean fun _ => follows_unary (unary_map _) (follows_skipRight (follows_skipLeft (follows_plain _)
        (leads_late (takes_punct _)) (hx _)) (leads_any _) (follows_plain _)))
      (hp.cache (run_plain _)))
      (hp.cache (run_plain _)))
      (run_functionCall hp hx))
      (run_labelledCall hp hx))
      (run_arrayLiteral hp hx))
      (hp.cache (run_plain _)))
      (hp.cache (run_plain _)))))

theorem run_exprStep (hp : Place P Q) (hx : ∀ Inv, Follows Late Inv sx ex) : Run P (exprStepC S sx) (exprStep S ex) := by
  have h1 : Run P (multitiveC S sx) (multitive S ex) := hp.cache (run_unary (unary_name _)
    (hp.chain (run_primary hp hx) (takes_primary S ex) takes_mulOp))
  have h2 : Run P (moditiveC S sx) (moditive S ex) := hp.cache (run_unary (unary_name _)
    (hp.chain h1 (takes_multitive S ex) takes_modOp))
  have h3 : Run P (additiveC S sx) (additive S ex) := hp.cache (run_unary (unary_name _)
    (hp.chain h2 (takes_moditive S ex) takes_addOp))
  have h4 : Run P (comparativeC S sx) (comparative S ex) := hp.cache (run_unary (unary_name _)
    (hp.chain h3 (takes_additive S ex) takes_cmpOp))
  exact hp.cache (run_unary (unary_name _) h4)

theorem run_expression : ∀ (n : Nat) {P Q : State Char → Prop}, Place P Q → Run P (expressionC S n) (expression S n)
  | 0, _, _, _ => run_plain _
  | n + 1, _, _, hp => run_exprStep hp fun Inv => run_built (run_expression n place_late) Inv

end

section
variable {P Q : State Char → Prop} {sx : SParser ExprStore Char Expr} {ex : Parser Char Expr}
  {sl : SParser LineStore Char Expr} {ln : Parser Char Expr}

theorem run_println (hp : Place P Q) (hx : Run Late sx ex) : Run P (printlnC sx) (println ex) :=
  hp.cache (run_clean fun _ => follows_unary (unary_name _) (follows_unary unary_attempt (follows_spaced (leads_any _)
    (follows_unary (unary_map _) (follows_skipRight (follows_skipLeft (follows_plain _)
      (leads_late ((takes_tag _).mono (by decide)))
      (follows_skipLeft (follows_plain _) (Onward.leads _) (follows_skipRight (run_built hx _) (leads_any _) (follows_plain _))))
      (leads_any _) (follows_plain _))))))

theorem run_whileLine (hp : Place P Q) (hx : Run Late sx ex) (hl : Run Late sl ln) :
    Run P (whileLineC sx sl) (whileLine ex ln) :=
  have ht : Takes 1 (word "while") := takes_spaced ((takes_tag _).mono (by decide))
  hp.cache (run_clean fun _ => follows_unary (unary_name _) (follows_unary unary_attempt (follows_spaced (leads_any _)
    (follows_unary (unary_map _) (follows_andThen (follows_skipLeft (follows_plain _) (leads_late ht)
      (follows_skipLeft (follows_plain _) (Onward.leads _) (follows_skipRight (run_built hx _) (leads_any _) (follows_plain _))))
      (leads_late ((takes_skipLeft ht (takes_any _)).mono (by omega))) (run_built hl _))))))

theorem run_forLine (hp : Place P Q) (hx : Run Late sx ex) (hl : Run Late sl ln) :
    Run P (forLineC sx sl) (forLine ex ln) := by
  refine hp.cache (run_pair hx hx fun Inv h1 h2 => ?_)
  have ht : Takes 1 (skipRight (tag "for".toList) space) := ((takes_skipRight (takes_tag _) (takes_any _)).mono (by decide))
  have h3 : Follows Late Inv (forParamsC sx) (forParams ex) :=
    follows_skipRight (follows_skipRight (follows_andThen (follows_skipRight (follows_andThen (follows_plain _)
      (Onward.leads _) h1) (Onward.leads _) (follows_plain _)) (Onward.leads _) h2) (leads_any _) (follows_plain _))
      (leads_any _) (follows_plain _)
  exact follows_unary (unary_name _) (follows_unary unary_attempt (follows_spaced (leads_any _)
    (follows_unary (unary_map _) (follows_andThen (follows_skipLeft (follows_plain _) (leads_late ht) h3)
      (leads_late ((takes_skipLeft ht (takes_any _)).mono (by omega))) (run_built hl _)))))

theorem run_ifLine (hp : Place P Q) (hx : Run Late sx ex) (hl : Run Late sl ln) :
    Run P (ifLineC sx sl) (ifLine ex ln) := by
  have ht : Takes 1 (skipLeft (skipRight (tag "if".toList) space) (punct '(')) :=
    (takes_skipLeft (takes_any _) (takes_punct _)).mono (by omega)
  have hc : Run (fun _ => True) (Stateful.skipRight (Stateful.skipLeft
      (ofParser (skipLeft (skipRight (tag "if".toList) space) (punct '('))) sx) (ofParser (punct ')')))
      (skipRight (skipLeft (skipLeft (skipRight (tag "if".toList) space) (punct '(')) ex) (punct ')')) := by
    obtain ⟨Inv, h0, hx⟩ := hx
    exact ⟨Inv, h0, follows_skipRight (follows_skipLeft (follows_plain _) (leads_late ht) hx) (leads_any _) (follows_plain _)⟩
  have ht' : Takes 1 (skipRight (skipLeft (skipLeft (skipRight (tag "if".toList) space) (punct '(')) ex) (punct ')')) :=
    (takes_skipRight (takes_any _) (takes_punct _)).mono (by omega)
  have ho : Run Late (unary opt (Stateful.skipLeft (ofParser (word "else")) sl)) (opt (skipLeft (word "else") ln)) := by
    obtain ⟨Inv, h0, hl⟩ := hl
    exact ⟨Inv, h0, follows_unary unary_opt (follows_skipLeft (follows_plain _) (Onward.leads _) hl)⟩
  have hcl : Run (fun _ => True) _ _ := run_pair hc hl fun _ h1 h2 => follows_andThen h1 (leads_late ht') h2
  exact hp.cache (run_pair hcl ho fun _ h1 h2 => follows_unary (unary_name _) (follows_unary unary_attempt
    (follows_spaced (leads_any _) (follows_unary (unary_map _) (follows_andThen h1
      (leads_late ((takes_andThen ht' (takes_any _)).mono (by omega))) h2)))))

theorem run_block (hp : Place P Q) (hl : Run Late sl ln) : Run P (blockC sl) (block ln) :=
  hp.cache (run_clean fun _ => follows_unary (unary_name _) (follows_spaced (leads_any _)
    (follows_unary (unary_map _) (follows_skipLeft (follows_plain _) (leads_late (takes_punct _))
      (follows_skipRight (follows_repeatSep (run_built hl _) seps_none _) (Onward.leads _) (follows_plain _))))))

theorem run_assignment (hp : Place P Q) (hx : Run Late sx ex) : Run P (assignmentC sx) (assignment ex) := by
  obtain ⟨Inv, h0, hx⟩ := hx
  exact hp.cache ⟨Inv, h0, follows_unary (unary_name _) (follows_unary unary_attempt (follows_spaced (leads_any _)
    (follows_unary (unary_map _) (follows_skipRight (follows_andThen (follows_plain _)
      (leads_late ((takes_skipRight takes_ident (takes_any _)).mono (by omega))) hx) (leads_any _) (follows_plain _)))))⟩

theorem run_expressionLine (hp : Place P Q) (hx : Run P sx ex) : Run P (expressionLineC sx) (expressionLine ex) := by
  obtain ⟨Inv, h0, hx⟩ := hx
  exact hp.cache ⟨Inv, h0, follows_unary (unary_name _) (follows_unary unary_attempt (follows_skipRight hx (leads_any _)
    (follows_plain _)))⟩

theorem run_lineStep {P' Q' : State Char → Prop} (hp : Apart P) (hp' : Place P' Q') (hs : Leads P space P')
    (hx : Run Late sx ex) (hx' : Run P' sx ex) (hl : Run Late sl ln) : Run P (lineStepC sx sl) (lineStep ex ln) := by
  have h : Run P' _ _ := run_either (run_either (run_either (run_either (run_either (run_either (run_println hp' hx)
    (run_clean fun Inv => run_built (run_whileLine hp' hx hl) Inv))
    (run_clean fun Inv => run_built (run_ifLine hp' hx hl) Inv))
    (run_clean fun Inv => run_built (run_forLine hp' hx hl) Inv))
    (run_assignment hp' hx)) (run_expressionLine hp' hx')) (run_block hp' hl)
  obtain ⟨Inv, h0, h⟩ := h
  exact hp.cache ⟨Inv, h0, follows_unary (unary_name _) (follows_spaced hs h)⟩

end

section
variable {P Q : State Char → Prop} {S : Std} {n : Nat}

theorem run_line : ∀ k, Run Late (lineC S n k) (fixN (lineStep (expression S n)) k)
  | 0 => run_plain _
  | k + 1 => run_lineStep place_late.apart place_late (Onward.leads _) (run_expression n place_late) (run_expression n place_late)
    (run_line k)

theorem run_functionDefinition (hp : Place P Q) : Run P (functionDefinitionC S n) (functionDefinition S n) := by
  have ht : Takes 1 define := (takes_skipRight (takes_skipLeft (takes_any _) takes_ident) (takes_any _)).mono (by omega)
  obtain ⟨Inv, h0, h⟩ := run_block place_late (run_line (S := S) (n := n) n)
  exact hp.cache ⟨Inv, h0, follows_unary (unary_name _) (follows_spaced (leads_any _) (follows_unary (unary_map _)
    (follows_andThen (follows_plain _) (leads_late ((takes_andThen ht (takes_any _)).mono (by omega))) h)))⟩

theorem run_globalVariableDefinition (hp : Place P Q) :
    Run P (globalVariableDefinitionC S n) (globalVariableDefinition S n) := by
  obtain ⟨Inv, h0, h⟩ := run_expression (S := S) n place_late
  exact hp.cache ⟨Inv, h0, follows_unary (unary_name _) (follows_spaced (leads_any _) (follows_unary (unary_map _)
    (follows_skipRight (follows_andThen (follows_plain _)
      (leads_late ((takes_skipRight (takes_any _) (takes_punct _)).mono (by omega))) h) (leads_any _) (follows_plain _))))⟩

theorem takes_top : Takes 2 (topLevelDefinition S n) := by
  have h1 : Takes 2 define := (takes_skipRight (takes_skipLeft (takes_skipLeft (takes_skipLeft (takes_any _) (takes_tag _))
    (takes_any _)) (takes_any _)) (takes_any _)).mono (by decide)
  have h2 : Takes 2 (word "global") := takes_spaced ((takes_tag _).mono (by decide))
  exact takes_name _ (takes_or
    (takes_name _ (takes_spaced (takes_map _ ((takes_skipRight (takes_andThen (takes_skipRight (takes_skipLeft h2 (takes_any _))
      (takes_any _)) (takes_any _)) (takes_any _)).mono (by omega)))))
    (takes_name _ (takes_spaced (takes_map _ ((takes_andThen (takes_andThen h1 (takes_any _)) (takes_any _)).mono (by omega))))))

theorem takes_line : ∀ k, Takes 2 (fixN (lineStep (expression S n)) k)
  | 0 => fun _ _ _ h => by cases h
  | k + 1 => by
    have h1 : ∀ w : String, 2 ≤ w.toList.length → Takes 2 (tag w.toList) := fun w hw => (takes_tag _).mono hw
    have he : Takes 1 (expression S n) := by
      cases n with
      | zero => intro _ _ _ h; cases h
      | succ n => exact takes_name _ (takes_comparative S _)
    refine takes_name _ (takes_spaced (takes_or (takes_or (takes_or (takes_or (takes_or (takes_or ?_ ?_) ?_) ?_) ?_) ?_) ?_))
    · exact takes_name _ (takes_attempt (takes_spaced (takes_map _ ((takes_skipRight (takes_skipLeft
        (h1 "println" (by decide)) (takes_any _)) (takes_any _)).mono (by omega)))))
    · exact takes_name _ (takes_attempt (takes_spaced (takes_map _ ((takes_andThen (takes_skipLeft
        (takes_spaced (h1 "while" (by decide))) (takes_any _)) (takes_any _)).mono (by omega)))))
    · exact takes_name _ (takes_attempt (takes_spaced (takes_map _ ((takes_andThen (takes_andThen (takes_skipRight
        (takes_skipLeft (takes_skipLeft (takes_skipRight (h1 "if" (by decide)) (takes_any _)) (takes_any _)) (takes_any _))
        (takes_any _)) (takes_any _)) (takes_any _)).mono (by omega)))))
    · exact takes_name _ (takes_attempt (takes_spaced (takes_map _ ((takes_andThen (takes_skipLeft
        (takes_skipRight (h1 "for" (by decide)) (takes_any _)) (takes_any _)) (takes_any _)).mono (by omega)))))
    · exact takes_name _ (takes_attempt (takes_spaced (takes_map _ ((takes_skipRight (takes_andThen (takes_skipRight takes_ident
        (takes_punct _)) (takes_any _)) (takes_any _)).mono (by omega)))))
    · exact takes_name _ (takes_attempt (takes_skipRight he (takes_punct _)))
    · exact takes_name _ (takes_spaced (takes_map _ ((takes_skipLeft (takes_punct _) (takes_skipRight (takes_any _)
        (takes_punct _))).mono (by omega))))

/-- After so many spaces, or not next to it. -/
abbrev At (k : Nat) (s : State Char) : Prop := s.offset = k ∨ k + 2 ≤ s.offset

theorem place_at (k : Nat) : Place (At k) (fun s => k + 1 ≤ s.offset) := by
  refine ⟨⟨fun o => decide (o = k ∨ k + 2 ≤ o), ?_, fun s hs => by simpa using hs⟩, ?_, ?_⟩
  · rcases Nat.eq_zero_or_pos k with rfl | h
    · exact .inr rfl
    · refine .inl (decide_eq_false ?_); omega
  · intro s m hs hm; simp only [State.advanceBy]; omega
  · intro s m hs hm; simp only [At, State.advanceBy]; omega

theorem follows_program (t : List Char) : Follows (fun s => s = ⟨t, 0⟩) (fun _ _ => True) (programC S n) (program S n) := by
  have key : ∃ k, Leads (fun s => s = ⟨t, 0⟩) space (At k) := by
    cases e : space ⟨t, 0⟩ with
    | success v k =>
      refine ⟨k, ?_⟩
      rintro s v' k' rfl e'
      rw [e] at e'
      cases e'
      exact .inl (Nat.zero_add _)
    | failure => exact ⟨0, by rintro s v' k' rfl e'; rw [e] at e'; cases e'⟩
    | panic => exact ⟨0, by rintro s v' k' rfl e'; rw [e] at e'; cases e'⟩
    | diverge => exact ⟨0, by rintro s v' k' rfl e'; rw [e] at e'; cases e'⟩
  obtain ⟨k, hk⟩ := key
  obtain ⟨Inv, h0, h⟩ := run_either (run_globalVariableDefinition (S := S) (n := n) (place_at k))
    (run_functionDefinition (S := S) (n := n) (place_at k))
  refine run_built (P := fun s => s = ⟨t, 0⟩) ⟨Inv, h0, follows_skipLeft (follows_plain _) hk (follows_unary (unary_map _)
    (follows_repeatSep (follows_unary (unary_name _) h) (.inl ⟨rfl, rfl, rfl, ?_⟩) _))⟩ _
  intro s v m hs e
  have := takes_top s v m e
  rcases hs with hs | hs <;> refine .inr ?_ <;> simp only [State.advanceBy] <;> omega

theorem follows_lines (t : List Char) : Follows (fun s => s = ⟨t, 0⟩) (fun _ _ => True) (linesC S n) (lines S n) := by
  have key : ∃ P' Q', Place P' Q' ∧ Leads (fun s => s.input = t ∧ Far s) space P' := by
    by_cases h : ∃ v, space ⟨t, 0⟩ = .success v 0
    · refine ⟨_, _, place_far, ?_⟩
      rintro ⟨t, o⟩ v m ⟨rfl, hs⟩ e
      obtain ⟨w, h⟩ := h
      rcases hs with hs | hs
      · dsimp only at hs; subst hs; rw [h] at e; cases e; exact .inl rfl
      · exact .inr (Nat.le_trans hs (Nat.le_add_right _ _))
    · refine ⟨_, _, place_late, ?_⟩
      rintro ⟨t, o⟩ v m ⟨rfl, hs⟩ e
      rcases hs with hs | hs
      · dsimp only at hs; subst hs
        cases m with
        | zero => exact absurd ⟨v, e⟩ h
        | succ m => simp [Late, State.advanceBy]
      · simp only [Late, State.advanceBy] at hs ⊢; omega
  obtain ⟨P', Q', hp', hl⟩ := key
  have hp : Apart (fun s => s.input = t ∧ Far s) := by
    obtain ⟨D, hD, h⟩ := place_far.apart
    exact ⟨D, hD, fun s hs => h s hs.2⟩
  have hline : Run (fun s => s.input = t ∧ Far s) (lineC S n n) (line S n) := by
    cases n with
    | zero => exact run_plain _
    | succ n =>
      exact run_lineStep hp hp' hl (run_expression _ place_late) (run_expression _ hp') (run_line _)
  obtain ⟨Inv, h0, h⟩ := hline
  have hm : Leads (fun s => s.input = t ∧ Far s) (line S n) (fun s => s.input = t ∧ Far s) := by
    intro s v m hs e
    have := takes_line n s v m e
    refine ⟨hs.1, .inr ?_⟩
    simp only [State.advanceBy]; omega
  exact run_built (P := fun s => s = ⟨t, 0⟩) ⟨Inv, h0, follows_skipRight (follows_skipRight ((follows_repeatSep h
    (.inl ⟨rfl, rfl, rfl, hm⟩) _).mono (by rintro s rfl; exact ⟨rfl, .inl rfl⟩)) (leads_any _) (follows_plain _))
    (leads_any _) (follows_plain _)⟩ _

end

end Toys.Parse

end OniComb
