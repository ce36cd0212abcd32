import Verif.Model.ParseResult
import Verif.Model.Elements
import Verif.Model.Repeat
import Verif.Spec.Errors
import Verif.Lemmas.Utf8

/-!
# The methods of `ParseResult` and `ParseError` (C107, C108)
-/

namespace OniComb
variable {I A B C : Type}

/-! ## C107 -/

/-- A result that a parser returned: success or failure. -/
def Res.Returned : Res I A → Prop
  | .success _ _ => True
  | .failure _ _ => True
  | _ => False

/-- The accessors agree with each other: a result is either a success or a failure, `success`, `failure`,
`committed_status` are there exactly if they should, and `to_result` is made of them. -/
theorem c107_accessors (r : Res I A) (h : r.Returned) :
    r.isFailure = !r.isSuccess ∧ r.success?.isSome = r.isSuccess ∧ r.failure?.isSome = r.isFailure ∧
    r.committedStatus.isSome = r.isFailure ∧
    (∀ v, r.toOut = .ok v ↔ r.success? = some v) ∧ (∀ e, r.toOut = .err e ↔ r.failure? = some e) := by
  cases r with
  | success v n => simp [Res.isFailure, Res.isSuccess, Res.success?, Res.failure?, Res.committedStatus, Res.toOut]
  | failure e c => simp [Res.isFailure, Res.isSuccess, Res.success?, Res.failure?, Res.committedStatus, Res.toOut]
  | panic => exact h.elim
  | diverge => exact h.elim

/-- The accessors of what the constructors make. -/
theorem c107_constructors (v : A) (n : Nat) (e : PError I) :
    (Res.successful v n : Res I A).success? = some v ∧
    (Res.failedWithUncommitted e : Res I A).failure? = some e ∧
    (Res.failedWithUncommitted e : Res I A).committedStatus = some .uncommitted ∧
    (Res.failedWithCommit e : Res I A).failure? = some e ∧
    (Res.failedWithCommit e : Res I A).committedStatus = some .committed :=
  ⟨rfl, rfl, rfl, rfl, rfl⟩

theorem c107_flat_map_left (v : A) (n : Nat) (f : A → Nat → Res I B) : (Res.successful v n).flatMap f = f v n := rfl

theorem c107_flat_map_right (r : Res I A) : r.flatMap Res.successful = r := by cases r <;> rfl

theorem c107_flat_map_assoc (r : Res I A) (f : A → Nat → Res I B) (g : B → Nat → Res I C) :
    (r.flatMap f).flatMap g = r.flatMap fun v n => (f v n).flatMap g := by cases r <;> rfl

theorem c107_map_id (r : Res I A) : (r.map fun v n => (v, n)) = r := by cases r <;> rfl

theorem c107_map_comp (r : Res I A) (f : A → Nat → B × Nat) (g : B → Nat → C × Nat) :
    (r.map f).map g = r.map fun v n => g (f v n).1 (f v n).2 := by cases r <;> rfl

/-- `map` and `flat_map` do not touch failures. -/
theorem c107_failures_pass (r : Res I A) (h : r.isFailure = true) (f : A → Nat → Res I B) (g : A → Nat → B × Nat) :
    (r.flatMap f).failure? = r.failure? ∧ (r.flatMap f).committedStatus = r.committedStatus ∧
    (r.map g).failure? = r.failure? ∧ (r.map g).committedStatus = r.committedStatus := by
  cases r <;> first | exact ⟨rfl, rfl, rfl, rfl⟩ | cases h

/-- `map_err` changes nothing but the error. -/
theorem c107_map_err (r : Res I A) (f : PError I → PError I) :
    (r.mapErr f).success? = r.success? ∧ (r.mapErr f).committedStatus = r.committedStatus ∧
    (r.mapErr f).failure? = r.failure?.map f ∧ (r.isSuccess = true → r.mapErr f = r) := by
  cases r <;> refine ⟨rfl, rfl, rfl, fun h => ?_⟩ <;> first | rfl | cases h

theorem c107_map_err_comp (r : Res I A) (f g : PError I → PError I) :
    (r.mapErr f).mapErr g = r.mapErr (g ∘ f) := by cases r <;> rfl

/-- `with_uncommitted` makes a failure uncommitted and changes nothing else. -/
theorem c107_with_uncommitted (r : Res I A) :
    r.withUncommitted.toOut = r.toOut ∧
    (r.isFailure = true → r.withUncommitted.committedStatus = some .uncommitted) ∧
    (r.isFailure = false → r.withUncommitted = r) ∧ r.withUncommitted.withUncommitted = r.withUncommitted := by
  cases r with
  | failure e c =>
    cases c <;> exact ⟨rfl, fun _ => rfl, fun h => (by cases h), rfl⟩
  | _ => exact ⟨rfl, fun h => (by cases h), fun _ => rfl, rfl⟩

/-- `add_commit` commits a failure if told so, never withdraws a commitment, and changes nothing else. -/
theorem c107_add_commit (r : Res I A) (b : Bool) :
    (r.addCommit b).toOut = r.toOut ∧ (r.isFailure = false → r.addCommit b = r) ∧
    ((r.addCommit b).committedStatus = some .committed ↔
      r.isFailure = true ∧ (b = true ∨ r.committedStatus = some .committed)) := by
  cases r with
  | failure e c =>
    cases b <;> cases c <;>
      simp [Res.addCommit, Res.toOut, Res.isFailure, Res.committedStatus, Committed.or, Committed.ofBool]
  | _ => simp [Res.addCommit, Res.toOut, Res.isFailure, Res.committedStatus]

theorem c107_add_commit_twice (r : Res I A) (a b : Bool) :
    (r.addCommit a).addCommit b = r.addCommit (a || b) ∧ r.addCommit false = r := by
  cases r with
  | failure e c => cases a <;> cases b <;> cases c <;> exact ⟨rfl, rfl⟩
  | _ => exact ⟨rfl, rfl⟩

/-- `advance_success` adds to the length of a success and changes nothing else.  (The addition of `usize` is modelled
without overflow; the lengths that parsers report are bounded by the input.) -/
theorem c107_advance (r : Res I A) (m n : Nat) :
    (r.advanceSuccess m).advanceSuccess n = r.advanceSuccess (m + n) ∧ (r.advanceSuccess m).toOut = r.toOut ∧
    r.advanceSuccess 0 = r ∧ (r.advanceSuccess m).committedStatus = r.committedStatus ∧
    (∀ v l, r = .success v l → r.advanceSuccess m = .success v (l + m)) := by
  cases r with
  | success v l => exact ⟨by simp [Res.advanceSuccess, Nat.add_assoc], rfl, rfl, rfl, fun _ _ h => by cases h; rfl⟩
  | _ => exact ⟨rfl, rfl, rfl, rfl, fun _ _ h => by cases h⟩

/-- `CommittedStatus::or` is "or" of `is_committed`; `From<bool>` and `is_uncommitted` fit. -/
theorem c107_status (c d : Committed) (b : Bool) :
    (c.or d).isCommitted = (c.isCommitted || d.isCommitted) ∧ (Committed.ofBool b).isCommitted = b ∧
    c.isUncommitted = !c.isCommitted ∧ Committed.ofBool c.isCommitted = c := by
  cases c <;> cases d <;> cases b <;> exact ⟨rfl, rfl, rfl, rfl⟩

/-- The combinators are the methods of the results: `map`, `flat_map`, `attempt`, `expect`, `name`. -/
theorem c107_combinators (p : Parser I A) (s : State I) (f : A → B) (g : A → Parser I B) (l : String) :
    map p f s = (p s).map (fun v n => (f v, n)) ∧
    flatMap p g s = (p s).flatMap (fun v n =>
      ((g v (s.advanceBy n)).addCommit (n != 0)).advanceSuccess n) ∧
    attempt p s = (p s).withUncommitted ∧
    expect p l s = (p s).mapErr (fun e => .expect s.lastOffset e (.expect l)) ∧
    name p l s = (p s).mapErr (fun e => if e.isCustom then e else .customInner s.lastOffset e (.failedToParse l)) := by
  unfold map flatMap attempt expect name
  cases p s with
  | failure e c =>
    refine ⟨rfl, rfl, rfl, rfl, ?_⟩
    dsimp only [Res.mapErr]
    split <;> rfl
  | _ => exact ⟨rfl, rfl, rfl, rfl, rfl⟩

/-- `parse_as_result` is `parse` followed by `to_result`; the lazy constructors are the strict ones. -/
theorem c107_runner (p : Parser I A) (t : List I) (a : A) (e : PError I) (c : Committed) :
    parseAsResult p t = (parseResult p t).toOut ∧ parseAsResult p t = parse p t ∧
    (successfulLazy fun _ => a : Parser I A) = successful a ∧
    (failedLazy fun _ => (e, c) : Parser I A) = failed e c := ⟨rfl, rfl, rfl, rfl⟩

/-- A committed failure through all of it. -/
example : let r := (parseResult (seq ['a', 'b']) ['a', 'x']).mapErr fun e => .expect 0 e (.expect "ab")
    r.isFailure = true ∧ r.committedStatus = some .committed ∧ r.withUncommitted.committedStatus = some .uncommitted ∧
    r.failure? = some (.expect 0 (.mismatch ['a', 'x'] 1 1) (.expect "ab")) := by decide

/-! ## C108 -/

/-- An error is of exactly one kind. -/
theorem c108_kinds (e : PError I) :
    [e.isMismatch, e.isConversion, e.isInComplete, e.isExpect, e.isCustom].count true = 1 := by
  cases e <;> rfl

theorem infix_append_left {x y : List Char} (z : List Char) (h : x <:+: y) : x <:+: z ++ y :=
  h.trans (List.suffix_append z y).isInfix

theorem infix_append_right {x y : List Char} (z : List Char) (h : x <:+: y) : x <:+: y ++ z :=
  h.trans (List.prefix_append y z).isInfix

section
variable (msg : PError I → List Char)

theorem display_expect (o : Nat) (inner : PError I) (m : Label) : (PError.expect o inner m).display msg =
    ((m.message ++ " at ".toList) ++ PError.decimal o ++ ": ".toList) ++ inner.display msg := rfl

theorem display_customInner (o : Nat) (inner : PError I) (m : Label) : (PError.customInner o inner m).display msg =
    (((m.message ++ " at ".toList) ++ PError.decimal o ++ ", (inner: ".toList) ++ inner.display msg) ++ ")".toList := rfl

theorem display_custom (o : Nat) (m : Label) : (PError.custom o m : PError I).display msg =
    (m.message ++ " at ".toList) ++ PError.decimal o := rfl

theorem display_mismatch (i : List I) (o l : Nat) : (PError.mismatch i o l).display msg =
    "Mismatch at ".toList ++ PError.decimal o ++ ": ".toList ++ msg (.mismatch i o l) := rfl

theorem display_conversion (i : List I) (o l : Nat) : (PError.conversion i o l).display msg =
    "Conversion failed at ".toList ++ PError.decimal o ++ ": ".toList ++ msg (.conversion i o l) := rfl
end

/-- What an error displays contains what every error inside it displays. -/
theorem c108_layers (msg : PError I → List Char) (e e' : PError I) (h : e' ∈ e.layers) :
    e'.display msg <:+: e.display msg := by
  induction e with
  | mismatch i o l => rw [List.mem_singleton.1 h]; exact List.infix_refl _
  | conversion i o l => rw [List.mem_singleton.1 h]; exact List.infix_refl _
  | incomplete => rw [List.mem_singleton.1 h]; exact List.infix_refl _
  | custom o l => rw [List.mem_singleton.1 h]; exact List.infix_refl _
  | expect o inner l ih =>
    rcases List.mem_cons.1 h with rfl | h
    · exact List.infix_refl _
    · rw [display_expect]
      exact infix_append_left _ (ih h)
  | customInner o inner l ih =>
    rcases List.mem_cons.1 h with rfl | h
    · exact List.infix_refl _
    · rw [display_customInner]
      exact infix_append_right _ (infix_append_left _ (ih h))

theorem infix_middle (x y z : List Char) : y <:+: x ++ y ++ z := ⟨x, z, rfl⟩

/-- It shows every offset, in decimal. -/
theorem c108_offset (msg : PError I → List Char) (e e' : PError I) (h : e' ∈ e.layers) (o : Nat)
    (ho : e'.offset? = some o) : PError.decimal o <:+: e.display msg := by
  refine List.IsInfix.trans ?_ (c108_layers msg e e' h)
  cases e' with
  | incomplete => cases ho
  | mismatch i o' l =>
    obtain rfl : o' = o := Option.some.inj ho
    rw [display_mismatch]
    exact infix_append_right _ (infix_middle _ _ _)
  | conversion i o' l =>
    obtain rfl : o' = o := Option.some.inj ho
    rw [display_conversion]
    exact infix_append_right _ (infix_middle _ _ _)
  | custom o' l =>
    obtain rfl : o' = o := Option.some.inj ho
    rw [display_custom]
    exact infix_append_left _ (List.infix_refl _)
  | expect o' inner l =>
    obtain rfl : o' = o := Option.some.inj ho
    rw [display_expect]
    exact infix_append_right _ (infix_middle _ _ _)
  | customInner o' inner l =>
    obtain rfl : o' = o := Option.some.inj ho
    rw [display_customInner]
    exact infix_append_right _ (infix_append_right _ (infix_middle _ _ _))

/-- The name given to `expect` is displayed, whatever went wrong, and in front of what the parser says itself. -/
theorem c108_expect (msg : PError I → List Char) (p : Parser I A) (l : String) (t : List I) (e : PError I)
    (h : parse (expect p l) t = .err e) :
    ∃ e', parse p t = .err e' ∧ e.display msg = ("Expect " ++ l ++ " at 0: ").toList ++ e'.display msg := by
  unfold parse expect at h
  cases hp : p ⟨t, 0⟩ with
  | failure e' c =>
    rw [hp] at h
    cases h
    refine ⟨e', ?_, ?_⟩
    rotate_left
    · have h0 : " at 0: ".toList = " at ".toList ++ PError.decimal 0 ++ ": ".toList := by decide
      rw [display_expect, String.toList_append, String.toList_append, h0]
      simp only [List.append_assoc]
      rfl
    unfold parse
    rw [hp]
    rfl
  | success v n => rw [hp] at h; cases h
  | panic => rw [hp] at h; cases h
  | diverge => rw [hp] at h; cases h

/-- The name given to `name` is displayed unless the parser reports an error with a name of its own. -/
theorem c108_name_partial (msg : PError I → List Char) (p : Parser I A) (l : String) (t : List I) (e : PError I)
    (h : parse (name p l) t = .err e) (e' : PError I) (he : parse p t = .err e') (hc : e'.isCustom = false) :
    e.display msg = ("failed to parse " ++ l ++ " at 0, (inner: ").toList ++ e'.display msg ++ [')'] := by
  unfold parse at h he
  unfold name at h
  cases hp : p ⟨t, 0⟩ with
  | failure e'' c =>
    rw [hp] at h he
    cases he
    dsimp only at h
    rw [hc] at h
    cases h
    have h0 : " at 0, (inner: ".toList = " at ".toList ++ PError.decimal 0 ++ ", (inner: ".toList := by decide
    rw [display_customInner, String.toList_append, String.toList_append, h0]
    simp only [List.append_assoc]
    rfl
  | success v n => rw [hp] at h; cases h
  | panic => rw [hp] at h; cases h
  | diverge => rw [hp] at h; cases h

/-- A second name is dropped: the error is that of the first. -/
theorem c108_second_name_violated (p : Parser I A) (inner outer : String) :
    name (name p inner) outer = name p inner := by
  funext s
  unfold name
  cases p s with
  | failure e c =>
    dsimp only
    by_cases hc : e.isCustom = true
    · rw [if_pos hc]; dsimp only; rw [if_pos hc]
    · rw [if_neg hc]; rfl
  | _ => rfl

/-- Also the name given to a parser with `filter`, whose error is a `Custom` one. -/
theorem c108_filter_name_violated (p : Parser I A) (f : A → Bool) (l : String) (s : State I) (v : A) (n : Nat)
    (h : p s = .success v n) (hf : f v = false) : name (filter p f) l s = filter p f s := by
  unfold name filter
  rw [h]
  dsimp only
  rw [hf]
  rfl

/-- `expect` shows both. -/
example : (parse (expect (name (elm 'a') "letter") "word") ['b']) =
      .err (.expect 0 (.customInner 0 (.mismatch ['b'] 1 1) (.failedToParse "letter")) (.expect "word")) ∧
    PError.display (fun _ => "offset: 1".toList) (.expect 0 (.customInner 0 (.mismatch ['b'] 1 1) (.failedToParse "letter"))
      (.expect "word")) =
      "Expect word at 0: failed to parse letter at 0, (inner: Mismatch at 1: offset: 1)".toList := by decide

/-- `input_string` of an error over bytes: the excerpt if it is the encoding of a text. -/
theorem c108_input_string_partial (e : PError UInt8) (cs : List Char) (h : e.inputExcerpt = some (some (Uri.utf8 cs))) :
    e.inputString = some (some (Uri.utf8 cs)) := by
  unfold PError.inputString
  rw [h]
  simp only [Option.map_some, Uri.validUtf8_utf8, if_true]

/-- Otherwise the empty text, although there is an excerpt. -/
theorem c108_no_text_violated (e : PError UInt8) (bs : List UInt8) (h : e.inputExcerpt = some (some bs))
    (hb : ∀ cs, bs ≠ Uri.utf8 cs) : e.inputString = some (some []) := by
  unfold PError.inputString
  rw [h]
  have : Uri.validUtf8 bs = false := by
    rw [Bool.eq_false_iff]
    intro hv
    obtain ⟨cs, hcs⟩ := Uri.validUtf8_iff.1 hv
    exact hb cs hcs
  simp only [Option.map_some, this]
  rfl

/-- The excerpts of the element parsers are one byte long: of a character that is not ASCII none of them shows
anything. -/
theorem c108_one_byte_violated (f : UInt8 → Bool) (s : State UInt8) (e : PError UInt8) (c : Committed)
    (h : elmPred f s = .failure e c) (x : List UInt8) (hx : e.inputExcerpt = some (some x))
    (b : UInt8) (hb : b ∈ x) (h128 : 128 ≤ b.toNat) : e.inputString = some (some []) := by
  have he : e = .mismatch (s.input.drop s.offset) (s.offset + 1) 1 := by
    unfold elmPred State.withInput at h
    split at h
    · dsimp only at h
      split at h
      · split at h <;> cases h
        rename_i h1 h2; rfl
      · cases h; rfl
    · cases h
  have hlen : x.length ≤ 1 := by
    rw [he, PError.inputExcerpt] at hx
    split at hx
    · rw [← Option.some.inj (Option.some.inj hx)]; simp; omega
    · cases hx
  obtain rfl : x = [b] := by
    match x, hlen, hb with
    | [y], _, hb => rw [List.mem_singleton.1 hb]
  unfold PError.inputString
  rw [hx]
  have : Uri.validUtf8 [b] = false := by
    rw [Uri.validUtf8.eq_def]
    dsimp only
    rw [if_neg (by omega)]
  simp only [Option.map_some, this]
  rfl

/-- `elm(b'a')` on the bytes of `xé`. -/
example : elmPred (· == (97 : UInt8)) ⟨[120, 195, 169], 0⟩ = .failure (.mismatch [120, 195, 169] 1 1) .uncommitted ∧
    (PError.mismatch [120, 195, 169] 1 1 : PError UInt8).inputExcerpt = some (some [195]) ∧
    (PError.mismatch [120, 195, 169] 1 1 : PError UInt8).inputString = some (some []) := by decide +kernel

end OniComb
