import Verif.Lemmas.Fair
import Verif.Lemmas.JsonKinds
import Verif.Model.JsonSteps

/-!
# C144: the JSON examples take a number of steps proportional to the length of the text

`Model/JsonSteps` counts the runs of parsers without parts and of `lazy(value)`, and the elements of the literals `null`, `true`,
`false` and `\u`. The conversions of what has been read (`from_utf8`, `from_str`, `HashMap`) are not counted. `f64` stands for
`f64::from_str` and is arbitrary, `n` is how often `lazy(value)` is unrolled.
-/

namespace OniComb.Json.Counting
open OniComb OniComb.Json OniComb.Json.Spec OniComb.Steps
open OniComb.Counted (prim unary)

section
variable {I F : Type} [DecidableEq I] [Element I] {K : Kind I F}

/-! ### Elements and white space -/

theorem fair_one (c : Char) : Fair 0 1 1 Never Never (one K c) := fair_elmPred _

theorem starts_one (c : Char) : Starts (fun x => x = K.lit c) (one K c) := (starts_elmPred _).mono fun x hx => by simpa using hx

theorem misses_one {S : I → Prop} {c : Char} (h : ¬S (K.lit c)) : Misses S 1 (one K c) :=
  misses_elmPred fun x hx => by
    have : x ≠ K.lit c := fun e => h (e ▸ hx)
    simpa using this

theorem fair_space : Fair 1 1 0 Never Never (space K) := ((fair_elmOfSet _).repeatFrom (low := 0) (by omega)).unary same_discard

theorem clears_space : Clears (WsB K) (space K) := by
  intro s v n x hs hr hx hw
  obtain ⟨vs, hr'⟩ := same_discard.ok _ _ _ _ hr
  have hn := (fair_space.ok s v n hs hr).2.1
  have := elmOfSet_fails (fits_advance hs hn) hx (c12_many0_sound _ _ _ _ hr').2
  simp only [setOfList, decide_eq_false_iff_not] at this
  exact this hw

theorem space_firm (s : State I) (e : PError I) (st : Committed) : (space K).run s ≠ .failure e st := by
  intro h
  have h : discard (many0 (elmOf (K.lits " \t\r\n"))) s = .failure e st := h
  simp only [discard] at h
  split at h
  · cases h
  · rename_i h'; exact c12_many0_never_fails _ _ _ _ h'
  · cases h
  · cases h

/-- No white space. -/
theorem space_none {s : State I} {x : I} (hs : s.offset ≤ s.input.length) (hx : next s = some x) (h : ¬WsB K x) :
    (space K).run s = .success () 0 ∧ (space K).steps s ≤ 1 := by
  obtain ⟨e, c, hf⟩ := elmOfSet_miss (f := setOfList (K.lits " \t\r\n")) hs hx (by simpa [setOfList, WsB] using h)
  have hf : elmOf (K.lits " \t\r\n") s = .failure e c := hf
  constructor
  · show discard (many0 (elmOf (K.lits " \t\r\n"))) s = _
    simp [discard, many0, OniComb.repeatSep, hf, repFinish, Range.from_]
  · show 1 + (elmOf (K.lits " \t\r\n") s).onSuccess _ ≤ 1
    rw [hf]
    exact Nat.le_refl _

section
variable {A B C : Type} {w lo : Nat} {c : Counted I C} {q : Counted I B}

/-- White space, and then something that takes a constant number of steps. -/
theorem fair_after_space (hc : Both c (space K) q) (hq : Fair 0 w lo Never Never q) : Fair 1 (1 + w) lo Never (WsB K) c := by
  have hq' : Fair 1 w lo Never Never q := hq.mono (Nat.zero_le _) (Nat.le_refl _) (Nat.le_refl _) (fun _ h => h) fun _ h => h
  have ho := both_other hc fair_space hq' (misses_never _)
  refine ⟨?_, ho, ?_⟩
  · have := both_ok hc fair_space hq' (misses_never _)
    simpa using this
  · intro s e st hs hr hn
    cases hx : next s with
    | none =>
      have := ho s hs (by rw [hr]; simp)
      rw [next_none hx] at this
      omega
    | some x =>
      obtain ⟨h1, h2⟩ := space_none hs hx (hn x hx)
      rw [hc.steps_ok h1, advance_zero]
      rcases hc.fail s e st hr with ⟨e', st', h3⟩ | ⟨v1, n1, e', st', h3, h4⟩
      · rw [h1] at h3; cases h3
      · rw [h1] at h3
        simp only [Res.success.injEq] at h3
        obtain ⟨-, rfl⟩ := h3
        have := hq.cheap s e' st' hs h4 fun _ _ h => h
        omega

theorem misses_after_space {S : I → Prop} (hc : Both c (space K) q) (hS : ∀ x, S x → ¬WsB K x) (hq : Misses S w q) :
    Misses S (1 + w) c :=
  Misses.after hc (fun _ x hs hx h => ⟨(), space_none hs hx (hS x h)⟩) hq

end

/-! ### Numbers -/

theorem fair_digit : Fair 0 1 1 Never Never (prim elmDigit : Counted I I) := fair_elmPred _

theorem digit19_ok {s : State I} {x : I} {n : Nat} (h : (elmDigit19 : Parser I I) s = .success x n) :
    (elmDigit : Parser I I) s = .success x n := by
  simp only [elmDigit19, filterNot, filter] at h
  split at h
  · split at h
    · rename_i h' _; rw [h', h]
    · cases h
  · cases h
  · cases h
  · cases h

theorem fair_digit19 : Fair 0 1 1 Never Never (prim elmDigit19 : Counted I I) :=
  .of_const (fun _ _ _ hs h => have h := elmPred_ok hs (digit19_ok h); ⟨by omega, h.2.1⟩) fun _ _ => Nat.le_refl _

/-- The elements with which a number may begin. -/
def NumB (K : Kind I F) (x : I) : Prop := x = K.lit '-' ∨ Element.isDigit x = true ∨ x = K.lit '0'

theorem fair_integer : Fair 1 3 1 Never Never (integer K) := by
  have h1 : Fair 1 2 1 Never Never (.skipRight (prim elmDigit19) (.many0 (prim elmDigit)) : Counted I I) :=
    Fair.both_const (both_skipRight _ _) fair_digit19 (fair_digit.repeatFrom (low := 0) (by omega))
  exact (h1.or ((fair_one (K := K) '0').mono (Nat.zero_le _) (Nat.le_refl _) (Nat.le_refl _) (fun _ h => h) fun _ h => h)
    (misses_never _)).mono (Nat.le_refl _) (Nat.le_refl _) (Nat.le_refl _) (fun _ h => h) fun _ h => h.elim id id

theorem starts_integer : Starts (NumB K) (integer K) := by
  refine Starts.or (Starts.both (both_skipRight _ _) ?_) ((starts_one '0').mono fun x hx => .inr (.inr hx))
  intro s v n x hs hr hx
  exact .inr (.inl (starts_elmPred _ s v n x hs (digit19_ok hr) hx))

theorem fair_frac : Fair 1 2 2 Never Never (frac K) :=
  Fair.both_const (both_andThen _ _) (fair_one '.') (fair_digit.repeatFrom (low := 1) (by omega))

theorem fair_exp : Fair 1 4 2 Never Never (exp K) :=
  Fair.both_const (both_andThen _ _)
    (Fair.both_const (both_andThen _ _) (fair_elmOfSet _) (fair_elmOfSet (setOfList (K.lits "+-"))).opt)
    (fair_digit.repeatFrom (low := 1) (by omega))

theorem starts_sign : Starts (NumB K) (.andThen (.opt (one K '-')) (integer K)) := by
  intro s v n x hs hr hx
  obtain ⟨v1, n1, v2, n2, h1, h2, -⟩ := (both_andThen _ _).ok s v n hr
  have h1 : OniComb.or (map (attempt (elm (K.lit '-'))) some) (successful none) s = .success v1 n1 := h1
  simp only [OniComb.or] at h1
  cases h : map (attempt (elm (K.lit '-'))) some s with
  | success v' n' =>
    obtain ⟨v'', h'⟩ := same_optional.ok _ _ _ _ h
    exact .inl (starts_one '-' s v'' n' x hs h' hx)
  | failure e st =>
    cases st with
    | committed => simp [h] at h1
    | uncommitted =>
      simp only [h, successful, Res.success.injEq] at h1
      obtain ⟨-, rfl⟩ := h1
      exact starts_integer _ _ _ _ hs h2 hx
  | _ => simp [h] at h1

theorem fair_numeral : Fair 1 13 1 Never (NumB K) (numeral K) := by
  have h1 : Fair 1 5 1 Never Never (.andThen (.opt (one K '-')) (integer K)) :=
    Fair.both_const (both_andThen _ _) (fair_one '-').opt fair_integer
  have h2 := Fair.both (both_andThen _ (.opt (frac K))) h1 starts_sign fair_frac.opt (misses_never _)
  have h3 := Fair.both (both_andThen _ (.opt (exp K))) h2 (Starts.both (both_andThen _ _) starts_sign) fair_exp.opt (misses_never _)
  exact h3.mono (Nat.le_refl _) (Nat.le_refl _) (by omega) (fun _ h => h) fun x h => by
    rcases h with (h | h) | h
    · exact h.elim
    · exact h
    · exact h

theorem starts_numeral : Starts (NumB K) (numeral K) :=
  Starts.both (both_andThen _ _) (Starts.both (both_andThen _ _) starts_sign)

theorem fair_number : Fair 1 13 1 Never (NumB K) (number K) := by
  have h1 := (fair_numeral (K := K)).unary same_collect
  have s1 := (starts_numeral (K := K)).unary same_collect
  exact ((h1.mapRes s1 K.str).mapRes (s1.mapRes K.str) K.f64).mono (Nat.le_refl _) (Nat.le_refl _) (Nat.le_refl _) (fun _ h => h)
    fun x h => by rcases h with (h | h) | h <;> exact h

/-! ### Strings -/

theorem fair_specialChar : Fair 0 8 1 Never Never (specialChar K) :=
  ((((((((fair_one _).or_const (fair_one _)).or_const (fair_one _)).or_const ((fair_one _).unary (same_map _))).or_const
    ((fair_one _).unary (same_map _))).or_const ((fair_one _).unary (same_map _))).or_const
    ((fair_one _).unary (same_map _))).or_const ((fair_one _).unary (same_map _)))

theorem fair_charItem : Fair 0 10 1 Never Never (charItem K) :=
  (fair_noneOfSet _).or_const ((Fair.both_const (both_skipLeft _ _) (fair_one '\\') fair_specialChar).mono (Nat.le_refl _)
    (Nat.le_refl _) (by omega) (fun _ h => h) fun _ h => h)

variable [L : Lawful K]

theorem lit_ne' {a b : Char} (h : a ≠ b := by decide) (ha : a.toNat < 128 := by decide) (hb : b.toNat < 128 := by decide) :
    K.lit a ≠ K.lit b := lit_ne h ha hb

theorem starts_specialChar : Starts (fun x => x ≠ K.lit 'u') (specialChar K) := by
  have h : ∀ c : Char, c ≠ 'u' → c.toNat < 128 → Starts (fun x => x ≠ K.lit 'u') (one K c) := fun c hc h8 =>
    (starts_one c).mono fun x hx => by rw [hx]; exact lit_ne hc h8 (by decide)
  unfold specialChar
  exact ((((((((h _ (by decide) (by decide)).or (h _ (by decide) (by decide))).or (h _ (by decide) (by decide))).or
    ((h _ (by decide) (by decide)).unary (same_map _))).or ((h _ (by decide) (by decide)).unary (same_map _))).or
    ((h _ (by decide) (by decide)).unary (same_map _))).or ((h _ (by decide) (by decide)).unary (same_map _))).or
    ((h _ (by decide) (by decide)).unary (same_map _)))

/-- An item of a character string begins with an element that is neither the quote nor the backslash, or with a backslash and
something else than `u`. -/
theorem charItem_ok {s : State I} {v : I} {n : Nat} (hs : s.offset ≤ s.input.length) (h : (charItem K).run s = .success v n) :
    (∃ x, next s = some x ∧ x ≠ K.lit '"' ∧ x ≠ K.lit '\\') ∨
    (next s = some (K.lit '\\') ∧ ∃ y, next (s.advanceBy 1) = some y ∧ y ≠ K.lit 'u') := by
  have h : OniComb.or (noneOf (K.lits "\\\"")) (escapeSequence K).run s = .success v n := h
  simp only [OniComb.or] at h
  cases hp : noneOf (K.lits "\\\"") s with
  | success v' n' =>
    obtain ⟨-, -, h1, h2⟩ := noneOfSet_ok hs hp
    simp only [setOfList, decide_eq_false_iff_not] at h2
    refine .inl ⟨v', h1, fun e => h2 ?_, fun e => h2 ?_⟩
    · rw [e]; exact (lit_mem (by decide) (by decide)).2 (by decide)
    · rw [e]; exact (lit_mem (by decide) (by decide)).2 (by decide)
  | failure e st =>
    cases st with
    | committed => simp [hp] at h
    | uncommitted =>
      simp only [hp] at h
      obtain ⟨v1, n1, v2, n2, h1, h2, -⟩ := (both_skipLeft _ _).ok s v n h
      obtain ⟨rfl, h3, h4, h5⟩ := elmPred_ok hs h1
      have hs' := fits_advance hs h3
      have h6 : v1 = K.lit '\\' := by simpa using h5
      refine .inr ⟨by rw [h4, h6], ?_⟩
      cases hx : next (s.advanceBy 1) with
      | none =>
        have := next_none hx
        have := (fair_specialChar.ok _ _ _ hs' h2)
        omega
      | some y => exact ⟨y, rfl, starts_specialChar _ _ _ _ hs' h2 hx⟩
  | _ => simp [hp] at h

theorem starts_charItem : Starts (fun x => x ≠ K.lit '"') (charItem K) := by
  intro s v n x hs hr hx
  rcases charItem_ok hs hr with ⟨y, hy, h, -⟩ | ⟨hy, -⟩
  · rw [hx] at hy; cases hy; exact h
  · rw [hx] at hy; cases hy; exact lit_ne'

theorem fair_charString : Fair 10 10 1 Never (fun x => x ≠ K.lit '"') (charString K) :=
  ((fair_charItem.repeatFrom (low := 1) (by omega)).mapRes starts_charItem.many1 K.str).mono (by omega) (Nat.le_refl _) (Nat.le_refl _)
    (fun _ h => h) fun _ h => h.elim False.elim id

omit L [DecidableEq I] [Element I] in
theorem lits_u : K.lits "\\u" = [K.lit '\\', K.lit 'u'] := by
  have : "\\u".toList = ['\\', 'u'] := by decide
  rw [Kind.lits, this]
  rfl

omit L in
theorem fair_utf16Char : Fair 0 9 1 Never Never (utf16Char K) := by
  have h1 : Fair 0 3 2 Never Never (.seq (K.lits "\\u") : Counted I (List I)) := by
    have := fair_seq (K.lits "\\u")
    rwa [lits_u] at this ⊢
  have h2 : Fair 0 6 0 Never Never (.count (prim (elmPred K.hex)) 4 : Counted I (List I)) := (fair_elmPred K.hex).count 4
  have h3 := ((h2.mapRes (starts_any _) K.str).mapRes (starts_any _) K.u16).const
  exact (Fair.both_const (both_skipLeft _ _) h1 h3).mono (Nat.le_refl _) (Nat.le_refl _) (by omega) (fun _ h => h) fun _ h => h

omit L in
theorem fair_utf16String : Fair 9 9 1 Never Never (utf16String K) :=
  ((fair_utf16Char.repeatFrom (low := 1) (by omega)).mono (by omega) (Nat.le_refl _) (Nat.le_refl _) (fun _ h => h) fun _ h => h).unary
    (same_map _)

omit L in
theorem utf16_ok {s : State I} {v : Nat} {n : Nat} (hs : s.offset ≤ s.input.length) (h : (utf16Char K).run s = .success v n) :
    next s = some (K.lit '\\') ∧ next (s.advanceBy 1) = some (K.lit 'u') := by
  obtain ⟨v1, n1, -, -, h1, -, -⟩ := (both_skipLeft _ _).ok s v n h
  have h1 : OniComb.seq (K.lits "\\u") s = .success v1 n1 := h1
  rw [lits_u] at h1
  simp only [OniComb.seq, State.withInput, hs, if_true] at h1
  obtain ⟨-, -, h3⟩ := seqLoop_ok _ _ _ _ _ _ _ _ _ h1
  obtain ⟨x, t, h4, h5, h6⟩ := h3 _ _ rfl
  obtain ⟨x', t', h7, h8⟩ := h6 _ _ rfl
  simp only [decide_eq_true_eq] at h5 h8
  subst h5 h8 h7
  refine ⟨by rw [next, h4]; rfl, ?_⟩
  have : s.input.drop (s.offset + 1) = K.lit 'u' :: t' := by rw [← List.drop_drop, h4]; rfl
  simp only [next, State.advanceBy, this]
  rfl

/-- The parts of a string. -/
theorem fair_parts : Fair 10 19 1 Never (fun x => x ≠ K.lit '"') (.or (charString K) (utf16String K)) := by
  refine (fair_charString.or' (fair_utf16String.mono (by omega) (Nat.le_refl _) (Nat.le_refl _) (fun _ h => h) fun _ h => h)
    fun s e hs h => ?_).mono (Nat.le_refl _) (Nat.le_refl _) (Nat.le_refl _) (fun _ h => h) fun _ h => h.elim id False.elim
  have h : mapRes (Counted.many1 (charItem K)).run K.str s = .failure e .uncommitted := h
  simp only [mapRes] at h
  cases hp : (Counted.many1 (charItem K)).run s with
  | success vs n =>
    obtain ⟨v, m, hv⟩ := many1_first hs hp
    right
    have hno : ∀ v n, (utf16Char K).run s ≠ .success v n := fun v n hu => by
      obtain ⟨h1, h2⟩ := utf16_ok hs hu
      rcases charItem_ok hs hv with ⟨x, hx, -, hx'⟩ | ⟨-, y, hy, hy'⟩
      · rw [h1] at hx; cases hx; exact hx' rfl
      · rw [h2] at hy; cases hy; exact hy' rfl
    obtain ⟨h1, h2⟩ := many1_none hs hno
    refine ⟨fun v n hr => ?_, ?_⟩
    · obtain ⟨v', hv'⟩ := (same_map _).ok _ _ _ _ hr
      exact h1 v' n hv'
    · show (Counted.many1 (utf16Char K)).steps s ≤ 9
      rw [h2]
      have := fair_utf16Char.other s hs hno
      omega
  | failure e' st' => exact .inl ((fair_charItem.repeatFrom (low := 1) (by omega)).cheap s e' st' hs hp fun _ _ h => h)
  | _ => simp [hp] at h

theorem fair_string : Fair 29 21 1 Never (fun x => x = K.lit '"') (string K) := by
  have h1 := (fair_parts (K := K)).repeatFrom (low := 0) (by omega)
  have o1 : Fair 29 1 1 Never Never (one K '"') :=
    (fair_one '"').mono (Nat.zero_le _) (Nat.le_refl _) (Nat.le_refl _) (fun _ h => h) fun _ h => h
  have h2 := Fair.both (both_skipRight _ (one K '"')) h1 (starts_any _) o1 (misses_one (fun h => h rfl))
  have h3 := Fair.both (both_skipLeft (one K '"') _) o1 (starts_one '"') h2 (misses_never _)
  exact (h3.unary (same_map _)).mono (Nat.le_refl _) (Nat.le_refl _) (by omega) (fun _ h => h) fun _ h => h.elim False.elim id

omit L in
theorem starts_string : Starts (fun x => x = K.lit '"') (string K) := (Starts.both (both_skipLeft _ _) (starts_one '"')).unary (same_map _)

/-! ### Arrays and objects -/

omit L in
/-- A bracketed list of items. -/
theorem fair_listing {A O P R : Type} {S : I → Prop} {item : Counted I A} {o : Counted I O} {sep : Counted I P} {cl : Counted I R}
    {l r : Char} (hi : Fair 100 80 0 Never S item) (hz : Clears (WsB K) item) (ho : Both o (one K l) (space K))
    (hsep : Fair 1 3 1 Never (WsB K) sep) (hcl : Both cl (space K) (one K r)) (hS : ∀ x, S x → ¬WsB K x) (hr : ¬S (K.lit r)) :
    Fair 100 2 1 Never (fun x => x = K.lit l) (.surround o (.many0Sep item sep) cl) ∧
    Starts (fun x => x = K.lit l) (.surround o (.many0Sep item sep) cl) := by
  have h1 := hi.many0Sep hsep hz (by omega)
  have h2 := fair_after_space hcl (fair_one r)
  have m2 := misses_after_space hcl hS (misses_one hr)
  have h3 := Fair.both (both_skipRight _ cl) h1 (starts_any _)
    (h2.mono (by omega : 1 ≤ 100) (Nat.le_refl _) (Nat.le_refl _) (fun _ h => h) fun _ h => h) m2
  have h4 : Fair 1 2 1 Never Never o := Fair.both_const ho (fair_one l) fair_space
  have s4 := Starts.both ho (starts_one l)
  have h5 := Fair.paid (both_skipLeft o _) h4 s4 h3 (by omega)
  exact ⟨h5.mono (Nat.le_refl _) (Nat.le_refl _) (by omega) (fun _ h => h) fun _ h => h.elim False.elim id,
    Starts.both (both_skipLeft o _) s4⟩

/-- The elements at which a value may fail late. -/
def LateB (K : Kind I F) (x : I) : Prop := NumB K x ∨ x = K.lit '"' ∨ x = K.lit '[' ∨ x = K.lit '{'

theorem numB_lit {c : Char} (h : c ∉ "-0123456789".toList := by decide) (hc : c.toNat < 128 := by decide) : ¬NumB K (K.lit c) := by
  have hm : "-0123456789".toList = '-' :: "0123456789".toList := by decide
  rw [hm, List.mem_cons, not_or] at h
  rintro (e | e | e)
  · exact h.1 ((lit_eq hc (by decide)).1 e)
  · exact h.2 ((digit_iff hc).1 ((L.digit _).1 e))
  · have := (lit_eq hc (by decide)).1 e
    exact h.2 (by rw [this]; decide)

theorem ws_lit {c : Char} (h : c ∉ " \t\r\n".toList := by decide) (hc : c.toNat < 128 := by decide) : ¬WsB K (K.lit c) :=
  fun hw => h ((lit_mem hc (by decide)).1 hw)

theorem numB_noWs {x : I} (h : NumB K x) : ¬WsB K x := by
  intro hw
  unfold WsB Kind.lits at hw
  obtain ⟨c, hc, rfl⟩ := List.mem_map.1 hw
  have h8 : ∀ c ∈ " \t\r\n".toList, c.toNat < 128 ∧ c ∉ "-0123456789".toList := by decide
  exact numB_lit (h8 c hc).2 (h8 c hc).1 h

theorem lateB_noWs {x : I} (h : LateB K x) : ¬WsB K x := by
  rcases h with h | rfl | rfl | rfl
  · exact numB_noWs h
  · exact ws_lit
  · exact ws_lit
  · exact ws_lit

theorem lateB_lit {c : Char} (h : c ∉ "-0123456789\"[{".toList := by decide) (hc : c.toNat < 128 := by decide) : ¬LateB K (K.lit c) := by
  have hm : "-0123456789\"[{".toList = "-0123456789".toList ++ ['"', '[', '{'] := by decide
  rw [hm, List.mem_append, not_or] at h
  rintro (e | e | e | e)
  · exact numB_lit h.1 hc e
  all_goals
    have := (lit_eq hc (by decide)).1 e
    exact h.2 (by rw [this]; decide)

omit L in
theorem fair_sepChar : Fair 1 3 1 Never (WsB K) (.skipRight (.skipLeft (space K) (one K ',')) (space K)) :=
  (Fair.both_firm (both_skipRight _ _) (fair_after_space (both_skipLeft _ _) (fair_one ',')) fair_space (misses_never _) space_firm).mono
    (Nat.le_refl _) (Nat.le_refl _) (Nat.le_refl _) (fun _ h => h) fun _ h => h

omit L in
theorem fair_sepByte : Fair 1 3 1 Never (WsB K) (.andThen (.andThen (space K) (one K ',')) (space K)) :=
  (Fair.both_firm (both_andThen _ _) (fair_after_space (both_andThen _ _) (fair_one ',')) fair_space (misses_never _) space_firm).mono
    (Nat.le_refl _) (Nat.le_refl _) (Nat.le_refl _) (fun _ h => h) fun _ h => h

variable {value : Counted I (Value I F)}

/-- What is needed of an `array`. -/
def ArrayFair (K : Kind I F) (array : Counted I (Value I F) → Counted I (List (Value I F))) : Prop :=
  ∀ value, Fair 100 56 0 Never (LateB K) value → Clears (WsB K) value →
    Fair 100 2 1 Never (fun x => x = K.lit '[') (array value) ∧ Starts (fun x => x = K.lit '[') (array value) ∧
    ∀ S : I → Prop, ¬S (K.lit '[') → Misses S 2 (array value)

theorem arrayChar_fair : ArrayFair K (arrayChar K) := fun value h hz => by
  have := fair_listing (h.mono (Nat.le_refl _) (by omega : 56 ≤ 80) (Nat.le_refl _) (fun _ h => h) fun _ h => h) hz
    (both_skipRight (one K '[') (space K)) fair_sepChar (both_skipLeft (space K) (one K ']')) (fun _ => lateB_noWs) lateB_lit
  exact ⟨this.1, this.2, fun S hS =>
    (Misses.both (both_skipLeft _ _) (Misses.both (both_skipRight _ _) (misses_one hS))).mono (by omega) fun _ h => h⟩

theorem arrayByte_fair : ArrayFair K (arrayByte K) := fun value h hz => by
  have := fair_listing (h.mono (Nat.le_refl _) (by omega : 56 ≤ 80) (Nat.le_refl _) (fun _ h => h) fun _ h => h) hz
    (both_andThen (one K '[') (space K)) fair_sepByte (both_andThen (space K) (one K ']')) (fun _ => lateB_noWs) lateB_lit
  exact ⟨this.1, this.2, fun S hS =>
    (Misses.both (both_skipLeft _ _) (Misses.both (both_andThen _ _) (misses_one hS))).mono (by omega) fun _ h => h⟩

/-- The key of a member and what stands between it and the value. -/
theorem fair_key : Fair 100 24 0 Never (fun x => x = K.lit '"')
      (.skipRight (.skipRight (.skipRight (string K) (space K)) (one K ':')) (space K)) ∧
    Starts (fun x => x = K.lit '"') (.skipRight (.skipRight (.skipRight (string K) (space K)) (one K ':')) (space K)) := by
  have sp : Fair 29 1 0 Never Never (space K) :=
    fair_space.mono (by omega) (Nat.le_refl _) (Nat.le_refl _) (fun _ h => h) fun _ h => h
  have co : Fair 29 1 1 Never Never (one K ':') :=
    (fair_one ':').mono (by omega) (Nat.le_refl _) (Nat.le_refl _) (fun _ h => h) fun _ h => h
  have s0 := starts_string (K := K)
  have h1 := Fair.both (both_skipRight _ (space K)) fair_string s0 sp (misses_never _)
  have s1 := Starts.both (both_skipRight _ (space K)) s0
  have h2 := Fair.both (both_skipRight _ (one K ':')) h1 s1 co (misses_never _)
  have s2 := Starts.both (both_skipRight _ (one K ':')) s1
  have h3 := Fair.both (both_skipRight _ (space K)) h2 s2 sp (misses_never _)
  exact ⟨h3.mono (by omega) (Nat.le_refl _) (Nat.zero_le _) (fun _ h => h) fun x h => by rcases h with ((h | h) | h) | h <;> exact h,
    Starts.both (both_skipRight _ (space K)) s2⟩

theorem fair_member (h : Fair 100 56 0 Never (LateB K) value) : Fair 100 80 0 Never (fun x => x = K.lit '"') (member K value) :=
  (Fair.both (both_andThen _ value) fair_key.1 fair_key.2 h (misses_never _)).mono (Nat.le_refl _) (Nat.le_refl _) (Nat.zero_le _)
    (fun _ h => h) fun _ h => h.elim id id

theorem clears_member (hz : Clears (WsB K) value) : Clears (WsB K) (member K value) := Clears.both (both_andThen _ value) fair_key.1 hz

theorem fair_object (h : Fair 100 56 0 Never (LateB K) value) (hz : Clears (WsB K) value) :
    Fair 100 2 1 Never (fun x => x = K.lit '{') (object K value) :=
  (fair_listing (fair_member h) (clears_member hz) (both_andThen (one K '{') (space K)) fair_sepByte
    (both_andThen (space K) (one K '}')) (fun x hx => hx ▸ ws_lit) (lit_ne' : K.lit '}' ≠ K.lit '"')).1.unary (same_map _)

omit L in
theorem misses_object {S : I → Prop} (hS : ¬S (K.lit '{')) : Misses S 2 (object K value) :=
  ((Misses.both (both_skipLeft _ _) (Misses.both (both_andThen _ _) (misses_one hS))).mono (by omega) fun _ h => h).unary (same_map _)

omit L in
theorem misses_string {S : I → Prop} (hS : ¬S (K.lit '"')) : Misses S 21 (string K) :=
  ((Misses.both (both_skipLeft _ _) (misses_one hS)).mono (by omega) fun _ h => h).unary (same_map _)

/-! ### Values -/

theorem fair_valueOf {array : Counted I (Value I F) → Counted I (List (Value I F))} (ha : ArrayFair K array)
    (h : Fair 100 56 0 Never (LateB K) value) (hz : Clears (WsB K) value) :
    Fair 100 55 0 Never (LateB K) (valueOf K array value) ∧ Clears (WsB K) (valueOf K array value) := by
  have lit : ∀ w : List I, Fair 0 (w.length + 1) 0 Never Never (.seq w) := fun w =>
    (fair_seq w).mono (Nat.le_refl _) (Nat.le_refl _) (Nat.zero_le _) (fun _ h => h) fun _ h => h
  have up : ∀ {A : Type} {a w lo : Nat} {S : I → Prop} {c : Counted I A}, a ≤ 100 → Fair a w lo Never S c → Fair 100 w 0 Never S c :=
    fun ha h => h.mono ha (Nat.le_refl _) (Nat.zero_le _) (fun _ h => h) fun _ h => h
  obtain ⟨ha1, -, ha2⟩ := ha value h hz
  have h1 := up (by omega) ((((lit (K.lits "null")).unary (same_map fun _ => (Value.null : Value I F))).or_const
    ((lit (K.lits "true")).unary (same_map fun _ => .bool true))).or_const ((lit (K.lits "false")).unary (same_map fun _ => .bool false)))
  have h2 := h1.or (up (by omega) ((fair_number (K := K)).unary (same_map Value.num))) (misses_never _)
  have h3 := h2.or (up (by omega) ((fair_string (K := K)).unary (same_map Value.str)))
    ((misses_string fun h => h.elim id numB_lit).unary (same_map Value.str))
  have h4 := h3.or (up (by omega) (ha1.unary (same_map Value.arr)))
    ((ha2 _ fun h => h.elim (fun h => h.elim id numB_lit) lit_ne').unary (same_map Value.arr))
  have h5 := h4.or (up (by omega) ((fair_object h hz).unary (same_map Value.obj)))
    ((misses_object fun h => h.elim (fun h => h.elim (fun h => h.elim id numB_lit) lit_ne') lit_ne').unary (same_map Value.obj))
  have sp : Fair 100 1 0 Never Never (space K) := up (by omega) fair_space
  have h6 := Fair.both_firm (both_skipRight _ (space K)) h5 sp (misses_never _) space_firm
  have hn : (K.lits "null").length = 4 := by rw [Kind.lits, List.length_map]; decide
  have ht : (K.lits "true").length = 4 := by rw [Kind.lits, List.length_map]; decide
  have hf : (K.lits "false").length = 5 := by rw [Kind.lits, List.length_map]; decide
  refine ⟨h6.mono (Nat.le_refl _) (by omega) (Nat.le_refl _) (fun _ h => h) fun x h => ?_, Clears.both (both_skipRight _ (space K)) h5 clears_space⟩
  rcases h with (((h | h) | h) | h) | h
  · exact h.elim
  · exact .inl h
  · exact .inr (.inl h)
  · exact .inr (.inr (.inl h))
  · exact .inr (.inr (.inr h))

theorem fair_value {array : Counted I (Value I F) → Counted I (List (Value I F))} (ha : ArrayFair K array) : ∀ n : Nat,
    Fair 100 55 0 Never (LateB K) (.fixN (valueOf K array) n) ∧ Clears (WsB K) (.fixN (valueOf K array) n)
  | 0 => by
    constructor
    · have : Fair 0 1 0 Never (Never : I → Prop) (prim diverging : Counted I (Value I F)) :=
        .of_const (fun s v n _ h => by cases h) fun _ _ => Nat.le_refl _
      exact this.mono (by omega) (by omega) (Nat.le_refl _) (fun _ h => h) fun _ h => h.elim
    · intro s v n x _ h
      cases h
  | n + 1 => by
    obtain ⟨h, hz⟩ := fair_value ha n
    exact fair_valueOf ha (Fair.lazy h) hz

omit [DecidableEq I] [Element I] L in
theorem end_ok {s : State I} {v : Unit} {n : Nat} (h : (prim end_ : Counted I Unit).run s = .success v n) :
    n = 0 ∧ s.input.length ≤ s.offset := by
  have h : end_ s = .success v n := h
  simp only [end_, State.withInput] at h
  split at h
  · cases hd : s.input.drop s.offset with
    | nil =>
      simp only [hd, Res.success.injEq] at h
      simp only [List.drop_eq_nil_iff] at hd
      exact ⟨h.2.symm, hd⟩
    | cons x t => simp [hd] at h
  · cases h

theorem steps_json {array : Counted I (Value I F) → Counted I (List (Value I F))} (ha : ArrayFair K array) (n : Nat) (t : List I) :
    (jsonOf K array n).steps ⟨t, 0⟩ ≤ 100 * (t.length + 1) := by
  have sp : Fair 100 1 0 Never Never (space K) :=
    fair_space.mono (by omega) (Nat.le_refl _) (Nat.le_refl _) (fun _ h => h) fun _ h => h
  have en : Fair 100 1 0 Never Never (prim end_ : Counted I Unit) :=
    (Fair.of_const (w := 1) (lo := 0) (c := (prim end_ : Counted I Unit)) (fun s v n _ h => by
      have := (end_ok h).1
      omega) fun _ _ => Nat.le_refl _).mono (by omega) (Nat.le_refl _) (Nat.le_refl _) (fun _ h => h) fun _ h => h
  have h1 := Fair.both (both_skipLeft _ _) sp (starts_any _) (fair_value ha n).1 (misses_never _)
  have h2 := Fair.both (both_skipRight _ (prim end_ : Counted I Unit)) h1 (starts_any _) en (misses_never _)
  have hl : left (⟨t, 0⟩ : State I) = t.length := rfl
  by_cases h : ∃ v m, (jsonOf K array n).run ⟨t, 0⟩ = .success v m
  · obtain ⟨v, m, h⟩ := h
    obtain ⟨-, h3, h4⟩ := h2.ok ⟨t, 0⟩ v m (Nat.zero_le _) h
    have h4 : (jsonOf K array n).steps ⟨t, 0⟩ ≤ 100 * m + (1 + 55 + 1) ∨ (jsonOf K array n).steps ⟨t, 0⟩ ≤ 100 * left ⟨t, 0⟩ + (1 + 55 + 1) ∧ _ := h4
    rcases h4 with h4 | ⟨h4, -⟩ <;> omega
  · have := h2.other ⟨t, 0⟩ (Nat.zero_le _) fun v m h' => h ⟨v, m, h'⟩
    have : (jsonOf K array n).steps ⟨t, 0⟩ ≤ 100 * left ⟨t, 0⟩ + (1 + 55 + 1) := this
    omega

omit L

/-! ### Every element is looked at -/

theorem reads_one (c : Char) : Steps.Reads (one K c) := reads_elmPred _

theorem reads_space : Steps.Reads (space K) := ((reads_elmOfSet _).repeatFrom 0).unary same_discard

theorem reads_number : Steps.Reads (number K) := by
  have hd : Steps.Reads (prim elmDigit : Counted I I) := reads_elmPred _
  have h19 : Steps.Reads (prim elmDigit19 : Counted I I) := fun s v n h => hd s v n (digit19_ok h)
  have hi : Steps.Reads (integer K) := (Steps.Reads.both (both_skipRight _ _) h19 (hd.repeatFrom 0)).or (reads_one _)
  have hf : Steps.Reads (frac K) := Steps.Reads.both (both_andThen _ _) (reads_one _) (hd.repeatFrom 1)
  have he : Steps.Reads (exp K) :=
    Steps.Reads.both (both_andThen _ _) (Steps.Reads.both (both_andThen _ _) (reads_elmOfSet _) (reads_elmOfSet (setOfList (K.lits "+-"))).opt)
      (hd.repeatFrom 1)
  have hn : Steps.Reads (numeral K) :=
    Steps.Reads.both (both_andThen _ _) (Steps.Reads.both (both_andThen _ _) (Steps.Reads.both (both_andThen _ _) (reads_one '-').opt hi) hf.opt) he.opt
  exact ((hn.unary same_collect).mapRes K.str).mapRes K.f64

theorem reads_string : Steps.Reads (string K) := by
  have hs : Steps.Reads (specialChar K) :=
    ((((((((reads_one _).or (reads_one _)).or (reads_one _)).or ((reads_one _).unary (same_map _))).or
      ((reads_one _).unary (same_map _))).or ((reads_one _).unary (same_map _))).or ((reads_one _).unary (same_map _))).or
      ((reads_one _).unary (same_map _)))
  have hi : Steps.Reads (charItem K) := (reads_noneOfSet _).or (Steps.Reads.both (both_skipLeft _ _) (reads_one _) hs)
  have hc : Steps.Reads (charString K) := (hi.repeatFrom 1).mapRes K.str
  have hu : Steps.Reads (utf16Char K) := Steps.Reads.both (both_skipLeft _ _) (reads_seq _)
    ((((reads_elmPred K.hex).repeatSep (.closed 4 4) (sep := (none : Option (Counted I Unit))) fun _ h => by cases h).mapRes K.str).mapRes K.u16)
  have hp : Steps.Reads (.or (charString K) (utf16String K)) := hc.or ((hu.repeatFrom 1).unary (same_map _))
  exact (Steps.Reads.both (both_skipLeft _ _) (reads_one _) (Steps.Reads.both (both_skipRight _ _) (hp.repeatFrom 0) (reads_one _))).unary (same_map _)

theorem reads_listing {A O P R : Type} {item : Counted I A} {o : Counted I O} {sep : Counted I P} {cl : Counted I R}
    (hi : Steps.Reads item) (ho : Steps.Reads o) (hs : Steps.Reads sep) (hc : Steps.Reads cl) : Steps.Reads (.surround o (.many0Sep item sep) cl) :=
  Steps.Reads.both (both_skipLeft _ _) ho (Steps.Reads.both (both_skipRight _ _) (hi.repeatSep _ fun q hq => by cases hq; exact hs) hc)

theorem reads_arrayChar (h : Steps.Reads value) : Steps.Reads (arrayChar K value) :=
  reads_listing h (Steps.Reads.both (both_skipRight _ _) (reads_one _) reads_space)
    (Steps.Reads.both (both_skipRight _ _) (Steps.Reads.both (both_skipLeft _ _) reads_space (reads_one _)) reads_space)
    (Steps.Reads.both (both_skipLeft _ _) reads_space (reads_one _))

theorem reads_arrayByte (h : Steps.Reads value) : Steps.Reads (arrayByte K value) :=
  reads_listing h (Steps.Reads.both (both_andThen _ _) (reads_one _) reads_space)
    (Steps.Reads.both (both_andThen _ _) (Steps.Reads.both (both_andThen _ _) reads_space (reads_one _)) reads_space)
    (Steps.Reads.both (both_andThen _ _) reads_space (reads_one _))

theorem reads_object (h : Steps.Reads value) : Steps.Reads (object K value) :=
  (reads_listing (Steps.Reads.both (both_andThen _ _) (Steps.Reads.both (both_skipRight _ _) (Steps.Reads.both (both_skipRight _ _)
      (Steps.Reads.both (both_skipRight _ _) reads_string reads_space) (reads_one _)) reads_space) h)
    (Steps.Reads.both (both_andThen _ _) (reads_one _) reads_space)
    (Steps.Reads.both (both_andThen _ _) (Steps.Reads.both (both_andThen _ _) reads_space (reads_one _)) reads_space)
    (Steps.Reads.both (both_andThen _ _) reads_space (reads_one _))).unary (same_map _)

theorem reads_value {array : Counted I (Value I F) → Counted I (List (Value I F))} (ha : ∀ value, Steps.Reads value → Steps.Reads (array value)) :
    ∀ n : Nat, Steps.Reads (.fixN (valueOf K array) n)
  | 0 => fun s v n h => by cases h
  | n + 1 => by
    have h : Steps.Reads (.lazy fun _ => Counted.fixN (valueOf K array) n) := Steps.Reads.lazy (reads_value ha n)
    exact Steps.Reads.both (both_skipRight _ _) (((((((((reads_seq _).unary (same_map _)).or ((reads_seq _).unary (same_map _))).or
      ((reads_seq _).unary (same_map _))).or (reads_number.unary (same_map _))).or (reads_string.unary (same_map _))).or
      ((ha _ h).unary (same_map _))).or ((reads_object h).unary (same_map _)))) reads_space

theorem reads_json {array : Counted I (Value I F) → Counted I (List (Value I F))} (ha : ∀ value, Steps.Reads value → Steps.Reads (array value))
    {n : Nat} {t : List I} {v : Value I F} {m : Nat} (h : (jsonOf K array n).run ⟨t, 0⟩ = .success v m) :
    t.length ≤ (jsonOf K array n).steps ⟨t, 0⟩ := by
  obtain ⟨v1, n1, v2, n2, h1, h2, rfl⟩ := (both_skipRight _ _).ok _ v m h
  obtain ⟨-, h3⟩ := end_ok h2
  have h4 := Steps.Reads.both (both_skipLeft _ _) reads_space (reads_value ha n) _ _ _ h1
  have h5 := (both_skipRight _ (prim end_ : Counted I Unit)).steps_ok h1
  have h5 : (jsonOf K array n).steps ⟨t, 0⟩ = _ := h5
  rw [h5]
  simp only [State.advanceBy] at h3
  omega

omit [DecidableEq I] [Element I] in
theorem fixN_run {A : Type} (G : Counted I A → Counted I A) (H : Parser I A → Parser I A) (h : ∀ c, (G c).run = H c.run) :
    ∀ n, (Counted.fixN G n).run = OniComb.fixN H n
  | 0 => rfl
  | n + 1 => by
    have ih := fixN_run G H h n
    show (G _).run = H _
    rw [h]
    show H (OniComb.lazy fun _ => (Counted.fixN G n).run) = _
    rw [ih]

end

theorem parse_ok {I A : Type} {p : Parser I A} {t : List I} {v : A} (h : parse p t = .ok v) : ∃ m, p ⟨t, 0⟩ = .success v m := by
  unfold parse at h
  cases hp : p ⟨t, 0⟩ with
  | success w m => rw [hp] at h; cases h; exact ⟨m, rfl⟩
  | _ => rw [hp] at h; cases h

/-! ### The examples -/

section
variable {F : Type}

/-- The steps are counted for the parsers of the two files. -/
theorem c144_counts (fc : List Char → Option F) (fb : List UInt8 → Option F) (n : Nat) :
    (jsonChar fc n).run = Json.jsonChar fc n ∧ (jsonByte fb n).run = Json.jsonByte fb n := by
  constructor
  · show skipRight (skipLeft _ (Counted.fixN _ n).run) _ = skipRight (skipLeft _ (OniComb.fixN _ n)) _
    rw [fixN_run _ (Json.valueOf (charKind fc) (Json.arrayChar (charKind fc))) fun c => rfl]
    rfl
  · show skipRight (skipLeft _ (Counted.fixN _ n).run) _ = skipRight (skipLeft _ (OniComb.fixN _ n)) _
    rw [fixN_run _ (Json.valueOf (byteKind fb) (Json.arrayByte (byteKind fb))) fun c => rfl]
    rfl

/-- **C144**, `json_char.rs`: every text is accepted or rejected in a number of steps proportional to its length. -/
theorem c144_char (f64 : List Char → Option F) (n : Nat) (t : List Char) : (jsonChar f64 n).steps ⟨t, 0⟩ ≤ 100 * (t.length + 1) :=
  steps_json arrayChar_fair n t

/-- **C144**, `json_byte.rs`. -/
theorem c144_byte (f64 : List UInt8 → Option F) (n : Nat) (t : List UInt8) : (jsonByte f64 n).steps ⟨t, 0⟩ ≤ 100 * (t.length + 1) :=
  steps_json arrayByte_fair n t

/-- A text that is accepted takes at least one step for every element: the bound is exact up to the factor. -/
theorem c144_least_char (f64 : List Char → Option F) (n : Nat) (t : List Char) (v : Value Char F)
    (h : parse (Json.jsonChar f64 n) t = .ok v) : t.length ≤ (jsonChar f64 n).steps ⟨t, 0⟩ := by
  obtain ⟨m, hm⟩ := parse_ok h
  rw [← (c144_counts f64 (fun _ => none) n).1] at hm
  exact reads_json (fun _ => reads_arrayChar) hm

theorem c144_least_byte (f64 : List UInt8 → Option F) (n : Nat) (t : List UInt8) (v : Value UInt8 F)
    (h : parse (Json.jsonByte f64 n) t = .ok v) : t.length ≤ (jsonByte f64 n).steps ⟨t, 0⟩ := by
  obtain ⟨m, hm⟩ := parse_ok h
  rw [← (c144_counts (fun _ => none) f64 n).2] at hm
  exact reads_json (fun _ => reads_arrayByte) hm

/-- 14 characters, accepted after 109 steps. -/
example : (jsonChar (fun _ => some ()) 3).steps ⟨"[1,{\"a\":null}]".toList, 0⟩ = 109 := by decide +kernel

/-- 20 opening brackets, rejected after 564 steps. -/
example : (jsonByte (fun _ => some ()) 30).steps ⟨List.replicate 20 0x5B, 0⟩ = 564 := by decide +kernel

example : 14 ≤ (jsonChar (fun _ => some ()) 3).steps ⟨"[1,{\"a\":null}]".toList, 0⟩ :=
  c144_least_char (fun _ => some ()) 3 "[1,{\"a\":null}]".toList (.arr [.num (), .obj [(['a'], .null)]]) rfl

end

end OniComb.Json.Counting
