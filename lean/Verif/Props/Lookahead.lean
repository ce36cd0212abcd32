import Verif.Lemmas.Lookahead
import Verif.Lemmas.BuiltTame
import Verif.Props.Elements
import Verif.Model.Json

/-!
# C142: how far ahead a parser looks
-/

namespace OniComb
variable {I A B C : Type}

/-! ## What it means -/

/-- C142: text that is appended does not change what has been read, if at least `k` elements followed already. -/
theorem c142_appended {k : Nat} {p : Parser I A} (hp : Ahead k p) (s : State I) (v : A) (n : Nat) (h : p s = .success v n)
    (hk : s.offset + n + k ≤ s.input.length) (t : List I) : p ⟨s.input ++ t, s.offset⟩ = .success v n := by
  refine (hp s v n h (by omega)).2 _ ⟨rfl, by omega, ?_, ?_⟩
  · show s.offset ≤ (s.input ++ t).length
    simp only [List.length_append]; omega
  · show _ = ((s.input ++ t).drop s.offset).take (n + k)
    rw [List.drop_append_of_le_length (by omega), List.take_append_of_le_length (by simp only [List.length_drop]; omega)]

/-- C142: the same for a whole text, of which the beginning `w` is read. -/
theorem c142_parse {k : Nat} {p : Parser I A} (hp : Ahead k p) (w x : List I) (v : A) (h : p ⟨w ++ x, 0⟩ = .success v w.length)
    (hx : k ≤ x.length) (y : List I) : parse p (w ++ x ++ y) = .ok v := by
  simp only [parse, c142_appended hp ⟨w ++ x, 0⟩ v w.length h (by simp only [List.length_append]; omega) y, Res.toOut]

/-- C142: the four degrees, from the strongest to the weakest; looking further ahead is weaker. -/
theorem c142_degrees (k l : Nat) (hk : k ≤ l) (p : Parser I A) :
    (Within k p → Within l p ∧ Settled k p) ∧ (Settled k p → Settled l p ∧ Firm k p) ∧ (Firm k p → Firm l p ∧ Ahead k p) ∧
    (Ahead k p → Ahead l p) := by
  refine ⟨fun h => ⟨h.mono hk, settled_iff.2 (h.upto _)⟩, fun h => ⟨?_, ?_⟩, fun h => ⟨?_, h.1⟩, fun h => ?_⟩
  · exact settled_iff.2 ((settled_iff.1 h).weaken (fun _ h => h) hk)
  · exact firm_iff.2 ((settled_iff.1 h).weaken (fun _ _ => trivial) (Nat.le_refl _))
  · exact firm_iff.2 ((firm_iff.1 h).weaken (fun _ h => h) hk)
  · exact ahead_iff.2 ((ahead_iff.1 h).weaken (fun _ h => h) hk)

/-! ## The parts -/

/-- C142: elements, literals, the end. -/
theorem c142_elements [DecidableEq I] (f : I → Bool) (w : List I) (u : List Char) (n : Nat) (a : A) (e : PError I) (c : Committed) :
    Within 1 (elmPred f) ∧ Within 1 (elmOfSet f) ∧ Within 1 (noneOfSet f) ∧ Within 1 (end_ : Parser I Unit) ∧
    Within w.length (seq w) ∧ Within u.length (tagNoCase u) ∧ Within n (take n : Parser I (List I)) ∧
    Within n (skip n : Parser I Unit) ∧ Within 0 (successful a : Parser I A) ∧ Within 0 (failed e c : Parser I A) :=
  ⟨within_elmPred f, within_elmOfSet f, noneOfSet_elmOfSet f ▸ within_elmOfSet _, within_end, within_seqLoop _ w, within_seqLoop _ u,
    within_take n, within_skip n, within_successful a, within_failed e c⟩

/-- C142: an alternative. The second parser is tried only where the first one fails in the right way. -/
theorem c142_or {k : Nat} (p q : Parser I A) :
    (Within k p → Within k q → Within k (or p q)) ∧ (Settled k p → Settled k q → Settled k (or p q)) ∧
    (Firm k p → Firm k q → Firm k (or p q)) ∧ (Firm k p → Ahead k q → Ahead k (or p q)) := by
  refine ⟨within_or, fun h1 h2 => ?_, fun h1 h2 => ?_, fun h1 h2 => ?_⟩
  · exact settled_iff.2 (upto_or ((settled_iff.1 h1).weaken (fun _ _ => trivial) (Nat.le_refl _)) (settled_iff.1 h2))
  · exact firm_iff.2 (upto_or ((firm_iff.1 h1).weaken (fun _ h => h.elim id id) (Nat.le_refl _)) (firm_iff.1 h2))
  · exact ahead_iff.2 (upto_or ((firm_iff.1 h1).weaken (fun _ h => h.elim id False.elim) (Nat.le_refl _)) (ahead_iff.1 h2))

/-- C142: a sequence written with `+`, `*` or `-`. -/
theorem c142_sequence {l k : Nat} (p : Parser I A) (q : Parser I B) :
    (Within l p → Within k q → Within (l + k) (andThen p q) ∧ Within (l + k) (skipLeft p q) ∧ Within (l + k) (skipRight p q)) ∧
    (Within l p → Settled k q → Settled (l + k) (andThen p q) ∧ Settled (l + k) (skipLeft p q) ∧ Settled (l + k) (skipRight p q)) ∧
    (Within l p → Firm k q → Firm (l + k) (andThen p q) ∧ Firm (l + k) (skipLeft p q) ∧ Firm (l + k) (skipRight p q)) ∧
    (Ahead k p → Ahead k q → Ahead k (andThen p q) ∧ Ahead k (skipLeft p q) ∧ Ahead k (skipRight p q)) := by
  rw [skipLeft_andThen, skipRight_andThen]
  refine ⟨fun h1 h2 => ?_, fun h1 h2 => ?_, fun h1 h2 => ?_, fun h1 h2 => ?_⟩
  · have h := within_andThen h1 h2
    exact ⟨h, (follows_map _ _).within h, (follows_map _ _).within h⟩
  · have h := upto_andThen h1 (settled_iff.1 h2)
    exact ⟨settled_iff.2 h, settled_iff.2 ((follows_map _ _).upto h), settled_iff.2 ((follows_map _ _).upto h)⟩
  · have h := upto_andThen h1 (firm_iff.1 h2)
    exact ⟨firm_iff.2 h, firm_iff.2 ((follows_map _ _).upto h), firm_iff.2 ((follows_map _ _).upto h)⟩
  · have h := ahead_iff.1 (ahead_andThen h1 h2)
    exact ⟨ahead_iff.2 h, ahead_iff.2 ((follows_map _ _).upto h), ahead_iff.2 ((follows_map _ _).upto h)⟩

/-- C142: a sequence written with `flat_map`. It commits to what it has read, so the first part may be of any length. -/
theorem c142_flat_map {l k : Nat} (p : Parser I A) (f : A → Parser I B) :
    (Within l p → (∀ a, Within k (f a)) → Within (l + k) (flatMap p f)) ∧
    (Within l p → (∀ a, Settled k (f a)) → Settled (l + k) (flatMap p f)) ∧
    (Firm k p → (∀ a, Firm k (f a)) → Firm k (flatMap p f)) ∧
    (Firm k p → Progress p → (∀ a, Ahead k (f a)) → Firm k (flatMap p f)) ∧
    (Ahead k p → (∀ a, Ahead k (f a)) → Ahead k (flatMap p f)) :=
  ⟨within_flatMap, settled_flatMap, fun h1 h2 => firm_flatMap h1 (fun a => (h2 a).1) (.inl h2),
    fun h1 h2 h3 => firm_flatMap h1 h3 (.inr h2), ahead_flatMap⟩

theorem Tracks.all {p : Parser I A} {q : Parser I B} {f g} (h : Tracks p q f g) (k : Nat) :
    (Within k p → Within k q) ∧ (Settled k p → Settled k q) ∧ (Firm k p → Firm k q) ∧ (Ahead k p → Ahead k q) :=
  ⟨h.within, fun hp => settled_iff.2 (h.upto (settled_iff.1 hp)), fun hp => firm_iff.2 (h.upto (firm_iff.1 hp)),
    fun hp => ahead_iff.2 (h.upto (ahead_iff.1 hp))⟩

/-- C142: what only changes values or errors looks as far ahead as what it is applied to. -/
theorem c142_values (p : Parser I A) (f : A → B) (g : Unit → Parser I A) (l : String) (k : Nat) :
    let Keeps (p : Parser I A) {X : Type} (q : Parser I X) :=
      (Within k p → Within k q) ∧ (Settled k p → Settled k q) ∧ (Firm k p → Firm k q) ∧ (Ahead k p → Ahead k q)
    Keeps p (map p f) ∧ Keeps p (name p l) ∧ Keeps p (expect p l) ∧ Keeps p (logMap p l) ∧ Keeps p (lastOffset p) ∧
    Keeps p (nextOffset p) ∧ Keeps p (collect p) ∧ Keeps p (discard p) ∧ Keeps (g ()) (lazy g) :=
  ⟨(follows_map p f).all k, (follows_name p l).all k, (follows_expect p l).all k, (follows_logMap p l).all k,
    (follows_lastOffset p).all k, (follows_nextOffset p).all k, (follows_collect p).all k, (follows_discard p).all k,
    (follows_lazy g).all k⟩

/-- C142: `attempt`. (It may turn a failure that needs a long text into one after which another parser is tried.) -/
theorem c142_attempt {k : Nat} (p : Parser I A) :
    (Within k p → Within k (attempt p)) ∧ (Settled k p → Settled k (attempt p)) ∧ (Ahead k p → Ahead k (attempt p)) :=
  ⟨within_attempt, settled_attempt, ahead_attempt⟩

/-- C142: `filter` and conversions that may fail. -/
theorem c142_filter {k : Nat} (p : Parser I A) (f : A → Bool) (g : A → Option B) :
    (Within k p → Within k (filter p f) ∧ Within k (mapRes p g)) ∧ (Ahead k p → Ahead k (filter p f) ∧ Ahead k (mapRes p g)) :=
  ⟨fun h => ⟨within_filter h f, within_mapRes h g⟩, fun h => ⟨ahead_filter h f, ahead_mapRes h g⟩⟩

/-- C142: lookahead predicates. -/
theorem c142_predicates {k : Nat} (p : Parser I A) (h : Within k p) :
    Within k (peek p) ∧ Within k (not_ p) ∧ Within k (exists_ p) := ⟨within_peek h, within_not h, within_exists h⟩

/-- C142: options, and repetitions with or without separators. They look as far behind the last item as it takes to see
that there is no other one. -/
theorem c142_repeat {k : Nat} (p : Parser I A) (q : Parser I B) (r : Range) (hp : Settled k p) (hq : Settled k q) :
    Settled k (opt p) ∧ Ahead k (repeat_ p r) ∧ Ahead k (repeatSep p r (some q)) ∧
    ((∀ m, r.start = .included m → m ≤ 1) → Settled k (repeat_ p r) ∧ Settled k (repeatSep p r (some q))) := by
  have hn : ∀ q' : Parser I Unit, none = some q' → Settled k q' := nofun
  have hs : ∀ q' : Parser I B, some q = some q' → Settled k q' := by rintro _ ⟨⟩; exact hq
  refine ⟨?_, ahead_repeatSep hp hn r, ahead_repeatSep hp hs r, fun h => ⟨settled_repeatSep hp hn r h, settled_repeatSep hp hs r h⟩⟩
  exact (c142_or _ _).2.1 (((follows_map _ _).all k).2.1 (settled_attempt hp))
    (settled_iff.2 (((within_successful _).mono (Nat.zero_le k)).upto _))

/-- C142: recursive grammars, whatever the degree. -/
theorem c142_recursive {k : Nat} (F : Parser I A → Parser I A) (n : Nat) :
    ((∀ p, Within k p → Within k (F p)) → Within k (fixN F n)) ∧ ((∀ p, Settled k p → Settled k (F p)) → Settled k (fixN F n)) ∧
    ((∀ p, Firm k p → Firm k (F p)) → Firm k (fixN F n)) ∧ ((∀ p, Ahead k p → Ahead k (F p)) → Ahead k (fixN F n)) := by
  have h0 : Within k (diverging : Parser I A) := within_diverging.mono (Nat.zero_le k)
  induction n with
  | zero => exact ⟨fun _ => h0, fun _ => settled_iff.2 (h0.upto _), fun _ => firm_iff.2 (h0.upto _), fun _ => ahead_iff.2 (h0.upto _)⟩
  | succ n ih =>
    have hl := (follows_lazy fun _ => fixN F n).all k
    exact ⟨fun h => h _ (hl.1 (ih.1 h)), fun h => h _ (hl.2.1 (ih.2.1 h)), fun h => h _ (hl.2.2.1 (ih.2.2.1 h)),
      fun h => h _ (hl.2.2.2 (ih.2.2.2 h))⟩

theorem findTill_near (f : I → Bool) : ∀ (d : List I) (i j : Nat), findTill f i d = some j →
    i ≤ j ∧ j - i < d.length ∧ ∀ d', d.take (j - i + 1) = d'.take (j - i + 1) → findTill f i d' = some j
  | [], i, j, h => by simp [findTill] at h
  | c :: d, i, j, h => by
    simp only [findTill] at h
    split at h
    · rename_i hc
      cases h
      refine ⟨Nat.le_refl _, by simp, fun d' hd => ?_⟩
      cases d' with
      | nil => simp at hd
      | cons x d' =>
        simp only [Nat.sub_self, Nat.zero_add, List.take_succ_cons, List.take_zero, List.cons.injEq, and_true] at hd
        subst hd
        simp [findTill, hc]
    · rename_i hc
      obtain ⟨h1, h2, h3⟩ := findTill_near f d (i + 1) j h
      refine ⟨by omega, by simp only [List.length_cons]; omega, fun d' hd => ?_⟩
      cases d' with
      | nil => simp at hd
      | cons x d' =>
        simp only [List.take_succ_cons, List.cons.injEq] at hd
        obtain ⟨rfl, hd⟩ := hd
        simp only [findTill, hc]
        refine h3 d' ?_
        rwa [show j - (i + 1) + 1 = j - i by omega]

theorem takeTill_found {f : I → Bool} {s : State I} {j : Nat} (hs : s.offset ≤ s.input.length)
    (h : findTill f 0 (s.input.drop s.offset) = some j) :
    s.offset + (j + 1) ≤ s.input.length ∧ takeTill0 f s = .success ((s.input.drop s.offset).take (j + 1)) (j + 1) ∧
    takeTill1 f s = .success ((s.input.drop s.offset).take (j + 1)) (j + 1) := by
  have hl := (findTill_near f _ _ _ h).2.1
  simp only [List.length_drop, Nat.sub_zero] at hl
  refine ⟨by omega, ?_, ?_⟩
  · simp only [takeTill0, State.withInput, if_pos hs, h, State.withSlice]
    rw [if_pos (by omega)]
  · simp only [takeTill1, State.withInput, if_pos hs, h, State.withSlice]
    rw [if_pos (by omega)]

/-- C142: reading up to an element. It does not look behind that element; `take_till0` notices the end of the text. -/
theorem c142_take_till (f : I → Bool) : Ahead 1 (takeTill0 f) ∧ Ahead 0 (takeTill1 f) := by
  constructor
  · intro s v n h hs
    cases hf : findTill f 0 (s.input.drop s.offset) with
    | some j =>
      obtain ⟨h1, h2, -⟩ := takeTill_found hs hf
      rw [h2] at h
      cases h
      refine ⟨h1, fun s' hs' => ?_⟩
      have hn := (hs'.mono (show j + 1 ≤ j + 1 + 1 by omega)).next
      have := (takeTill_found hs'.inside' ((findTill_near f _ _ _ hf).2.2 _ hn)).2.1
      rw [this, hn]
    | none =>
      simp only [takeTill0, State.withInput, if_pos hs, hf] at h
      cases h
      refine ⟨by simp only [List.length_drop]; omega, fun s' hs' => ?_⟩
      have hn := hs'.next
      have hd : s'.input.drop s'.offset = s.input.drop s.offset := by
        rw [List.take_of_length_le (by omega)] at hn
        have hlen := congrArg List.length hn
        rw [List.length_take] at hlen
        rw [hn, List.take_of_length_le (by omega)]
      simp only [takeTill0, State.withInput, if_pos hs'.inside', hd, hf]
  · intro s v n h hs
    cases hf : findTill f 0 (s.input.drop s.offset) with
    | some j =>
      obtain ⟨h1, -, h2⟩ := takeTill_found hs hf
      rw [h2] at h
      cases h
      refine ⟨h1, fun s' hs' => ?_⟩
      have hn := hs'.next
      have := (takeTill_found hs'.inside' ((findTill_near f _ _ _ hf).2.2 _ hn)).2.2
      rw [this]
      exact congrArg (Res.success · (j + 1)) hn.symm
    | none => simp [takeTill1, State.withInput, if_pos hs, hf] at h

/-! ## Numbers of the JSON examples -/

section
variable {F : Type} [DecidableEq I] [Element I]

omit [DecidableEq I] in
theorem elmDigit19_within : Within 1 (elmDigit19 : Parser I I) := (c142_filter (B := I) _ _ fun _ => none).1 (within_elmPred _) |>.1

/-- C142: the numbers of the JSON examples look at most three elements ahead. -/
theorem c142_json_number (K : Json.Kind I F) : Ahead 3 (Json.number K) := by
  have digit : Settled 1 (elmDigit : Parser I I) := settled_iff.2 ((within_elmPred _).upto _)
  have digits := fun r => (c142_repeat elmDigit (elmDigit : Parser I I) r digit digit)
  have up : ∀ {X : Type} {k : Nat} {p : Parser I X}, Settled k p → k ≤ 3 → Settled 3 p := fun h hk => ((c142_degrees _ _ hk _).2.1 h).1
  have down : ∀ {X : Type} {p : Parser I X}, Settled 3 p → Ahead 3 p := fun h => h.1
  have sign : Settled 3 (opt (elm (K.lit '-'))) := up (c142_repeat _ (elmDigit : Parser I I) .full (settled_iff.2 ((within_elmPred _).upto _)) digit).1 (by omega)
  have many0 : Settled 1 (many0 (elmDigit : Parser I I)) := (digits (.from_ 0)).2.2.2 (by simp [Range.from_]) |>.1
  have many1 : Settled 1 (many1 (elmDigit : Parser I I)) := (digits (.from_ 1)).2.2.2 (by simp [Range.from_]) |>.1
  have integer : Settled 3 (Json.integer K) := (c142_or _ _).2.1
    (up ((c142_sequence _ _).2.1 elmDigit19_within many0).2.2 (by omega))
    (up (settled_iff.2 ((within_elmPred _).upto _)) (by omega))
  have frac : Settled 3 (opt (Json.frac K)) := (c142_repeat _ (elmDigit : Parser I I) .full
    (up ((c142_sequence _ _).2.1 (within_elmPred _) many1).1 (by omega)) (up digit (by omega))).1
  have esign : Within 1 (opt (elmOf (K.lits "+-"))) := (c142_or _ _).1
    (((follows_map _ _).all 1).1 (within_attempt (within_elmOfSet _))) ((within_successful _).mono (by omega))
  have exp : Settled 3 (opt (Json.exp K)) := (c142_repeat _ (elmDigit : Parser I I) .full
    ((c142_sequence _ _).2.1 ((c142_sequence _ _).1 (within_elmOfSet _) esign).1 many1).1 (up digit (by omega))).1
  have whole := ((c142_sequence (l := 0) _ _).2.2.2 ((c142_sequence (l := 0) _ _).2.2.2
    ((c142_sequence (l := 0) _ _).2.2.2 (down sign) (down integer)).1 (down frac)).1 (down exp)).1
  exact ((c142_filter _ (fun _ => true) _).2 ((c142_filter _ (fun _ => true) _).2
    (((follows_collect _).all 3).2.2.2 whole)).2).2

end

theorem not_ahead {k : Nat} {p : Parser I A} {w t : List I} {v v' : A} {n n' : Nat} (hn : n + k ≤ w.length)
    (h : p ⟨w, 0⟩ = .success v n) (h' : p ⟨w ++ t, 0⟩ = .success v' n') (hne : n ≠ n') : ¬Ahead k p := by
  intro hp
  have := c142_appended hp ⟨w, 0⟩ v n h (by simpa using hn) t
  simp only at this
  rw [h'] at this
  cases this
  exact hne rfl

/-- C142: and sometimes three: the sign of an exponent without digits. -/
theorem c142_json_number_sharp {F : Type} (f64 : List Char → Option F) (a b : F) (ha : f64 ['1'] = some a)
    (hb : f64 ['1', 'e', '+', '5'] = some b) : ¬Ahead 2 (Json.number (Json.charKind f64)) := by
  have h1 : collect (andThen (andThen (andThen (opt (elm '-')) (Json.integer (Json.charKind f64)))
      (opt (Json.frac (Json.charKind f64)))) (opt (Json.exp (Json.charKind f64)))) ⟨['1', 'e', '+'], 0⟩ = .success ['1'] 1 := rfl
  have h2 : collect (andThen (andThen (andThen (opt (elm '-')) (Json.integer (Json.charKind f64)))
      (opt (Json.frac (Json.charKind f64)))) (opt (Json.exp (Json.charKind f64)))) ⟨['1', 'e', '+'] ++ ['5'], 0⟩ =
      .success ['1', 'e', '+', '5'] 4 := rfl
  have key : ∀ s, Json.number (Json.charKind f64) s = mapRes (mapRes (collect (andThen (andThen (andThen (opt (elm '-'))
      (Json.integer (Json.charKind f64))) (opt (Json.frac (Json.charKind f64)))) (opt (Json.exp (Json.charKind f64))))) some) f64 s :=
    fun _ => rfl
  refine not_ahead (w := ['1', 'e', '+']) (t := ['5']) (v := a) (v' := b) (n := 1) (n' := 4) (by decide) ?_ ?_ (by decide)
  · rw [key]
    simp only [mapRes, h1, ha]
  · rw [key]
    simp only [mapRes, h2, hb]

/-! ## Where the text far ahead does change what is read -/

/-- C142 is violated by `take_while0` and `take_while1`: what they read depends on elements arbitrarily far behind it. -/
theorem c142_take_while_violated (f : I → Bool) (a b : I) (ha : f a = true) (hb : f b = false) (k : Nat) :
    ¬Ahead k (takeWhile0 f) ∧ ¬Ahead k (takeWhile1 f) := by
  have h1 : ((a :: List.replicate k b).filter f).length = 1 := by
    rw [List.filter_cons_of_pos ha, List.filter_eq_nil_iff.2]
    · rfl
    · intro x hx; rw [List.eq_of_mem_replicate hx, hb]; decide
  have h2 : ((a :: List.replicate k b ++ [a]).filter f).length = 2 := by
    rw [List.filter_append, List.length_append, h1, List.filter_cons_of_pos ha]
    rfl
  have e1 := c21_takeWhile0_actual f ⟨a :: List.replicate k b, 0⟩ (Nat.zero_le _)
  have e2 := c21_takeWhile0_actual f ⟨a :: List.replicate k b ++ [a], 0⟩ (Nat.zero_le _)
  have e3 := (c21_takeWhile1_actual f ⟨a :: List.replicate k b, 0⟩ (Nat.zero_le _)).1
  have e4 := (c21_takeWhile1_actual f ⟨a :: List.replicate k b ++ [a], 0⟩ (Nat.zero_le _)).1
  simp only [List.drop_zero] at e1 e2 e3 e4
  rw [h1] at e1
  rw [h2] at e2
  rw [if_pos (by simp [ha]), e1] at e3
  rw [if_pos (by simp [ha]), e2] at e4
  exact ⟨not_ahead (by simp; omega) e1 e2 (by decide), not_ahead (by simp; omega) e3 e4 (by decide)⟩

section
variable [DecidableEq I]

theorem elm_here {s : State I} {a c : I} {t : List I} (h : s.input.drop s.offset = c :: t) :
    (c = a → elm a s = .success a 1) ∧ (c ≠ a → Fails (elm a) s) := by
  have hs : s.offset ≤ s.input.length := by
    by_cases hs : s.offset ≤ s.input.length
    · exact hs
    · rw [List.drop_eq_nil_of_le (by omega)] at h; cases h
  constructor
  · rintro rfl
    simp [elm, elmPred, State.withInput, hs, h]
  · intro hc
    simp only [Fails, elm, elmPred, State.withInput, if_pos hs, h]
    simp [hc]

theorem elm_end {s : State I} {a : I} (hs : s.offset = s.input.length) : ∃ e, elm a s = .failure e .uncommitted := by
  simp [elm, elmPred, State.withInput, hs]

theorem replicate_run (a : I) (t : List I) (i : List I) : ∀ (k o : Nat), i.drop o = List.replicate k a ++ t →
    Run (elm a) ⟨i, o⟩ (List.replicate k a) k
  | 0, _, _ => .nil _
  | k + 1, o, h => by
    have h1 : i.drop o = a :: (List.replicate k a ++ t) := h
    have h2 : i.drop (o + 1) = List.replicate k a ++ t := by
      rw [← List.drop_drop, h1]; rfl
    have := Run.cons (p := elm a) (s := ⟨i, o⟩) ((elm_here (s := ⟨i, o⟩) h1).1 rfl) (replicate_run a t i k (o + 1) h2)
    rwa [Nat.add_comm 1 k] at this

theorem elm_tame (a : I) : Tame (elm a) := by
  intro s v n hs h
  simp only [elm, elmPred, State.withInput] at h
  rw [if_neg (by omega)] at h
  cases h

theorem many0_replicate (a b : I) (k : Nat) (hab : b ≠ a) :
    many0 (elm a) ⟨List.replicate k a, 0⟩ = .success (List.replicate k a) k ∧
    many0 (elm a) ⟨List.replicate k a ++ [b], 0⟩ = .success (List.replicate k a) k := by
  constructor
  · obtain ⟨e, he⟩ := elm_end (a := a) (s := ⟨List.replicate k a, 0 + k⟩) (by simp)
    exact c12_many0_complete _ (elm_tame a) _ _ _ (replicate_run a [] _ k 0 (by simp)) ⟨e, _, he⟩
  · exact c12_many0_complete _ (elm_tame a) _ _ _ (replicate_run a [b] _ k 0 (by simp))
      ((elm_here (s := ⟨List.replicate k a ++ [b], 0 + k⟩) (a := a) (c := b) (t := []) (by simp)).2 hab)

/-- As many `a` as there are and then a `b`, written with `+`. -/
def stretch (a b : I) : Parser I (List I × I) := andThen (many0 (elm a)) (elm b)

/-- The same, written with `flat_map`. -/
def stretch' (a b : I) : Parser I I := flatMap (many0 (elm a)) fun _ => elm b

theorem stretch_reads (a b : I) (k : Nat) (hab : b ≠ a) :
    (∃ e, stretch a b ⟨List.replicate k a, 0⟩ = .failure e .uncommitted) ∧
    stretch a b ⟨List.replicate k a ++ [b], 0⟩ = .success (List.replicate k a, b) (k + 1) ∧
    (∃ e c, stretch' a b ⟨List.replicate k a, 0⟩ = .failure e c) ∧
    stretch' a b ⟨List.replicate k a ++ [b], 0⟩ = .success b (k + 1) := by
  obtain ⟨h1, h2⟩ := many0_replicate a b k hab
  obtain ⟨e, he⟩ := elm_end (a := b) (s := (⟨List.replicate k a, 0⟩ : State I).advanceBy k) (by simp [State.advanceBy])
  have hb := (elm_here (s := (⟨List.replicate k a ++ [b], 0⟩ : State I).advanceBy k) (a := b) (c := b) (t := [])
    (by simp [State.advanceBy])).1 rfl
  refine ⟨⟨e, ?_⟩, ?_, ?_, ?_⟩
  · simp only [stretch, andThen, h1, he]
  · simp only [stretch, andThen, h2, hb]
  · simp only [stretch', flatMap, h1, he]
    exact ⟨_, _, rfl⟩
  · simp only [stretch', flatMap, h2, hb, Res.addCommit, Res.advanceSuccess, Nat.add_comm 1 k]

theorem stretch_tame (a b : I) : Tame (stretch a b) := by
  intro s v n hs h
  simp only [stretch, andThen] at h
  cases h1 : many0 (elm a) s with
  | success w m =>
    have h0 : m = 0 := tame_repeatSep _ (elm_tame a) nofun s w m hs h1
    subst h0
    simp only [h1] at h
    cases h2 : elm b (s.advanceBy 0) with
    | success x l =>
      simp only [h2] at h
      cases h
      simpa using elm_tame b _ _ _ (by simpa [State.advanceBy] using hs) h2
    | _ => simp [h2] at h
  | _ => simp [h1] at h

/-- C142 is violated by repetitions of parts that may break off after any number of elements: what is read depends on
whether the last part is complete. -/
theorem c142_repeat_violated (a b : I) (hab : b ≠ a) (k : Nat) : ¬Ahead k (many0 (stretch a b)) := by
  obtain ⟨⟨e, h1⟩, h2, -⟩ := stretch_reads a b k hab
  have h3 : Fails (stretch a b) ⟨List.replicate k a ++ [b], k + 1⟩ := by
    obtain ⟨e, he⟩ := elm_end (a := a) (s := ⟨List.replicate k a ++ [b], k + 1⟩) (by simp)
    obtain ⟨e', he'⟩ := elm_end (a := b) (s := ⟨List.replicate k a ++ [b], k + 1⟩) (by simp)
    have := c12_many0_complete (elm a) (elm_tame a) ⟨List.replicate k a ++ [b], k + 1⟩ [] 0 (.nil _) ⟨e, _, he⟩
    refine ⟨e', .uncommitted, ?_⟩
    simp only [stretch, andThen, this, State.advanceBy]
    simp only [Nat.add_zero, he']
  have h4 := c12_many0_complete (stretch a b) (stretch_tame a b) ⟨List.replicate k a, 0⟩ [] 0 (.nil _) ⟨e, _, h1⟩
  have h5 := c12_many0_complete (stretch a b) (stretch_tame a b) ⟨List.replicate k a ++ [b], 0⟩ _ _ (.cons h2 (.nil _))
    (by simpa using h3)
  exact not_ahead (by simp) h4 h5 (by omega)

/-- C142 is violated by alternatives whose first part is a sequence written with `+`: it is not committed to, however much of
it has been read. Written with `flat_map` the same alternative looks one element ahead; `attempt` undoes that. -/
theorem c142_or_violated (a b : I) (hab : b ≠ a) :
    (∀ k, ¬Ahead k (or (discard (stretch a b)) unit)) ∧ Ahead 1 (or (discard (stretch' a b)) unit) ∧
    ∀ k, ¬Ahead k (or (discard (attempt (stretch' a b))) unit) := by
  refine ⟨fun k => ?_, ?_, fun k => ?_⟩
  · obtain ⟨⟨e, h1⟩, h2, -⟩ := stretch_reads a b k hab
    refine not_ahead (w := List.replicate k a) (t := [b]) (v := ()) (v' := ()) (n := 0) (n' := k + 1) (by simp) ?_ ?_ (by omega)
    · simp only [or, discard, h1]
      rfl
    · simp only [or, discard, h2]
  · have one : ∀ c : I, Settled 1 (elm c) := fun c => settled_iff.2 ((within_elmPred _).upto _)
    have many : Settled 1 (many0 (elm a)) := ((c142_repeat (elm a) (elm a) (.from_ 0) (one a) (one a)).2.2.2
      (by simp [Range.from_])).1
    have firm : ∀ {X : Type} {p : Parser I X}, Settled 1 p → Firm 1 p := fun h => ((c142_degrees 1 1 (by omega) _).2.1 h).2
    have first : Firm 1 (stretch' a b) := (c142_flat_map (l := 0) _ _).2.2.1 (firm many) fun _ => firm (one b)
    exact (c142_or _ _).2.2.2 (((follows_discard _).all 1).2.2.1 first)
      (ahead_iff.2 (((within_successful ()).mono (by omega)).upto _))
  · obtain ⟨-, -, ⟨e, c, h1⟩, h2⟩ := stretch_reads a b k hab
    refine not_ahead (w := List.replicate k a) (t := [b]) (v := ()) (v' := ()) (n := 0) (n' := k + 1) (by simp) ?_ ?_ (by omega)
    · simp only [or, discard, attempt, h1]
      cases c <;> rfl
    · simp only [or, discard, attempt, h2, Res.withUncommitted]

end

/-! ## Cases -/

example : ¬Ahead 7 (many0 (stretch 'a' 'b')) := c142_repeat_violated _ _ (by decide) 7
example : ¬Ahead 100 (takeWhile0 Char.isDigit) := (c142_take_while_violated Char.isDigit '0' 'x' rfl rfl 100).1
example : ¬Ahead 2 (Json.number (Json.charKind fun l => some l.length)) := c142_json_number_sharp _ 1 4 rfl rfl
-- A name of letters is the same whatever follows the first other character.
example (y : List Char) : parse (many1 (elmPred Char.isAlpha)) ("abc".toList ++ ";".toList ++ y) = .ok "abc".toList :=
  have one : Settled 1 (elmPred Char.isAlpha) := settled_iff.2 ((within_elmPred _).upto _)
  c142_parse ((c142_repeat _ (elmPred Char.isAlpha) (.from_ 1) one one).2.1) _ _ _ rfl (by decide) y
-- A number behind which three more characters are known is the same whatever follows them.
example (y : List Char) : parse (Json.number (Json.charKind fun l => some l.length)) ("12".toList ++ ", 5".toList ++ y) = .ok 2 :=
  c142_parse (c142_json_number _) _ _ _ rfl (by decide) y

end OniComb
