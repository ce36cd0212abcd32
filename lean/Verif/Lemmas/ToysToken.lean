import Verif.Lemmas.CalcValue
import Verif.Lemmas.JsonKinds
import Verif.Lemmas.Below
import Verif.Spec.ToysText

/-! # Helper lemmas: the tokens of the toys parser -/

set_option linter.unusedSectionVars false

namespace OniComb

/-! ### Regular expressions that match ASCII only -/

section regex
variable {A B : Type} {m : List Char → Option Nat} {f : List Char → Option B} {t r rest : List Char}

/-- The parser of a regular expression followed by a conversion that accepts ASCII only. -/
structure Anchored (m : List Char → Option Nat) (f : List Char → Option B) : Prop where
  le : ∀ t n, m t = some n → n ≤ t.length
  ascii : ∀ t n v, m t = some n → f (t.take n) = some v → ∀ c ∈ t.take n, c.toNat < 128

theorem regexRes_at (h : Anchored m f) (inp : List Char) (k : Nat) (hk : k ≤ inp.length) :
    mapRes (regex m) f ⟨inp, k⟩ =
    match m (inp.drop k) with
    | some n =>
      match f ((inp.drop k).take n) with
      | some d => .success d n
      | none => .failure (.conversion (inp.drop k) (State.lastOffset ⟨inp, k⟩) 0) .uncommitted
    | none => .failure .incomplete .uncommitted := by
  have h1 : (⟨inp, k⟩ : State Char).withInput = fun (f : List Char → Res Char (List Char)) => f (inp.drop k) := by
    funext f; simp [State.withInput, hk]
  have h2 : (⟨inp, k⟩ : State Char).withInput = fun (f : List Char → Res Char B) => f (inp.drop k) := by
    funext f; simp [State.withInput, hk]
  unfold mapRes regex
  rw [h1, h2]
  dsimp only
  cases hm : m (inp.drop k) with
  | none => rfl
  | some n =>
    dsimp only
    cases hd : f ((inp.drop k).take n) with
    | none => rfl
    | some d =>
      have := h.le _ _ hm
      dsimp only
      rw [Calc.ascii_sum (h.ascii _ _ _ hm hd)]
      simp only [List.length_take]
      congr 1; omega

theorem good_regexRes (h : Anchored m f) : Good (mapRes (regex m) f) where
  nice := by
    refine ⟨fun s hs => ?_, fun pre inp k hk => ?_⟩
    · obtain ⟨inp, k⟩ := s
      simp only at hs
      rw [regexRes_at h inp k hs]
      cases hm : m (inp.drop k) with
      | none => trivial
      | some n =>
        have := h.le _ _ hm
        dsimp only
        cases f ((inp.drop k).take n) with
        | none => trivial
        | some d => simp only [List.length_drop] at this; simp only [SafeAt]; omega
    · rw [regexRes_at h _ _ hk, regexRes_at h _ _ (by simp; omega)]
      have : (pre ++ inp).drop (pre.length + k) = inp.drop k := by simp
      rw [this]
      cases m (inp.drop k) with
      | none => exact rfl
      | some n =>
        dsimp only
        cases f ((inp.drop k).take n) with
        | none => exact rfl
        | some d => exact ⟨rfl, rfl⟩
  tame := by
    intro s v n hs h
    have hk : ¬ s.offset ≤ s.input.length := by omega
    simp [mapRes, regex, State.withInput, hk] at h

theorem eats_regexRes (h : Anchored m f) {v : B} : Eats (mapRes (regex m) f) t v rest ↔
    m (t ++ rest) = some t.length ∧ f t = some v := by
  unfold Eats
  rw [regexRes_at h _ _ (Nat.zero_le _), List.drop_zero]
  constructor
  · intro e
    cases hm : m (t ++ rest) with
    | none => rw [hm] at e; cases e
    | some n =>
      rw [hm] at e
      dsimp only at e
      cases hf : f ((t ++ rest).take n) with
      | none => rw [hf] at e; cases e
      | some d =>
        rw [hf] at e
        cases e
        exact ⟨rfl, by simpa using hf⟩
  · rintro ⟨h1, h2⟩
    simp [h1, h2]

theorem fail_regexRes (h : Anchored m f) {c : Committed} : Fail (mapRes (regex m) f) r c ↔
    c = .uncommitted ∧ ∀ n, m r = some n → f (r.take n) = none := by
  unfold Fail
  rw [regexRes_at h _ _ (Nat.zero_le _), List.drop_zero]
  cases hm : m r with
  | none => cases c <;> simp
  | some n =>
    cases hf : f (r.take n) <;> cases c <;> simp [hf]

theorem ret_regex : Ret (regex m) r := by
  unfold Ret regex
  simp only [State.withInput, Nat.zero_le, if_true, List.drop_zero]
  cases m r <;> simp

theorem regex_mapRes : regex m = mapRes (regex m) some := by
  funext s
  unfold mapRes
  cases regex m s <;> rfl

end regex

/-! ### Tags -/

section tag
variable {t r rest lit : List Char} {c : Committed}

theorem eats_tag {v : List Char} : Eats (tag lit) t v rest ↔ t = lit ∧ v = lit := eats_seq

theorem fail_tag : (∃ c, Fail (tag lit) r c) ↔ ¬ lit <+: r := fail_seq

theorem ret_tag : Ret (tag lit) r := ret_seq

theorem fail_tag_head {x : Char} {l : List Char} (h : NoHead (· = x) r) : Fail (tag (x :: l)) r .uncommitted := by
  exact fail_seq_soft fun r' e => h _ _ e rfl

end tag

namespace Toys.Parse
open OniComb.Calc.Spec (Blank Digits)
open OniComb.Calc (BlankC blank_split blank_cut blank_nil)
open OniComb.Toys.Text
variable {A B C : Type} {t r rest : List Char} {S : Std}

theorem bapp {a b : List Char} (ha : Blank a) (hb : Blank b) : Blank (a ++ b) := Calc.Blank.append ha hb
theorem bright {a b : List Char} (h : Blank (a ++ b)) : Blank b := fun c hc => h c (by simp [hc])
theorem bleft {a b : List Char} (h : Blank (a ++ b)) : Blank a := fun c hc => h c (by simp [hc])

theorem space_eq : space = Calc.space := rfl
instance : Good space := by unfold space; infer_instance

theorem eats_space {u : Unit} : Eats space t u rest ↔ Blank t ∧ NoHead BlankC rest := Calc.eats_space
theorem ret_space : Ret space r := Calc.ret_space

theorem noHead_nil' {P : Char → Prop} : NoHead P [] := fun _ _ h => by cases h

/-! ### Blanks around a parser -/

section
variable {p : Parser Char A} {q : Parser Char B}

instance [Good p] : Good (spaced p) := by unfold spaced; infer_instance

theorem eats_spaced [Good p] {v : A} : Eats (spaced p) t v rest ↔ ∃ a u b, t = a ++ (u ++ b) ∧ Blank a ∧
    NoHead BlankC (u ++ (b ++ rest)) ∧ Eats p u v (b ++ rest) ∧ Blank b ∧ NoHead BlankC rest := by
  unfold spaced
  constructor
  · intro h
    obtain ⟨t1, b, w, rfl, h1, h2⟩ := eats_skipRight.1 h
    obtain ⟨a, u, w', rfl, h3, h4⟩ := eats_skipLeft.1 h1
    obtain ⟨h2a, h2b⟩ := eats_space.1 h2
    obtain ⟨h3a, h3b⟩ := eats_space.1 h3
    exact ⟨a, u, b, by simp, h3a, h3b, h4, h2a, h2b⟩
  · rintro ⟨a, u, b, rfl, h1, h2, h3, h4, h5⟩
    have := Eats.skipRight (p := skipLeft space p) (q := space) (t1 := a ++ u) (t2 := b) (rest := rest) (v := v)
      (w := ()) (Eats.skipLeft (v := ()) (eats_space.2 ⟨h1, h2⟩) h3) (eats_space.2 ⟨h4, h5⟩)
    simpa using this

theorem fail_spaced [Good p] {c : Committed} : Fail (spaced p) r c ↔
    ∃ a u, r = a ++ u ∧ Blank a ∧ NoHead BlankC u ∧ Fail p u c := by
  unfold spaced
  rw [fail_skipRight, fail_skipLeft]
  constructor
  · rintro ((h | ⟨a, w, u, rfl, h1, h2⟩) | ⟨a, w, u, rfl, h1, h2⟩)
    · exact absurd h Calc.fail_space
    · obtain ⟨h3, h4⟩ := eats_space.1 h1
      exact ⟨a, u, rfl, h3, h4, h2⟩
    · exact absurd h2 Calc.fail_space
  · rintro ⟨a, u, rfl, h1, h2, h3⟩
    exact .inl (.inr ⟨a, (), u, rfl, eats_space.2 ⟨h1, h2⟩, h3⟩)

theorem ret_spaced [Good p] (h : ∀ r', r' <:+ r → Ret p r') : Ret (spaced p) r := by
  unfold spaced
  exact ret_skipRight.2 ⟨ret_skipLeft.2 ⟨ret_space, fun t _ rest e _ => h _ ⟨t, e.symm⟩⟩, fun _ _ _ _ _ => ret_space⟩

/-- The text of `u` with blanks around it. -/
def Pad (P : A → List Char → Prop) (v : A) (t : List Char) : Prop :=
  ∃ a u b, t = a ++ (u ++ b) ∧ Blank a ∧ Blank b ∧ P v u

theorem Pad.of {P : A → List Char → Prop} {v : A} (h : P v t) : Pad P v t :=
  ⟨[], t, [], by simp, blank_nil, blank_nil, h⟩

theorem Pad.pad {P : A → List Char → Prop} {v : A} {a b : List Char} (h : Pad P v t) (ha : Blank a) (hb : Blank b) :
    Pad P v (a ++ (t ++ b)) := by
  obtain ⟨a', u, b', rfl, h1, h2, h3⟩ := h
  exact ⟨a ++ a', u, b' ++ b, by simp, bapp ha h1, bapp h2 hb, h3⟩

theorem Pad.mono {P Q : A → List Char → Prop} {v : A} (h : Pad P v t) (hPQ : ∀ u, P v u → Q v u) : Pad Q v t := by
  obtain ⟨a, u, b, h1, h2, h3, h4⟩ := h
  exact ⟨a, u, b, h1, h2, h3, hPQ u h4⟩

theorem spaced_sound [Good p] {P : A → List Char → Prop} {v : A} (hp : ∀ t rest, Eats p t v rest → Pad P v t)
    (h : Eats (spaced p) t v rest) : Pad P v t := by
  obtain ⟨a, u, b, rfl, h1, -, h3, h4, -⟩ := eats_spaced.1 h
  exact (hp _ _ h3).pad h1 h4

/-- The parser reads the text and some of the blanks after it. -/
def Reads (p : Parser Char A) (t : List Char) (v : A) (rest : List Char) : Prop :=
  ∃ w r, rest = w ++ r ∧ Blank w ∧ Eats p (t ++ w) v r

/-- The parser reads the text and all blanks around it. -/
def Takes (p : Parser Char A) (t : List Char) (v : A) (rest : List Char) : Prop :=
  ∀ a b r, rest = b ++ r → Blank a → Blank b → NoHead BlankC r → Eats p (a ++ (t ++ b)) v r

theorem Reads.of {v : A} (h : Eats p t v rest) : Reads p t v rest := ⟨[], rest, rfl, blank_nil, by simpa using h⟩

theorem Takes.reads {v : A} (h : Takes p t v rest) : Reads p t v rest := by
  obtain ⟨w, r, rfl, h1, h2⟩ := blank_split rest
  exact ⟨w, r, rfl, h1, h [] w r rfl blank_nil h1 h2⟩

/-- A text that begins with a character that is not blank. -/
def Solid (t : List Char) : Prop := t ≠ [] ∧ NoHead BlankC t

theorem Solid.append (h : Solid t) : NoHead BlankC (t ++ r) := (noHead_append h.1).2 h.2

theorem solid_cons {c : Char} (h : ¬ BlankC c) : Solid (c :: t) := ⟨by simp, noHead_cons.2 h⟩

theorem Solid.app (h : Solid t) : Solid (t ++ r) := ⟨by have := h.1; simp [this], h.append⟩

theorem spaced_takes [Good p] {v : A} (hs : Solid t) (h : Reads p t v rest) : Takes (spaced p) t v rest := by
  rintro a b r rfl ha hb hr
  obtain ⟨w, r', e, hw, h⟩ := h
  obtain ⟨b', rfl, rfl⟩ := blank_cut e.symm hw hr
  have h1 : Eats (spaced p) (a ++ ((t ++ w) ++ b')) v r := by
    refine eats_spaced.2 ⟨a, t ++ w, b', rfl, ha, ?_, h, fun c hc => hb c (by simp [hc]), hr⟩
    rw [List.append_assoc]; exact hs.append
  simpa using h1

/-- What may be used for `b ++ rest` in `Reads`. -/
theorem Reads.cut {v : A} {b r : List Char} (h : Reads p t v (b ++ r)) (hr : NoHead BlankC r) :
    ∃ w b', b = w ++ b' ∧ Blank w ∧ Eats p (t ++ w) v (b' ++ r) := by
  obtain ⟨w, r', e, hw, h⟩ := h
  obtain ⟨b', rfl, rfl⟩ := blank_cut e.symm hw hr
  exact ⟨w, b', rfl, hw, h⟩

/-- `p - q`, where `q` is a token. -/
theorem reads_skipRight [Good p] [Good q] {v : A} {w : B} {u b d : List Char} (hu : Solid u)
    (h1 : Reads p t v (b ++ (u ++ (d ++ rest)))) (h2 : Takes q u w (d ++ rest)) (hb : Blank b) (hd : Blank d)
    (hr : NoHead BlankC rest) : Eats (skipRight p q) (t ++ (b ++ (u ++ d))) v rest := by
  obtain ⟨x, b', rfl, -, h3⟩ := h1.cut hu.append
  have h4 := h2 b' d rest rfl (bright hb) hd hr
  have := Eats.skipRight (t1 := t ++ x) (t2 := b' ++ (u ++ d)) (rest := rest) (by simpa using h3) h4
  simpa using this

/-- `p + q`, where `q` is a token. -/
theorem reads_andThen [Good p] [Good q] {v : A} {w : B} {u b d : List Char} (hu : Solid u)
    (h1 : Reads p t v (b ++ (u ++ (d ++ rest)))) (h2 : Takes q u w (d ++ rest)) (hb : Blank b) (hd : Blank d)
    (hr : NoHead BlankC rest) : Eats (andThen p q) (t ++ (b ++ (u ++ d))) (v, w) rest := by
  obtain ⟨x, b', rfl, -, h3⟩ := h1.cut hu.append
  have h4 := h2 b' d rest rfl (bright hb) hd hr
  have := Eats.andThen (t1 := t ++ x) (t2 := b' ++ (u ++ d)) (rest := rest) (by simpa using h3) h4
  simpa using this

end

/-! ### Names -/

theorem start_iff {c : Char} : identStart c = true ↔ Start c := by
  unfold identStart Start Chr.isAlpha Chr.between
  simp only [Bool.or_eq_true, beq_iff_eq, decide_eq_true_eq, Bool.and_eq_true, Char.le_def, UInt32.le_iff_toNat_le,
    Char.toNat]
  tauto

theorem digit_iff {c : Char} : Chr.isDigit c = true ↔ '0' ≤ c ∧ c ≤ '9' := by
  simp only [Chr.isDigit, Chr.between, Char.le_def, UInt32.le_iff_toNat_le]
  simp

theorem part_iff {c : Char} : identPart c = true ↔ Part c := by
  unfold Part
  rw [← start_iff, ← digit_iff]
  unfold identPart identStart
  simp only [Bool.or_eq_true]
  tauto

theorem part_ascii {c : Char} (h : Part c) : c.toNat < 128 := by
  unfold Part Start at h
  simp only [Char.le_def, UInt32.le_iff_toNat_le] at h
  have key : ∀ d : Char, c.val.toNat ≤ d.val.toNat → d.toNat < 128 → c.toNat < 128 := fun d h1 h2 =>
    Nat.lt_of_le_of_lt h1 h2
  rcases h with (⟨-, h⟩ | ⟨-, h⟩ | rfl) | ⟨-, h⟩
  · exact key 'z' h (by decide)
  · exact key 'Z' h (by decide)
  · decide
  · exact key '9' h (by decide)

/-- Names as lists of characters. -/
def IdentL (t : List Char) : Prop := ∃ c r, t = c :: r ∧ Start c ∧ ∀ d ∈ r, Part d

theorem takeWhile_exact {f : Char → Bool} {a r : List Char} (h : ∀ c ∈ a, f c = true)
    (hr : NoHead (fun c => f c = true) r) : (a ++ r).takeWhile f = a := by
  rw [List.takeWhile_append_of_pos h]
  cases r with
  | nil => simp
  | cons c r =>
    have := noHead_cons.1 hr
    simp [this]

theorem takeWhile_cut (f : Char → Bool) (r : List Char) : ∃ t rest, r = t ++ rest ∧ r.takeWhile f = t ∧
    (∀ c ∈ t, f c = true) ∧ NoHead (fun c => f c = true) rest := by
  refine ⟨r.takeWhile f, r.dropWhile f, by simp, rfl, fun d hd => List.all_eq_true.1 List.all_takeWhile d hd, ?_⟩
  intro d r' e hd
  have := List.head?_dropWhile_not f r
  rw [e] at this
  simp [hd] at this

theorem matchIdent_cons (c : Char) (r : List Char) :
    matchIdent (c :: r) = if identStart c then some (1 + (r.takeWhile identPart).length) else none := rfl

theorem matchIdent_some {n : Nat} : matchIdent r = some n ↔
    ∃ t rest, r = t ++ rest ∧ n = t.length ∧ IdentL t ∧ NoHead Part rest := by
  cases r with
  | nil =>
    constructor
    · intro h; cases h
    · rintro ⟨t, rest, h1, -, ⟨c, r, rfl, -⟩, -⟩; cases h1
  | cons c r =>
    rw [matchIdent_cons]
    constructor
    · intro h
      by_cases hc : identStart c = true
      · rw [if_pos hc] at h
        obtain ⟨t, rest, rfl, h1, h2, h3⟩ := takeWhile_cut identPart r
        rw [h1] at h
        cases h
        exact ⟨c :: t, rest, by simp, by simp [Nat.add_comm],
          ⟨c, _, rfl, start_iff.1 hc, fun d hd => part_iff.1 (h2 d hd)⟩, h3.mono fun d hd => part_iff.2 hd⟩
      · rw [if_neg hc] at h; cases h
    · rintro ⟨t, rest, h1, rfl, ⟨c', r', rfl, h2, h3⟩, h4⟩
      obtain ⟨rfl, rfl⟩ : c = c' ∧ r = r' ++ rest := by simpa using h1
      rw [if_pos (start_iff.2 h2), takeWhile_exact (fun d hd => part_iff.2 (h3 d hd))
        (h4.mono fun d hd => part_iff.1 hd)]
      simp [Nat.add_comm]

theorem identL_part {t : List Char} (h : IdentL t) : ∀ c ∈ t, Part c := by
  obtain ⟨c, r, rfl, h1, h2⟩ := h
  intro d hd
  rcases List.mem_cons.1 hd with rfl | hd
  · exact .inl h1
  · exact h2 d hd

theorem matchIdent_anchored : Anchored matchIdent some where
  le := by
    intro t n h
    obtain ⟨u, rest, rfl, rfl, -⟩ := matchIdent_some.1 h
    simp
  ascii := by
    intro t n v h _ c hc
    obtain ⟨u, rest, rfl, rfl, h1, -⟩ := matchIdent_some.1 h
    simp only [List.take_left] at hc
    exact part_ascii (identL_part h1 c hc)

instance : Good (regex matchIdent) := by rw [regex_mapRes]; exact good_regexRes matchIdent_anchored

theorem eats_name_text {v : List Char} : Eats (regex matchIdent) t v rest ↔ v = t ∧ IdentL t ∧ NoHead Part rest := by
  rw [regex_mapRes, eats_regexRes matchIdent_anchored, matchIdent_some]
  constructor
  · rintro ⟨⟨u, r', e, h1, h2, h3⟩, h4⟩
    obtain ⟨rfl, rfl⟩ := List.append_inj e (by simpa using h1)
    cases h4
    exact ⟨rfl, h2, h3⟩
  · rintro ⟨rfl, h1, h2⟩
    exact ⟨⟨v, rest, rfl, rfl, h1, h2⟩, rfl⟩

theorem fail_name_text {c : Committed} : Fail (regex matchIdent) r c ↔ c = .uncommitted ∧ NoHead Start r := by
  rw [regex_mapRes, fail_regexRes matchIdent_anchored]
  refine and_congr Iff.rfl ⟨fun h => ?_, fun h n hn => ?_⟩
  · rintro d r' rfl hd
    have := h (1 + (r'.takeWhile identPart).length) (by rw [matchIdent_cons, if_pos (start_iff.2 hd)])
    cases this
  · obtain ⟨t, rest, rfl, -, ⟨d, r', rfl, h1, -⟩, -⟩ := matchIdent_some.1 hn
    exact absurd h1 (noHead_cons.1 h)

theorem ident_iff {n : Name} : Ident n ↔ IdentL n.toList := Iff.rfl

theorem start_not_blank {c : Char} (h : Start c) : ¬ BlankC c := by
  rintro (rfl | rfl | rfl | rfl) <;> revert h <;> unfold Start <;> decide

theorem part_not_blank {c : Char} (h : Part c) : ¬ BlankC c := by
  rintro (rfl | rfl | rfl | rfl) <;> revert h <;> unfold Part Start <;> decide

theorem identL_solid {t : List Char} (h : IdentL t) : Solid t := by
  obtain ⟨c, r, rfl, h1, -⟩ := h
  exact solid_cons (start_not_blank h1)

instance : Good ident := by unfold ident; infer_instance

theorem eats_ident {n : Name} : Eats ident t n rest ↔ ∃ a b, t = a ++ (n.toList ++ b) ∧ Blank a ∧ Ident n ∧
    NoHead Part (b ++ rest) ∧ Blank b ∧ NoHead BlankC rest := by
  unfold ident
  rw [eats_map]
  constructor
  · rintro ⟨l, h, rfl⟩
    obtain ⟨a, u, b, rfl, h1, h2, h3, h4, h5⟩ := eats_spaced.1 h
    obtain ⟨rfl, h6, h7⟩ := eats_name_text.1 h3
    refine ⟨a, b, by simp, h1, ?_, h7, h4, h5⟩
    rw [ident_iff]; simpa using h6
  · rintro ⟨a, b, rfl, h1, h2, h3, h4, h5⟩
    refine ⟨n.toList, eats_spaced.2 ⟨a, n.toList, b, rfl, h1, ?_, eats_name_text.2 ⟨rfl, h2, h3⟩, h4, h5⟩, by simp⟩
    exact (identL_solid h2).append

theorem fail_ident {a : List Char} (ha : Blank a) (h : NoHead Start r) (h' : NoHead BlankC r) :
    Fail ident (a ++ r) .uncommitted := by
  unfold ident
  exact (fail_spaced.2 ⟨a, r, rfl, ha, h', fail_name_text.2 ⟨rfl, h⟩⟩).map _

theorem ret_ident : Ret ident r := by
  unfold ident
  exact ret_map.2 (ret_spaced fun _ _ => ret_regex)

theorem ident_takes {n : Name} (h : Ident n) (hr : NoHead Part rest) : Takes ident n.toList n rest := by
  rintro a b r rfl ha hb hr'
  exact eats_ident.2 ⟨a, b, rfl, ha, h, hr, hb, hr'⟩

theorem ident_ne {n : Name} (h : Eats ident t n rest) : t ≠ [] := by
  obtain ⟨a, b, rfl, -, ⟨c, r, e, -⟩, -⟩ := eats_ident.1 h
  simp [e]

/-! ### Punctuation and words -/

section
variable {c : Char} {k : List Char}

/-- `spaced (tag k)` -/
theorem eats_word {v : List Char} : Eats (spaced (tag k)) t v rest ↔ ∃ a b, t = a ++ (k ++ b) ∧ v = k ∧ Blank a ∧
    NoHead BlankC (k ++ (b ++ rest)) ∧ Blank b ∧ NoHead BlankC rest := by
  rw [eats_spaced]
  constructor
  · rintro ⟨a, u, b, rfl, h1, h2, h3, h4, h5⟩
    obtain ⟨rfl, rfl⟩ := eats_tag.1 h3
    exact ⟨a, b, rfl, rfl, h1, h2, h4, h5⟩
  · rintro ⟨a, b, rfl, rfl, h1, h2, h4, h5⟩
    exact ⟨a, v, b, rfl, h1, h2, eats_tag.2 ⟨rfl, rfl⟩, h4, h5⟩

theorem word_takes (h : Solid k) : Takes (spaced (tag k)) k k rest := by
  rintro a b r rfl ha hb hr
  exact eats_word.2 ⟨a, b, rfl, rfl, ha, h.append, hb, hr⟩

theorem ret_word : Ret (spaced (tag k)) r := ret_spaced fun _ _ => ret_tag

theorem fail_word {a : List Char} (ha : Blank a) (hr : NoHead BlankC r) (h : ¬ k <+: r) :
    ∃ c, Fail (spaced (tag k)) (a ++ r) c := by
  obtain ⟨c, hc⟩ := fail_tag.2 h
  exact ⟨c, fail_spaced.2 ⟨a, r, rfl, ha, hr, hc⟩⟩

theorem fail_word_head {x : Char} {a : List Char} (ha : Blank a) (hr : NoHead BlankC r) (h : NoHead (· = x) r) :
    Fail (spaced (tag (x :: k))) (a ++ r) .uncommitted :=
  fail_spaced.2 ⟨a, r, rfl, ha, hr, fail_tag_head h⟩

instance : Good (punct c) := by unfold punct; infer_instance
instance {k : String} : Good (word k) := by unfold word; infer_instance

theorem eats_punct {v : List Char} (h : Eats (punct c) t v rest) : ∃ a b, t = a ++ c :: b ∧ Blank a ∧ Blank b ∧
    NoHead BlankC rest := by
  obtain ⟨a, b, rfl, -, h1, -, h2, h3⟩ := eats_word.1 h
  exact ⟨a, b, rfl, h1, h2, h3⟩

theorem punct_takes (h : ¬ BlankC c) : Takes (punct c) [c] [c] rest := word_takes (solid_cons h)

theorem ret_punct : Ret (punct c) r := ret_word

theorem fail_punct {a : List Char} (ha : Blank a) (hr : NoHead BlankC r) (h : NoHead (· = c) r) :
    Fail (punct c) (a ++ r) .uncommitted := fail_word_head ha hr h

theorem punct_ne {v : List Char} (h : Eats (punct c) t v rest) : t ≠ [] := by
  obtain ⟨a, b, rfl, -⟩ := eats_punct h
  simp

end

/-! ### Integers -/

theorem digitsValue_some {ds : List Char} {n v : Nat} : digitsValue n ds = some v ↔
    (∀ c ∈ ds, '0' ≤ c ∧ c ≤ '9') ∧ v = ds.foldl (fun n c => n * 10 + (c.toNat - 48)) n := by
  induction ds generalizing n with
  | nil => simp [digitsValue, eq_comm]
  | cons c ds ih =>
    unfold digitsValue
    by_cases hc : Chr.isDigit c = true
    · rw [if_pos hc, ih]
      have := digit_iff.1 hc
      simp only [List.mem_cons, forall_eq_or_imp, List.foldl_cons, this, and_self, true_and]
      rw [Nat.mul_comm]
    · rw [if_neg hc]
      have : ¬ ('0' ≤ c ∧ c ≤ '9') := fun h => hc (digit_iff.2 h)
      simp [this]

theorem inI64_iff {i : Int} : inI64 i = true ↔ Fits i := by
  unfold inI64 Fits i64Min i64Max
  simp only [Bool.and_eq_true, decide_eq_true_eq]
  constructor <;> rintro ⟨h1, h2⟩ <;> constructor <;> omega

theorem filter_some {A : Type} {o : Option A} {f : A → Bool} {x : A} :
    o.filter f = some x ↔ o = some x ∧ f x = true := by
  cases o with
  | none => simp
  | some y =>
    simp only [Option.filter_some, Option.some.injEq]
    by_cases h : f y = true
    · simp only [h, if_true, Option.some.injEq]
      exact ⟨fun e => ⟨e, e ▸ h⟩, fun e => e.1⟩
    · rw [if_neg h]
      simp only [reduceCtorEq, false_iff, not_and]
      rintro rfl; exact h

theorem digits_cons {c : Char} {r : List Char} (h : Digits (c :: r)) : '0' ≤ c ∧ c ≤ '9' := h.2 c (by simp)

theorem parseI64_some {i : Int} : parseI64 t = some i ↔ IntText i t := by
  cases t with
  | nil =>
    refine ⟨fun h => (by cases h), fun h => ?_⟩
    cases h with
    | pos h => exact absurd rfl h.1
  | cons c r =>
    by_cases hc : c = '-'
    · subst hc
      show (if r = [] then none else ((digitsValue 0 r).map fun n : Nat => -(n : Int)).filter inI64) = some i ↔ _
      constructor
      · intro h
        split at h
        · cases h
        · rename_i hr
          obtain ⟨h1, h2⟩ := filter_some.1 h
          obtain ⟨n, h3, rfl⟩ := Option.map_eq_some_iff.1 h1
          obtain ⟨h4, rfl⟩ := digitsValue_some.1 h3
          exact .neg ⟨hr, h4⟩ (inI64_iff.1 h2)
      · intro h
        cases h with
        | pos h => exact absurd (digits_cons h) (by decide)
        | neg h h' =>
          rw [if_neg h.1]
          exact filter_some.2 ⟨Option.map_eq_some_iff.2 ⟨_, digitsValue_some.2 ⟨h.2, rfl⟩, rfl⟩, inI64_iff.2 h'⟩
    · have e : parseI64 (c :: r) = ((digitsValue 0 (c :: r)).map fun n : Nat => (n : Int)).filter inI64 := by
        unfold parseI64
        split
        · rename_i h; cases h
        · rename_i h; cases h; exact absurd rfl hc
        · rfl
      rw [e]
      constructor
      · intro h
        obtain ⟨h1, h2⟩ := filter_some.1 h
        obtain ⟨n, h3, rfl⟩ := Option.map_eq_some_iff.1 h1
        obtain ⟨h4, rfl⟩ := digitsValue_some.1 h3
        exact .pos ⟨by simp, h4⟩ (inI64_iff.1 h2)
      · intro h
        cases h with
        | pos h h' =>
          exact filter_some.2 ⟨Option.map_eq_some_iff.2 ⟨_, digitsValue_some.2 ⟨h.2, rfl⟩, rfl⟩, inI64_iff.2 h'⟩
        | neg h h' => exact absurd rfl hc

theorem matchDigits_some {n : Nat} : matchDigits S r = some n ↔ ∃ t rest, r = t ++ rest ∧ n = t.length ∧ t ≠ [] ∧
    (∀ c ∈ t, isDigit S c = true) ∧ NoHead (fun c => isDigit S c = true) rest := by
  unfold matchDigits
  obtain ⟨t, rest, rfl, h1, h2, h3⟩ := takeWhile_cut (isDigit S) r
  rw [h1]
  constructor
  · intro h
    split at h
    · cases h
    · rename_i h0
      cases h
      exact ⟨t, rest, rfl, rfl, fun e => h0 (by simp [e]), h2, h3⟩
  · rintro ⟨t', rest', e, rfl, h4, h5, h6⟩
    have : t = t' := by rw [← h1, e, takeWhile_exact h5 h6]
    subst this
    rw [if_neg (by simpa using h4)]

/-- The shape of what `-?\d+` matches. -/
theorem matchInteger_some {n : Nat} : matchInteger S r = some n ↔ ∃ s t rest, r = s ++ (t ++ rest) ∧
    (s = [] ∨ s = ['-']) ∧ n = s.length + t.length ∧ t ≠ [] ∧ (∀ c ∈ t, isDigit S c = true) ∧
    NoHead (fun c => isDigit S c = true) rest := by
  have hm : isDigit S '-' ≠ true := by unfold isDigit; rw [if_pos (by decide)]; decide
  by_cases hr : ∃ r', r = '-' :: r'
  · obtain ⟨r', rfl⟩ := hr
    show (matchDigits S r').map (· + 1) = some n ↔ _
    rw [Option.map_eq_some_iff]
    constructor
    · rintro ⟨m, h, rfl⟩
      obtain ⟨t, rest, rfl, rfl, h1, h2, h3⟩ := matchDigits_some.1 h
      exact ⟨['-'], t, rest, rfl, .inr rfl, by simp [Nat.add_comm], h1, h2, h3⟩
    · rintro ⟨s, t, rest, e, rfl | rfl, rfl, h1, h2, h3⟩
      · cases t with
        | nil => exact absurd rfl h1
        | cons c t =>
          cases e
          exact absurd (h2 '-' (by simp)) hm
      · cases e
        exact ⟨t.length, matchDigits_some.2 ⟨t, rest, rfl, rfl, h1, h2, h3⟩, by simp [Nat.add_comm]⟩
  · have e : matchInteger S r = matchDigits S r := by
      unfold matchInteger
      split
      · exact absurd ⟨_, rfl⟩ hr
      · rfl
    rw [e, matchDigits_some]
    constructor
    · rintro ⟨t, rest, rfl, rfl, h⟩
      exact ⟨[], t, rest, rfl, .inl rfl, by simp, h⟩
    · rintro ⟨s, t, rest, rfl, rfl | rfl, rfl, h⟩
      · exact ⟨t, rest, rfl, by simp, h⟩
      · exact absurd ⟨_, rfl⟩ hr

theorem digit_ascii {c : Char} (h : '0' ≤ c ∧ c ≤ '9') : c.toNat < 128 := part_ascii (.inr h)

theorem isDigit_of {c : Char} (h : '0' ≤ c ∧ c ≤ '9') : isDigit S c = true := by
  unfold isDigit
  rw [if_pos (digit_ascii h)]
  exact digit_iff.2 h

theorem intText_ascii {i : Int} (h : IntText i t) : ∀ c ∈ t, c.toNat < 128 := by
  cases h with
  | pos h => exact fun c hc => digit_ascii (h.2 c hc)
  | neg h =>
    intro c hc
    rcases List.mem_cons.1 hc with rfl | hc
    · decide
    · exact digit_ascii (h.2 c hc)

theorem integer_anchored : Anchored (matchInteger S) parseI64 where
  le := by
    intro t n h
    obtain ⟨s, t, rest, rfl, -, rfl, -⟩ := matchInteger_some.1 h
    simp
  ascii := by
    intro t n v _ h
    exact intText_ascii (parseI64_some.1 h)

instance : Good (mapRes (regex (matchInteger S)) parseI64) := good_regexRes integer_anchored

theorem eats_int {i : Int} : Eats (mapRes (regex (matchInteger S)) parseI64) t i rest ↔
    IntText i t ∧ NoHead (fun c => isDigit S c = true) rest := by
  rw [eats_regexRes integer_anchored, parseI64_some, matchInteger_some]
  constructor
  · rintro ⟨⟨s, u, r', e, -, h1, -, -, h2⟩, h3⟩
    have e' : t ++ rest = (s ++ u) ++ r' := by simpa using e
    obtain ⟨rfl, rfl⟩ := List.append_inj e' (by simpa using h1)
    exact ⟨h3, h2⟩
  · rintro ⟨h, h'⟩
    refine ⟨?_, h⟩
    cases h with
    | pos h => exact ⟨[], t, rest, rfl, .inl rfl, by simp, h.1, fun c hc => isDigit_of (h.2 c hc), h'⟩
    | neg h =>
      exact ⟨['-'], _, rest, rfl, .inr rfl, by simp [Nat.add_comm], h.1, fun c hc => isDigit_of (h.2 c hc), h'⟩

theorem fail_int (h : NoHead (fun c => c = '-' ∨ isDigit S c = true) r) :
    Fail (mapRes (regex (matchInteger S)) parseI64) r .uncommitted := by
  refine (fail_regexRes integer_anchored).2 ⟨rfl, fun n hn => ?_⟩
  obtain ⟨s, u, r', rfl, hs, -, h1, h2, -⟩ := matchInteger_some.1 hn
  rcases hs with rfl | rfl
  · cases u with
    | nil => exact absurd rfl h1
    | cons c u => exact absurd (.inr (h2 c (by simp))) (noHead_cons.1 h)
  · exact absurd (.inl rfl) (noHead_cons.1 h)

theorem intText_solid {i : Int} (h : IntText i t) : Solid t := by
  cases h with
  | pos h =>
    cases t with
    | nil => exact absurd rfl h.1
    | cons c t => exact solid_cons (part_not_blank (.inr (digits_cons h)))
  | neg h => exact solid_cons (by decide)

/-! ### The literals -/

instance : Good (integer S) := by unfold integer; infer_instance
instance : Good stringLiteral := by unfold stringLiteral stringText; infer_instance
instance : Good boolLiteral := by unfold boolLiteral; infer_instance
instance : Good identifier := by unfold identifier; infer_instance

theorem integer_takes {i : Int} (h : IntText i t) (hr : NoHead (fun c => isDigit S c = true) rest) :
    Takes (integer S) t (.integerLiteral i) rest := by
  intro a b r e ha hb hr'
  unfold integer
  exact eats_name.2 (spaced_takes (intText_solid h) (Reads.of ((eats_int.2 ⟨h, hr⟩).map _)) a b r e ha hb hr')

theorem integer_sound {e : Expr} (h : Eats (integer S) t e rest) :
    Pad (fun e t => ∃ i, e = .integerLiteral i ∧ IntText i t) e t := by
  unfold integer at h
  refine spaced_sound (fun t rest h => ?_) (eats_name.1 h)
  obtain ⟨i, h1, rfl⟩ := eats_map.1 h
  exact .of ⟨i, rfl, (eats_int.1 h1).1⟩

theorem fail_integer (h : NoHead (fun c => c = '-' ∨ BlankC c ∨ isDigit S c = true) r) :
    Fail (integer S) r .uncommitted := by
  unfold integer
  refine fail_name.2 (fail_spaced.2 ⟨[], r, rfl, blank_nil, h.mono fun c h => .inr (.inl h), Fail.map _ ?_⟩)
  exact fail_int (h.mono fun c h => h.elim .inl fun h => .inr (.inr h))

theorem ret_integer : Ret (integer S) r := by
  unfold integer
  exact ret_name.2 (ret_spaced fun _ _ => ret_map.2 (ret_mapRes.2 ret_regex))

theorem eats_stringLiteral {e : Expr} : Eats stringLiteral t e rest ↔ ∃ s, e = .stringLiteral s ∧ StrText s t := by
  unfold stringLiteral
  rw [eats_name, eats_attempt, eats_map]
  unfold stringText
  constructor
  · rintro ⟨l, h, rfl⟩
    refine ⟨String.ofList l, rfl, ?_⟩
    unfold StrText
    rw [String.toList_ofList]
    exact (Json.eats_string (K := Json.charKind (F := Unit) fun _ => none)).1 h
  · rintro ⟨s, rfl, h⟩
    exact ⟨s.toList, (Json.eats_string (K := Json.charKind (F := Unit) fun _ => none)).2 h, by simp⟩

theorem fail_stringLiteral (h : NoHead (· = '"') r) : Fail stringLiteral r .uncommitted := by
  unfold stringLiteral stringText
  exact fail_name.2 (fail_attempt_of ((Json.fail_string fun r' e => h _ _ e rfl).map _))

theorem ret_stringLiteral : Ret stringLiteral r := by
  unfold stringLiteral stringText
  exact ret_name.2 (ret_attempt.2 (ret_map.2 (Halts.out _)))

theorem strText_solid {s : String} (h : StrText s t) : ∃ r, t = '"' :: r := by
  obtain ⟨items, -, -, -, rfl⟩ := h
  exact ⟨_, rfl⟩

theorem boolLiteral_takes {b : Bool} : Takes boolLiteral (if b then "true".toList else "false".toList)
    (.boolLiteral b) rest := by
  intro a w r e ha hw hr
  unfold boolLiteral
  refine eats_name.2 (spaced_takes (by cases b <;> exact solid_cons (by decide)) (Reads.of ?_) a w r e ha hw hr)
  cases b
  · have := (Eats.or_right (p := attempt (tag "true".toList)) (p' := tag "false".toList) (t1 := "false".toList)
      (rest := rest) (v := "false".toList)
      (fail_attempt_of (fail_tag_head (noHead_cons.2 (by decide)))) (eats_tag.2 ⟨rfl, rfl⟩)).map
      (fun e => Expr.boolLiteral (decide (e = "true".toList)))
    exact this
  · have := (Eats.or_left (p := attempt (tag "true".toList)) (p' := tag "false".toList) (t1 := "true".toList)
      (rest := rest) (v := "true".toList)
      (Eats.attempt (eats_tag.2 ⟨rfl, rfl⟩))).map
      (fun e => Expr.boolLiteral (decide (e = "true".toList)))
    exact this

theorem boolLiteral_sound {e : Expr} (h : Eats boolLiteral t e rest) :
    Pad (fun e t => e = .boolLiteral true ∧ t = "true".toList ∨ e = .boolLiteral false ∧ t = "false".toList) e t := by
  unfold boolLiteral at h
  refine spaced_sound (fun t rest h => ?_) (eats_name.1 h)
  obtain ⟨l, h1, rfl⟩ := eats_map.1 h
  rcases eats_or.1 h1 with h2 | ⟨-, h2⟩
  · obtain ⟨rfl, rfl⟩ := eats_tag.1 (eats_attempt.1 h2)
    exact .of (.inl ⟨rfl, rfl⟩)
  · obtain ⟨rfl, rfl⟩ := eats_tag.1 h2
    exact .of (.inr ⟨rfl, rfl⟩)

theorem fail_boolLiteral (h1 : NoHead (fun c => c = 'f' ∨ BlankC c) r) (h2 : ¬ "true".toList <+: r) :
    Fail boolLiteral r .uncommitted := by
  unfold boolLiteral
  refine fail_name.2 (fail_spaced.2 ⟨[], r, rfl, blank_nil, h1.mono fun c h => .inr h, Fail.map _ (Fail.or ?_ ?_)⟩)
  · obtain ⟨c, hc⟩ := fail_tag.2 h2
    exact fail_attempt_of hc
  · exact fail_tag_head (h1.mono fun c h => .inl h)

theorem seqLoop_soft {I : Type} {eq : I → I → Bool} {s : State I} {inp lit : List I} (heq : ∀ a b, eq a b = true → a = b) :
    ∀ (pat rest : List I) (i : Nat) (e : PError I), 0 < i →
    seqLoop eq s inp lit i pat rest = .failure e .uncommitted → rest <+: pat
  | [], _, _, _, _, h => nomatch h
  | _ :: _, [], _, _, _, _ => List.nil_prefix
  | c :: pat, x :: rest, i, e, hi, h => by
    unfold seqLoop at h
    split at h
    · rename_i hcx
      rw [heq _ _ hcx]
      exact (List.prefix_cons_inj x).2 (seqLoop_soft heq pat rest (i + 1) e (by omega) h)
    · have : (i != 0) = true := by simp; omega
      rw [this] at h
      simp [Committed.ofBool] at h

/-- A tag whose first character is there fails uncommitted only if the text ends inside it. -/
theorem fail_tag_soft {x : Char} {l r : List Char} (h : Fail (tag (x :: l)) (x :: r) .uncommitted) : r <+: l := by
  obtain ⟨e, h⟩ := h
  unfold tag seq at h
  simp only [State.withInput, Nat.zero_le, if_true, List.drop_zero] at h
  unfold seqLoop at h
  rw [if_pos (by simp)] at h
  exact seqLoop_soft (fun a b h => by simpa using h) l r 1 e (by omega) h

theorem prefix_false {k : List Char} (h : k <+: "false".toList) : k = "false".toList ∨ k <+: "fals".toList := by
  have key : ∀ m ∈ List.range 6, "false".toList.take m = "false".toList ∨ "false".toList.take m <+: "fals".toList := by
    decide
  have h1 := key k.length (List.mem_range.2 (by have := h.length_le; exact Nat.lt_succ_of_le this))
  rwa [← List.prefix_iff_eq_take.1 h] at h1

/-- Where no Boolean is read, names are readable, except at the end of the text. -/
theorem bool_readable {a b : List Char} {n : Name} (ha : Blank a) (hn : Ident n)
    (h : Fail boolLiteral (a ++ (n.toList ++ b)) .uncommitted) : Readable n ∨ n.toList <+: "fals".toList := by
  obtain ⟨a', u, e, ha', hu, h1⟩ := fail_spaced.1 (fail_name.1 h)
  obtain ⟨b', rfl, h2⟩ := blank_cut e ha hu
  have hb : b' = [] := by
    cases b' with
    | nil => rfl
    | cons c b' => exact absurd (ha' c (by simp)) ((identL_solid hn).append _ _ h2)
  subst hb
  obtain rfl : u = n.toList ++ b := by simpa using h2.symm
  rcases fail_or.1 (fail_map.1 h1) with ⟨h2, -⟩ | ⟨h2, h3⟩
  · cases h2
  obtain ⟨-, h4⟩ := fail_attempt.1 h2
  have h4 := fail_tag.1 h4
  have hne : n.toList ≠ "false".toList := by
    intro e
    refine fail_tag.1 ⟨_, h3⟩ ?_
    rw [e]; exact List.prefix_append _ _
  by_cases hf : ∃ r, n.toList = 'f' :: r
  · right
    obtain ⟨r, hr⟩ := hf
    rw [hr] at h3 hne
    have h5 : r ++ b <+: "alse".toList := fail_tag_soft (x := 'f') (l := "alse".toList) h3
    have h6 : 'f' :: r <+: "false".toList :=
      (List.prefix_cons_inj 'f').2 ((List.prefix_append r b).trans h5)
    rw [hr]
    rcases prefix_false h6 with h7 | h7
    · exact absurd h7 hne
    · exact h7
  · left
    refine ⟨fun r e => hf ⟨r, e⟩, fun hp => h4 ?_⟩
    exact hp.trans (List.prefix_append _ _)

theorem ret_boolLiteral : Ret boolLiteral r := by
  unfold boolLiteral
  exact ret_name.2 (ret_spaced fun _ _ => ret_map.2 (ret_or.2 ⟨ret_attempt.2 ret_tag, fun _ => ret_tag⟩))

end Toys.Parse
end OniComb
