import Verif.Lemmas.ChainText
import Verif.Spec.Calculator

/-! # Helper lemmas: the numbers and the blanks of the calculator -/

set_option linter.unusedSectionVars false

namespace OniComb.Calc
open OniComb.Calc.Spec
variable {D : Type} {S : Std D}

/-- `Decimal::from_str` works on bytes and accepts ASCII only. -/
class Lawful (S : Std D) : Prop where
  ascii : ∀ t d, S.dec t = some d → ∀ c ∈ t, c.toNat < 128

theorem matchNumber_le (t : List Char) {n : Nat} (h : matchNumber S t = some n) : n ≤ t.length := by
  unfold matchNumber at h
  dsimp only at h
  have h1 := (List.takeWhile_prefix (isDigit S) (l := t)).length_le
  split at h
  · cases h
  · split at h
    · rename_i r hr
      have h2 := (List.takeWhile_prefix (isDigit S) (l := r)).length_le
      have h3 := congrArg List.length hr
      simp only [List.length_drop, List.length_cons] at h3
      split at h
      · cases h; omega
      · cases h; omega
    · cases h; omega

theorem ascii_sum {t : List Char} (h : ∀ c ∈ t, c.toNat < 128) : (t.map utf8Len).sum = t.length := by
  induction t with
  | nil => rfl
  | cons c t ih =>
    have hc := h c (by simp)
    simp only [List.map_cons, List.sum_cons, List.length_cons, ih fun x hx => h x (by simp [hx]), utf8Len, hc,
      if_pos]
    omega

theorem value_at [L : Lawful S] (inp : List Char) (k : Nat) (hk : k ≤ inp.length) : value S ⟨inp, k⟩ =
    match matchNumber S (inp.drop k) with
    | some n =>
      match S.dec ((inp.drop k).take n) with
      | some d => .success (.value d) n
      | none => .failure (.conversion (inp.drop k) (State.lastOffset ⟨inp, k⟩) 0) .uncommitted
    | none => .failure .incomplete .uncommitted := by
  have h1 : (⟨inp, k⟩ : State Char).withInput = fun (f : List Char → Res Char (List Char)) => f (inp.drop k) := by
    funext f; simp [State.withInput, hk]
  have h2 : (⟨inp, k⟩ : State Char).withInput = fun (f : List Char → Res Char D) => f (inp.drop k) := by
    funext f; simp [State.withInput, hk]
  unfold value map mapRes regex
  rw [h1, h2]
  dsimp only
  cases hm : matchNumber S (inp.drop k) with
  | none => rfl
  | some n =>
    dsimp only
    cases hd : S.dec ((inp.drop k).take n) with
    | none => rfl
    | some d =>
      have := matchNumber_le _ hm
      dsimp only
      rw [ascii_sum (L.ascii _ _ hd)]
      simp only [List.length_take]
      congr 1; omega

instance [L : Lawful S] : Good (value S) where
  nice := by
    refine ⟨fun s hs => ?_, fun pre inp k hk => ?_⟩
    · obtain ⟨inp, k⟩ := s
      simp only at hs
      rw [value_at inp k hs]
      cases hm : matchNumber S (inp.drop k) with
      | none => trivial
      | some n =>
        have := matchNumber_le _ hm
        dsimp only
        cases S.dec ((inp.drop k).take n) with
        | none => trivial
        | some d => simp only [List.length_drop] at this; simp only [SafeAt]; omega
    · rw [value_at _ _ hk, value_at _ _ (by simp; omega)]
      have : (pre ++ inp).drop (pre.length + k) = inp.drop k := by simp
      rw [this]
      cases matchNumber S (inp.drop k) with
      | none => exact rfl
      | some n =>
        dsimp only
        cases S.dec ((inp.drop k).take n) with
        | none => exact rfl
        | some d => exact ⟨rfl, rfl⟩
  tame := by
    intro s v n hs h
    have hk : ¬ s.offset ≤ s.input.length := by omega
    simp [value, map, mapRes, regex, State.withInput, hk] at h

theorem digit_iff {c : Char} : ('0' ≤ c ∧ c ≤ '9') ↔ isDigit S c = true ∧ c.toNat < 128 := by
  have e : Chr.isDigit c = true ↔ '0' ≤ c ∧ c ≤ '9' := by
    simp only [Chr.isDigit, Chr.between, Char.le_def, UInt32.le_iff_toNat_le]
    simp
  unfold isDigit
  constructor
  · intro h
    have : c.toNat < 128 := by
      have := h.2
      simp only [Char.le_def, UInt32.le_iff_toNat_le] at this
      exact Nat.lt_of_le_of_lt this (by decide)
    rw [if_pos this]
    exact ⟨e.2 h, this⟩
  · rintro ⟨h1, h2⟩
    rw [if_pos h2] at h1
    exact e.1 h1

/-- What the expression matches. -/
theorem matchNumber_shape {t : List Char} {n : Nat} (h : matchNumber S t = some n)
    (ha : ∀ c ∈ t.take n, c.toNat < 128) : Numeral (t.take n) := by
  have key : ∀ l : List Char, (∀ c ∈ l.takeWhile (isDigit S), c.toNat < 128) →
      (l.takeWhile (isDigit S)).length ≠ 0 → Digits (l.takeWhile (isDigit S)) := by
    intro l hl h0
    refine ⟨fun e => h0 (by rw [e]; rfl), fun c hc => digit_iff.2 ⟨by simpa using List.all_eq_true.1 List.all_takeWhile c hc, hl c hc⟩⟩
  have hpre : ∀ l : List Char, l.take (l.takeWhile (isDigit S)).length = l.takeWhile (isDigit S) := fun l =>
    List.prefix_iff_eq_take.1 (List.takeWhile_prefix _) |>.symm
  unfold matchNumber at h
  dsimp only at h
  split at h
  · cases h
  · rename_i h0
    split at h
    · rename_i r hr
      have h1 : ∀ m, t.take ((t.takeWhile (isDigit S)).length + 1 + m) = t.takeWhile (isDigit S) ++ '.' :: r.take m := by
        intro m
        rw [Nat.add_assoc, List.take_add, hpre, hr, Nat.add_comm 1 m]
        rfl
      split at h
      · cases h; rw [hpre] at ha ⊢; exact .whole (key t ha h0)
      · rename_i h2
        cases h
        rw [h1, hpre] at ha ⊢
        exact .frac (key t (fun c hc => ha c (by simp [hc])) h0) (key r (fun c hc => ha c (by simp [hc])) h2)
    · cases h; rw [hpre] at ha ⊢; exact .whole (key t ha h0)

theorem digits_takeWhile {a r : List Char} (h : Digits a) (hr : NoHead (fun c => isDigit S c = true) r) :
    (a ++ r).takeWhile (isDigit S) = a := by
  rw [List.takeWhile_append_of_pos fun c hc => (digit_iff.1 (h.2 c hc)).1]
  cases r with
  | nil => simp
  | cons c r =>
    have := noHead_cons.1 hr
    simp [this]

theorem digits_pos {a : List Char} (h : Digits a) : a.length ≠ 0 := by
  have := h.1
  cases a <;> simp at *

theorem matchNumber_numeral {t r : List Char} (h : Numeral t)
    (hr : NoHead (fun c => isDigit S c = true ∨ c = '.') r) : matchNumber S (t ++ r) = some t.length := by
  have hr1 : NoHead (fun c => isDigit S c = true) r := hr.mono fun c h => .inl h
  unfold matchNumber
  dsimp only
  cases h with
  | whole h =>
    rw [digits_takeWhile h hr1, if_neg (digits_pos h), List.drop_left]
    cases r with
    | nil => rfl
    | cons c r =>
      have := noHead_cons.1 hr
      have hc : c ≠ '.' := fun e => this (.inr e)
      split
      · rename_i e; cases e; exact absurd rfl hc
      · rfl
  | @frac a b ha hb =>
    have hd : isDigit S '.' ≠ true := by
      unfold isDigit; rw [if_pos (by decide)]; decide
    rw [List.append_assoc, List.cons_append, digits_takeWhile ha (noHead_cons.2 hd), if_neg (digits_pos ha),
      List.drop_left]
    show (if ((b ++ r).takeWhile (isDigit S)).length = 0 then some a.length
      else some (a.length + 1 + ((b ++ r).takeWhile (isDigit S)).length)) = _
    rw [digits_takeWhile hb hr1, if_neg (digits_pos hb)]
    simp only [List.length_append, List.length_cons]
    congr 1; omega

theorem value_sound [L : Lawful S] {t rest : List Char} {e : Expr D} (h : Eats (value S) t e rest) : Prim S e t := by
  unfold Eats at h
  rw [value_at _ _ (Nat.zero_le _), List.drop_zero] at h
  cases hm : matchNumber S (t ++ rest) with
  | none => rw [hm] at h; cases h
  | some n =>
    rw [hm] at h
    dsimp only at h
    cases hd : S.dec ((t ++ rest).take n) with
    | none => rw [hd] at h; cases h
    | some d =>
      rw [hd] at h
      cases h
      have hs := matchNumber_shape hm (L.ascii _ _ hd)
      rw [List.take_left] at hs hd
      exact .num hs hd

theorem value_complete [L : Lawful S] {t rest : List Char} {d : D} (h : Numeral t) (hd : S.dec t = some d)
    (hr : NoHead (fun c => isDigit S c = true ∨ c = '.') rest) : Eats (value S) t (.value d) rest := by
  unfold Eats
  rw [value_at _ _ (Nat.zero_le _), List.drop_zero, matchNumber_numeral h hr]
  dsimp only
  rw [List.take_left, hd]

theorem value_fail [L : Lawful S] {r : List Char} (h : NoHead (fun c => isDigit S c = true) r) :
    Fail (value S) r .uncommitted := by
  refine ⟨.incomplete, ?_⟩
  rw [value_at _ _ (Nat.zero_le _), List.drop_zero]
  have : matchNumber S r = none := by
    unfold matchNumber
    cases r with
    | nil => rfl
    | cons c r =>
      have := noHead_cons.1 h
      simp [this]
  rw [this]

theorem value_ret [L : Lawful S] {r : List Char} : Ret (value S) r := by
  intro h
  rw [value_at _ _ (Nat.zero_le _)] at h
  cases hm : matchNumber S (r.drop 0) with
  | none => rw [hm] at h; cases h
  | some n =>
    rw [hm] at h
    dsimp only at h
    cases hd : S.dec ((r.drop 0).take n) <;> rw [hd] at h <;> cases h

theorem value_prog [L : Lawful S] : Prog (value S) := ⟨fun t v rest h => by
  have := value_sound h
  cases this with
  | num h _ => cases h with
    | whole h => exact h.1
    | frac h _ => simp
  | neg h => simp
  | pos h => simp
  | paren => simp⟩

/-! ### Blanks -/

abbrev BlankC (c : Char) : Prop := c = ' ' ∨ c = '\t' ∨ c = '\r' ∨ c = '\n'

theorem one_blank : OneOfP (elmOf " \t\r\n".toList) BlankC :=
  (one_of _).congr fun b => by simp [BlankC]

instance : Good space := by unfold space; infer_instance

theorem eats_space {t rest : List Char} {u : Unit} :
    Eats space t u rest ↔ Blank t ∧ NoHead BlankC rest := by
  unfold space
  rw [eats_discard]
  constructor
  · rintro ⟨a, h⟩
    obtain ⟨-, h1, h2⟩ := one_blank.eats_many0.1 h
    exact ⟨h1, h2⟩
  · rintro ⟨h1, h2⟩
    exact ⟨t, one_blank.eats_many0.2 ⟨rfl, h1, h2⟩⟩

theorem ret_space {r : List Char} : Ret space r := by
  unfold space
  exact ret_discard.2 (ret_many0 (fun _ _ => one_blank.ret) fun t v rest _ h => one_blank.prog.out t v _ h)

theorem fail_space {r : List Char} {c : Committed} : ¬ Fail space r c := by
  unfold space
  rw [fail_discard]
  exact fail_many0

/-- Every text is a run of blanks and a text that does not begin with one. -/
theorem blank_split (r : List Char) : ∃ a r', r = a ++ r' ∧ Blank a ∧ NoHead BlankC r' := by
  induction r with
  | nil => exact ⟨[], [], rfl, by simp [Blank], noHead_nil⟩
  | cons c r ih =>
    by_cases hc : BlankC c
    · obtain ⟨a, r', rfl, h1, h2⟩ := ih
      exact ⟨c :: a, r', rfl, by simpa [Blank] using ⟨hc, h1⟩, h2⟩
    · exact ⟨[], c :: r, rfl, by simp [Blank], noHead_cons.2 hc⟩

theorem Blank.append {a b : List Char} (ha : Blank a) (hb : Blank b) : Blank (a ++ b) := by
  intro c hc
  rcases List.mem_append.1 hc with h | h
  · exact ha c h
  · exact hb c h

theorem blank_nil : Blank [] := by simp [Blank]

/-- Two ways to cut a run of blanks off a text that goes on with something else. -/
theorem blank_cut {a b r u : List Char} (e : a ++ r = b ++ u) (ha : Blank a) (hu : NoHead BlankC u) :
    ∃ b', b = a ++ b' ∧ r = b' ++ u := by
  rcases List.append_eq_append_iff.1 e with ⟨b', h1, h2⟩ | ⟨a', h1, h2⟩
  · exact ⟨b', h1, h2⟩
  · cases a' with
    | nil => exact ⟨[], by simpa using h1.symm, by simpa using h2.symm⟩
    | cons c a' =>
      rw [h2] at hu
      exact absurd (ha c (by rw [h1]; simp)) (noHead_cons (P := BlankC).1 hu)

end OniComb.Calc
