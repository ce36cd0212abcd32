import Verif.Lemmas.OneItem
import Verif.Lemmas.TextCount
import Verif.Lemmas.Below
import Verif.Lemmas.UriIpv6
import Verif.Spec.Json

/-! # Helper lemmas: lexical part of the JSON examples -/

set_option linter.unusedSectionVars false

namespace OniComb.Json
open OniComb.Json.Spec

/-- What the proofs use of a kind. -/
class Lawful {I F : Type} [DecidableEq I] [Element I] (K : Kind I F) : Prop where
  inj : ∀ a b : Char, a.toNat < 128 → b.toNat < 128 → K.lit a = K.lit b → a = b
  digit : ∀ b : I, Element.isDigit b = true ↔ Digit K b
  zero : ∀ b : I, Element.isDigitZero b = true ↔ b = K.lit '0'
  hex : ∀ b : I, K.hex b = true ↔ Hex K b
  str_id : ∀ s t, K.str t = some s → s = t
  str_ascii : ∀ t, (∀ b ∈ t, ∃ c : Char, c.toNat < 128 ∧ b = K.lit c) → K.str t = some t
  u16 : ∀ ds, ds.length = 4 → (∀ b ∈ ds, Hex K b) → K.u16 ds = some (hexValue ds)

section
variable {I F : Type} [DecidableEq I] [Element I] {K : Kind I F} [L : Lawful K]
variable {t r rest : List I}

theorem lit_eq {a b : Char} (ha : a.toNat < 128 := by decide) (hb : b.toNat < 128 := by decide) :
    K.lit a = K.lit b ↔ a = b := ⟨L.inj a b ha hb, fun h => by rw [h]⟩

theorem lit_ne {a b : Char} (h : a ≠ b) (ha : a.toNat < 128) (hb : b.toNat < 128) :
    K.lit a ≠ K.lit b := fun e => h ((lit_eq ha hb).1 e)

/-- White space. -/
def WsB (K : Kind I F) (b : I) : Prop := b ∈ K.lits " \t\r\n"

omit L in
theorem ws_iff : Ws K t ↔ ∀ b ∈ t, WsB K b := by
  unfold Ws WsB Kind.lits
  have : " \t\r\n".toList = [' ', '\t', '\r', '\n'] := by decide
  rw [this]
  simp

/-- A literal among literals. -/
theorem lit_mem {c : Char} {s : String} (hc : c.toNat < 128) (hs : ∀ x ∈ s.toList, x.toNat < 128) :
    K.lit c ∈ K.lits s ↔ c ∈ s.toList := by
  unfold Kind.lits
  rw [List.mem_map]
  constructor
  · rintro ⟨x, hx, e⟩
    have := L.inj _ _ (hs x hx) hc e
    rwa [this] at hx
  · exact fun h => ⟨c, h, rfl⟩

theorem lit_noWs {c : Char} (h : c ∉ " \t\r\n".toList := by decide) (hc : c.toNat < 128 := by decide) :
    NoHead (WsB K) (K.lit c :: r) := noHead_cons.2 fun hw => h ((lit_mem hc (by decide)).1 hw)

/-! ### Space -/

instance : Good (space K) := by unfold space; infer_instance
instance : Halts (space K) := by unfold space; infer_instance

omit L in
theorem eats_space {v : Unit} : Eats (space K) t v rest ↔ Ws K t ∧ NoHead (WsB K) rest := by
  unfold space
  rw [eats_discard]
  simp only [(one_of (K.lits " \t\r\n")).eats_many0]
  rw [ws_iff]
  exact ⟨fun ⟨a, _, h⟩ => h, fun h => ⟨t, rfl, h⟩⟩

omit L in
theorem fail_space {c : Committed} : ¬ Fail (space K) r c := by
  unfold space; rw [fail_discard]; exact fail_many0

omit L [DecidableEq I] [Element I] in
theorem ws_nil : Ws K ([] : List I) := by intro b h; cases h

omit L in
theorem eats_space_nil (h : NoHead (WsB K) rest) : Eats (space K) [] () rest := eats_space.2 ⟨ws_nil, h⟩

/-! ### Numbers -/

theorem one_digit : OneOfP (elmDigit : Parser I I) (Digit K) := (one_pred _).congr L.digit

theorem one_digit19 : OneOfP (elmDigit19 : Parser I I) (fun b => Digit K b ∧ b ≠ K.lit '0') where
  good := inferInstance
  eats := by
    intro t v rest
    unfold elmDigit19 filterNot
    rw [eats_filter, (one_digit (K := K)).eats]
    have := L.zero v
    cases h : Element.isDigitZero v <;> simp_all
  fail := by
    intro r c
    unfold elmDigit19 filterNot
    rw [fail_filter, (one_digit (K := K)).fail]
    constructor
    · rintro (⟨rfl, h⟩ | ⟨rfl, t, v, rest, rfl, h1, h2⟩)
      · exact ⟨rfl, h.mono fun _ h => h.1⟩
      · obtain ⟨rfl, -⟩ := (one_digit (K := K)).eats.1 h1
        refine ⟨rfl, noHead_cons.2 fun h => h.2 ((L.zero v).1 ?_)⟩
        simpa using h2
    · rintro ⟨rfl, h⟩
      cases r with
      | nil => exact .inl ⟨rfl, noHead_nil⟩
      | cons b r =>
        rw [noHead_cons] at h
        by_cases hd : Digit K b
        · refine .inr ⟨rfl, [b], b, r, rfl, one_digit.eats.2 ⟨rfl, hd⟩, ?_⟩
          have hb : b = K.lit '0' := by
            by_contra h0; exact h ⟨hd, h0⟩
          simp [(L.zero b).2 hb]
        · exact .inl ⟨rfl, noHead_cons.2 hd⟩
  ret := by
    intro r
    unfold elmDigit19 filterNot
    rw [ret_filter]
    exact (one_digit (K := K)).ret

instance : Good (integer K) := by unfold integer; infer_instance
instance : Good (frac K) := by unfold frac; infer_instance
instance : Good (exp K) := by unfold exp; infer_instance
instance : Good (number K) := by unfold number; infer_instance
instance : Halts (integer K) := by unfold integer; infer_instance
instance : Halts (frac K) := by unfold frac; infer_instance
instance : Halts (exp K) := by unfold exp; infer_instance
instance : Halts (number K) := by unfold number; infer_instance

theorem digit_iff {c : Char} (hc : c.toNat < 128) : Digit K (K.lit c) ↔ c ∈ "0123456789".toList :=
  lit_mem hc (by decide)

theorem sound_integer {v : I} (h : Eats (integer K) t v rest) : IntText K t := by
  unfold integer at h
  rw [eats_or, eats_skipRight, eats_elm] at h
  rcases h with ⟨t1, t2, w, rfl, h1, h2⟩ | ⟨-, rfl, -⟩
  · obtain ⟨rfl, h4, h3⟩ := (one_digit19 (K := K)).eats.1 h1
    obtain ⟨rfl, h2, -⟩ := (one_digit (K := K)).eats_many0.1 h2
    exact .pos h4 h3 h2
  · exact .zero

theorem integer_eats (h : IntText K t) (hr : NoHead (Digit K) rest) : ∃ v, Eats (integer K) t v rest := by
  unfold integer
  cases h with
  | zero =>
    refine ⟨_, Eats.or_right ?_ (eats_elm.2 ⟨rfl, rfl⟩)⟩
    exact Fail.skipRight ((one_digit19 (K := K)).fail.2 ⟨rfl, noHead_cons.2 fun h => h.2 rfl⟩)
  | @pos d ds hd h0 hds =>
    exact ⟨d, Eats.or_left (Eats.skipRight (t1 := [d]) (t2 := ds) ((one_digit19 (K := K)).eats.2 ⟨rfl, hd, h0⟩)
      ((one_digit (K := K)).eats_many0.2 ⟨rfl, hds, hr⟩))⟩

/-- A text that begins with no digit is no integer. -/
theorem fail_integer (hr : NoHead (Digit K) r) : Fail (integer K) r .uncommitted := by
  unfold integer
  refine Fail.or (Fail.skipRight ((one_digit19 (K := K)).fail.2 ⟨rfl, hr.mono fun _ h => h.1⟩)) (fail_elm.2 ⟨rfl, ?_⟩)
  rintro rest rfl
  exact noHead_cons.1 hr ((digit_iff (by decide)).2 (by decide))

theorem sound_frac {v : Option (I × List I)} (h : Eats (opt (frac K)) t v rest) : FracText K t := by
  unfold frac at h
  rw [eats_opt] at h
  rcases h with ⟨⟨a, b⟩, rfl, h⟩ | ⟨rfl, -, -⟩
  · rw [eats_andThen] at h
    obtain ⟨t1, t2, rfl, h1, h2⟩ := h
    obtain ⟨rfl, -⟩ := eats_elm.1 h1
    obtain ⟨rfl, h2, h3, -⟩ := (one_digit (K := K)).eats_many1.1 h2
    exact .some ⟨h2, h3⟩
  · exact .none

theorem frac_eats (h : FracText K t) (hr : NoHead (fun b => Digit K b ∨ b = K.lit '.') rest) :
    ∃ v, Eats (opt (frac K)) t v rest := by
  unfold frac
  cases h with
  | none =>
    refine ⟨none, eats_opt.2 (.inr ⟨rfl, rfl, _, Fail.andThen (fail_elm.2 ⟨rfl, ?_⟩)⟩)⟩
    rintro r rfl
    exact noHead_cons.1 hr (.inr rfl)
  | @some ds h =>
    exact ⟨some (K.lit '.', ds), eats_opt.2 (.inl ⟨_, rfl, Eats.andThen (t1 := [_]) (t2 := ds)
      (eats_elm.2 ⟨rfl, rfl⟩) ((one_digit (K := K)).eats_many1.2 ⟨rfl, h.1, h.2, hr.mono fun _ => .inl⟩)⟩)⟩

omit L in
theorem lits_two {a b : Char} {s : String} (hs : s.toList = [a, b]) {x : I} :
    x ∈ K.lits s ↔ x = K.lit a ∨ x = K.lit b := by
  unfold Kind.lits; rw [hs]; simp

omit L in
theorem mem_eE {x : I} : x ∈ K.lits "eE" ↔ x = K.lit 'e' ∨ x = K.lit 'E' := lits_two (by decide)
omit L in
theorem mem_pm {x : I} : x ∈ K.lits "+-" ↔ x = K.lit '+' ∨ x = K.lit '-' := lits_two (by decide)

theorem sound_exp {v : Option ((I × Option I) × List I)} (h : Eats (opt (exp K)) t v rest) : ExpText K t := by
  unfold exp at h
  rw [eats_opt] at h
  rcases h with ⟨⟨⟨a, s⟩, b⟩, rfl, h⟩ | ⟨rfl, -, -⟩
  · rw [eats_andThen] at h
    obtain ⟨t1, t2, rfl, h1, h2⟩ := h
    rw [eats_andThen] at h1
    obtain ⟨t3, t4, rfl, h3, h4⟩ := h1
    obtain ⟨rfl, h7⟩ := (one_of (K.lits "eE")).eats.1 h3
    obtain ⟨rfl, h5, h6, -⟩ := (one_digit (K := K)).eats_many1.1 h2
    have hs : SignText K t4 := by
      rcases eats_opt.1 h4 with ⟨x, -, hx⟩ | ⟨rfl, -, -⟩
      · obtain ⟨rfl, hy⟩ := (one_of (K.lits "+-")).eats.1 hx
        rcases mem_pm.1 hy with rfl | rfl
        · exact .plus
        · exact .minus
      · exact .none
    have := ExpText.some (mem_eE.1 h7) hs ⟨h5, h6⟩
    simpa using this
  · exact .none

theorem exp_eats (h : ExpText K t)
    (hr : NoHead (fun b => Digit K b ∨ b = K.lit 'e' ∨ b = K.lit 'E') rest) :
    ∃ v, Eats (opt (exp K)) t v rest := by
  unfold exp
  cases h with
  | none =>
    refine ⟨none, eats_opt.2 (.inr ⟨rfl, rfl, _, Fail.andThen (Fail.andThen
      ((one_of (K.lits "eE")).fail.2 ⟨rfl, hr.mono fun b hb => .inr (mem_eE.1 hb)⟩))⟩)⟩
  | @some e s ds he hs h =>
    have hd : NoHead (fun b => b ∈ K.lits "+-") (ds ++ rest) := by
      rw [noHead_append h.1]
      cases ds with
      | nil => exact noHead_nil
      | cons d ds =>
        rw [noHead_cons]
        intro hm
        have := h.2 d (by simp)
        rcases mem_pm.1 hm with rfl | rfl
        · exact absurd ((digit_iff (by decide)).1 this) (by decide)
        · exact absurd ((digit_iff (by decide)).1 this) (by decide)
    have hsign : ∃ o, Eats (opt (elmOf (K.lits "+-"))) s o (ds ++ rest) := by
      cases hs with
      | none => exact ⟨none, eats_opt.2 (.inr ⟨rfl, rfl, _, (one_of (K.lits "+-")).fail.2 ⟨rfl, hd⟩⟩)⟩
      | minus => exact ⟨some _, eats_opt.2 (.inl ⟨_, rfl, (one_of (K.lits "+-")).eats.2 ⟨rfl, mem_pm.2 (.inr rfl)⟩⟩)⟩
      | plus => exact ⟨some _, eats_opt.2 (.inl ⟨_, rfl, (one_of (K.lits "+-")).eats.2 ⟨rfl, mem_pm.2 (.inl rfl)⟩⟩)⟩
    obtain ⟨o, ho⟩ := hsign
    refine ⟨some ((e, o), ds), eats_opt.2 (.inl ⟨_, rfl, ?_⟩)⟩
    have h1 : Eats (elmOf (K.lits "eE")) [e] e (s ++ (ds ++ rest)) :=
      (one_of (K.lits "eE")).eats.2 ⟨rfl, mem_eE.2 he⟩
    have h2 := Eats.andThen (t1 := [e]) (t2 := s) h1 ho
    have := Eats.andThen (t1 := [e] ++ s) (t2 := ds) h2
      ((one_digit (K := K)).eats_many1.2 ⟨rfl, h.1, h.2, hr.mono fun _ => .inl⟩)
    simpa using this

/-- The elements of a number. -/
theorem numText_ascii (h : NumText K t) : ∀ b ∈ t, ∃ c : Char, c.toNat < 128 ∧ b = K.lit c := by
  have hd : ∀ b, Digit K b → ∃ c : Char, c.toNat < 128 ∧ b = K.lit c := by
    intro b hb
    obtain ⟨c, hc, rfl⟩ := List.mem_map.1 hb
    exact ⟨c, (by decide : ∀ x ∈ "0123456789".toList, x.toNat < 128) c hc, rfl⟩
  obtain ⟨s, i, f, e, rfl, hs, hi, hf, he⟩ := h
  intro b hb
  rw [List.mem_append, List.mem_append, List.mem_append] at hb
  rcases hb with hb | hb | hb | hb
  · rcases hs with rfl | rfl
    · cases hb
    · rw [List.mem_singleton] at hb; exact ⟨'-', by decide, hb⟩
  · cases hi with
    | zero => rw [List.mem_singleton] at hb; exact ⟨'0', by decide, hb⟩
    | pos h1 h2 h3 =>
      rcases List.mem_cons.1 hb with rfl | hb
      · exact hd _ h1
      · exact hd _ (h3 _ hb)
  · cases hf with
    | none => cases hb
    | some h =>
      rcases List.mem_cons.1 hb with rfl | hb
      · exact ⟨'.', by decide, rfl⟩
      · exact hd _ (h.2 _ hb)
  · cases he with
    | none => cases hb
    | some h1 h2 h3 =>
      rcases List.mem_cons.1 hb with rfl | hb
      · rcases h1 with rfl | rfl
        · exact ⟨'e', by decide, rfl⟩
        · exact ⟨'E', by decide, rfl⟩
      · rcases List.mem_append.1 hb with hb | hb
        · cases h2 with
          | none => cases hb
          | minus => rw [List.mem_singleton] at hb; exact ⟨'-', by decide, hb⟩
          | plus => rw [List.mem_singleton] at hb; exact ⟨'+', by decide, hb⟩
        · exact hd _ (h3.2 _ hb)

theorem sound_number {x : F} (h : Eats (number K) t x rest) : NumText K t ∧ K.f64 t = some x := by
  unfold number at h
  rw [eats_mapRes] at h
  obtain ⟨s, h, hx⟩ := h
  rw [eats_mapRes] at h
  obtain ⟨s', h, hs⟩ := h
  have := L.str_id _ _ hs
  subst this
  rw [eats_collect] at h
  obtain ⟨rfl, ⟨⟨⟨o, i⟩, f⟩, e⟩, h⟩ := h
  rw [eats_andThen] at h
  obtain ⟨t1, te, rfl, h, he⟩ := h
  rw [eats_andThen] at h
  obtain ⟨t2, tf, rfl, h, hf⟩ := h
  rw [eats_andThen] at h
  obtain ⟨ts, ti, rfl, h, hi⟩ := h
  refine ⟨⟨ts, ti, tf, te, by simp, ?_, sound_integer hi, sound_frac hf, sound_exp he⟩, hx⟩
  rcases eats_opt.1 h with ⟨x, -, hx⟩ | ⟨rfl, -, -⟩
  · exact .inr (eats_elm.1 hx).1
  · exact .inl rfl

/-- What may continue a number. -/
def NumCont (K : Kind I F) (b : I) : Prop := Digit K b ∨ b = K.lit '.' ∨ b = K.lit 'e' ∨ b = K.lit 'E'

theorem number_eats {x : F} (h : NumText K t) (hx : K.f64 t = some x) (hr : NoHead (NumCont K) rest) :
    Eats (number K) t x rest := by
  have hasc := numText_ascii h
  unfold number
  obtain ⟨s, i, f, e, ht, hs, hi, hf, he⟩ := h
  have hE : NoHead (fun b => Digit K b ∨ b = K.lit '.') (e ++ rest) := by
    cases he with
    | none => exact hr.mono fun b hb => hb.imp id .inl
    | some h1 h2 h3 =>
      refine noHead_cons.2 ?_
      rcases h1 with rfl | rfl
      · rintro (h | h)
        · exact absurd ((digit_iff (by decide)).1 h) (by decide)
        · exact lit_ne (K := K) (by decide) (by decide) (by decide) h
      · rintro (h | h)
        · exact absurd ((digit_iff (by decide)).1 h) (by decide)
        · exact lit_ne (K := K) (by decide) (by decide) (by decide) h
  have hF : NoHead (Digit K) (f ++ (e ++ rest)) := by
    cases hf with
    | none => exact hE.mono fun b hb => .inl hb
    | some h => exact noHead_cons.2 fun h => absurd ((digit_iff (by decide)).1 h) (by decide)
  obtain ⟨ve, he'⟩ := exp_eats he (hr.mono fun b hb => hb.imp id .inr)
  obtain ⟨vf, hf'⟩ := frac_eats hf hE
  obtain ⟨vi, hi'⟩ := integer_eats hi hF
  have hsign : ∃ o, Eats (opt (elm (K.lit '-'))) s o (i ++ (f ++ (e ++ rest))) := by
    rcases hs with rfl | rfl
    · refine ⟨none, eats_opt.2 (.inr ⟨rfl, rfl, _, fail_elm.2 ⟨rfl, ?_⟩⟩)⟩
      intro r h
      cases hi with
      | zero =>
        injection h with h
        exact lit_ne (K := K) (by decide) (by decide) (by decide) h
      | pos h1 h2 h3 =>
        injection h with h
        subst h
        exact absurd ((digit_iff (by decide)).1 h1) (by decide)
    · exact ⟨some _, eats_opt.2 (.inl ⟨_, rfl, eats_elm.2 ⟨rfl, rfl⟩⟩)⟩
  obtain ⟨o, ho⟩ := hsign
  have h1 := Eats.andThen ho hi'
  have h2 := Eats.andThen (t1 := s ++ i) (t2 := f) (rest := e ++ rest) (by simpa using h1) hf'
  have h3 := Eats.andThen (t1 := s ++ i ++ f) (t2 := e) (rest := rest) (by simpa using h2) he'
  refine eats_mapRes.2 ⟨t, eats_mapRes.2 ⟨t, eats_collect.2 ⟨rfl, (((o, vi), vf), ve), ?_⟩, L.str_ascii t hasc⟩, hx⟩
  rw [ht]
  simpa using h3

theorem fail_number (hr : NoHead (fun b => Digit K b ∨ b = K.lit '-') r) :
    Fail (number K) r .uncommitted := by
  unfold number
  rw [fail_mapRes, fail_mapRes, fail_collect]
  refine .inl (.inl (Fail.andThen (Fail.andThen ?_)))
  refine Eats.andThen_fail (v := none) (t1 := []) (eats_opt.2 (.inr ⟨rfl, rfl, _, fail_elm.2 ⟨rfl, ?_⟩⟩))
    (fail_integer (hr.mono fun _ => .inl))
  rintro rest rfl
  exact noHead_cons.1 hr (.inr rfl)

end
end OniComb.Json
