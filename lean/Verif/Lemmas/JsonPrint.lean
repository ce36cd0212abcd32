import Verif.Lemmas.JsonKinds

/-! # Helper lemmas: printed JSON values are JSON texts -/

set_option linter.unusedSectionVars false

namespace OniComb.Json
open OniComb.Json.Spec

/-- What printing uses of a kind. -/
class Prints {I F : Type} [DecidableEq I] [Element I] (K : Kind I F) : Prop extends Lawful K where
  code_lit : ∀ c : Char, c.toNat < 128 → Element.code (K.lit c) = c.toNat
  enc_ctl : ∀ b : I, Element.code b < 0x20 → K.enc (Element.code b) = [b]
  str_nil : K.str [] = some []
  split : ∀ a b c, Element.code b < 0x20 → K.str (a ++ b :: c) = some (a ++ b :: c) →
    K.str a = some a ∧ K.str c = some c

section
variable {I F : Type} [DecidableEq I] [Element I] {K : Kind I F} [L : Prints K]

theorem hexChar_ok : ∀ i < 16, hexChar i ∈ "0123456789abcdefABCDEF".toList ∧ (hexChar i).toNat < 128 ∧
    (if (hexChar i).toNat ≤ 57 then (hexChar i).toNat - 48
      else if (hexChar i).toNat ≤ 70 then (hexChar i).toNat - 55 else (hexChar i).toNat - 87) = i := by
  decide

theorem hexDigit_lit {i : Nat} (h : i < 16) : hexDigit (K.lit (hexChar i)) = i := by
  obtain ⟨-, h2, h3⟩ := hexChar_ok i h
  unfold hexDigit
  rw [L.code_lit _ h2]
  exact h3

theorem hexDigit_zero : hexDigit (K.lit '0') = 0 := hexDigit_lit (K := K) (i := 0) (by decide)

theorem hex_lit {i : Nat} (h : i < 16) : Hex K (K.lit (hexChar i)) :=
  List.mem_map.2 ⟨_, (hexChar_ok i h).1, rfl⟩

theorem itemOf_ok (b : I) : (itemOf K b).Ok K false := by
  unfold itemOf
  split
  · show '"' ∈ _; decide
  · split
    · show '\\' ∈ _; decide
    · split
      · rename_i h1 h2 h3
        refine ⟨rfl, ?_⟩
        intro x hx
        simp only [List.mem_cons, List.not_mem_nil, or_false] at hx
        have h0 : Hex K (K.lit '0') := hex_lit (K := K) (i := 0) (by decide)
        rcases hx with rfl | rfl | rfl | rfl
        · exact h0
        · exact h0
        · exact hex_lit (by omega)
        · exact hex_lit (by omega)
      · rename_i h1 h2 h3
        exact ⟨h1, h2, .inr (by omega)⟩

theorem itemOf_unit (b : I) :
    (itemOf K b).unit K = .inl b ∧ 0x20 ≤ Element.code b ∨
      (itemOf K b).unit K = .inr (Element.code b) ∧ Element.code b < 0x20 := by
  unfold itemOf
  split
  · rename_i h
    subst h
    exact .inl ⟨rfl, by rw [L.code_lit _ (by decide)]; decide⟩
  · split
    · rename_i h
      subst h
      exact .inl ⟨rfl, by rw [L.code_lit _ (by decide)]; decide⟩
    · split
      · rename_i h3
        refine .inr ⟨?_, h3⟩
        show Sum.inr (hexValue _) = _
        unfold hexValue
        simp only [List.foldl_cons, List.foldl_nil, hexDigit_zero (K := K)]
        rw [hexDigit_lit (by omega), hexDigit_lit (by omega)]
        congr 1
        omega
      · exact .inl ⟨rfl, by omega⟩

theorem decode_items (s : List I) : decode K (s.map fun b => (itemOf K b).unit K) = s := by
  induction s with
  | nil => rfl
  | cons b s ih =>
    rw [List.map_cons]
    rcases itemOf_unit (K := K) b with ⟨h, -⟩ | ⟨h, hc⟩
    · rw [h]
      show b :: decode K _ = _
      rw [ih]
    · rw [h]
      have h1 : Unicode.isHigh (Element.code b) = false := by unfold Unicode.isHigh; simp; omega
      have h2 : Unicode.isLow (Element.code b) = false := by unfold Unicode.isLow; simp; omega
      have key : ∀ r : List (I ⊕ Nat), decode K (.inr (Element.code b) :: r) = K.enc (Element.code b) ++ decode K r := by
        intro r
        rcases r with _ | ⟨u | w, r⟩
        · simp [decode, h1, h2]
        · simp [decode, h1, h2]
        · simp [decode, h1, h2]
      rw [key, L.enc_ctl b hc, ih]
      rfl

/-- Cutting a string at its control characters. -/
theorem utf8_items {s : List I} (hs : K.str s = some s) : Utf8 K (s.map fun b => (itemOf K b).unit K) := by
  intro pre run post e hrun hpre hpost
  obtain ⟨s1, s', rfl, e1, e'⟩ := List.map_eq_append_iff.1 e
  obtain ⟨s2, s3, rfl, e2, e3⟩ := List.map_eq_append_iff.1 e'
  have h2 : s2 = run := by
    clear e e' hs e3 hrun
    induction run generalizing s2 with
    | nil => simpa using e2
    | cons x run ih =>
      rcases s2 with _ | ⟨y, s2⟩
      · simp at e2
      · simp only [List.map_cons, List.cons.injEq] at e2
        obtain ⟨e4, e5⟩ := e2
        rcases itemOf_unit (K := K) y with ⟨h, -⟩ | ⟨h, -⟩
        · rw [h] at e4
          injection e4 with e4
          rw [e4, ih s2 e5]
        · rw [h] at e4; cases e4
  subst h2
  have ctl : ∀ b u, (itemOf K b).unit K = Sum.inr u → Element.code b < 0x20 := by
    intro b u h
    rcases itemOf_unit (K := K) b with ⟨h', -⟩ | ⟨-, h'⟩
    · rw [h'] at h; cases h
    · exact h'
  have hs23 : K.str (s2 ++ s3) = some (s2 ++ s3) := by
    rcases hpre with rfl | ⟨q, u, rfl⟩
    · have : s1 = [] := by simpa using e1
      subst this
      exact hs
    · obtain ⟨q1, q2, rfl, -, f2⟩ := List.map_eq_append_iff.1 e1
      obtain ⟨b, rfl, hb⟩ : ∃ b, q2 = [b] ∧ (itemOf K b).unit K = .inr u := by
        rcases q2 with _ | ⟨b, _ | _⟩
        · simp at f2
        · exact ⟨b, rfl, by simpa using f2⟩
        · simp at f2
      have := L.split q1 b (s2 ++ s3) (ctl b u hb) (by simpa using hs)
      exact this.2
  rcases hpost with rfl | ⟨u, q, rfl⟩
  · have : s3 = [] := by simpa using e3
    subst this
    simpa using hs23
  · obtain ⟨b, s4, rfl, hb, -⟩ := List.map_eq_cons_iff.1 e3
    exact (L.split s2 b s4 (ctl b u hb) hs23).1

theorem strText_quote {s : List I} (hs : K.str s = some s) : StrText K false s (quote K s) := by
  refine ⟨s.map (itemOf K), ?_, ?_, ?_, ?_⟩
  · intro it hit
    obtain ⟨b, -, rfl⟩ := List.mem_map.1 hit
    exact itemOf_ok b
  · rw [List.map_map]; exact utf8_items hs
  · rw [List.map_map]; exact (decode_items s).symm
  · unfold quote
    rw [List.flatMap_map]

variable {num : F → List I}

theorem lastOf_nodup {V : Type} {ms : List (List I × V)} (h : (ms.map Prod.fst).Nodup) : lastOf ms = ms := by
  induction ms with
  | nil => rfl
  | cons m ms ih =>
    simp only [List.map_cons, List.nodup_cons] at h
    unfold lastOf
    rw [if_neg h.1, ih h.2]

theorem print_elems {vs : List (Value I F)} (h : ∀ v ∈ vs, Text K false v (print K num v)) (hne : vs ≠ []) :
    Elems K false vs (printElems K num vs) := by
  induction vs with
  | nil => exact absurd rfl hne
  | cons v vs ih =>
    cases vs with
    | nil =>
      have := Elems.one (lax := false) (a := []) (b := []) ws_nil (h v (by simp)) ws_nil
      simpa [printElems] using this
    | cons w vs =>
      have := Elems.cons (lax := false) (a := []) (b := []) ws_nil (h v (by simp)) ws_nil
        (ih (fun x hx => h x (by simp [hx])) (by simp))
      simpa [printElems] using this

theorem print_members {ms : List (List I × Value I F)} (h : ∀ v ∈ ms.map Prod.snd, Text K false v (print K num v))
    (hk : ∀ k ∈ ms.map Prod.fst, K.str k = some k) (hne : ms ≠ []) : Members K false ms (printMembers K num ms) := by
  induction ms with
  | nil => exact absurd rfl hne
  | cons m ms ih =>
    obtain ⟨k, v⟩ := m
    have hs := strText_quote (hk k (by simp))
    have hv := h v (by simp)
    cases ms with
    | nil =>
      have := Members.one (lax := false) (a := []) (b := []) (c := []) (d := []) ws_nil hs ws_nil ws_nil hv ws_nil
      simpa [printMembers] using this
    | cons w ms =>
      have := Members.cons (lax := false) (a := []) (b := []) (c := []) (d := []) ws_nil hs ws_nil ws_nil hv ws_nil
        (ih (fun x hx => h x (by rw [List.map_cons]; exact List.mem_cons_of_mem _ hx))
          (fun x hx => hk x (by rw [List.map_cons]; exact List.mem_cons_of_mem _ hx)) (by simp))
      simpa [printMembers] using this

/-- The printed text of a value is a JSON text of it. -/
theorem print_text {v : Value I F} (h : Proper K num v) : Text K false v (print K num v) := by
  induction h with
  | null => unfold print; exact .null
  | bool b => cases b <;> unfold print <;> constructor
  | str hs => unfold print; exact .str (strText_quote hs)
  | num h1 h2 => unfold print; exact .num h1 h2
  | @arr vs _ ih =>
    unfold print
    cases vs with
    | nil => exact Text.arrEmpty (w := []) ws_nil
    | cons v vs => exact .arr (print_elems ih (by simp))
  | @obj ms hnd hk _ ih =>
    unfold print
    cases ms with
    | nil => exact Text.objEmpty (w := []) ws_nil
    | cons m ms =>
      have := Text.obj (print_members ih hk (by simp))
      rwa [lastOf_nodup hnd] at this

end

/-! ### The two kinds -/

variable {F : Type}

instance prints_char (f64 : List Char → Option F) : Prints (charKind f64) where
  toLawful := lawful_char f64
  code_lit := fun c _ => rfl
  enc_ctl := fun b _ => by
    show [Char.ofNat b.toNat] = [b]
    rw [Char.ofNat_toNat]
  str_nil := rfl
  split := fun a b c _ _ => ⟨rfl, rfl⟩

theorem validUtf8_split (a : List UInt8) (b : UInt8) (c : List UInt8) (hb : b.toNat < 128)
    (h : Uri.validUtf8 (a ++ b :: c) = true) : Uri.validUtf8 a = true ∧ Uri.validUtf8 c = true := by
  have key : ∀ n, ∀ a : List UInt8, a.length ≤ n → Uri.validUtf8 (a ++ b :: c) = true →
      Uri.validUtf8 a = true ∧ Uri.validUtf8 c = true := by
    intro n
    induction n with
    | zero =>
      intro a ha h
      have : a = [] := List.eq_nil_of_length_eq_zero (by omega)
      subst this
      rw [List.nil_append, Uri.validUtf8.eq_def] at h
      dsimp only at h
      rw [if_pos (by omega)] at h
      exact ⟨by rw [Uri.validUtf8], h⟩
    | succ n ih =>
      intro a ha h
      rcases a with _ | ⟨x, a⟩
      · rw [List.nil_append, Uri.validUtf8.eq_def] at h
        dsimp only at h
        rw [if_pos (by omega)] at h
        exact ⟨by rw [Uri.validUtf8], h⟩
      · rw [List.cons_append, Uri.validUtf8.eq_def] at h
        rw [Uri.validUtf8.eq_def]
        dsimp only at h ⊢
        by_cases h1 : x.toNat < 0x80
        · rw [if_pos h1] at h ⊢
          exact ih a (by simp at ha; omega) h
        · rw [if_neg h1] at h ⊢
          rcases a with _ | ⟨y, a⟩
          · exfalso
            simp only [List.nil_append] at h
            by_cases h2 : 0xC2 ≤ x.toNat ∧ x.toNat ≤ 0xDF
            · rw [if_pos h2] at h; simp at h; omega
            · rw [if_neg h2] at h
              rcases c with _ | ⟨c1, c⟩
              · simp at h
              · simp only at h
                by_cases h3 : 0xE0 ≤ x.toNat ∧ x.toNat ≤ 0xEF
                · rw [if_pos h3] at h; simp at h; have := h.1.1.1; split at this <;> omega
                · rw [if_neg h3] at h
                  rcases c with _ | ⟨c2, c⟩
                  · simp at h
                  · simp at h; have := h.1.1.1.2.1; split at this <;> omega
          · simp only [List.cons_append] at h ⊢
            by_cases h2 : 0xC2 ≤ x.toNat ∧ x.toNat ≤ 0xDF
            · rw [if_pos h2] at h ⊢
              rw [Bool.and_eq_true] at h
              have := ih a (by simp at ha; omega) h.2
              exact ⟨by rw [Bool.and_eq_true]; exact ⟨h.1, this.1⟩, this.2⟩
            · rw [if_neg h2] at h ⊢
              rcases a with _ | ⟨z, a⟩
              · exfalso
                simp only [List.nil_append] at h
                by_cases h3 : 0xE0 ≤ x.toNat ∧ x.toNat ≤ 0xEF
                · rw [if_pos h3] at h; simp at h; have := h.1.2.1; omega
                · rw [if_neg h3] at h
                  rcases c with _ | ⟨c2, c⟩
                  · simp at h
                  · simp at h; have := h.1.1.2.1; omega
              · simp only [List.cons_append] at h ⊢
                by_cases h3 : 0xE0 ≤ x.toNat ∧ x.toNat ≤ 0xEF
                · rw [if_pos h3] at h ⊢
                  rw [Bool.and_eq_true] at h
                  have := ih a (by simp at ha; omega) h.2
                  exact ⟨by rw [Bool.and_eq_true]; exact ⟨h.1, this.1⟩, this.2⟩
                · rw [if_neg h3] at h ⊢
                  rcases a with _ | ⟨w, a⟩
                  · exfalso
                    simp at h; have := h.1.2.1; omega
                  · simp only [List.cons_append] at h ⊢
                    rw [Bool.and_eq_true] at h
                    have := ih a (by simp at ha; omega) h.2
                    exact ⟨by rw [Bool.and_eq_true]; exact ⟨h.1, this.1⟩, this.2⟩
  exact key a.length a (Nat.le_refl _) h

instance prints_byte (f64 : List UInt8 → Option F) : Prints (byteKind f64) where
  toLawful := lawful_byte f64
  code_lit := fun c h => byte_toNat h
  enc_ctl := fun b h => by
    have h : b.toNat < 32 := h
    show Unicode.encodeUtf8 b.toNat = [b]
    unfold Unicode.encodeUtf8
    rw [if_pos (by omega), UInt8.ofNat_toNat]
  str_nil := by show Uri.fromUtf8 [] = _; rfl
  split := fun a b c hb h => by
    have hb : b.toNat < 32 := hb
    have h : Uri.fromUtf8 (a ++ b :: c) = some (a ++ b :: c) := h
    have hv : Uri.validUtf8 (a ++ b :: c) = true := by
      unfold Uri.fromUtf8 at h
      split at h
      · assumption
      · cases h
    obtain ⟨h1, h2⟩ := validUtf8_split a b c (by omega) hv
    exact ⟨show Uri.fromUtf8 a = some a by unfold Uri.fromUtf8; rw [if_pos h1],
      show Uri.fromUtf8 c = some c by unfold Uri.fromUtf8; rw [if_pos h2]⟩

end OniComb.Json
