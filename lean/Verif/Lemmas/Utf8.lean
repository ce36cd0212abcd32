import Verif.Model.Uri
import Verif.Model.Unicode

/-!
# UTF-8 and Unicode scalar values

`validUtf8` of the model against Lean's own `String.utf8EncodeChar`.
-/

namespace OniComb.Uri
open OniComb

/-- The UTF-8 encoding of a sequence of characters. -/
def utf8 (cs : List Char) : Bytes := cs.flatMap String.utf8EncodeChar

theorem utf8_nil : utf8 [] = [] := rfl

theorem utf8_cons (c : Char) (cs : List Char) : utf8 (c :: cs) = String.utf8EncodeChar c ++ utf8 cs := rfl

theorem utf8_append (cs ds : List Char) : utf8 (cs ++ ds) = utf8 cs ++ utf8 ds := by
  simp [utf8]

theorem char_ofNat_toNat {n : Nat} (h : n < 0xD800 ∨ 0xDFFF < n ∧ n < 0x110000) : (Char.ofNat n).val.toNat = n := by
  have hv : n.isValidChar := h
  rw [Char.ofNat, dif_pos hv]
  rfl

theorem u8 {a : UInt8} {n : Nat} (h : a.toNat = n) : UInt8.ofNat n = a := by
  rw [← h]; exact UInt8.ofNat_toNat

/-- One character in front does not matter. -/
theorem validUtf8_encode (c : Char) (r : Bytes) : validUtf8 (String.utf8EncodeChar c ++ r) = validUtf8 r := by
  have hc : c.val.toNat < 0xD800 ∨ 0xDFFF < c.val.toNat ∧ c.val.toNat < 0x110000 := c.valid
  unfold String.utf8EncodeChar
  generalize c.val.toNat = v at hc
  have e : ∀ n, n < 256 → (UInt8.ofNat n).toNat = n := fun n hn => by
    rw [UInt8.toNat_ofNat']; exact Nat.mod_eq_of_lt hn
  dsimp only
  split
  · rename_i h
    rw [List.cons_append, List.nil_append, validUtf8.eq_def]
    simp only [e v (by omega)]
    rw [if_pos (by omega)]
  · split
    · rename_i h1 h2
      rw [List.cons_append, List.cons_append, List.nil_append, validUtf8.eq_def]
      simp only [e (v / 64 % 32 + 192) (by omega), e (v % 64 + 128) (by omega)]
      rw [if_neg (by omega), if_pos (by omega), decide_eq_true (by omega)]
      rfl
    · split
      · rename_i h1 h2 h3
        rw [List.cons_append, List.cons_append, List.cons_append, List.nil_append, validUtf8.eq_def]
        simp only [e (v / 4096 % 16 + 224) (by omega), e (v / 64 % 64 + 128) (by omega), e (v % 64 + 128) (by omega)]
        rw [if_neg (by omega), if_neg (by omega), if_pos (by omega),
          decide_eq_true (p := _ ∧ _) (by split <;> split <;> omega), decide_eq_true (by omega)]
        rfl
      · rename_i h1 h2 h3
        rw [List.cons_append, List.cons_append, List.cons_append, List.cons_append, List.nil_append, validUtf8.eq_def]
        simp only [e (v / 262144 % 8 + 240) (by omega), e (v / 4096 % 64 + 128) (by omega),
          e (v / 64 % 64 + 128) (by omega), e (v % 64 + 128) (by omega)]
        rw [if_neg (by omega), if_neg (by omega), if_neg (by omega), decide_eq_true (by omega),
          decide_eq_true (p := _ ∧ _) (by split <;> split <;> omega), decide_eq_true (by omega), decide_eq_true (by omega)]
        rfl

theorem validUtf8_utf8 (cs : List Char) : validUtf8 (utf8 cs) = true := by
  induction cs with
  | nil => rw [utf8_nil, validUtf8.eq_def]
  | cons c cs ih => rw [utf8_cons, validUtf8_encode, ih]

/-- The code point with the given encoding. -/
theorem encode_ofNat {v : Nat} (h : v < 0xD800 ∨ 0xDFFF < v ∧ v < 0x110000) : String.utf8EncodeChar (Char.ofNat v) =
    Unicode.encodeUtf8 v := by
  unfold String.utf8EncodeChar Unicode.encodeUtf8
  rw [char_ofNat_toNat h]
  dsimp only
  by_cases h1 : v ≤ 0x7f
  · rw [if_pos h1, if_pos (show v < 0x80 by omega)]
  rw [if_neg h1, if_neg (show ¬ v < 0x80 by omega)]
  by_cases h2 : v ≤ 0x7ff
  · rw [if_pos h2, if_pos (show v < 0x800 by omega), show v / 64 % 0x20 + 0xc0 = 0xC0 + v / 0x40 by omega,
      show v % 0x40 + 0x80 = 0x80 + v % 0x40 by omega]
  rw [if_neg h2, if_neg (show ¬ v < 0x800 by omega)]
  by_cases h3 : v ≤ 0xffff
  · rw [if_pos h3, if_pos (show v < 0x10000 by omega), show v / 4096 % 0x10 + 0xe0 = 0xE0 + v / 0x1000 by omega,
      show v / 64 % 0x40 + 0x80 = 0x80 + v / 0x40 % 0x40 by omega, show v % 0x40 + 0x80 = 0x80 + v % 0x40 by omega]
  rw [if_neg h3, if_neg (show ¬ v < 0x10000 by omega), show v / 262144 % 0x08 + 0xf0 = 0xF0 + v / 0x40000 by omega,
    show v / 4096 % 0x40 + 0x80 = 0x80 + v / 0x1000 % 0x40 by omega,
    show v / 64 % 0x40 + 0x80 = 0x80 + v / 0x40 % 0x40 by omega, show v % 0x40 + 0x80 = 0x80 + v % 0x40 by omega]

theorem exists_utf8 : ∀ (n : Nat) (bs : Bytes), bs.length ≤ n → validUtf8 bs = true → ∃ cs, bs = utf8 cs := by
  intro n
  induction n with
  | zero =>
    intro bs hl _
    exact ⟨[], List.eq_nil_of_length_eq_zero (by omega)⟩
  | succ n ih =>
    intro bs hl h
    have fin : ∀ (v : Nat) (r : Bytes), (v < 0xD800 ∨ 0xDFFF < v ∧ v < 0x110000) → bs = Unicode.encodeUtf8 v ++ r →
        r.length ≤ n → validUtf8 r = true → ∃ cs, bs = utf8 cs := by
      intro v r hv he hr hvr
      obtain ⟨cs, hcs⟩ := ih r hr hvr
      exact ⟨Char.ofNat v :: cs, by rw [utf8_cons, encode_ofNat hv, he, hcs]⟩
    match bs, hl, h, fin with
    | [], _, _, _ => exact ⟨[], rfl⟩
    | a :: r1, hl, h, fin =>
      have ha := a.toNat_lt
      simp only [List.length_cons] at hl
      rw [validUtf8.eq_def] at h
      dsimp only at h
      by_cases h1 : a.toNat < 0x80
      · rw [if_pos h1] at h
        refine fin a.toNat r1 (by omega) ?_ (by omega) h
        rw [Unicode.encodeUtf8, if_pos h1, u8 rfl]; rfl
      rw [if_neg h1] at h
      match r1, hl, h, fin with
      | [], _, h, _ => cases h
      | b :: r2, hl, h, fin =>
        have hb := b.toNat_lt
        simp only [List.length_cons] at hl
        dsimp only at h
        by_cases h2 : 0xC2 ≤ a.toNat ∧ a.toNat ≤ 0xDF
        · rw [if_pos h2] at h
          simp only [Bool.and_eq_true, decide_eq_true_eq] at h
          refine fin ((a.toNat - 0xC0) * 64 + (b.toNat - 0x80)) r2 (by omega) ?_ (by omega) h.2
          rw [Unicode.encodeUtf8, if_neg (by omega), if_pos (by omega), u8 (a := a) (by omega), u8 (a := b) (by omega)]
          rfl
        rw [if_neg h2] at h
        match r2, hl, h, fin with
        | [], _, h, _ => cases h
        | c :: r3, hl, h, fin =>
          have hc := c.toNat_lt
          simp only [List.length_cons] at hl
          dsimp only at h
          by_cases h3 : 0xE0 ≤ a.toNat ∧ a.toNat ≤ 0xEF
          · rw [if_pos h3] at h
            simp only [Bool.and_eq_true, decide_eq_true_eq] at h
            obtain ⟨⟨⟨h4, h5⟩, h6⟩, h7⟩ := h
            have h8 : 0x80 ≤ b.toNat ∧ b.toNat ≤ 0xBF ∧ (a.toNat = 0xE0 → 0xA0 ≤ b.toNat) ∧
                (a.toNat = 0xED → b.toNat ≤ 0x9F) := by
              revert h4 h5; split <;> split <;> intros <;> omega
            refine fin ((a.toNat - 0xE0) * 4096 + (b.toNat - 0x80) * 64 + (c.toNat - 0x80)) r3 (by omega) ?_ (by omega) h7
            rw [Unicode.encodeUtf8, if_neg (by omega), if_neg (by omega), if_pos (by omega), u8 (a := a) (by omega),
              u8 (a := b) (by omega), u8 (a := c) (by omega)]
            rfl
          rw [if_neg h3] at h
          match r3, hl, h, fin with
          | [], _, h, _ => cases h
          | d :: r4, hl, h, fin =>
            have hd := d.toNat_lt
            simp only [List.length_cons] at hl
            dsimp only at h
            simp only [Bool.and_eq_true, decide_eq_true_eq] at h
            obtain ⟨⟨⟨⟨h3, h4, h5⟩, h6⟩, h6'⟩, h7⟩ := h
            have h8 : 0x80 ≤ b.toNat ∧ b.toNat ≤ 0xBF ∧ (a.toNat = 0xF0 → 0x90 ≤ b.toNat) ∧
                (a.toNat = 0xF4 → b.toNat ≤ 0x8F) := by
              revert h4 h5; split <;> split <;> intros <;> omega
            refine fin ((a.toNat - 0xF0) * 262144 + (b.toNat - 0x80) * 4096 + (c.toNat - 0x80) * 64 + (d.toNat - 0x80)) r4
              (by omega) ?_ (by omega) h7
            rw [Unicode.encodeUtf8, if_neg (by omega), if_neg (by omega), if_neg (by omega), u8 (a := a) (by omega),
              u8 (a := b) (by omega), u8 (a := c) (by omega), u8 (a := d) (by omega)]
            rfl

theorem validUtf8_iff {bs : Bytes} : validUtf8 bs = true ↔ ∃ cs, bs = utf8 cs :=
  ⟨exists_utf8 _ bs (Nat.le_refl _), by rintro ⟨cs, rfl⟩; exact validUtf8_utf8 cs⟩

/-- A Unicode scalar value. -/
def Scalar (v : Nat) : Prop := v < 0xD800 ∨ 0xDFFF < v ∧ v < 0x110000

theorem scalar_fffd : Scalar 0xFFFD := by unfold Scalar; omega

/-- Decoding UTF-16 gives scalar values only. -/
theorem decodeUtf16_scalar : ∀ (n : Nat) (us : List Nat), us.length ≤ n → (∀ u ∈ us, u < 0x10000) →
    ∀ v ∈ Unicode.decodeUtf16 us, Scalar v := by
  intro n
  induction n with
  | zero => intro us hl _ v hv; have := List.eq_nil_of_length_eq_zero (l := us) (by omega); subst this; cases hv
  | succ n ih =>
    intro us hl hu v hv
    have plain : ∀ u, u < 0x10000 → ¬ Unicode.isHigh u = true → ¬ Unicode.isLow u = true → Scalar u := by
      intro u h1 h2 h3
      simp only [Unicode.isHigh, Unicode.isLow, Bool.and_eq_true, decide_eq_true_eq] at h2 h3
      unfold Scalar; omega
    match us, hl, hu, hv with
    | [], _, _, hv => cases hv
    | [u], _, hu, hv =>
      rw [Unicode.decodeUtf16] at hv
      by_cases h : (Unicode.isHigh u || Unicode.isLow u) = true
      · rw [if_pos h] at hv
        rw [List.mem_singleton.1 hv]; exact scalar_fffd
      · rw [if_neg h] at hv
        rw [List.mem_singleton.1 hv]
        rw [Bool.or_eq_true, not_or] at h
        exact plain u (hu u (by simp)) h.1 h.2
    | u :: w :: us, hl, hu, hv =>
      have h1 := hu u (by simp)
      have h2 := hu w (by simp)
      simp only [List.length_cons] at hl
      have t1 := ih us (by omega) fun x hx => hu x (by simp [hx])
      have t2 := ih (w :: us) (by simp only [List.length_cons]; omega) fun x hx => hu x (List.mem_cons_of_mem _ hx)
      rw [Unicode.decodeUtf16] at hv
      by_cases c1 : Unicode.isHigh u = true
      · rw [if_pos c1] at hv
        by_cases c2 : Unicode.isLow w = true
        · rw [if_pos c2] at hv
          simp only [Unicode.isHigh, Unicode.isLow, Bool.and_eq_true, decide_eq_true_eq] at c1 c2
          rcases List.mem_cons.1 hv with h | hv
          · unfold Scalar; omega
          · exact t1 v hv
        · rw [if_neg c2] at hv
          rcases List.mem_cons.1 hv with h | hv
          · rw [h]; exact scalar_fffd
          · exact t2 v hv
      · rw [if_neg c1] at hv
        by_cases c2 : Unicode.isLow u = true
        · rw [if_pos c2] at hv
          rcases List.mem_cons.1 hv with h | hv
          · rw [h]; exact scalar_fffd
          · exact t2 v hv
        · rw [if_neg c2] at hv
          rcases List.mem_cons.1 hv with h | hv
          · rw [h]; exact plain u h1 c1 c2
          · exact t2 v hv

theorem utf16_utf8 {us : List Nat} (h : ∀ u ∈ us, u < 0x10000) :
    ∃ cs, (Unicode.decodeUtf16 us).flatMap Unicode.encodeUtf8 = utf8 cs := by
  have hv := decodeUtf16_scalar _ us (Nat.le_refl _) h
  generalize Unicode.decodeUtf16 us = vs at hv
  refine ⟨vs.map Char.ofNat, ?_⟩
  induction vs with
  | nil => rfl
  | cons v vs ih =>
    rw [List.flatMap_cons, List.map_cons, utf8_cons, encode_ofNat (hv v (by simp)),
      ih fun x hx => hv x (List.mem_cons_of_mem _ hx)]

end OniComb.Uri
