import Verif.Lemmas.JsonComplete

/-! # Helper lemmas: the two kinds of the JSON examples are lawful -/

namespace OniComb.Json
open OniComb.Json.Spec

theorem char_mem (c : Char) (s : List Char) : c ∈ s ↔ c.toNat ∈ s.map Char.toNat := by
  rw [List.mem_map]
  constructor
  · exact fun h => ⟨c, h, rfl⟩
  · rintro ⟨x, hx, e⟩
    have : x = c := Char.ext (UInt32.toNat_inj.1 e)
    exact this ▸ hx

theorem byte_mem (b : UInt8) (s : List UInt8) : b ∈ s ↔ b.toNat ∈ s.map UInt8.toNat := by
  rw [List.mem_map]
  constructor
  · exact fun h => ⟨b, h, rfl⟩
  · rintro ⟨x, hx, e⟩
    have : x = b := UInt8.toNat_inj.1 e
    exact this ▸ hx

variable {F : Type}

theorem char_lits (f64 : List Char → Option F) (s : String) : (charKind f64).lits s = s.toList := by
  unfold Kind.lits charKind; simp

theorem char_digit {f64 : List Char → Option F} {c : Char} : Digit (charKind f64) c ↔ 48 ≤ c.toNat ∧ c.toNat ≤ 57 := by
  unfold Digit
  rw [char_lits, char_mem]
  have : ("0123456789".toList.map Char.toNat) = [48, 49, 50, 51, 52, 53, 54, 55, 56, 57] := by decide
  rw [this]
  simp only [List.mem_cons, List.not_mem_nil, or_false]
  omega

theorem char_hex {f64 : List Char → Option F} {c : Char} : Hex (charKind f64) c ↔
    (48 ≤ c.toNat ∧ c.toNat ≤ 57) ∨ (65 ≤ c.toNat ∧ c.toNat ≤ 70) ∨ (97 ≤ c.toNat ∧ c.toNat ≤ 102) := by
  unfold Hex
  rw [char_lits, char_mem]
  have : ("0123456789abcdefABCDEF".toList.map Char.toNat) =
    [48, 49, 50, 51, 52, 53, 54, 55, 56, 57, 97, 98, 99, 100, 101, 102, 65, 66, 67, 68, 69, 70] := by decide
  rw [this]
  simp only [List.mem_cons, List.not_mem_nil, or_false]
  omega

theorem byte_digit {f64 : List UInt8 → Option F} {b : UInt8} : Digit (byteKind f64) b ↔ 48 ≤ b.toNat ∧ b.toNat ≤ 57 := by
  unfold Digit
  rw [byte_mem]
  have : (((byteKind f64).lits "0123456789").map UInt8.toNat) = [48, 49, 50, 51, 52, 53, 54, 55, 56, 57] := by
    show ("0123456789".toList.map Uri.byte).map UInt8.toNat = _; decide
  rw [this]
  simp only [List.mem_cons, List.not_mem_nil, or_false]
  omega

theorem byte_hex {f64 : List UInt8 → Option F} {b : UInt8} : Hex (byteKind f64) b ↔
    (48 ≤ b.toNat ∧ b.toNat ≤ 57) ∨ (65 ≤ b.toNat ∧ b.toNat ≤ 70) ∨ (97 ≤ b.toNat ∧ b.toNat ≤ 102) := by
  unfold Hex
  rw [byte_mem]
  have : (((byteKind f64).lits "0123456789abcdefABCDEF").map UInt8.toNat) =
    [48, 49, 50, 51, 52, 53, 54, 55, 56, 57, 97, 98, 99, 100, 101, 102, 65, 66, 67, 68, 69, 70] := by
    show ("0123456789abcdefABCDEF".toList.map Uri.byte).map UInt8.toNat = _; decide
  rw [this]
  simp only [List.mem_cons, List.not_mem_nil, or_false]
  omega

theorem between_iff {a b c : Char} : Chr.between a b c = true ↔ a.toNat ≤ c.toNat ∧ c.toNat ≤ b.toNat := by
  unfold Chr.between; simp

theorem byte_hexValue (ds : List UInt8) : hexValue ds = Uri.Rfc.hexValue ds := rfl

theorem char_flat (ds : List Char) (h : ∀ c ∈ ds, c.toNat < 128) :
    (ds.flatMap fun c => Unicode.encodeUtf8 c.toNat) = ds.map Uri.byte := by
  induction ds with
  | nil => rfl
  | cons c ds ih =>
    have h1 := h c (by simp)
    rw [List.flatMap_cons, ih (fun x hx => h x (by simp [hx]))]
    unfold Unicode.encodeUtf8
    rw [if_pos h1]
    rfl

theorem byte_toNat {c : Char} (h : c.toNat < 128) : (Uri.byte c).toNat = c.toNat := by
  unfold Uri.byte
  rw [UInt8.toNat_ofNat']
  omega

theorem char_hexValue (ds : List Char) (h : ∀ c ∈ ds, c.toNat < 128) : hexValue (ds.map Uri.byte) = hexValue ds := by
  unfold hexValue
  generalize 0 = n
  induction ds generalizing n with
  | nil => rfl
  | cons c ds ih =>
    simp only [List.map_cons, List.foldl_cons]
    rw [ih (fun x hx => h x (by simp [hx]))]
    have : hexDigit (Uri.byte c) = hexDigit c := by
      unfold hexDigit
      show _ = if c.toNat ≤ 57 then c.toNat - 48 else if c.toNat ≤ 70 then c.toNat - 55 else c.toNat - 87
      have : Element.code (Uri.byte c) = c.toNat := byte_toNat (h c (by simp))
      rw [this]
    rw [this]

instance lawful_char (f64 : List Char → Option F) : Lawful (charKind f64) where
  inj := fun a b _ _ h => h
  digit := fun b => by
    rw [char_digit]
    exact between_iff
  zero := fun b => by
    show Chr.isDigitZero b = true ↔ b = '0'
    unfold Chr.isDigitZero; simp
  hex := fun b => by
    rw [char_hex]
    show Chr.isHexDigit b = true ↔ _
    unfold Chr.isHexDigit
    simp only [Bool.or_eq_true, between_iff]
    have : '0'.toNat = 48 ∧ '9'.toNat = 57 ∧ 'A'.toNat = 65 ∧ 'F'.toNat = 70 ∧ 'a'.toNat = 97 ∧ 'f'.toNat = 102 := by
      decide
    obtain ⟨h1, h2, h3, h4, h5, h6⟩ := this
    rw [h1, h2, h3, h4, h5, h6]
    tauto
  str_id := fun s t h => by injection h with h; exact h.symm
  str_ascii := fun t _ => rfl
  u16 := fun ds hl h => by
    have ha : ∀ c ∈ ds, c.toNat < 128 := fun c hc => by
      have := char_hex.1 (h c hc)
      omega
    show Uri.parseUInt 16 65535 _ = _
    rw [char_flat ds ha, Uri.parseUInt_hex _ _ (by simp [hl]) (by simp [hl]), ← byte_hexValue, char_hexValue ds ha]
    intro b hb
    obtain ⟨c, hc, rfl⟩ := List.mem_map.1 hb
    have := char_hex.1 (h c hc)
    unfold Uri.Rfc.Hex Uri.Rfc.Digit
    rw [byte_toNat (ha c hc)]
    exact this

instance lawful_byte (f64 : List UInt8 → Option F) : Lawful (byteKind f64) where
  inj := fun a b ha hb h => by
    have := congrArg UInt8.toNat h
    have h' : (Uri.byte a).toNat = (Uri.byte b).toNat := this
    rw [byte_toNat ha, byte_toNat hb] at h'
    exact Char.ext (UInt32.toNat_inj.1 h')
  digit := fun b => by
    rw [byte_digit]
    show Byte.isDigit b = true ↔ _
    unfold Byte.isDigit Byte.between
    simp
  zero := fun b => by
    show Byte.isDigitZero b = true ↔ b = Uri.byte '0'
    unfold Byte.isDigitZero Byte.is
    rw [beq_iff_eq, ← UInt8.toNat_inj]
    rfl
  hex := fun b => by
    rw [byte_hex]
    show Byte.isHexDigit b = true ↔ _
    unfold Byte.isHexDigit Byte.between
    simp only [Bool.or_eq_true, Bool.and_eq_true, decide_eq_true_eq]
    have : '0'.toNat = 48 ∧ '9'.toNat = 57 ∧ 'A'.toNat = 65 ∧ 'F'.toNat = 70 ∧ 'a'.toNat = 97 ∧ 'f'.toNat = 102 := by
      decide
    obtain ⟨h1, h2, h3, h4, h5, h6⟩ := this
    rw [h1, h2, h3, h4, h5, h6]
    tauto
  str_id := fun s t h => by
    have h : Uri.fromUtf8 t = some s := h
    unfold Uri.fromUtf8 at h
    split at h
    · injection h with h; exact h.symm
    · cases h
  str_ascii := fun t h => Uri.fromUtf8_ascii t fun b hb => by
    obtain ⟨c, hc, rfl⟩ := h b hb
    have : ((byteKind f64).lit c).toNat = c.toNat := byte_toNat hc
    rw [this]; exact hc
  u16 := fun ds hl h => by
    show Uri.parseUInt 16 65535 ds = _
    rw [Uri.parseUInt_hex _ _ (by omega) (by omega), ← byte_hexValue]
    intro b hb
    exact byte_hex.1 (h b hb)

end OniComb.Json
