import Verif.Spec.HoconNumber
import Verif.Props.HoconAccess

/-!
# Properties of the `hocon` crate: numbers and Rust integers

C122: an integer made into a hocon number comes back from every type that holds it and from no other, and a number of a
document is given out as an integer exactly if it is one of the type asked for.
-/

namespace OniComb.Hocon
open OniComb OniComb.Hocon.Spec OniComb.Hocon.Spec.Layout
open OniComb.Uri (Bytes byte bytes)

/-- The conversion to a narrow signed type. -/
theorem signed_narrow (bits : Nat) (d : Decimal) (t : Int) (ht : d.trunc = t) : d.toI64.bind (narrowSigned bits) =
    if (-2 ^ 63 ≤ t ∧ t < 2 ^ 63) ∧ (-2 ^ (bits - 1) ≤ t ∧ t < 2 ^ (bits - 1)) then some t else none := by
  unfold Decimal.toI64
  rw [ht]
  by_cases h : -2 ^ 63 ≤ t ∧ t < 2 ^ 63
  · rw [if_pos h]
    exact if_congr ⟨fun h' => ⟨h, h'⟩, fun h' => h'.2⟩ rfl rfl
  · rw [if_neg h, if_neg fun h' => h h'.1]
    rfl

/-- The conversion to an unsigned type of at most 64 bits. -/
theorem unsigned_narrow (f : Nat → Option Nat) (P : Nat → Prop) [DecidablePred P]
    (hf : ∀ n, f n = if P n then some n else none) (d : Decimal) (t : Int) (ht : d.trunc = t)
    (hs : 0 ≤ d.mantissa ↔ 0 ≤ t) : (d.toU64.bind f).map Int.ofNat =
      if (0 ≤ t ∧ t < 2 ^ 64) ∧ P t.toNat then some t else none := by
  unfold Decimal.toU64
  rw [ht]
  by_cases h : 0 ≤ t ∧ t < 2 ^ 64
  · rw [if_pos ⟨hs.2 h.1, h.2⟩, Option.bind_some, hf]
    by_cases h' : P t.toNat
    · rw [if_pos h', if_pos ⟨h, h'⟩]
      exact congrArg some (Int.toNat_of_nonneg h.1)
    · rw [if_neg h', if_neg fun h'' => h' h''.2]
      rfl
  · rw [if_neg fun h' => h ⟨hs.1 h'.1, h'.2⟩, if_neg fun h' => h h'.1]
    rfl

/-- The conversion of a number that truncates to `t`. -/
theorem numberTo_trunc (ty : IntTy) (d : Decimal) (t : Int) (ht : d.trunc = t) (hs : 0 ≤ d.mantissa ↔ 0 ≤ t)
    (hh : t.natAbs < 2 ^ 96) : numberTo ty d = if Fits ty t then some t else none := by
  have hif : ∀ (P Q : Prop) [Decidable P] [Decidable Q], (P ↔ Q) → (if P then some t else none) = if Q then some t else none :=
    fun P Q _ _ h => if_congr h rfl rfl
  cases ty with
  | i128 =>
    rw [if_pos (show Fits .i128 t from ⟨by simp only [lowest]; omega, by simp only [highest]; omega⟩)]
    exact congrArg some ht
  | u128 =>
    show Option.map _ (if _ then _ else _) = _
    by_cases h : 0 ≤ t
    · rw [if_pos (hs.2 h), if_pos (show Fits .u128 t from ⟨h, by simp only [highest]; omega⟩), ht]
      exact congrArg some (Int.toNat_of_nonneg h)
    · rw [if_neg fun h' => h (hs.1 h'), if_neg fun h' => h h'.1]
      rfl
  | i64 =>
    unfold numberTo Decimal.toI64
    rw [ht]
    exact hif _ _ (by simp only [Fits, lowest, highest]; omega)
  | u64 =>
    have := unsigned_narrow some (fun _ => True) (fun n => (if_pos trivial).symm) d t ht hs
    rw [show d.toU64.bind some = d.toU64 by cases d.toU64 <;> rfl] at this
    exact this.trans (hif _ _ (by simp only [Fits, lowest, highest, and_true]; omega))
  | i32 => exact (signed_narrow 32 d t ht).trans (hif _ _ (by simp only [Fits, lowest, highest]; omega))
  | i16 => exact (signed_narrow 16 d t ht).trans (hif _ _ (by simp only [Fits, lowest, highest]; omega))
  | i8 => exact (signed_narrow 8 d t ht).trans (hif _ _ (by simp only [Fits, lowest, highest]; omega))
  | u32 =>
    exact (unsigned_narrow (narrowUnsigned 32) (· < 2 ^ 32) (fun _ => rfl) d t ht hs).trans
      (hif _ _ (by simp only [Fits, lowest, highest]; omega))
  | u16 =>
    exact (unsigned_narrow (narrowUnsigned 16) (· < 2 ^ 16) (fun _ => rfl) d t ht hs).trans
      (hif _ _ (by simp only [Fits, lowest, highest]; omega))
  | u8 =>
    exact (unsigned_narrow (narrowUnsigned 8) (· < 2 ^ 8) (fun _ => rfl) d t ht hs).trans
      (hif _ _ (by simp only [Fits, lowest, highest]; omega))

/-- A decimal that is the integer `n` truncates to it. -/
theorem trunc_of_equals {d : Decimal} {n : Int} (h : Equals d n) : d.trunc = n := by
  have hpos : (10 : Int) ^ d.scale ≠ 0 := Int.ne_of_gt (Int.pow_pos (by decide))
  unfold Decimal.trunc
  rw [h]
  exact Int.mul_tdiv_cancel n hpos

/-- The integer a holdable decimal is has a size below `2^96`. -/
theorem natAbs_of_equals {d : Decimal} {n : Int} (h : Equals d n) (hh : Holdable d) : n.natAbs < 2 ^ 96 := by
  unfold Holdable at hh
  rw [h, Int.natAbs_mul] at hh
  refine Nat.lt_of_le_of_lt (Nat.le_mul_of_pos_right _ ?_) hh
  have hpos : (0 : Int) < 10 ^ d.scale := Int.pow_pos (by decide)
  exact Int.natAbs_pos.2 (Int.ne_of_gt hpos)

/-- A number that is an integer is given out as that integer by the types that hold it, and by no other type. -/
theorem c122_whole (ty : IntTy) (d : Decimal) (n : Int) (h : Equals d n) (hh : Holdable d) :
    numberTo ty d = if Fits ty n then some n else none := by
  have hpos : (0 : Int) < 10 ^ d.scale := Int.pow_pos (by decide)
  refine numberTo_trunc ty d n (trunc_of_equals h) ?_ (natAbs_of_equals h hh)
  rw [h]
  exact ⟨fun h => Int.not_lt.1 fun hn => by have := Int.mul_neg_of_neg_of_pos hn hpos; omega,
    fun h => Int.mul_nonneg h (Int.le_of_lt hpos)⟩

/-- An integer below `2^96` in size, of whatever type, is made into a number, and comes back from exactly the types
that hold it. -/
theorem c122_roundtrip_partial (n : Int) (h : n.natAbs < 2 ^ 96) :
    ∃ d, numberFrom n = some d ∧ Equals d n ∧ ∀ ty, numberTo ty d = if Fits ty n then some n else none := by
  have he : Equals ⟨n, 0⟩ n := by simp [Equals]
  exact ⟨_, if_pos h, he, fun ty => c122_whole ty _ n he h⟩

/-- In particular no value of a type of at most 64 bits is lost. -/
theorem c122_narrow (ty : IntTy) (n : Int) (h : Fits ty n) (h1 : ty ≠ .i128) (h2 : ty ≠ .u128) :
    (numberFrom n).bind (numberTo ty) = some n := by
  obtain ⟨d, h3, -, h4⟩ := c122_roundtrip_partial n (by
    cases ty <;> simp only [Fits, lowest, highest, ne_eq, not_true_eq_false] at * <;> omega)
  rw [h3]
  exact (h4 ty).trans (if_pos h)

/-- Of the 128-bit types, exactly the values from `2^96` on make the conversion panic. -/
theorem c122_wide_violated (ty : IntTy) (hty : ty = .i128 ∨ ty = .u128) :
    (∃ n, Fits ty n ∧ numberFrom n = none) ∧ ∀ n, numberFrom n = none ↔ n ≤ -2 ^ 96 ∨ 2 ^ 96 ≤ n := by
  refine ⟨⟨2 ^ 96, ?_, by decide⟩, fun n => ?_⟩
  · rcases hty with rfl | rfl <;> decide
  · unfold numberFrom
    split
    · next h => exact ⟨fun h => (nomatch h), fun h' => by omega⟩
    · next h => exact ⟨fun _ => by omega, fun _ => rfl⟩

/-- A number with a fraction is given out as an integer that it is not. -/
theorem c122_fraction_violated (ty : IntTy) (d : Decimal) (n : Int) (h : Between d n) (hh : Holdable d) :
    numberTo ty d = (if Fits ty n then some n else none) ∧ (d.mantissa ≠ n * 10 ^ d.scale → ¬ ∃ i, Equals d i) := by
  obtain ⟨h0, h1, h2⟩ := h
  have hpos : (0 : Int) < 10 ^ d.scale := Int.pow_pos (by decide)
  have hm : 0 ≤ d.mantissa := Int.le_trans (Int.mul_nonneg h0 (Int.le_of_lt hpos)) h1
  have ht : d.trunc = n := by
    unfold Decimal.trunc
    rw [Int.tdiv_eq_ediv_of_nonneg hm]
    exact Int.le_antisymm (Int.lt_add_one_iff.1 ((Int.ediv_lt_iff_lt_mul hpos).2 h2)) ((Int.le_ediv_iff_mul_le hpos).2 h1)
  refine ⟨numberTo_trunc ty d n ht ⟨fun _ => h0, fun _ => hm⟩ ?_, fun hne ⟨i, hi⟩ => ?_⟩
  · unfold Holdable at hh
    have : n * 1 ≤ n * 10 ^ d.scale := Int.mul_le_mul_of_nonneg_left (by omega) h0
    omega
  · have := (trunc_of_equals hi).symm.trans ht
    rw [this] at hi
    exact hne hi

/-- A document of one setting with a number: `get_value` gives the number. -/
theorem number_setting (S : Std) (w : World) (k t : Bytes) (d : Decimal) (hk : Segment k)
    (ht : DecimalText t) (hd : S.parseDecimal t = some d) :
    ∃ v N, (∀ n, N ≤ n → parseDocument S w n (k ++ byte '=' :: t ++ bytes "\n") = .ok (some v)) ∧
      getValue v k = .ok (some (.num d)) := by
  have hm := Members.assign (dec := S.parseDecimal) (c := false) (x := []) (g1 := []) (g2 := []) (g := bytes "\n") (s := []) (t' := [])
    (b := byte '=') (.inl ⟨pathText_one hk, rfl⟩) gap_nil (.inl rfl) gap_nil gap_line (.inl rfl)
    (.num ht hd ⟨noHead_cons.2 (by decide), noHead_nil⟩) .nil
  have hdoc := Doc.settings (g := []) gap_nil (by simp) (by simp [keys]) hm
  obtain ⟨v, N, h1, h2⟩ := c97_get_value_partial S w _ _ hdoc (by
    intro e he
    rw [List.mem_singleton.1 he]
    exact fun h => absurd (hk.2 _ h) (by decide)) (by
    intro q hq
    cases hq with
    | value he h => rw [List.mem_singleton.1 he] at h; cases h)
  refine ⟨v, N, fun n hn => ?_, ?_⟩
  · have := h1 n hn
    simpa using this
  · have := h2 [k] (by simp) (by simpa using hk)
    simpa [joinDot, descend, get, latest] using this

/-- An integer written in a document is what every type that holds it gives out, and no other type gives anything. -/
theorem c122_document (S : Std) (w : World) (k t : Bytes) (d : Decimal) (n : Int) (hk : Segment k) (ht : DecimalText t)
    (hd : S.parseDecimal t = some d) (he : Equals d n) (hh : Holdable d) :
    ∃ v N x y, (∀ n, N ≤ n → parseDocument S w n (k ++ byte '=' :: t ++ bytes "\n") = .ok (some v)) ∧
      getValue v k = .ok (some x) ∧ asNumber x = some y ∧ ∀ ty, numberTo ty y = if Fits ty n then some n else none := by
  obtain ⟨v, N, h1, h2⟩ := number_setting S w k t d hk ht hd
  exact ⟨v, N, _, _, h1, h2, rfl, fun ty => c122_whole ty d n he hh⟩

/-! ## Cases -/

example : (numberFrom (-128)).bind (numberTo .i8) = some (-128) ∧ (numberFrom 128).bind (numberTo .i8) = none ∧
    (numberFrom (-1)).bind (numberTo .u64) = none := by decide

example : (numberFrom 300).bind (numberTo .u16) = some 300 := c122_narrow .u16 300 (by decide) (by decide) (by decide)

example : numberFrom (2 ^ 127) = none := ((c122_wide_violated .u128 (.inr rfl)).2 _).2 (.inr (by decide))

/-- `2.9` is given out as 2. -/
example : numberTo .u8 ⟨29, 1⟩ = some 2 ∧ ¬ ∃ i, Equals ⟨29, 1⟩ i := by
  obtain ⟨h1, h2⟩ := c122_fraction_violated .u8 ⟨29, 1⟩ 2 (by unfold Between; decide) (by unfold Holdable; decide)
  exact ⟨h1, h2 (by decide)⟩

example (w : World) : ∃ v N x y, (∀ n, N ≤ n → parseDocument decDigits w n (bytes "a=300\n") = .ok (some v)) ∧
    getValue v (bytes "a") = .ok (some x) ∧ asNumber x = some y ∧ numberTo .u16 y = some 300 ∧ numberTo .u8 y = none := by
  obtain ⟨v, N, x, y, h1, h2, h3, h4⟩ := c122_document decDigits w (bytes "a") (bytes "300") ⟨300, 0⟩ 300 ⟨by decide, by decide⟩
    (.inl (.inr ⟨byte '3', bytes "00", rfl, by decide, by decide, by unfold Digit; decide⟩)) (by decide)
    (by unfold Equals; decide) (by unfold Holdable; decide)
  exact ⟨v, N, x, y, h1, h2, h3, h4 .u16, h4 .u8⟩

end OniComb.Hocon
