import Verif.Model.HoconAccess
import Verif.Props.HoconJson

/-!
# Properties of the `hocon` crate: typed access

C100: the accessors return the value of the type asked for, `None` for values of other types, and do not panic.
-/

namespace OniComb.Hocon
open OniComb OniComb.Hocon.Spec OniComb.Hocon.Spec.Layout
open OniComb.Uri (Bytes byte bytes)

/-- A document of one setting with a duration: `get_value` gives the duration. -/
theorem duration_setting (S : Std) (w : World) (k t sp : Bytes) (u : TimeUnit) (d : Decimal) (hk : Segment k)
    (ht : DecimalText t) (hd : S.parseDecimal t = some d) (hs : (sp, u) ∈ shortUnits) :
    ∃ v N, (∀ n, N ≤ n → parseDocument S w n (k ++ byte '=' :: (t ++ sp) ++ bytes "\n") = .ok (some v)) ∧
      getValue v k = .ok (some (.dur d u)) := by
  have hm := Members.assign (dec := S.parseDecimal) (c := false) (x := []) (g1 := []) (g2 := []) (g := bytes "\n") (s := []) (t' := [])
    (b := byte '=') (.inl ⟨pathText_one hk, rfl⟩) gap_nil (.inl rfl) gap_nil gap_line (.inl rfl)
    (.dur (g1 := []) ht hd gap_nil hs (noHead_cons.2 (by decide))) .nil
  have hdoc := Doc.settings (g := []) gap_nil (by simp) (by simp [keys]) hm
  obtain ⟨v, N, h1, h2⟩ := c97_get_value_partial S w _ _ hdoc (by
    intro e he
    rw [List.mem_singleton.1 he]
    exact fun h => absurd (hk.2 _ h) (by decide)) (by
    intro q hq
    cases hq with
    | value he h => rw [List.mem_singleton.1 he] at h; cases h)
  refine ⟨v, N, fun n hn => ?_, ?_⟩
  · have := h1 n hn
    simpa using this
  · have := h2 [k] (by simp) (by simpa using hk)
    simpa [joinDot, descend, get, latest] using this

/-- A duration of `2^64` units or more, which every other part of the crate accepts, makes `as_std_duration` panic,
and one of `2^63` units or more `as_duration`. -/
theorem c100_duration_violated (S : Std) (w : World) (oc : Bool) (k t sp : Bytes) (u : TimeUnit) (d : Decimal) (hk : Segment k)
    (ht : DecimalText t) (hd : S.parseDecimal t = some d) (hs : (sp, u) ∈ shortUnits) :
    ∃ v N x, (∀ n, N ≤ n → parseDocument S w n (k ++ byte '=' :: (t ++ sp) ++ bytes "\n") = .ok (some v)) ∧
      getValue v k = .ok (some x) ∧ (2 ^ 64 * 10 ^ d.scale ≤ d.mantissa → asStdDuration oc x = .panic) ∧
      (2 ^ 63 * 10 ^ d.scale ≤ d.mantissa → asDuration x = .panic) := by
  obtain ⟨v, N, h1, h2⟩ := duration_setting S w k t sp u d hk ht hd hs
  have hpos : (0 : Int) < 10 ^ d.scale := Int.pow_pos (by decide)
  have htr : ∀ m : Int, m * 10 ^ d.scale ≤ d.mantissa → 0 ≤ m → m ≤ d.trunc := by
    intro m hm h0
    unfold Decimal.trunc
    have : 0 ≤ d.mantissa := Int.le_trans (Int.mul_nonneg h0 (Int.le_of_lt hpos)) hm
    rw [Int.tdiv_eq_ediv_of_nonneg this]
    exact (Int.le_ediv_iff_mul_le hpos).2 hm
  refine ⟨v, N, _, h1, h2, fun h => ?_, fun h => ?_⟩
  · have h3 : d.toU64 = none := by
      unfold Decimal.toU64
      exact if_neg fun h' => by have := htr _ h (by decide); omega
    simp [asStdDuration, asConfigDuration, toStdDuration, h3, Conv.unwrap, Out.bind]
  · have h3 : d.toI64 = none := by
      unfold Decimal.toI64
      exact if_neg fun h' => by have := htr _ h (by decide); omega
    simp [asDuration, asConfigDuration, toDuration, h3, Conv.unwrap, Out.bind]

/-- A duration in a document is of no other type. -/
theorem c100_duration_type (S : Std) (w : World) (k t sp : Bytes) (u : TimeUnit) (d : Decimal) (hk : Segment k)
    (ht : DecimalText t) (hd : S.parseDecimal t = some d) (hs : (sp, u) ∈ shortUnits) :
    ∃ v N x, (∀ n, N ≤ n → parseDocument S w n (k ++ byte '=' :: (t ++ sp) ++ bytes "\n") = .ok (some v)) ∧
      getValue v k = .ok (some x) ∧ asConfigDuration x = some (d, u) ∧ isNull x = false ∧ asBool x = none ∧
      asString x = none ∧ asNumber x = none ∧ asArray x = none ∧ asObject x = none := by
  obtain ⟨v, N, h1, h2⟩ := duration_setting S w k t sp u d hk ht hd hs
  exact ⟨v, N, _, h1, h2, rfl, rfl, rfl, rfl, rfl, rfl, rfl⟩

/-- A whole number of units is read, found and returned exactly, as long as it fits. -/
theorem c100_duration_partial (S : Std) (w : World) (oc : Bool) (k t sp : Bytes) (u : TimeUnit) (d : Decimal) (i : Nat)
    (hk : Segment k) (ht : DecimalText t) (hd : S.parseDecimal t = some d) (hs : (sp, u) ∈ shortUnits)
    (hi : d.mantissa = i * 10 ^ d.scale) (hv : i < 2 ^ 63) (hn : (i : Int) * unitNanos u ≤ (2 ^ 63 - 1) * 1000000) :
    ∃ v N x, (∀ n, N ≤ n → parseDocument S w n (k ++ byte '=' :: (t ++ sp) ++ bytes "\n") = .ok (some v)) ∧
      getValue v k = .ok (some x) ∧ asStdDuration oc x = .ok (some (i * unitNanos u)) ∧
      asDuration x = .ok (some (i * unitNanos u)) := by
  obtain ⟨v, N, h1, h2⟩ := duration_setting S w k t sp u d hk ht hd hs
  have hpos : (0 : Int) < 10 ^ d.scale := Int.pow_pos (by decide)
  have hw : Whole d i := by
    refine ⟨by rw [hi]; exact Int.le_refl _, ?_⟩
    rw [hi]
    exact Int.mul_lt_mul_of_pos_right (by omega) hpos
  have hb : unitNanos u ≤ 86400000000000 ∧ 1 ≤ unitNanos u := by cases u <;> exact ⟨by decide, by decide⟩
  refine ⟨v, N, _, h1, h2, ?_, ?_⟩
  · have := c61_std_duration_partial oc d u i hw (by omega) (by omega)
    simp [asStdDuration, asConfigDuration, this, Conv.unwrap, Out.bind]
  · have := c61_chrono_duration_partial d u i hw hv hn
    simp [asDuration, asConfigDuration, this, Conv.unwrap, Out.bind]

/-- Durations are the only values on which an accessor can panic. -/
theorem c100_panics (oc : Bool) (v : Value) (h : asStdDuration oc v = .panic ∨ asDuration v = .panic) : ∃ d u, v = .dur d u := by
  cases v with
  | dur d u => exact ⟨d, u, rfl⟩
  | _ => rcases h with h | h <;> cases h

/-- The accessors on the values of a JSON document return what is written there, and `None` for other types. -/
theorem c100_json_partial (S : Std) (w : World) (num : Decimal → Bytes) (ms : List (Bytes × JsonValue))
    (h : JsonPlain S.parseDecimal num (.obj ms)) (hd : ∀ k ∈ ms.map Prod.fst, byte '.' ∉ k) :
    ∃ v N, (∀ n, N ≤ n → parseDocument S w n (Json.Spec.print (Json.byteKind S.parseDecimal) num (.obj ms)) = .ok (some v)) ∧
      ∀ ss j, ss ≠ [] → (∀ s ∈ ss, Segment s) → jsonAt ss (.obj ms) = some j → ∃ x, getValue v (joinDot ss) = .ok (some x) ∧
        (isNull x = true ↔ j = .null) ∧ (∀ b, asBool x = some b ↔ j = .bool b) ∧ (∀ s, asString x = some s ↔ j = .str s) ∧
        (∀ d, asNumber x = some d ↔ j = .num d) ∧ (∀ oc, asStdDuration oc x = .ok none) ∧
        (∀ ys, asArray x = some ys ↔ ∃ js, j = .arr js ∧ ys = ofJsonElems js) ∧
        (∀ es, asObject x = some es ↔ ∃ js, j = .obj js ∧ es = ofJsonMembers js) := by
  obtain ⟨v, N, hN, hv⟩ := c98_get_value_partial S w num ms h hd
  refine ⟨v, N, hN, fun ss j h1 h2 h3 => ⟨ofJson j, ?_, ?_⟩⟩
  · rw [hv ss h1 h2, h3]; rfl
  · cases j <;> rw [ofJson] <;>
      simp [isNull, asBool, asString, asNumber, asStdDuration, asConfigDuration, asArray, asObject, eq_comm]

example (w : World) : ∃ v N x, (∀ n, N ≤ n → parseDocument decDigits w n (bytes "a=10ms\n") = .ok (some v)) ∧
    getValue v (bytes "a") = .ok (some x) ∧ asNumber x = none := by
  obtain ⟨v, N, x, h1, h2, -, -, -, -, h3, -⟩ := c100_duration_type decDigits w (bytes "a") (bytes "10") (bytes "ms")
    .milliseconds ⟨10, 0⟩ ⟨by decide, by decide⟩
    (.inl (.inr ⟨byte '1', bytes "0", rfl, by decide, by decide, by unfold Digit; decide⟩)) (by decide) (by decide)
  exact ⟨v, N, x, h1, h2, h3⟩

example (w : World) (oc : Bool) : ∃ v N x, (∀ n, N ≤ n → parseDocument decDigits w n (bytes "a=10ms\n") = .ok (some v)) ∧
    getValue v (bytes "a") = .ok (some x) ∧ asStdDuration oc x = .ok (some 10000000) ∧ asDuration x = .ok (some 10000000) :=
  c100_duration_partial decDigits w oc (bytes "a") (bytes "10") (bytes "ms") .milliseconds ⟨10, 0⟩ 10 ⟨by decide, by decide⟩
    (.inl (.inr ⟨byte '1', bytes "0", rfl, by decide, by decide, by unfold Digit; decide⟩)) (by decide) (by decide)
    (by decide) (by decide) (by decide)

example (w : World) (oc : Bool) : ∃ v N x,
    (∀ n, N ≤ n → parseDocument decDigits w n (bytes "a=18446744073709551616s\n") = .ok (some v)) ∧
    getValue v (bytes "a") = .ok (some x) ∧ asStdDuration oc x = .panic := by
  obtain ⟨v, N, x, h1, h2, h3, -⟩ := c100_duration_violated decDigits w oc (bytes "a") (bytes "18446744073709551616") (bytes "s")
    .seconds ⟨18446744073709551616, 0⟩ ⟨by decide, by decide⟩
    (.inl (.inr ⟨byte '1', bytes "8446744073709551616", rfl, by decide, by decide, by unfold Digit; decide⟩))
    (by decide) (by decide)
  exact ⟨v, N, x, h1, h2, h3 (by decide)⟩

example (w : World) : ∃ v N x, (∀ n, N ≤ n → parseDocument decDigits w n
      (bytes "{\"a\":[[],1,{\"b\":\"x\\u000ay\"},{}],\"c\":{\"d\":null}}") = .ok (some v)) ∧
    getValue v (bytes "c.d") = .ok (some x) ∧ isNull x = true := by
  obtain ⟨v, N, hN, hv⟩ := c100_json_partial decDigits w _ _ jsonEx_plain (by decide)
  obtain ⟨x, h1, h2, -⟩ := hv [bytes "c", bytes "d"] .null (by simp) (by simp [Segment]; decide) rfl
  refine ⟨v, N, x, ?_, h1, h2.2 rfl⟩
  rw [← jsonEx_text]; exact hN

end OniComb.Hocon
