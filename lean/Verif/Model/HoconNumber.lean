import Verif.Model.HoconResolve

/-!
# Rust integers and `ConfigNumberValue`

`hocon/src/model/config_number_value.rs`. The conversions delegate to `rust_decimal` (version 1.35), whose behaviour on
the represented number is written down here and belongs to the trusted base: `Decimal` holds mantissas below `2^96`, and
`Decimal::from` of an integer unwraps the checked conversion. The narrow `to_…` are `num_traits`'s defaults, which go
through `to_i64` and `to_u64`. Conversions from and to `f32` and `f64` are not modelled.
-/

namespace OniComb.Hocon

/-- The integer types of `from_impl!`, config_number_value.rs:24; `usize` is `u64` on a 64-bit target. -/
inductive IntTy where
  | i128 | u128 | i64 | u64 | i32 | u32 | i16 | u16 | i8 | u8
deriving DecidableEq, Repr

/-- `ConfigNumberValue::from` of an integer, config_number_value.rs:14-24: `Decimal::from` with scale 0; `none` is the
panic of its `unwrap`. -/
def numberFrom (n : Int) : Option Decimal :=
  if n.natAbs < 2 ^ 96 then some ⟨n, 0⟩ else none

/-- `Decimal::to_i128`: truncates; every mantissa fits. -/
def Decimal.toI128 (d : Decimal) : Option Int := some d.trunc

/-- `Decimal::to_u128`: truncates; negative numbers give `None`. -/
def Decimal.toU128 (d : Decimal) : Option Nat := if 0 ≤ d.mantissa then some d.trunc.toNat else none

/-- `i64::to_iN` of `num_traits`. -/
def narrowSigned (bits : Nat) (n : Int) : Option Int :=
  if -2 ^ (bits - 1) ≤ n ∧ n < 2 ^ (bits - 1) then some n else none

/-- `u64::to_uN` of `num_traits`. -/
def narrowUnsigned (bits : Nat) (n : Nat) : Option Nat :=
  if n < 2 ^ bits then some n else none

/-- `to_i128` … `to_u8`, config_number_value.rs:60-98. -/
def numberTo (ty : IntTy) (d : Decimal) : Option Int :=
  match ty with
  | .i128 => d.toI128
  | .u128 => d.toU128.map Int.ofNat
  | .i64 => d.toI64
  | .u64 => d.toU64.map Int.ofNat
  | .i32 => d.toI64.bind (narrowSigned 32)
  | .u32 => (d.toU64.bind (narrowUnsigned 32)).map Int.ofNat
  | .i16 => d.toI64.bind (narrowSigned 16)
  | .u16 => (d.toU64.bind (narrowUnsigned 16)).map Int.ofNat
  | .i8 => d.toI64.bind (narrowSigned 8)
  | .u8 => (d.toU64.bind (narrowUnsigned 8)).map Int.ofNat

end OniComb.Hocon
