import Verif.Model.HoconNumber

/-!
# Ranges of the integer types

Written out as numbers, independently of the conversions.
-/

namespace OniComb.Hocon.Spec
open OniComb.Hocon

/-- The smallest value of a type. -/
def lowest : IntTy → Int
  | .i128 => -170141183460469231731687303715884105728
  | .i64 => -9223372036854775808
  | .i32 => -2147483648
  | .i16 => -32768
  | .i8 => -128
  | _ => 0

/-- The largest value of a type. -/
def highest : IntTy → Int
  | .i128 => 170141183460469231731687303715884105727
  | .u128 => 340282366920938463463374607431768211455
  | .i64 => 9223372036854775807
  | .u64 => 18446744073709551615
  | .i32 => 2147483647
  | .u32 => 4294967295
  | .i16 => 32767
  | .u16 => 65535
  | .i8 => 127
  | .u8 => 255

/-- `n` is a value of the type. -/
def Fits (ty : IntTy) (n : Int) : Prop := lowest ty ≤ n ∧ n ≤ highest ty

instance (ty : IntTy) (n : Int) : Decidable (Fits ty n) := inferInstanceAs (Decidable (_ ∧ _))

/-- The decimal `m / 10^s` is the integer `n`. -/
def Equals (d : Decimal) (n : Int) : Prop := d.mantissa = n * 10 ^ d.scale

/-- The decimal lies in `[n, n + 1)`, for `n` not negative. -/
def Between (d : Decimal) (n : Int) : Prop := 0 ≤ n ∧ n * 10 ^ d.scale ≤ d.mantissa ∧ d.mantissa < (n + 1) * 10 ^ d.scale

/-- What `rust_decimal` can hold: mantissas below `2^96`. -/
def Holdable (d : Decimal) : Prop := d.mantissa.natAbs < 2 ^ 96

end OniComb.Hocon.Spec
