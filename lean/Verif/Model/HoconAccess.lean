import Verif.Model.HoconResolve

/-!
# The `hocon` crate: typed access to values

Models the accessors of `/repo/hocon/src/model/config_value.rs:225-292`.  References are values, and a Rust slice or
map is the list of its elements or entries.
-/

namespace OniComb.Hocon
open OniComb
open OniComb.Uri (Bytes byte bytes)

/-- `is_null`, config_value.rs:225-230. -/
def isNull : Value → Bool
  | .null => true
  | _ => false

/-- `as_bool`, config_value.rs:232-237. -/
def asBool : Value → Option Bool
  | .bool b => some b
  | _ => none

/-- `as_string`, config_value.rs:239-244. -/
def asString : Value → Option Bytes
  | .str s => some s
  | _ => none

/-- `as_config_number_value` and `as_number`, config_value.rs:246-255. -/
def asNumber : Value → Option Decimal
  | .num d => some d
  | _ => none

/-- `as_config_duration_value`, config_value.rs:257-262. -/
def asConfigDuration : Value → Option (Decimal × TimeUnit)
  | .dur d u => some (d, u)
  | _ => none

/-- `Result::unwrap` of a conversion. -/
def Conv.unwrap : Conv → Out Int
  | .ok ns => .ok ns
  | .err => .panic
  | .panic => .panic

/-- `as_duration`, config_value.rs:264-266, in nanoseconds. -/
def asDuration (v : Value) : Out (Option Int) :=
  match asConfigDuration v with
  | some (d, u) => (toDuration d u).unwrap.bind fun ns => .ok (some ns)
  | none => .ok none

/-- `as_std_duration`, config_value.rs:268-270, in nanoseconds. -/
def asStdDuration (overflowChecks : Bool) (v : Value) : Out (Option Int) :=
  match asConfigDuration v with
  | some (d, u) => (toStdDuration overflowChecks d u).unwrap.bind fun ns => .ok (some ns)
  | none => .ok none

/-- `as_config_array_value` and `as_array`, config_value.rs:272-281. -/
def asArray : Value → Option (List Value)
  | .arr vs => some vs
  | _ => none

/-- `as_config_object_value` and `as_object`, config_value.rs:283-292. -/
def asObject : Value → Option Entries
  | .obj es => some es
  | _ => none

end OniComb.Hocon
