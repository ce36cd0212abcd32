import Verif.Model.HoconValue

/-!
# The `hocon` crate: printing configuration values

Models the `Display` implementations of `/repo/hocon/src/model`.  `Display` of `rust_decimal::Decimal` is the
parameter `fmt`.  `Display` of `Config` (model.rs:114-118) is that of its value.
-/

namespace OniComb.Hocon
open OniComb
open OniComb.Uri (Bytes byte bytes)

/-- `Display` of `TimeUnit`, time_unit.rs:14-27. -/
def TimeUnit.display : TimeUnit → Bytes
  | .days => bytes "d"
  | .hours => bytes "h"
  | .microseconds => bytes "us"
  | .milliseconds => bytes "ms"
  | .minutes => bytes "m"
  | .nanoseconds => bytes "ns"
  | .seconds => bytes "s"

section
variable (fmt : Decimal → Bytes)

mutual
/-- `Display` of `ConfigValue`, config_value.rs:40-57, together with `ConfigNumberValue`
(config_number_value.rs:8-12), `ConfigDurationValue` (config_duration_value.rs:14-18), `ConfigIncludeValue`
(config_include_value.rs:9-13) and `ConfigValueLink` (config_value_link.rs:11-15). -/
def display (v : Value) : Bytes :=
  match v with
  | .null => bytes "null"
  | .bool true => bytes "true"
  | .bool false => bytes "false"
  | .str s => byte '"' :: s ++ [byte '"']
  | .num d => fmt d
  | .dur d u => fmt d ++ (bytes " " ++ u.display)
  | .arr vs => byte '[' :: (displayElems true vs ++ [byte ']'])
  | .obj es => bytes "{ " ++ (displayEntries true es ++ bytes " }")
  | .enumeration _ vs => byte '[' :: (displayElems true vs ++ [byte ']'])
  | .ref _ path missing => bytes "${" ++ ((if missing then bytes "?" else []) ++ (path ++ bytes "}"))
  | .incl method fileName => bytes "include " ++ (method ++ (bytes "(" ++ (fileName ++ bytes ")")))
  | .link _ v => display v
/-- The elements joined with `", "`, config_array_value.rs:10; the flag says that the first one is next. -/
def displayElems (first : Bool) (vs : List Value) : Bytes :=
  match vs with
  | [] => []
  | v :: vs => (if first then [] else bytes ", ") ++ (display v ++ displayElems false vs)
/-- The loop over the entries, config_object_value.rs:13-19.  `s.is_empty()` holds before the first entry only:
a printed entry is never empty. -/
def displayEntries (first : Bool) (es : List (Bytes × Value)) : Bytes :=
  match es with
  | [] => []
  | e :: es => (if first then [] else bytes ", ") ++ (displayEntry e ++ displayEntries false es)
/-- `format!("{} = {}", k, v)`, config_object_value.rs:17. -/
def displayEntry (e : Bytes × Value) : Bytes :=
  match e with
  | (k, v) => k ++ (bytes " = " ++ display v)
end

end

end OniComb.Hocon
