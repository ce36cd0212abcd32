import Verif.Model.Uri

/-!
# The `hocon` crate: configuration values

Models `/repo/hocon/src/model/{config_value,config_object_value,config_array_value,config_value_link,
config_include_value,config_number_value,config_duration_value,time_unit}.rs` except for `Display`
(`Model/HoconDisplay.lean`), the accessors (`Model/HoconAccess.lean`) and the conversions to other number types.

A Rust `String` is the list of its bytes.  `Rc<T>` is `T`: nothing is mutated behind a shared pointer
(`Rc::get_mut` and `RefCell` are not used, `clone` copies before every mutation).
-/

namespace OniComb.Hocon
open OniComb
open OniComb.Uri (Bytes byte bytes)

/-- `rust_decimal::Decimal`: `mantissa / 10 ^ scale`. -/
structure Decimal where
  mantissa : Int
  scale : Nat
deriving DecidableEq, Repr

/-- `TimeUnit`, time_unit.rs:3-12. -/
inductive TimeUnit where
  | days | hours | microseconds | milliseconds | minutes | nanoseconds | seconds
deriving DecidableEq, Repr

/-- `ConfigValue`, config_value.rs:18-38.  `ConfigNumberValue` (config_number_value.rs:5-6) is its
`Decimal`, `ConfigDurationValue` (config_duration_value.rs:8-12) a number and a unit,
`ConfigIncludeValue` (config_include_value.rs:3-7) two strings, `ConfigValueLink`
(config_value_link.rs:5-9) the two values `prev` and `value`.

`ConfigArrayValue` (config_array_value.rs:5-6) is the list of its elements.  `ConfigObjectValue`
(config_object_value.rs:6-7) is a `HashMap`; here it is the list of its entries in the order in which
the map would be iterated.  That order is arbitrary in Rust, so every statement about objects is made for
all orders. -/
inductive Value where
  | null
  | bool (b : Bool)
  | str (s : Bytes)
  | num (d : Decimal)
  | dur (d : Decimal) (u : TimeUnit)
  | arr (vs : List Value)
  | obj (es : List (Bytes × Value))
  | enumeration (prev : Option Value) (vs : List Value)
  | ref (prev : Option Value) (path : Bytes) (missing : Bool)
  | incl (method fileName : Bytes)
  | link (prev value : Value)

/-- The entries of a map. -/
abbrev Entries := List (Bytes × Value)

/-- `HashMap::get`. -/
def get (k : Bytes) : Entries → Option Value
  | [] => none
  | (k', v) :: es => if k' = k then some v else get k es

/-- Overwrites the entry of a present key in place (the effect of assigning through `HashMap::get_mut`). -/
def set (k : Bytes) (v : Value) : Entries → Entries
  | [] => []
  | (k', v') :: es => if k' = k then (k', v) :: es else (k', v') :: set k v es

/-- `HashMap::insert` of a key that is not present. -/
def insertNew (k : Bytes) (v : Value) (es : Entries) : Entries := es ++ [(k, v)]

/-- `ConfigValue::push`, config_value.rs:376-388. -/
def push (self cv : Value) : Value :=
  .link self (match cv with
    | .ref _ path missing => .ref (some self) path missing
    | cv => cv)

/-- `ConfigValue::latest`, config_value.rs:331-336. -/
def latest : Value → Value
  | .link _ v => v
  | v => v

/-- `ConfigValue::prev_latest`, config_value.rs:338-350 (without the debug output). -/
def prevLatest : Value → Value
  | .link (.link _ v) _ => v
  | .link p _ => p
  | v => v

/-- `ConfigValue::to_vec`, config_value.rs:359-374: the loop walks along `prev` and the result is
reversed, that is the oldest value comes first. -/
def toVec : Value → List Value
  | .link p v => toVec p ++ [v]
  | v => [v]

/-- `ConfigValue::combine`, config_value.rs:59-70. -/
def combine (self other : Value) : Value :=
  match other with
  | .link p v => (toVec (.link p v)).foldl push self
  | _ => self

/-- `ConfigObjectValue::combine`, config_object_value.rs:24-37. -/
def combineEntries (self : Entries) (other : Entries) : Entries :=
  other.foldl (fun es e =>
    match get e.1 es with
    | none => insertNew e.1 e.2 es
    | some entry => set e.1 (combine entry e.2) es) self

/-- The last two arms of `merge_with`, config_value.rs:81-87, for a right hand side that is not a link:
a link gets the merge of its newest value pushed. `f` is what happens to a value that is no link. -/
def onLatest (f : Value → Value) : Value → Value
  | .link p v => push (.link p v) (onLatest f v)
  | v => f v

mutual
/-- `ConfigValue::merge_with`, config_value.rs:72-90; `merge r l` is `l.merge_with(r)`. -/
def merge (r : Value) (l : Value) : Value :=
  match r with
  | .obj r => onLatest (fun l => match l with
    | .obj l => .obj (mergeEntries r l)
    | l => l) l
  | .arr r => onLatest (fun l => match l with
    | .arr l => .arr (l ++ r)
    | l => l) l
  | .link _ _ => l
  | .null => onLatest id l
  | .bool _ => onLatest id l
  | .str _ => onLatest id l
  | .num _ => onLatest id l
  | .dur _ _ => onLatest id l
  | .enumeration _ _ => onLatest id l
  | .ref _ _ _ => onLatest id l
  | .incl _ _ => onLatest id l

/-- `ConfigObjectValue::merge_with`, config_object_value.rs:39-52; `mergeEntries r l` is
`l.merge_with(r)`. -/
def mergeEntries (r : List (Bytes × Value)) (l : Entries) : Entries :=
  match r with
  | [] => l
  | e :: r => mergeEntries r (mergeEntry e l)

/-- One turn of the loop, config_object_value.rs:42-49. -/
def mergeEntry (e : Bytes × Value) (l : Entries) : Entries :=
  match e with
  | (k, v) => match get k l with
    | none => insertNew k v l
    | some entry => set k (merge v entry) l
end

/-- `ConfigValue::contains`, config_value.rs:352-357. -/
def contains (self : Value) (k : Bytes) : Bool :=
  match self with
  | .obj es => (get k es).isSome
  | _ => false

/-- The fold of `object`, parsers.rs:215-226: a repeated key is pushed. -/
def objectFold (ps : List (Bytes × Value)) : Entries :=
  ps.foldl (fun es e =>
    match get e.1 es with
    | none => insertNew e.1 e.2 es
    | some v => set e.1 (push v e.2) es) []

/-- The fold of `config`, parsers.rs:307-317: a repeated key is merged. -/
def configFold (ps : List (Bytes × Value)) : Entries :=
  ps.foldl (fun es e =>
    match get e.1 es with
    | none => insertNew e.1 e.2 es
    | some v => set e.1 (merge e.2 v) es) []

/-- `str::split(".")`. -/
def splitDot : Bytes → List Bytes
  | [] => [[]]
  | b :: bs => if b = byte '.' then [] :: splitDot bs else
    match splitDot bs with
    | [] => [[b]]
    | s :: ss => (b :: s) :: ss

end OniComb.Hocon
