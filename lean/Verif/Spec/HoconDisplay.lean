import Verif.Spec.HoconLayout

/-! # Specification: configuration values that can be printed and read again -/

namespace OniComb.Hocon.Spec
open OniComb OniComb.Hocon
open OniComb.Uri (Bytes byte bytes)

mutual
/-- The newest definitions only. -/
def current (v : Value) : Value :=
  match v with
  | .null => .null
  | .bool b => .bool b
  | .str s => .str s
  | .num d => .num d
  | .dur d u => .dur d u
  | .arr vs => .arr (currentList vs)
  | .obj es => .obj (currentEntries es)
  | .enumeration p vs => .enumeration p vs
  | .ref _ path m => .ref none path m
  | .incl m f => .incl m f
  | .link _ v => current v
/-- The newest definitions of the elements. -/
def currentList (vs : List Value) : List Value :=
  match vs with
  | [] => []
  | v :: vs => current v :: currentList vs
/-- The newest definitions of the entries. -/
def currentEntries (es : List (Bytes × Value)) : List (Bytes × Value) :=
  match es with
  | [] => []
  | e :: es => currentEntry e :: currentEntries es
/-- The newest definition of an entry. -/
def currentEntry (e : Bytes × Value) : Bytes × Value :=
  match e with
  | (k, v) => (k, current v)
end

/-- Values without arrays, with strings that need no escapes and keys that need no quotes; `fmt` writes their
numbers without sign and exponent so that `dec` reads them back. -/
inductive Printable (dec : Bytes → Option Decimal) (fmt : Decimal → Bytes) : Value → Prop where
  | null : Printable dec fmt .null
  | bool (b : Bool) : Printable dec fmt (.bool b)
  | str {s : Bytes} : StringText s → Printable dec fmt (.str s)
  | num {d : Decimal} : DecimalText (fmt d) → dec (fmt d) = some d → Printable dec fmt (.num d)
  | dur {d : Decimal} {u : TimeUnit} : DecimalText (fmt d) → dec (fmt d) = some d → Printable dec fmt (.dur d u)
  | ref {prev : Option Value} {path : Bytes} {m : Bool} : PathText path → Printable dec fmt (.ref prev path m)
  | link {p v : Value} : Printable dec fmt v → Printable dec fmt (.link p v)
  | obj {es : List (Bytes × Value)} : (es.map Prod.fst).Nodup → (∀ e ∈ es, PathText e.1) →
      (∀ e ∈ es, Printable dec fmt e.2) → Printable dec fmt (.obj es)

end OniComb.Hocon.Spec
