import Verif.Model.HoconValue

/-!
# Specification of the `hocon` values

Written without the functions under verification (`push`, `merge`, `expand`, `resolve`, `get_value`, …);
only the data type `Value`, the map lookup `get` and `latest` are used.
-/

namespace OniComb.Hocon.Spec
open OniComb OniComb.Hocon
open OniComb.Uri (Bytes byte bytes)

/-- Keys of a map. -/
def keys (es : Entries) : List Bytes := es.map (·.1)

/-- The value is no link. -/
def IsLink : Value → Prop
  | .link _ _ => True
  | _ => False

/-- The value is an object. -/
def IsObj : Value → Prop
  | .obj _ => True
  | _ => False

/-- The value is an array. -/
def IsArr : Value → Prop
  | .arr _ => True
  | _ => False

/-- A value that is neither an object nor an array nor a chain of definitions. -/
def Scalar (v : Value) : Prop := ¬ IsLink v ∧ ¬ IsObj v ∧ ¬ IsArr v

/-- A reference remembers what was defined before it. -/
def remember (before : Value) : Value → Value
  | .ref _ path missing => .ref (some before) path missing
  | v => v

mutual
/-- Maps have no repeated keys, anywhere in the value. -/
def Wf (v : Value) : Prop :=
  match v with
  | .arr vs => WfList vs
  | .obj es => (es.map (·.1)).Nodup ∧ WfEntries es
  | .enumeration _ vs => WfList vs
  | .link p v => Wf p ∧ Wf v
  | _ => True
/-- All elements are well formed. -/
def WfList (vs : List Value) : Prop :=
  match vs with
  | [] => True
  | v :: vs => Wf v ∧ WfList vs
/-- All entries are well formed. -/
def WfEntries (es : List (Bytes × Value)) : Prop :=
  match es with
  | [] => True
  | e :: es => WfEntry e ∧ WfEntries es
/-- The value of the entry is well formed. -/
def WfEntry (e : Bytes × Value) : Prop :=
  match e with
  | (_, v) => Wf v
end

/-- `Merged a b c`: `c` is `a` with `b` merged into it. -/
inductive Merged : Value → Value → Value → Prop where
  /-- Objects: the union of the keys; a common key holds the merge of the two values. -/
  | objects {a b c : Entries}
      (left : ∀ k x, get k a = some x → get k b = none → get k c = some x)
      (right : ∀ k y, get k a = none → get k b = some y → get k c = some y)
      (neither : ∀ k, get k a = none → get k b = none → get k c = none)
      (both : ∀ k x y, get k a = some x → get k b = some y → (get k c).isSome)
      (deep : ∀ k x y z, get k a = some x → get k b = some y → get k c = some z → Merged x y z) :
      Merged (.obj a) (.obj b) (.obj c)
  /-- Arrays are appended. -/
  | arrays {a b : List Value} : Merged (.arr a) (.arr b) (.arr (a ++ b))
  /-- A chain of definitions gets the merge with its newest value as another definition. -/
  | chain {p v b w : Value} (hb : ¬ IsLink b) (h : Merged v b w) :
      Merged (.link p v) b (.link (.link p v) (remember (.link p v) w))
  /-- Everything else: the first value is kept. -/
  | keep {a b : Value} (hb : IsLink b ∨ ¬ IsLink a) (ho : ¬ (IsObj a ∧ IsObj b))
      (hr : ¬ (IsArr a ∧ IsArr b)) : Merged a b a

/-- Two values that differ at most in the iteration order of their maps. -/
inductive Same : Value → Value → Prop where
  | null : Same .null .null
  | bool {b : Bool} : Same (.bool b) (.bool b)
  | str {s : Bytes} : Same (.str s) (.str s)
  | num {d : Decimal} : Same (.num d) (.num d)
  | dur {d : Decimal} {u : TimeUnit} : Same (.dur d u) (.dur d u)
  | nil : Same (.arr []) (.arr [])
  | cons {v w : Value} {vs ws : List Value} (h : Same v w) (hs : Same (.arr vs) (.arr ws)) :
      Same (.arr (v :: vs)) (.arr (w :: ws))
  | obj {a b : Entries} (dom : ∀ k, (get k a).isSome ↔ (get k b).isSome)
      (deep : ∀ k x y, get k a = some x → get k b = some y → Same x y) : Same (.obj a) (.obj b)
  | enumNone {vs ws : List Value} (hs : Same (.arr vs) (.arr ws)) :
      Same (.enumeration none vs) (.enumeration none ws)
  | enumSome {p q : Value} {vs ws : List Value} (hp : Same p q) (hs : Same (.arr vs) (.arr ws)) :
      Same (.enumeration (some p) vs) (.enumeration (some q) ws)
  | refNone {path : Bytes} {m : Bool} : Same (.ref none path m) (.ref none path m)
  | refSome {p q : Value} {path : Bytes} {m : Bool} (hp : Same p q) :
      Same (.ref (some p) path m) (.ref (some q) path m)
  | incl {m f : Bytes} : Same (.incl m f) (.incl m f)
  | link {p q v w : Value} (hp : Same p q) (hv : Same v w) : Same (.link p v) (.link q w)

/-- The definitions of a key, in order. -/
def definitions (k : Bytes) (ps : List (Bytes × Value)) : List Value :=
  (ps.filter fun e => e.1 = k).map (·.2)

/-- The value at a path of keys, through objects only. -/
def at_ : List Bytes → Value → Option Value
  | [], v => some v
  | k :: ks, .obj es => (get k es).bind (at_ ks)
  | _ :: _, _ => none

/-- The value at a path of keys, taking the newest definition at each step. -/
def descend : List Bytes → Value → Option Value
  | [], v => some v
  | k :: ks, .obj es => (get k es).bind fun v => descend ks (latest v)
  | _ :: _, _ => none

/-- A value under a path of keys. -/
def nest : List Bytes → Value → Value
  | [], v => v
  | k :: ks, v => .obj [(k, nest ks v)]

/-- Segments joined with dots. -/
def joinDot : List Bytes → Bytes
  | [] => []
  | [s] => s
  | s :: ss => s ++ byte '.' :: joinDot ss

/-- A segment of a path that the grammar accepts: letters, `-` and `_`. -/
def Segment (s : Bytes) : Prop :=
  s ≠ [] ∧ ∀ b ∈ s, Element.isAlpha b = true ∨ b = byte '-' ∨ b = byte '_'

/-- A key or the path of a reference: segments joined with dots. -/
def PathText (k : Bytes) : Prop := ∃ ss, ss ≠ [] ∧ (∀ s ∈ ss, Segment s) ∧ k = joinDot ss

/-- One path is the beginning of the other. -/
def Comparable (p q : List Bytes) : Prop := p <+: q ∨ q <+: p

/-- A decimal digit. -/
def Digit (b : UInt8) : Prop := 48 ≤ b.toNat ∧ b.toNat ≤ 57

/-- The digits in front of the decimal point: no leading zeros. -/
def IntText (i : Bytes) : Prop :=
  i = [byte '0'] ∨ ∃ b ds, i = b :: ds ∧ Digit b ∧ b ≠ byte '0' ∧ ∀ d ∈ ds, Digit d

/-- The decimal point and the digits behind it. -/
def FracText (f : Bytes) : Prop := ∃ ds, f = byte '.' :: ds ∧ ds ≠ [] ∧ ∀ d ∈ ds, Digit d

/-- An exponent. -/
def ExpText (e : Bytes) : Prop := ∃ c s ds, e = c :: (s ++ ds) ∧ (c = byte 'e' ∨ c = byte 'E') ∧
  (s = [] ∨ s = [byte '+'] ∨ s = [byte '-']) ∧ ds ≠ [] ∧ ∀ d ∈ ds, Digit d

/-- An unsigned number without exponent: digits with at most one decimal point between them. -/
def DecimalText (t : Bytes) : Prop := IntText t ∨ ∃ i f, t = i ++ f ∧ IntText i ∧ FracText f

/-- Nanoseconds of a unit. -/
def unitNanos : TimeUnit → Int
  | .nanoseconds => 1
  | .microseconds => 1000
  | .milliseconds => 1000 * 1000
  | .seconds => 1000 * 1000 * 1000
  | .minutes => 60 * (1000 * 1000 * 1000)
  | .hours => 60 * 60 * (1000 * 1000 * 1000)
  | .days => 24 * (60 * 60 * (1000 * 1000 * 1000))

end OniComb.Hocon.Spec
