import Verif.Spec.HoconResolve
import Verif.Spec.HoconText

/-!
# Specification for loading whole documents

The parts of a value, text that is the UTF-8 encoding of characters, and the merge of several values in a row.
-/

namespace OniComb.Hocon.Spec
open OniComb OniComb.Hocon
open OniComb.Uri (Bytes byte bytes)

/-- `Part u v`: `u` is `v` or occurs somewhere inside `v`, earlier definitions included. -/
inductive Part : Value → Value → Prop where
  | refl {v : Value} : Part v v
  | elem {u v : Value} {vs : List Value} (hv : v ∈ vs) (h : Part u v) : Part u (.arr vs)
  | value {u : Value} {e : Bytes × Value} {es : Entries} (he : e ∈ es) (h : Part u e.2) : Part u (.obj es)
  | piece {u v : Value} {prev : Option Value} {vs : List Value} (hv : v ∈ vs) (h : Part u v) :
      Part u (.enumeration prev vs)
  | pieceBefore {u p : Value} {vs : List Value} (h : Part u p) : Part u (.enumeration (some p) vs)
  | refBefore {u p : Value} {path : Bytes} {optional : Bool} (h : Part u p) : Part u (.ref (some p) path optional)
  | older {u p v : Value} (h : Part u p) : Part u (.link p v)
  | newer {u p v : Value} (h : Part u v) : Part u (.link p v)

/-- `Holds v s`: the string `s` occurs in `v`, as a string, as a key, as the path of a reference or in an
include. -/
inductive Holds (v : Value) : Bytes → Prop where
  | str {s : Bytes} (h : Part (.str s) v) : Holds v s
  | key {e : Bytes × Value} {es : Entries} (h : Part (.obj es) v) (he : e ∈ es) : Holds v e.1
  | path {prev : Option Value} {path : Bytes} {optional : Bool} (h : Part (.ref prev path optional) v) : Holds v path
  | method {m f : Bytes} (h : Part (.incl m f) v) : Holds v m
  | file {m f : Bytes} (h : Part (.incl m f) v) : Holds v f

/-- The bytes are the UTF-8 encoding of a sequence of characters (Unicode scalar values). -/
def IsText (s : Bytes) : Prop := ∃ cs : List Char, s = cs.flatMap String.utf8EncodeChar

/-- `c` is the first value with the others merged into it, one after the other. -/
inductive MergedAll : Value → List Value → Value → Prop where
  | one {a : Value} : MergedAll a [] a
  | more {a b c d : Value} {bs : List Value} (h : Merged a b c) (hs : MergedAll c bs d) : MergedAll a (b :: bs) d

/-- The entries of a document that has these settings one after the other: each key once, with its first definition and
the others merged into it. -/
structure Combined (ps es : Entries) : Prop where
  nodup : (keys es).Nodup
  none : ∀ k, definitions k ps = [] → get k es = none
  some : ∀ k d ds, definitions k ps = d :: ds → ∃ x, get k es = some x ∧ MergedAll d ds x

/-- A number token whose value cannot be made. -/
def BadNumber (dec : Bytes → Option Decimal) (i f e : Bytes) : Prop :=
  IntText i ∧ (f = [] ∨ FracText f) ∧ (e = [] ∨ ExpText e) ∧ (f = [] ∧ e ≠ [] ∨ dec (i ++ f ++ e) = none)

/-- No number token of the text is bad. -/
def NumbersFit (dec : Bytes → Option Decimal) (t : Bytes) : Prop :=
  ∀ x i f e y, t = x ++ (i ++ f ++ e) ++ y → ¬ BadNumber dec i f e

/-- The definition of a key in a list of definitions. -/
def find (k : Bytes) : List (Bytes × Lit) → Option Lit
  | [] => none
  | (k', v) :: es => if k' = k then some v else find k es

/-- What is written at a path of keys. -/
def written : List Bytes → List (Bytes × Lit) → Option Lit
  | [], _ => none
  | [k], es => find k es
  | k :: ks, es => match find k es with
    | some (.obj fs) => written ks fs
    | _ => none

mutual
/-- No references in a literal. -/
def Lit.Closed (v : Lit) : Prop :=
  match v with
  | .ref _ _ => False
  | .arr vs => ClosedList vs
  | .obj es => ClosedEntries es
  | _ => True
/-- No references in a list. -/
def ClosedList (vs : List Lit) : Prop :=
  match vs with
  | [] => True
  | v :: vs => v.Closed ∧ ClosedList vs
/-- No references in the values of the entries. -/
def ClosedEntries (es : List (Bytes × Lit)) : Prop :=
  match es with
  | [] => True
  | e :: es => ClosedEntry e ∧ ClosedEntries es
/-- No references in the value of an entry. -/
def ClosedEntry (e : Bytes × Lit) : Prop :=
  match e with
  | (_, v) => v.Closed
end

end OniComb.Hocon.Spec
