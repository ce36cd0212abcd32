import Verif.Spec.Hocon
import Verif.Spec.HoconString

/-!
# Specification of a textual form of configuration documents

Written without the grammar under verification.  Only a part of the texts that HOCON allows is described:
one fixed layout of blanks and commas, keys of letters, `-`, `_` and dots, quoted strings, arrays without objects
in them, no empty objects.
-/

namespace OniComb.Hocon.Spec
open OniComb OniComb.Hocon
open OniComb.Uri (Bytes byte bytes)

/-- A literal value as written down. -/
inductive Lit where
  | null
  | bool (b : Bool)
  /-- A number, by its text. -/
  | num (t : Bytes)
  /-- A duration, by the text of the amount, the spelling of the unit and the unit. -/
  | dur (t spelling : Bytes) (u : TimeUnit)
  /-- A double quoted string without escapes. -/
  | str (s : Bytes)
  /-- A string with escapes between two quotes `q`. -/
  | quoted (q : Char) (items : List StrItem)
  /-- `${a.b}` or `${?a.b}`. -/
  | ref (optional : Bool) (path : List Bytes)
  | arr (vs : List Lit)
  | obj (es : List (Bytes × Lit))

/-- The spellings of units that may be used. -/
def shortUnits : List (Bytes × TimeUnit) :=
  [(bytes "ns", .nanoseconds), (bytes "nano", .nanoseconds), (bytes "us", .microseconds),
   (bytes "micro", .microseconds), (bytes "ms", .milliseconds), (bytes "milli", .milliseconds),
   (bytes "s", .seconds), (bytes "m", .minutes), (bytes "h", .hours), (bytes "d", .days)]

/-- The further documented spellings of units, config grammar parsers.rs:47-68. -/
def longUnits : List (Bytes × TimeUnit) :=
  [(bytes "nanos", .nanoseconds), (bytes "nanosecond", .nanoseconds), (bytes "nanoseconds", .nanoseconds),
   (bytes "micros", .microseconds), (bytes "microsecond", .microseconds), (bytes "microseconds", .microseconds),
   (bytes "millis", .milliseconds), (bytes "millisecond", .milliseconds), (bytes "milliseconds", .milliseconds),
   (bytes "second", .seconds), (bytes "seconds", .seconds), (bytes "minute", .minutes), (bytes "minutes", .minutes),
   (bytes "hour", .hours), (bytes "hours", .hours), (bytes "day", .days), (bytes "days", .days)]

mutual
/-- The text of a literal. -/
def Lit.text (v : Lit) : Bytes :=
  match v with
  | .null => bytes "null"
  | .bool true => bytes "true"
  | .bool false => bytes "false"
  | .num t => t
  | .dur t sp _ => t ++ sp
  | .str s => byte '"' :: s ++ [byte '"']
  | .quoted q items => byte q :: itemsText items ++ [byte q]
  | .ref false p => bytes "${" ++ joinDot p ++ bytes "}"
  | .ref true p => bytes "${?" ++ joinDot p ++ bytes "}"
  | .arr vs => byte '[' :: textList vs ++ [byte ']']
  | .obj es => byte '{' :: textEntries es ++ [byte '}']
/-- Elements separated by commas. -/
def textList (vs : List Lit) : Bytes :=
  match vs with
  | [] => []
  | v :: vs => v.text ++ (if vs.isEmpty then [] else byte ',' :: textList vs)
/-- Entries, each on its own line, with commas between them. -/
def textEntries (es : List (Bytes × Lit)) : Bytes :=
  match es with
  | [] => []
  | e :: es => textEntry e ++ (if es.isEmpty then bytes "\n" else bytes ",\n" ++ textEntries es)
/-- `key=value`. -/
def textEntry (e : Bytes × Lit) : Bytes :=
  match e with
  | (k, v) => k ++ byte '=' :: v.text
end

variable (dec : Bytes → Option Decimal)

mutual
/-- The meaning of a literal; `dec` gives the meaning of the texts of numbers. -/
def Lit.value (v : Lit) : Value :=
  match v with
  | .null => .null
  | .bool b => .bool b
  | .num t => .num ((dec t).getD ⟨0, 0⟩)
  | .dur t _ u => .dur ((dec t).getD ⟨0, 0⟩) u
  | .str s => .str s
  | .quoted _ items => .str (denoted items)
  | .ref o p => .ref none (joinDot p) o
  | .arr vs => .arr (valueList vs)
  | .obj es => .obj (valueEntries es)
/-- The meaning of the elements. -/
def valueList (vs : List Lit) : List Value :=
  match vs with
  | [] => []
  | v :: vs => v.value :: valueList vs
/-- The meaning of the entries. -/
def valueEntries (es : List (Bytes × Lit)) : List (Bytes × Value) :=
  match es with
  | [] => []
  | e :: es => valueEntry e :: valueEntries es
/-- The meaning of an entry. -/
def valueEntry (e : Bytes × Lit) : Bytes × Value :=
  match e with
  | (k, v) => (k, v.value)
end

/-- A number the decimal type can hold. -/
def NumberText (t : Bytes) : Prop := DecimalText t ∧ (dec t).isSome

/-- The content of a string: not empty, valid UTF-8, no quotes, backslashes, brackets and line ends, and not
beginning with a blank or with the sign of a comment. -/
def StringText (s : Bytes) : Prop :=
  s ≠ [] ∧ Uri.validUtf8 s = true ∧ (∀ b ∈ s, b ∉ bytes "[]\r\n\\\"'") ∧ ∀ b, s.head? = some b → b ∉ bytes " \t#/"

/-- No object. -/
def Lit.flat : Lit → Prop
  | .obj _ => False
  | _ => True

mutual
/-- The literals in question. -/
def Lit.Ok (v : Lit) : Prop :=
  match v with
  | .null => True
  | .bool _ => True
  | .num t => NumberText dec t
  | .dur t sp u => NumberText dec t ∧ (sp, u) ∈ shortUnits
  | .str s => StringText s
  | .quoted q items => (q = '"' ∨ q = '\'') ∧ items ≠ [] ∧ ItemsOk items ∧ FirstOk items
  | .ref _ p => PathText (joinDot p)
  | .arr vs => OkList vs
  | .obj es => es ≠ [] ∧ (es.map (·.1)).Nodup ∧ OkEntries es
/-- All elements are in question and none is an object. -/
def OkList (vs : List Lit) : Prop :=
  match vs with
  | [] => True
  | v :: vs => v.Ok ∧ v.flat ∧ OkList vs
/-- All entries are in question. -/
def OkEntries (es : List (Bytes × Lit)) : Prop :=
  match es with
  | [] => True
  | e :: es => OkEntry e ∧ OkEntries es
/-- The entry is in question. -/
def OkEntry (e : Bytes × Lit) : Prop :=
  match e with
  | (k, v) => PathText k ∧ v.Ok
end

/-- A document: one definition per line. -/
def docText (ds : List (Bytes × Lit)) : Bytes :=
  match ds with
  | [] => []
  | (k, v) :: ds => k ++ byte '=' :: v.text ++ byte '\n' :: docText ds

/-- The first letter of a unit. -/
def UnitStart (b : UInt8) : Prop := b ∈ bytes "numshd"

/-- The value is a number. -/
def Lit.isNum : Lit → Prop
  | .num _ => True
  | _ => False

/-- The documents in question: a key behind a number does not begin like a unit. -/
def DocOk (ds : List (Bytes × Lit)) : Prop :=
  match ds with
  | [] => True
  | (k, v) :: ds => PathText k ∧ v.Ok dec ∧
    (v.isNum → ∀ e, ds.head? = some e → ∀ b, e.1.head? = some b → ¬ UnitStart b) ∧ DocOk ds

/-- A comment of one line, without the end of the line. -/
def CommentLine (c : Bytes) : Prop :=
  (∃ b, c = byte '#' :: b ∨ c = byte '/' :: byte '/' :: b) ∧ ∀ b ∈ c, b ≠ byte '\r' ∧ b ≠ byte '\n'

/-- Lines of comments. -/
def commentLines (cs : List Bytes) : Bytes := cs.flatMap fun c => c ++ [byte '\n']

/-- Comments around a definition: lines in front of it, and one behind it on the same line together with the
blanks in front of that. -/
structure Notes where
  before : List Bytes
  after : Option (Bytes × Bytes)

/-- The text behind a definition. -/
def Notes.behind (n : Notes) : Bytes :=
  match n.after with
  | none => []
  | some (b, c) => b ++ c

/-- A document with comments, which may be more than the definitions. -/
def noted (ns : List Notes) (ds : List (Bytes × Lit)) : Bytes :=
  match ns, ds with
  | [], ds => docText ds
  | n :: _, [] => commentLines n.before
  | n :: ns, (k, v) :: ds => commentLines n.before ++ (k ++ byte '=' :: v.text ++ n.behind ++ byte '\n' :: noted ns ds)

/-- The comments in question: behind the `}` of an object nothing is written on the same line. -/
def NotesOk (ns : List Notes) (ds : List (Bytes × Lit)) : Prop :=
  match ns, ds with
  | [], _ => True
  | n :: _, [] => ∀ c ∈ n.before, CommentLine c
  | n :: ns, (_, v) :: ds => (∀ c ∈ n.before, CommentLine c) ∧
    (∀ b c, n.after = some (b, c) → (∀ x ∈ b, x = byte ' ' ∨ x = byte '\t') ∧ CommentLine c ∧ v.flat) ∧ NotesOk ns ds

end OniComb.Hocon.Spec
