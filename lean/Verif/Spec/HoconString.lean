import Verif.Spec.Json
import Verif.Model.HoconParse

/-!
# Specification of the strings of `hocon`

A quoted string consists of the items of a JSON string (`Spec/Json.lean`): bytes that stand for themselves,
escapes of two characters, and `\u` with four hexadecimal digits.  What it denotes is defined there, too.
-/

namespace OniComb.Hocon.Spec
open OniComb OniComb.Hocon
open OniComb.Uri (Bytes byte bytes)

/-- The elements of a text are bytes. -/
abbrev strKind : Json.Kind UInt8 Unit := Json.byteKind fun _ => none

/-- One item of a string. -/
abbrev StrItem := Json.Spec.Item UInt8

/-- The text of items. -/
def itemsText (items : List StrItem) : Bytes := items.flatMap (Json.Spec.Item.text strKind)

/-- The string denoted by items. -/
def denoted (items : List StrItem) : Bytes := Json.Spec.decode strKind (items.map (Json.Spec.Item.unit strKind))

/-- The items of a string: those of JSON, but brackets, line ends and single quotes do not stand for themselves;
the bytes between `\u` escapes are UTF-8. -/
def ItemsOk (items : List StrItem) : Prop :=
  (∀ it ∈ items, it.Ok strKind true) ∧ (∀ b, .raw b ∈ items → b ∉ bytes "[]\r\n'") ∧
    Json.Spec.Utf8 strKind (items.map (Json.Spec.Item.unit strKind))

/-- The first item is not a byte that begins a blank or a comment. -/
def FirstOk (items : List StrItem) : Prop := ∀ b, items.head? = some (.raw b) → b ∉ bytes " \t#/"

/-- Characters that have no meaning behind a backslash. -/
def BadEscape (x : Bytes) : Prop :=
  (∀ b r, x = b :: r → b ∉ bytes "\"\\/bfnrtu") ∨
    ∃ y, x = byte 'u' :: y ∧ ¬ ∃ ds r, y = ds ++ r ∧ ds.length = 4 ∧ ∀ b ∈ ds, Json.Spec.Hex strKind b

end OniComb.Hocon.Spec
