import Verif.Model.Json
import Verif.Spec.Json

/-!
# Specification: the grammars of the benchmark without caches

What `/repo/parser/benches/oni_comb_json.rs` would be without its `.cache()` calls.
-/

namespace OniComb.Json
variable {I F : Type} [DecidableEq I] [Element I] (K : Kind I F)

/-- `comma_sep`. -/
def plainComma : Parser I I := skipRight (skipLeft (space K) (elm (K.lit ','))) (space K)

/-- `object`, with the parser for keys. -/
def plainObject (str : Parser I (List I)) (value : Parser I (Value I F)) : Parser I (List (List I × Value I F)) :=
  map (surround (skipRight (elm (K.lit '{')) (space K))
    (many0Sep (andThen (skipRight (skipRight (skipRight str (space K)) (elm (K.lit ':'))) (space K)) value) (plainComma K))
    (skipLeft (space K) (elm (K.lit '}')))) collectMap

/-- `value`, with the parsers for strings and numbers. -/
def plainValueOf (str : Parser I (List I)) (num : Parser I F) (value : Parser I (Value I F)) : Parser I (Value I F) :=
  skipRight
    (or (or (or (or (or (map str .str)
      (map num .num))
      (map (or (map (seq (K.lits "true")) fun _ => true) (map (seq (K.lits "false")) fun _ => false)) .bool))
      (map (seq (K.lits "null")) fun _ => .null))
      (map (arrayChar K value) .arr))
      (map (plainObject K str value) .obj))
    (space K)

/-- `json`. -/
def plainJson (str : Parser I (List I)) (num : Parser I F) (n : Nat) : Parser I (Value I F) :=
  skipRight (skipLeft (space K) (fixN (plainValueOf K str num) n)) end_

/-- `string_bytes`. -/
def plainStringBytes {F : Type} (f64 : List UInt8 → Option F) (lossy : List UInt8 → List UInt8) : Parser UInt8 (List UInt8) :=
  map (skipRight (skipLeft (elm (Uri.byte '"'))
    (collect (many0 (or (elmPred fun b => decide (b ≠ Uri.byte '\\') && decide (b ≠ Uri.byte '"'))
      (escapeSequence (byteKind f64))))))
    (elm (Uri.byte '"'))) lossy

/-- The items of a string literal without `\u`. -/
def Short {F : Type} (K : Kind UInt8 F) (items : List (Spec.Item UInt8)) : Prop :=
  ∀ it ∈ items, it.Ok K false ∧ ∀ ds, it ≠ .uni ds

end OniComb.Json
