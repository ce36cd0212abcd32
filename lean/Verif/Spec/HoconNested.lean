import Verif.Spec.Hocon

/-! # Texts of lines that open objects -/

namespace OniComb.Hocon
open OniComb.Uri (Bytes byte)

/-- A line `key={` for every key; no object is closed. -/
def opens (ks : List Bytes) : Bytes := ks.flatMap fun k => k ++ [byte '=', byte '{', byte '\n']

/-- Where no property begins: at the end, at a `]`, and at a word behind which neither `=` nor `:` nor a value follows, as in
`include "file"` and `list += value`. -/
inductive Stuck : Bytes → Prop
  | nil : Stuck []
  | bracket (y : Bytes) : Stuck (byte ']' :: y)
  | word {k y : Bytes} (g : Nat) (hk : Spec.PathText k)
      (hy : ∀ b y', y = b :: y' → b ∉ Uri.bytes " \t\r\n/#.=:{[" ∧ ¬ Spec.Segment [b]) : Stuck (k ++ (List.replicate g (byte ' ') ++ y))

end OniComb.Hocon
