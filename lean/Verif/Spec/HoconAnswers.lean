import Verif.Spec.HoconResolve
import Verif.Model.HoconResolve

/-!
# Specification: what `get_value` answers for a document with references
-/

namespace OniComb.Hocon.Spec
open OniComb OniComb.Hocon
open OniComb.Uri (Bytes byte bytes)

/-- A path of keys. -/
def IsPath (ss : List Bytes) : Prop := ss ≠ [] ∧ ∀ s ∈ ss, Segment s

/-- `v` answers for the document `doc`: what is written there, with references looked up in it or in the environment. -/
structure Answers (var : Bytes → Option Bytes) (doc v : Value) : Prop where
  /-- No reference is left. -/
  free : ∀ q, ¬ Mentions v q
  /-- A constant is what is written. -/
  constant : ∀ p x, Leads doc p x → Constant x → getValue v p = .ok (some x)
  /-- A reference to something in the document is what is there, and so is what is below it. -/
  target : ∀ ps qs ss prev o z, IsPath ps → IsPath qs → (∀ s ∈ ss, Segment s) →
    descend ps doc = some (.ref prev (joinDot qs) o) → descend qs doc = some z →
    (∃ y, getValue v (joinDot ps) = .ok (some y)) ∧ getValue v (joinDot (ps ++ ss)) = getValue v (joinDot (qs ++ ss))
  /-- Another reference is the variable of its name. -/
  environment : ∀ p q prev o s, Leads doc p (.ref prev q o) → Missing doc q → var q = some s →
    getValue v p = .ok (some (.str s))
  /-- An optional reference with neither is the one value that the key had before. -/
  fallback : ∀ p q z, Leads doc p (.ref (some z) q true) → Missing doc q → var q = none → Settled z → ¬ IsLink z →
    getValue v p = .ok (some z)
  /-- A concatenation is the strings of its parts in a row. -/
  concat : ∀ p prev us, Leads doc p (.enumeration prev us) →
    ∃ s, getValue v p = .ok (some (.str s)) ∧ Joined var doc us s
  /-- A path that is not written, and is not below a reference, is not there. -/
  missing : ∀ ss, IsPath ss → descend ss doc = none →
    (∀ ps qs, ss = ps ++ qs → qs ≠ [] → ∀ prev q o, descend ps doc ≠ some (.ref prev q o)) →
    getValue v (joinDot ss) = .ok none

end OniComb.Hocon.Spec
