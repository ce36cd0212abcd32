import Verif.Spec.Hocon
import Verif.Model.HoconResolve

/-!
# Specification: results that do not depend on the iteration order of maps
-/

namespace OniComb.Hocon.Spec
open OniComb OniComb.Hocon
open OniComb.Uri (Bytes byte bytes)

/-- Both calls return, and what they return is the same up to the order of the maps in it; or neither returns. -/
def Alike (o o' : Out Value) : Prop :=
  (∃ v v', o = .ok v ∧ o' = .ok v' ∧ Same v v') ∨ ((∀ v, o ≠ .ok v) ∧ ∀ v, o' ≠ .ok v)

/-- In an object that is written out, no dotted key is the beginning of another key. -/
inductive Apart : Value → Prop where
  | other {v : Value} (h : ¬ IsObj v) : Apart v
  | obj {es : Entries} (h : ∀ e ∈ es, ∀ f ∈ es, byte '.' ∈ e.1 → ∀ r, f.1 ≠ e.1 ++ byte '.' :: r)
      (hv : ∀ e ∈ es, byte '.' ∈ e.1 → Apart e.2) : Apart (.obj es)

/-- The same variables and files. -/
structure AlikeEnv (env env' : Env) : Prop where
  var : ∀ p, env'.var p = env.var p
  load : ∀ f, Alike (env.load f) (env'.load f)

end OniComb.Hocon.Spec
