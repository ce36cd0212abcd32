import Verif.Spec.Hocon

/-!
# What it means to combine configuration values

A value is a chain of definitions, the newest last (`ConfigValueLink`).
-/

namespace OniComb.Hocon.Spec
open OniComb.Hocon

/-- The definitions that a value consists of, the oldest first. -/
inductive Defs : Value → List Value → Prop where
  | one {v : Value} : ¬ IsLink v → Defs v [v]
  | link {p v : Value} {ds : List Value} : Defs p ds → Defs (.link p v) (ds ++ [v])

/-- The definitions are added to the value one after the other, every reference among them remembering what was
there before it. -/
inductive Added (a : Value) : List Value → Value → Prop where
  | nil : Added a [] a
  | snoc {ds : List Value} {c d : Value} : Added a ds c → Added a (ds ++ [d]) (.link c (remember c d))

end OniComb.Hocon.Spec
